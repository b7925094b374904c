import Verif.Proofs.Lib.XmlWalk

/-!
What the file looks like when an element has been passed over without an error.
-/
namespace Che.Proofs.Lib.Xml
open Che.Lib Che.Lib.Xml Che.Spec.Lib.Xml

theorem bindOk {α β : Type} {r : Res String α} {f : α → Res String β} {b : β} (h : r.bind f = .ok b) : ∃ a, r = .ok a ∧ f a = .ok b := by
  cases r with
  | ok a => exact ⟨a, rfl, h⟩
  | err e => exact absurd h (by simp [Res.bind])
  | panic m => exact absurd h (by simp [Res.bind])
  | diverge => exact absurd h (by simp [Res.bind])

theorem expect_ok {x : X} {c : UInt8} (h : (expect x c).error = false) :
    x.error = false ∧ x.rest = c :: (expect x c).rest ∧ expect x c = { x with rest := x.rest.tail } := by
  simp only [expect, Bool.or_eq_false_iff, decide_eq_false_iff_not, ne_eq, Decidable.not_not] at h
  obtain ⟨h1, h2⟩ := h
  cases hr : x.rest with
  | nil => rw [hr] at h2; simp at h2
  | cons d r =>
    rw [hr] at h2
    simp only [List.head?_cons, Option.some.injEq] at h2
    subst h2
    refine ⟨h1, ?_, ?_⟩
    · simp [expect, hr]
    · simp [expect, hr]

theorem span_app (p : UInt8 → Bool) (s : Bytes) : s = s.takeWhile p ++ s.dropWhile p := (List.takeWhile_append_dropWhile).symm

theorem takeWhile_all (p : UInt8 → Bool) (s : Bytes) : ∀ c ∈ s.takeWhile p, p c = true := by
  induction s with
  | nil => intro c hc; cases hc
  | cons d s ih =>
    intro c hc
    rw [List.takeWhile_cons] at hc
    split at hc
    · next hd =>
      rcases List.mem_cons.1 hc with rfl | h
      · exact hd
      · exact ih c h
    · cases hc

theorem dropWhile_head (p : UInt8 → Bool) (s : Bytes) : ∀ c, (s.dropWhile p).head? = some c → p c = false := by
  induction s with
  | nil => intro c hc; cases hc
  | cons d s ih =>
    intro c hc
    rw [List.dropWhile_cons] at hc
    split at hc
    · exact ih c hc
    · next hd => simp at hc; rw [← hc]; simpa using hd

theorem space_take (s : Bytes) : Space (s.takeWhile isspace) := fun c hc => (space_iff c).1 (takeWhile_all isspace s c hc)

theorem letter_take (s : Bytes) : ∀ c ∈ s.takeWhile isalpha, Letter c := fun c hc => (letter_iff c).1 (takeWhile_all isalpha s c hc)

theorem name_at {x : X} (h : atName x = true) (hl : (x.rest.takeWhile isalpha).length ≤ 15) : Name (x.rest.takeWhile isalpha) := by
  refine ⟨?_, hl, letter_take _⟩
  unfold atName at h
  cases hr : x.rest with
  | nil => rw [hr] at h; simp at h
  | cons c r =>
    rw [hr] at h
    simp at h
    simp [h]

/-- What an attribute was. -/
theorem readAttr_ok {x x' : X} (h : readAttr x = .ok x') (he : x'.error = false) (ha : atName x = true) :
    ∃ n v, x.error = false ∧ Name n ∧ (∀ c ∈ v, c ≠ 34) ∧ v.length ≤ 4095 ∧ x.rest = n ++ [61, 34] ++ v ++ [34] ++ x'.rest ∧
      x.next.attrs.length < 64 ∧ x' = { x with rest := x'.rest, next := { x.next with attrs := x.next.attrs ++ [(n, v)] } } := by
  unfold readAttr at h
  split at h
  · cases h
  · next h64 =>
    simp only at h
    split at h
    · cases h
    · next h15 =>
      obtain ⟨⟨v, x1⟩, h1, h2⟩ := bindOk h
      simp only [Res.ok.injEq] at h2
      unfold readValue at h1
      simp only at h1
      split at h1
      · cases h1
      · next hv =>
        simp only [Res.ok.injEq, Prod.mk.injEq] at h1
        obtain ⟨ev, ex⟩ := h1
        have he1 : x1.error = false := by rw [← h2] at he; exact he
        rw [← ex] at he1
        obtain ⟨a1, a2, a3⟩ := expect_ok he1
        simp only at a1
        obtain ⟨b1, b2, b3⟩ := expect_ok a1
        obtain ⟨c1, c2, c3⟩ := expect_ok b1
        simp only at c1 c2 c3
        rw [ex] at a2
        simp only at a2
        have hnm : Name (x.rest.takeWhile isalpha) := name_at ha (by omega)
        refine ⟨x.rest.takeWhile isalpha, v, c1, hnm, ?_, ?_, ?_, by omega, ?_⟩
        · intro c hc
          rw [← ev] at hc
          simpa using takeWhile_all _ _ c hc
        · rw [← ev]; omega
        · rw [← h2]
          simp only
          have s1 := span_app isalpha x.rest
          have s2 := span_app (· ≠ 34) (expect (expect { x with rest := x.rest.dropWhile isalpha } 61) 34).rest
          rw [ev, a2] at s2
          rw [s2] at b2
          rw [b2] at c2
          rw [c2] at s1
          simpa using s1
        · rw [← h2, ← ex]
          rw [a3, b3, c3]

/-- What the attributes were. -/
theorem readAttrs_ok : ∀ (k : Nat) {x x' : X}, readAttrs k x = .ok x' → x'.error = false → ∀ b : Bool,
    (b = true → ∀ c, x.rest.head? = some c → isalpha c = false) →
    ∃ as s, x.error = false ∧ Attrs b as s ∧ x.rest = s ++ x'.rest ∧ (x.next.attrs.length ≤ 64 → x.next.attrs.length + as.length ≤ 64) ∧
      x' = { x with rest := x'.rest, next := { x.next with attrs := x.next.attrs ++ as } }
  | 0, _, _, h, _, _, _ => by cases h
  | k + 1, x, x', h, he, b, hb => by
    rw [readAttrs] at h
    have s1 := span_app isspace x.rest
    split at h
    · simp only [Res.ok.injEq] at h
      refine ⟨[], x.rest.takeWhile isspace, ?_, .nil (space_take _), ?_, by simp, ?_⟩
      · rw [← h] at he; exact he
      · rw [← h]; exact s1
      · rw [← h]; simp [discard_spaces]
    · next hat =>
      obtain ⟨x1, h1, h2⟩ := bindOk h
      obtain ⟨as, s, e1, ha, hr, hl, hx⟩ := readAttrs_ok k h2 he false (by simp)
      obtain ⟨n, v, e2, hn, hv, hvl, hr2, h64, hx2⟩ := readAttr_ok h1 e1 (by simpa using hat)
      refine ⟨(n, v) :: as, x.rest.takeWhile isspace ++ n ++ [61, 34] ++ v ++ [34] ++ s, e2, .cons (space_take _) ?_ hn hv hvl ha, ?_, ?_, ?_⟩
      · intro hb1 h0
        rw [h0, List.nil_append] at s1
        obtain ⟨c, t, hc, hcl⟩ := name_head hn ([61, 34] ++ v ++ [34] ++ x1.rest)
        have : x.rest.head? = some c := by
          rw [s1]
          show (discard_spaces x).rest.head? = some c
          rw [hr2]
          simp only [List.append_assoc] at hc ⊢
          rw [hc]; rfl
        rw [hb hb1 c this] at hcl
        cases hcl
      · rw [hr] at hr2
        have : x.rest.dropWhile isspace = n ++ [61, 34] ++ v ++ [34] ++ (s ++ x'.rest) := hr2
        refine s1.trans ?_
        rw [this]
        simp only [List.append_assoc]
      · intro _
        have h3 : x.next.attrs.length < 64 := h64
        have h4 : x1.next.attrs = x.next.attrs ++ [(n, v)] := by rw [hx2]; rfl
        rw [h4] at hl
        simp only [List.length_append, List.length_nil, List.length_cons] at hl ⊢
        have := hl (by omega)
        omega
      · rw [hx, hx2]
        simp [discard_spaces]

/-- What `readName` took. -/
theorem readName_ok {x x' : X} (h : readName x = (x', true)) :
    ∃ n, Name n ∧ x.rest = n ++ x'.rest ∧ (∀ c, x'.rest.head? = some c → isalpha c = false) ∧
      x' = { x with rest := x'.rest, next := { x.next with name := n } } := by
  unfold readName at h
  simp only at h
  split at h
  · simp at h
  · next h15 =>
    split at h
    · simp at h
    · next hne =>
      simp only [Prod.mk.injEq, and_true] at h
      refine ⟨x.rest.takeWhile isalpha, ⟨hne, by omega, letter_take _⟩, ?_, ?_, ?_⟩
      · rw [← h]; exact span_app _ _
      · rw [← h]; exact dropWhile_head _ _
      · rw [← h]

theorem readName_err {x x' : X} (h : readName x = (x', false)) : x'.error = true := by
  unfold readName at h
  simp only at h
  split at h
  · simp only [Prod.mk.injEq, and_true] at h; rw [← h]
  · split at h
    · simp only [Prod.mk.injEq, and_true] at h; rw [← h]
    · simp at h

theorem mark_yes {x : X} {a b : Ty} (h : x.rest.head? = some 47) :
    mark x a b = { x with rest := x.rest.tail, next := { x.next with ty := a } } := if_pos h

theorem mark_no {x : X} {a b : Ty} (h : ¬ x.rest.head? = some 47) : mark x a b = { x with next := { x.next with ty := b } } := if_neg h

/-- A tag that was read without an error. -/
theorem read_tag_ok {x x' : X} (h : read_tag x = .ok x') (he : x'.error = false) (h0 : x.next.ty = .null) :
    x.error = false ∧ x'.node = x.node ∧ x'.path = x.path ∧
    ((x'.next = x.next ∧ Space x.rest ∧ x'.rest = []) ∨
      ∃ t sp tt, Is x'.next t ∧ TagText t tt ∧ Space sp ∧ x.rest = sp ++ tt ++ x'.rest) := by
  unfold read_tag at h
  rw [if_neg (by simp [h0])] at h
  simp only at h
  have s1 := span_app isspace x.rest
  split at h
  · next hr =>
    simp only [Res.ok.injEq] at h
    have hr' : x.rest.dropWhile isspace = [] := hr
    rw [hr', List.append_nil] at s1
    refine ⟨by rw [← h] at he; exact he, by rw [← h]; rfl, by rw [← h]; rfl, .inl ⟨by rw [← h]; rfl, ?_, by rw [← h]; exact hr⟩⟩
    rw [s1]; exact space_take _
  · split at h
    · next hok =>
      generalize hrn : readName (mark (expect (discard_spaces x) 60) .close .null) = q at h hok
      obtain ⟨x1, ok⟩ := q
      simp only [Bool.not_eq_true'] at hok
      subst hok
      simp only [Res.ok.injEq] at h
      have := readName_err hrn
      rw [h, he] at this
      cases this
    · next hok =>
      generalize hrn : readName (mark (expect (discard_spaces x) 60) .close .null) = q at h hok
      obtain ⟨x1, ok⟩ := q
      simp only [Bool.not_eq_true', Bool.not_eq_false] at hok
      subst hok
      simp only at h
      obtain ⟨n, hn, hr1, hh1, hx1⟩ := readName_ok hrn
      have herr1 : x1.error = (mark (expect (discard_spaces x) 60) .close .null).error := by rw [hx1]
      split at h
      · -- a closing tag
        next hc =>
        simp only [Res.ok.injEq] at h
        rw [← h] at he
        obtain ⟨a1, a2, a3⟩ := expect_ok he
        by_cases hm : (expect (discard_spaces x) 60).rest.head? = some 47
        · have em := mark_yes (a := .close) (b := .null) hm
          rw [em] at hr1 hx1 herr1
          rw [herr1] at a1
          obtain ⟨b1, b2, b3⟩ := expect_ok a1
          refine ⟨b1, ?_, ?_, .inr ⟨.cls n, x.rest.takeWhile isspace, [60, 47] ++ n ++ [62], ⟨?_, ?_⟩, .cls hn, space_take _, ?_⟩⟩
          · rw [← h, a3, hx1, b3]; rfl
          · rw [← h, a3, hx1, b3]; rfl
          · rw [← h, a3, hx1]
          · rw [← h, a3, hx1]
          · cases hq : (expect (discard_spaces x) 60).rest with
            | nil => rw [hq] at hm; cases hm
            | cons d r =>
              rw [hq] at hm hr1 b2
              simp only [List.head?_cons, Option.some.injEq] at hm
              subst hm
              simp only [List.tail_cons] at hr1
              rw [hr1, a2] at b2
              have b2' : x.rest.dropWhile isspace = 60 :: 47 :: (n ++ 62 :: (expect x1 62).rest) := b2
              refine s1.trans ?_
              rw [b2', h]
              simp
        · have em := mark_no (a := .close) (b := .null) hm
          rw [em] at hx1
          rw [hx1] at hc
          cases hc
      · -- another tag
        next hc =>
        unfold readRest at h
        obtain ⟨x2, h2, h3⟩ := bindOk h
        simp only [Res.ok.injEq] at h3
        rw [← h3] at he
        obtain ⟨a1, a2, a3⟩ := expect_ok he
        have herr2 : x2.error = (mark x2 .mono .opening).error := by unfold mark; split <;> rfl
        rw [← herr2] at a1
        obtain ⟨as, s, e1, hat, hr2, hl, hx2⟩ := readAttrs_ok _ h2 a1 true (fun _ => hh1)
        simp only [List.length_nil, Nat.zero_le, Nat.zero_add, forall_const, List.nil_append] at hl hx2 e1 hr2
        by_cases hm : (expect (discard_spaces x) 60).rest.head? = some 47
        · have em := mark_yes (a := .close) (b := .null) hm
          rw [em] at hx1
          exact absurd (by rw [hx1]) hc
        · have em := mark_no (a := .close) (b := .null) hm
          rw [em] at hr1 hx1 herr1
          rw [herr1] at e1
          obtain ⟨b1, b2, b3⟩ := expect_ok e1
          have b2' : x.rest.dropWhile isspace = 60 :: (expect (discard_spaces x) 60).rest := b2
          simp only at hr1
          by_cases hm2 : x2.rest.head? = some 47
          · have em2 := mark_yes (a := .mono) (b := .opening) hm2
            rw [em2] at a2 a3 h3
            refine ⟨b1, ?_, ?_, .inr ⟨.mono n as, x.rest.takeWhile isspace, [60] ++ n ++ s ++ [47, 62], ?_, .mono hn hl hat, space_take _, ?_⟩⟩
            · rw [← h3, a3, hx2, hx1, b3]; rfl
            · rw [← h3, a3, hx2, hx1, b3]; rfl
            · show x'.next = _
              rw [← h3, a3, hx2, hx1]
            · cases hq : x2.rest with
              | nil => rw [hq] at hm2; cases hm2
              | cons d r =>
                rw [hq] at hm2
                simp only [List.head?_cons, Option.some.injEq] at hm2
                subst hm2
                rw [h3] at a2
                simp only [hq, List.tail_cons] at a2
                rw [hr1, hr2, hq, a2] at b2'
                refine s1.trans ?_
                rw [b2']
                simp
          · have em2 := mark_no (a := .mono) (b := .opening) hm2
            rw [em2] at a2 a3 h3
            refine ⟨b1, ?_, ?_, .inr ⟨.opn n as, x.rest.takeWhile isspace, [60] ++ n ++ s ++ [62], ?_, .opn hn hl hat, space_take _, ?_⟩⟩
            · rw [← h3, a3, hx2, hx1, b3]; rfl
            · rw [← h3, a3, hx2, hx1, b3]; rfl
            · show x'.next = _
              rw [← h3, a3, hx2, hx1]
            · rw [h3] at a2
              simp only at a2
              rw [hr1, hr2, a2] at b2'
              refine s1.trans ?_
              rw [b2']
              simp

/-- A place of the parser in the file: the tag that has been read already, and what is left. -/
abbrev Src := Option Tok × Bytes

/-- The tags between two places. -/
inductive Feeds : Src → List Tok → Src → Prop
  | refl {a} : Feeds a [] a
  | read {sp t tt r ts b} : Space sp → TagText t tt → Feeds (some t, r) ts b → Feeds (none, sp ++ tt ++ r) ts b
  | eof {sp ts b} : Space sp → Feeds (none, []) ts b → Feeds (none, sp) ts b
  | take {t r ts b} : Feeds (none, r) ts b → Feeds (some t, r) (t :: ts) b

theorem Feeds.trans {a ts b us c} (h : Feeds a ts b) (h' : Feeds b us c) : Feeds a (ts ++ us) c := by
  induction h with
  | refl => exact h'
  | read hs ht _ ih => exact .read hs ht (ih h')
  | eof hs _ ih => exact .eof hs (ih h')
  | take _ ih => exact .take (ih h')

theorem Feeds.text {a ts b} (h : Feeds a ts b) :
    match a with
    | (none, s) => ∃ u r, s = u ++ r ∧ Begins ts u
    | (some t, s) => ts = [] ∨ ∃ us u r, ts = t :: us ∧ s = u ++ r ∧ Begins us u := by
  induction h with
  | @refl a =>
    obtain ⟨o, s⟩ := a
    cases o with
    | none => exact ⟨[], s, rfl, rfl⟩
    | some t => exact .inl rfl
  | @read sp t tt r ts b hs ht _ ih =>
    rcases ih with rfl | ⟨us, u, r', rfl, rfl, hu⟩
    · exact ⟨[], _, rfl, rfl⟩
    · exact ⟨sp ++ tt ++ u, r', by simp, sp, tt, u, rfl, hs, ht, hu⟩
  | @eof sp ts b hs _ ih =>
    obtain ⟨u, r, hr, hu⟩ := ih
    obtain ⟨rfl, rfl⟩ := List.append_eq_nil_iff.1 hr.symm
    exact ⟨[], sp, rfl, hu⟩
  | @take t r ts b _ ih =>
    obtain ⟨u, r', hr, hu⟩ := ih
    exact .inr ⟨ts, u, r', rfl, hr, hu⟩

/-- Where the parser is. -/
def SrcOf (x : X) (a : Src) : Prop := (x.next.ty = .null ∧ a = (none, x.rest)) ∨ ∃ t, Is x.next t ∧ a = (some t, x.rest)

/-- The tag of the node. -/
def nodeToks (x : X) : List Tok :=
  match x.node.ty with
  | .opening => [.opn x.node.name x.node.attrs]
  | .mono => [.mono x.node.name x.node.attrs]
  | _ => []

theorem read_feeds {x x' a} (ha : SrcOf x a) (h : read_tag x = .ok x') (he : x'.error = false) :
    ∃ b, SrcOf x' b ∧ Feeds a [] b ∧ x'.node = x.node ∧ x'.path = x.path ∧ x.error = false := by
  rcases ha with ⟨h0, rfl⟩ | ⟨t, ht, rfl⟩
  · obtain ⟨e, hn, hp, h1 | ⟨t, sp, tt, h1, h2, h3, h4⟩⟩ := read_tag_ok h he h0
    · refine ⟨(none, []), .inl ⟨by rw [h1.1]; exact h0, by rw [h1.2.2]⟩, .eof h1.2.1 .refl, hn, hp, e⟩
    · refine ⟨(some t, x'.rest), .inr ⟨t, h1, rfl⟩, ?_, hn, hp, e⟩
      rw [h4]
      exact .read h3 h2 .refl
  · unfold read_tag at h
    rw [if_pos ht.ne, Res.ok.injEq] at h
    subst h
    exact ⟨_, .inr ⟨t, ht, rfl⟩, .refl, rfl, rfl, he⟩

theorem shift_feeds {x x' : X} {a} (ha : SrcOf x a) (ht : x.next.ty = .opening ∨ x.next.ty = .mono) (h : shift x = .ok x') :
    ∃ b, SrcOf x' b ∧ Feeds a (nodeToks x') b ∧ x'.path = x.path ∧ x'.node = x.next ∧ x'.error = x.error := by
  have hne : x.next.ty ≠ .null := by rcases ht with h | h <;> simp [h]
  rw [shift_cached hne, Res.ok.injEq] at h
  subst h
  rcases ha with ⟨h0, rfl⟩ | ⟨t, hi, rfl⟩
  · exact absurd h0 hne
  · refine ⟨(none, x.rest), .inl ⟨rfl, rfl⟩, ?_, rfl, rfl, rfl⟩
    cases t with
    | opn n as =>
      have : nodeToks { x with node := x.next, next := { x.next with ty := .null } } = [.opn n as] := by
        unfold nodeToks; rw [show x.next = _ from hi]
      rw [this]
      exact .take .refl
    | mono n as =>
      have : nodeToks { x with node := x.next, next := { x.next with ty := .null } } = [.mono n as] := by
        unfold nodeToks; rw [show x.next = _ from hi]
      rw [this]
      exact .take .refl
    | cls n => rw [hi.2] at ht; simp at ht

/-- A node is a tag that opens, a tag of an empty element, or nothing. -/
def Fine (x : X) : Prop := x.node.ty ≠ .close

theorem sibling_feeds {x x' a} (ha : SrcOf x a) (h : sibling x = .ok x') (he : x'.error = false) :
    ∃ b, SrcOf x' b ∧ Feeds a (nodeToks x') b ∧ x'.path = x.path ∧ Fine x' ∧ x.error = false := by
  unfold sibling at h
  obtain ⟨x1, h1, h2⟩ := bindOk h
  split at h2
  · next ht =>
    have he1 : x1.error = false := by
      rw [shift_cached (by rcases ht with h | h <;> simp [h]), Res.ok.injEq] at h2
      rw [← h2] at he; exact he
    obtain ⟨b, hb, hf, hn, hp, e⟩ := read_feeds ha h1 he1
    obtain ⟨c, hc, hg, hp2, hn2, _⟩ := shift_feeds hb ht h2
    refine ⟨c, hc, hf.trans hg, hp2.trans hp, ?_, e⟩
    unfold Fine
    rw [hn2]
    rcases ht with h | h <;> simp [h]
  · simp only [Res.ok.injEq] at h2
    have he1 : x1.error = false := by rw [← h2] at he; exact he
    obtain ⟨b, hb, hf, hn, hp, e⟩ := read_feeds ha h1 he1
    subst h2
    exact ⟨b, hb, hf, hp, by simp [Fine], e⟩

theorem enter_feeds {x x' : X} {a r} (ha : SrcOf x a) (ht : x.node.ty = .opening) (h : xml_enter x = .ok (x', r)) (he : x'.error = false) :
    ∃ b, SrcOf x' b ∧ Feeds a (nodeToks x') b ∧ x'.path = x.node.name :: x.path ∧ Fine x' ∧ x.path.length < 4 := by
  unfold xml_enter at h
  split at h
  · next hx =>
    simp only [Res.ok.injEq, Prod.mk.injEq] at h
    rw [h.1, he] at hx
    cases hx
  · rw [if_neg (by simp [ht])] at h
    obtain ⟨x1, h1, h2⟩ := bindOk h
    have key : x1.next.ty = .opening ∨ x1.next.ty = .mono →
        ((pushparent x1).bind fun x => (shift x).bind fun x => .ok (x, true)) = .ok (x', r) →
        ∃ b, SrcOf x' b ∧ Feeds a (nodeToks x') b ∧ x'.path = x.node.name :: x.path ∧ Fine x' ∧ x.path.length < 4 := by
      intro hty hk
      obtain ⟨x2, h3, h4⟩ := bindOk hk
      obtain ⟨x3, h5, h6⟩ := bindOk h4
      simp only [Res.ok.injEq, Prod.mk.injEq] at h6
      obtain ⟨rfl, _⟩ := h6
      unfold pushparent at h3
      split at h3
      · cases h3
      · next hpl =>
        simp only [Res.ok.injEq] at h3
        have hty2 : x2.next.ty = .opening ∨ x2.next.ty = .mono := by rw [← h3]; exact hty
        have he1 : x1.error = false := by
          rw [shift_cached (by rcases hty2 with h | h <;> simp [h]), Res.ok.injEq] at h5
          rw [← h5, ← h3] at he; exact he
        obtain ⟨b, hb, hf, hn, hp, e⟩ := read_feeds ha h1 he1
        have hb2 : SrcOf x2 b := by rw [← h3]; exact hb
        obtain ⟨c, hc, hg, hp2, hn2, _⟩ := shift_feeds hb2 hty2 h5
        refine ⟨c, hc, hf.trans hg, ?_, ?_, ?_⟩
        · rw [hp2, ← h3]; simp [hn, hp]
        · unfold Fine
          rw [hn2]
          rcases hty2 with h | h <;> simp [h]
        · rw [hp] at hpl; omega
    split at h2
    · next hty => exact key (.inl hty) h2
    · next hty => exact key (.inr hty) h2
    · split at h2
      · simp only [Res.ok.injEq, Prod.mk.injEq] at h2
        rw [← h2.1] at he; cases he
      · obtain ⟨x2, h3, h4⟩ := bindOk h2
        simp only [Res.ok.injEq, Prod.mk.injEq] at h4
        unfold pushparent at h3
        split at h3
        · cases h3
        · next hpl =>
          simp only [Res.ok.injEq] at h3
          have he1 : x1.error = false := by rw [← h4.1, ← h3] at he; exact he
          obtain ⟨b, hb, hf, hn, hp, e⟩ := read_feeds ha h1 he1
          obtain ⟨rfl, _⟩ := h4
          subst h3
          refine ⟨b, hb, hf, by simp [hn, hp], by simp [Fine], by rw [hp] at hpl; omega⟩
    · cases h2

theorem leaveEnd_feeds {x x' a} (ha : SrcOf x a) (h : leaveEnd x = .ok x') (he : x'.error = false) :
    ∃ b p, SrcOf x' b ∧ Feeds a (.cls p :: nodeToks x') b ∧ x.path = p :: x'.path ∧ Fine x' ∧ x.error = false := by
  unfold leaveEnd at h
  obtain ⟨x1, h1, h2⟩ := bindOk h
  split at h2
  · cases h2
  · next p ps hps =>
    split at h2
    · simp only [Res.ok.injEq] at h2
      rw [← h2] at he; cases he
    · next hc =>
      have hc1 : x1.next.ty = .close := by
        cases hq : x1.next.ty <;> simp_all
      have hc2 : x1.next.name = p := by
        rw [not_or] at hc
        simpa using hc.2
      have he1 : x1.error = false := by
        obtain ⟨_, _, _, _, _, e⟩ := sibling_feeds (x := { x1 with next := { x1.next with ty := .null }, path := ps }) (a := (none, x1.rest)) (.inl ⟨rfl, rfl⟩) h2 he
        exact e
      obtain ⟨b, hb, hf, hn, hp, e⟩ := read_feeds ha h1 he1
      obtain ⟨c, hcs, hg, hp2, hfine, _⟩ := sibling_feeds (x := { x1 with next := { x1.next with ty := .null }, path := ps }) (a := (none, x1.rest)) (.inl ⟨rfl, rfl⟩) h2 he
      refine ⟨c, p, hcs, ?_, ?_, hfine, e⟩
      · rcases hb with ⟨h0, _⟩ | ⟨t, hi, rfl⟩
        · rw [hc1] at h0; cases h0
        · have : t = .cls p := by
            cases t with
            | opn n as => rw [show x1.next = _ from hi] at hc1; cases hc1
            | mono n as => rw [show x1.next = _ from hi] at hc1; cases hc1
            | cls n => rw [← hc2, ← hi.1]
          subst this
          exact hf.trans (.take hg)
      · rw [← hp, hps, hp2]

/-- Errors stay in the loop of `xml_leave`. -/
theorem skip_err : ∀ (n : Nat) {x x' : X}, x.error = true → skip n x = .ok x' → x'.error = true
  | 0, _, _, _, h => by cases h
  | n + 1, x, x', he, h => by
    rw [skip_succ] at h
    split at h
    · simp only [Res.ok.injEq] at h; rw [← h]; exact he
    · cases n with
      | zero => cases h
      | succ n =>
        rw [xml_next, if_pos he] at h
        exact skip_err (n + 1) he h

theorem nodeToks_of {x : X} {e : Elem} (h : tagOf e = x.node) : nodeToks x ++ inside e = tags e := by
  unfold nodeToks
  rw [← h]
  cases e with
  | empty n as => rw [tags]; rfl
  | tree n as kids => rw [tags]; rfl

mutual
theorem next_feeds (n : Nat) {x x' : X} {a} (ha : SrcOf x a) (hfine : Fine x) (hnn : x.node.ty ≠ .null) (h : xml_next n x = .ok x')
    (he : x'.error = false) :
    ∃ e b, tagOf e = x.node ∧ SrcOf x' b ∧ Feeds a (inside e ++ nodeToks x') b ∧ x'.path = x.path ∧ Fine x' ∧
      Elem.Depth (4 - x.path.length) e := by
  match n, h with
  | 0, h => cases h
  | 1, h =>
    rw [xml_next] at h
    split at h
    · next hx => simp only [Res.ok.injEq] at h; rw [h, he] at hx; cases hx
    · split at h
      · next h0 => exact absurd h0 hnn
      · obtain ⟨x1, _, h2⟩ := bindOk h
        cases h2
      · next h0 =>
        obtain ⟨b, hb, hf, hp, hfn, _⟩ := sibling_feeds ha h he
        refine ⟨.empty x.node.name x.node.attrs, b, ?_, hb, hf, hp, hfn, by rw [Elem.Depth]; trivial⟩
        unfold tagOf
        rw [← h0]
      · next h0 => exact absurd h0 hfine
  | m + 2, h =>
    rw [xml_next] at h
    split at h
    · next hx => simp only [Res.ok.injEq] at h; rw [h, he] at hx; cases hx
    · split at h
      · next h0 => exact absurd h0 hnn
      · next h0 =>
        obtain ⟨⟨x1, r⟩, h1, h2⟩ := bindOk h
        simp only at h2
        rw [xml_leave_succ] at h2
        split at h2
        · next hx => simp only [Res.ok.injEq] at h2; rw [h2, he] at hx; cases hx
        · next hx1 =>
          obtain ⟨x2, h3, h4⟩ := bindOk h2
          have he2 : x2.error = false := by
            cases hq : x2.next.ty with
            | null => obtain ⟨_, _, _, _, _, _, e⟩ := leaveEnd_feeds (.inl ⟨hq, rfl⟩) h4 he; exact e
            | opening =>
              obtain ⟨_, _, _, _, _, _, e⟩ := leaveEnd_feeds (.inr ⟨.opn x2.next.name x2.next.attrs, by unfold Is; rw [← hq], rfl⟩) h4 he; exact e
            | mono =>
              obtain ⟨_, _, _, _, _, _, e⟩ := leaveEnd_feeds (.inr ⟨.mono x2.next.name x2.next.attrs, by unfold Is; rw [← hq], rfl⟩) h4 he; exact e
            | close =>
              obtain ⟨_, _, _, _, _, _, e⟩ := leaveEnd_feeds (.inr ⟨.cls x2.next.name, ⟨rfl, hq⟩, rfl⟩) h4 he; exact e
          obtain ⟨b, hb, hf, hp, hfn, hpl⟩ := enter_feeds ha h0 h1 (by simpa using hx1)
          obtain ⟨kids, ts, c, hk, hg, hc, hp2, _, hd⟩ := skip_feeds m hb hfn h3 he2
          obtain ⟨d, p, hds, hh, hp3, hfn3, _⟩ := leaveEnd_feeds hc h4 he
          rw [hp2, hp] at hp3
          simp only [List.cons.injEq] at hp3
          obtain ⟨rfl, hp3⟩ := hp3
          refine ⟨.tree x.node.name x.node.attrs kids, d, ?_, hds, ?_, hp3.symm, hfn3, ?_⟩
          · unfold tagOf
            rw [← h0]
          · have := (hf.trans hg).trans hh
            rw [hk] at this
            simpa [inside] using this
          · rw [Elem.Depth]
            rw [hp] at hd
            refine ⟨by omega, ?_⟩
            simpa [Nat.sub_sub] using hd
      · next h0 =>
        obtain ⟨b, hb, hf, hp, hfn, _⟩ := sibling_feeds ha h he
        refine ⟨.empty x.node.name x.node.attrs, b, ?_, hb, hf, hp, hfn, by rw [Elem.Depth]; trivial⟩
        unfold tagOf
        rw [← h0]
      · next h0 => exact absurd h0 hfine
termination_by n

theorem skip_feeds (n : Nat) {x x' : X} {a} (ha : SrcOf x a) (hfine : Fine x) (h : skip n x = .ok x') (he : x'.error = false) :
    ∃ es ts b, nodeToks x ++ ts = tagss es ∧ Feeds a ts b ∧ SrcOf x' b ∧ x'.path = x.path ∧ x'.node.ty = .null ∧
      Elem.Depths (4 - x.path.length) es := by
  match n, h with
  | 0, h => cases h
  | m + 1, h =>
    rw [skip_succ] at h
    split at h
    · next h0 =>
      simp only [Res.ok.injEq] at h
      subst h
      refine ⟨[], [], a, ?_, .refl, ha, rfl, h0, by rw [Elem.Depths]; trivial⟩
      unfold nodeToks
      rw [h0, tagss]
      rfl
    · next h0 =>
      obtain ⟨x1, h1, h2⟩ := bindOk h
      have he1 : x1.error = false := by
        cases hq : x1.error with
        | false => rfl
        | true => rw [skip_err m hq h2] at he; cases he
      obtain ⟨e, b, hte, hb, hf, hp, hfn, hd⟩ := next_feeds m ha hfine h0 h1 he1
      obtain ⟨es, ts, c, hts, hg, hc, hp2, hn2, hd2⟩ := skip_feeds m hb hfn h2 he
      refine ⟨e :: es, inside e ++ tagss es, c, ?_, ?_, hc, hp2.trans hp, hn2, ?_⟩
      · rw [tagss, ← List.append_assoc, nodeToks_of hte]
      · rw [← hts, ← List.append_assoc]
        exact hf.trans hg
      · rw [Elem.Depths]
        rw [hp] at hd2
        exact ⟨hd, hd2⟩
termination_by n
end

theorem begins_split {ts us : List Tok} {a : Bytes} (h : Begins (ts ++ us) a) : ∃ b c, a = b ++ c ∧ Begins ts b ∧ Begins us c := by
  induction ts generalizing a with
  | nil => exact ⟨[], a, rfl, rfl, h⟩
  | cons t ts ih =>
    obtain ⟨sp, tt, r, rfl, hs, ht, hr⟩ := h
    obtain ⟨b, c, rfl, hb, hc⟩ := ih hr
    exact ⟨sp ++ tt ++ b, c, by simp, ⟨sp, tt, b, rfl, hs, ht, hb⟩, hc⟩

mutual
theorem text_begins : ∀ (e : Elem) {a}, Begins (tags e) a → ∃ sp t, a = sp ++ t ∧ Space sp ∧ Text e t
  | .empty n as, a, h => by
    rw [tags] at h
    obtain ⟨sp, tt, r, rfl, hs, ht, hr⟩ := h
    rw [show r = [] from hr]
    cases ht with
    | mono hn hl ha => exact ⟨sp, _, by simp, hs, .empty hn hl ha⟩
  | .tree n as kids, a, h => by
    rw [tags] at h
    obtain ⟨sp, tt, r, rfl, hs, ht, hr⟩ := h
    obtain ⟨b, c, rfl, hb, hc⟩ := begins_split hr
    obtain ⟨k, rfl⟩ : ∃ k, k = b := ⟨b, rfl⟩
    obtain ⟨sp2, t2, r2, rfl, hs2, ht2, hr2⟩ := hc
    rw [show r2 = [] from hr2]
    cases ht with
    | @opn _ _ s hn hl ha =>
      cases ht2 with
      | cls hn2 => exact ⟨sp, _, by simp, hs, .tree hn hl ha (texts_begins kids hb) hs2⟩

theorem texts_begins : ∀ (es : List Elem) {a}, Begins (tagss es) a → Texts es a
  | [], a, h => by
    rw [tagss] at h
    rw [show a = [] from h]
    exact .nil
  | e :: es, a, h => by
    rw [tagss] at h
    obtain ⟨b, c, rfl, hb, hc⟩ := begins_split h
    obtain ⟨sp, t, rfl, hs, ht⟩ := text_begins e hb
    exact .cons hs ht (texts_begins es hc)
end

/-- What a file is that was opened without an error. -/
theorem open_feeds {s x} (h : xml_open s = .ok x) (he : x.error = false) :
    ∃ hd r b, Header hd ∧ s = hd ++ r ∧ SrcOf x b ∧ Feeds (none, r) (nodeToks x) b ∧ x.path = [] ∧ Fine x ∧ x.node.ty ≠ .null := by
  unfold xml_open at h
  obtain ⟨x1, h1, h2⟩ := bindOk h
  split at h2
  · simp only [Res.ok.injEq] at h2
    rw [← h2] at he; cases he
  · next ht =>
    have ht : x1.next.ty = .opening ∨ x1.next.ty = .mono := by
      rw [Classical.not_and_iff_not_or_not] at ht
      simpa using ht
    have he1 : x1.error = false := by
      rw [shift_cached (by rcases ht with h | h <;> simp [h]), Res.ok.injEq] at h2
      rw [← h2] at he; exact he
    generalize hx0 : ({ rest := s, node := ⟨[], .null, []⟩, next := ⟨[], .null, []⟩, path := [], error := false } : X) = x0 at h1
    have hsrc : SrcOf (header x0) (none, (header x0).rest) := by
      refine .inl ⟨?_, rfl⟩
      rw [← hx0]; rfl
    obtain ⟨b, hb, hf, hn, hp, he0⟩ := read_feeds hsrc h1 he1
    obtain ⟨c, hc, hg, hp2, hn2, _⟩ := shift_feeds hb ht h2
    have hrest : x0.rest = s := by rw [← hx0]
    have hpath : (header x0).path = [] := by rw [← hx0]; rfl
    unfold header at he0
    obtain ⟨a1, a2, _⟩ := expect_ok he0
    simp only at a1 a2
    obtain ⟨b1, b2, _⟩ := expect_ok a1
    obtain ⟨c1, c2, _⟩ := expect_ok b1
    refine ⟨_, (header x0).rest, c, ⟨s.takeWhile isspace, (expect (expect (discard_spaces x0) 60) 63).rest.takeWhile (· ≠ 62), space_take _, ?_, rfl⟩, ?_, hc, ?_, ?_, ?_, ?_⟩
    · intro d hd
      simpa using takeWhile_all _ _ d hd
    · have s1 := span_app isspace s
      have s2 := span_app (· ≠ 62) (expect (expect (discard_spaces x0) 60) 63).rest
      refine s1.trans ?_
      have c2' : s.dropWhile isspace = 60 :: (expect (discard_spaces x0) 60).rest := by rw [← hrest]; exact c2
      rw [c2', b2]
      conv => lhs; rw [s2]
      rw [a2]
      simp [header]
    · exact hf.trans hg
    · rw [hp2, hp, hpath]
    · unfold Fine
      rw [hn2]
      rcases ht with h | h <;> simp [h]
    · rw [hn2]
      rcases ht with h | h <;> simp [h]

/-- A file whose root was passed over without an error. -/
theorem sound {s x x' n} (h : xml_open s = .ok x) (h' : xml_next n x = .ok x') (he : x.error = false) (he' : x'.error = false) :
    ∃ root hd sp t rest, Header hd ∧ Space sp ∧ Text root t ∧ s = hd ++ sp ++ t ++ rest ∧ Elem.Depth 4 root ∧ tagOf root = x.node := by
  obtain ⟨hd, r, b, hh, rfl, hb, hf, hp, hfn, hnn⟩ := open_feeds h he
  obtain ⟨e, c, hte, _, hg, _, _, hdp⟩ := next_feeds n hb hfn hnn h' he'
  have hft := hf.trans hg
  rw [← List.append_assoc, nodeToks_of hte] at hft
  have := hft.text
  obtain ⟨u, r', rfl, hu⟩ := this
  obtain ⟨u1, u2, rfl, hu1, hu2⟩ := begins_split hu
  obtain ⟨sp, t, rfl, hs, ht⟩ := text_begins e hu1
  rw [hp] at hdp
  exact ⟨e, hd, sp, t, u2 ++ r', hh, hs, ht, by simp, hdp, hte⟩
end Che.Proofs.Lib.Xml
