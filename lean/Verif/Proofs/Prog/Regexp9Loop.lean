import Verif.Proofs.Prog.Regexp9Exec
import Verif.Proofs.Lib.UtfString

/-!
The main loop of `regexec1`: from one character of the text to the next.
-/
namespace Che.Proofs.Regexp9
open Che Che.Lib Che.Prog.Regexp9 Che.Spec.Regexp9 Che.Spec.Utf Che.Lib.Utf

/-! ## Places of a text -/

theorem encodeChar_pos (c : Char) : 0 < (String.utf8EncodeChar c).length := by
  obtain ⟨b, t, e, _⟩ := encodeChar_shape c
  simp [e]

theorem encode_snoc_length (a : List Char) (c : Char) :
    (encode (a ++ [c])).length = (encode a).length + (String.utf8EncodeChar c).length := by
  rw [encode_append, List.length_append]; simp [encode]

/-- A place determines what is before it. -/
theorem prefix_unique {a b a' b' : List Char} (h : a ++ b = a' ++ b') (hl : (encode a).length = (encode a').length) : a = a' := by
  have key : ∀ {x y : List Char}, x <+: y → (encode x).length = (encode y).length → x = y := by
    rintro x _ ⟨d, rfl⟩ he
    rw [encode_append, List.length_append] at he
    cases d with
    | nil => simp
    | cons c d =>
      rw [encode_cons, List.length_append] at he
      have := encodeChar_pos c
      omega
  rcases List.prefix_or_prefix_of_prefix (List.prefix_append a b) (h ▸ List.prefix_append a' b') with hp | hp
  · exact key hp hl
  · exact (key hp hl.symm).symm

theorem charAt_here {pre post : List Char} {c : Char} {i r j : Nat} (hi : i = (encode pre).length) :
    charAt (pre ++ c :: post) i r j ↔ r = c.val.toNat ∧ j = (encode (pre ++ [c])).length := by
  constructor
  · rintro ⟨a, d, b, h1, h2, h3, h4⟩
    have := prefix_unique h1 (hi.symm.trans h3)
    subst this
    have := List.append_cancel_left h1
    cases this
    exact ⟨h2, h4⟩
  · rintro ⟨h1, h2⟩
    exact ⟨pre, c, post, rfl, h1, hi, h2⟩

theorem charAt_end {cs : List Char} {i r j : Nat} (hi : i = (encode cs).length) : ¬ charAt cs i r j := by
  rintro ⟨a, d, b, h1, h2, h3, h4⟩
  have := prefix_unique (a := a) (b := d :: b) (a' := cs) (b' := []) (by simp [h1]) (h3.symm.trans hi)
  rw [this] at h1
  simp at h1

theorem charAt_pred {cs : List Char} {i i' r r' j : Nat} (h : charAt cs i r j) (h' : charAt cs i' r' j) : i = i' := by
  obtain ⟨a, c, b, h1, h2, h3, h4⟩ := h
  obtain ⟨a', c', b', h1', h2', h3', h4'⟩ := h'
  have := prefix_unique (a := a ++ [c]) (b := b) (a' := a' ++ [c']) (b' := b') (by simp [← h1, ← h1']) (h4.symm.trans h4')
  rw [h3, h3', (List.append_inj' this rfl).1]

theorem charAt_lt {cs : List Char} {i r j : Nat} (h : charAt cs i r j) : i < j := by
  obtain ⟨a, c, b, h1, h2, h3, h4⟩ := h
  rw [h3, h4, encode_snoc_length]
  have := encodeChar_pos c
  omega

/-- The characters at a place. -/
theorem runeAt_char (pre post : List Char) (c : Char) : runeAt (encode (pre ++ c :: post)) (encode pre).length =
    .ok (c.val.toNat, (String.utf8EncodeChar c).length) := by
  obtain ⟨b, h1, h2⟩ := rd_char (encode pre) (encode post) c
  rw [runeAt, encode_append, encode_cons, h1]
  simp only [Res.bind]
  split
  · rcases h2 with ⟨h, _, h'⟩ | h | h | h
    · rw [h, h']
    all_goals omega
  · exact get_rune_char _ _ _

theorem runeAt_end (cs : List Char) : runeAt (encode cs) (encode cs).length = .ok (0, 1) := by
  rw [runeAt, rd_stop]
  simp [Res.bind]

/-- The byte before a place is the end of a line if the character is. -/
theorem byte_before {pre post : List Char} (h : (encode (pre ++ post)).getD ((encode pre).length - 1) 0 = 10) (hp : (encode pre).length ≠ 0) :
    ∃ a, pre = a ++ ['\n'] := by
  rcases List.eq_nil_or_concat pre with rfl | ⟨a, c, rfl⟩
  · simp [encode] at hp
  · refine ⟨a, ?_⟩
    by_cases hc : c = '\n'
    · rw [hc]; simp
    · exfalso
      have hm := not_mem_encodeChar (c := '\n') (d := c) (by decide) hc
      apply hm
      have hpos := encodeChar_pos c
      simp only [List.concat_eq_append] at h
      rw [encode_append, encode_append] at h
      have e1 : encode [c] = String.utf8EncodeChar c := by simp [encode]
      rw [e1] at h
      rw [List.getD_eq_getElem?_getD, List.getElem?_append_left (by simp only [List.length_append]; omega),
        List.getElem?_append_right (by simp only [List.length_append]; omega)] at h
      rw [List.getElem?_eq_getElem (by simp only [List.length_append]; omega)] at h
      simp only [Option.getD_some] at h
      rw [show UInt8.ofNat ('\n' : Char).val.toNat = 10 from by decide, ← h]
      exact List.getElem_mem _

/-- The place of the machine is a place of the text. -/
theorem placeOk {pre post : List Char} {cap r k : Nat} (hz : ∀ c ∈ pre ++ post, c ≠ '\x00')
    (hr : runeAt (encode (pre ++ post)) (encode pre).length = .ok (r, k)) :
    PlaceOk (Text.of (pre ++ post)) { text := encode (pre ++ post), cap := cap, eol := none, s := (encode pre).length, r := r }
      ((encode pre).length + k) ∧
    (r = 0 → post = []) ∧ (r ≠ 0 → ∃ c post', post = c :: post' ∧ r = c.val.toNat ∧ (encode pre).length + k = (encode (pre ++ [c])).length) := by
  have hbol : ∀ r, atBol { text := encode (pre ++ post), cap := cap, eol := none, s := (encode pre).length, r := r } = true ↔
      (Text.of (pre ++ post)).bol (encode pre).length := by
    intro r
    simp only [atBol, Text.of, Bool.or_eq_true, decide_eq_true_eq]
    constructor
    · rintro (h | h)
      · exact .inl h
      · by_cases h0 : (encode pre).length = 0
        · exact .inl h0
        · obtain ⟨a, rfl⟩ := byte_before h h0
          exact .inr ⟨(encode a).length, a, '\n', post, by simp, by decide, rfl, rfl⟩
    · rintro (h | ⟨j, a, c, b, h1, h2, h3, h4⟩)
      · exact .inl h
      · right
        have e := prefix_unique (a := pre) (b := post) (a' := a ++ [c]) (b' := b) (by simp [h1]) h4
        subst e
        have hc : c = '\n' := val_inj (by rw [← h2]; decide)
        subst hc
        rw [encode_append, encode_append]
        have : encode ['\n'] = [10] := by decide
        rw [this]
        simp [List.getD_eq_getElem?_getD]
  cases post with
  | nil =>
    have e : (encode (pre ++ [])).length = (encode pre).length := by simp
    have := runeAt_end pre
    rw [List.append_nil, this] at hr
    cases hr
    refine ⟨⟨fun h => absurd rfl h, fun r j h => absurd h (charAt_end e.symm), by simp, hbol 0, ?_⟩, fun _ => rfl, fun h => absurd rfl h⟩
    simp [atEol, Text.of]
  | cons c post =>
    rw [runeAt_char] at hr
    cases hr
    have hc := val_ne_zero (hz c (by simp))
    have hs := encode_snoc_length pre c
    refine ⟨⟨fun _ => (charAt_here rfl).2 ⟨rfl, hs.symm⟩, fun r j h => ?_, ?_, hbol _, ?_⟩, fun h => absurd h hc, fun _ => ⟨c, post, rfl, rfl, hs.symm⟩⟩
    · obtain ⟨h1, h2⟩ := (charAt_here rfl).1 h
      exact ⟨h1, h2.trans hs⟩
    · have := encodeChar_pos c
      show (encode pre).length < (encode pre).length + _
      omega
    · simp only [atEol, Text.of, Bool.or_eq_true, decide_eq_true_eq]
      constructor
      · rintro ((h | h) | h)
        · cases h
        · exact absurd h hc
        · exact .inr ⟨_, (charAt_here rfl).2 ⟨h.symm, rfl⟩⟩
      · rintro (h | ⟨j, h⟩)
        · exfalso
          rw [encode_append, encode_cons, List.length_append, List.length_append] at h
          have := encodeChar_pos c
          omega
        · exact .inr ((charAt_here rfl).1 h).1.symm

/-! ## Runs through a place -/

/-- Steps that take no character. -/
inductive EpsPath (I : List Inst) (t : Text) (s : Nat) : Nat → Nat → Prop
  | refl : EpsPath I t s p p
  | next : NextEps I t s p q → EpsPath I t s q r → EpsPath I t s p r
  | right {x} : I[p]? = some x → x.op = .or q → EpsPath I t s q r → EpsPath I t s p r

/-- A step takes a character or none. -/
theorem step_cases {I t pc i c pc' j c'} (h : Step false I t (pc, i, c) (pc', j, c')) :
    (j = i ∧ ∀ r, EpsPath I t i pc' r → EpsPath I t i pc r) ∨
    (c' = c ∧ ∃ x r, I[pc]? = some x ∧ takes x.op r = true ∧ x.next = some pc' ∧ t.chr i r j) := by
  cases h with
  | take h1 h2 h3 h4 => exact .inr ⟨rfl, _, _, h1, h2, h3, h4⟩
  | lbra g h1 h2 h3 => exact .inl ⟨rfl, fun r hr => .next ⟨_, h1, h3, .inl ⟨g, h2⟩⟩ hr⟩
  | rbra g h1 h2 h3 => exact .inl ⟨rfl, fun r hr => .next ⟨_, h1, h3, .inr (.inl ⟨g, h2⟩)⟩ hr⟩
  | bol h1 h2 h3 h4 => exact .inl ⟨rfl, fun r hr => .next ⟨_, h1, h3, .inr (.inr (.inl ⟨h2, h4⟩))⟩ hr⟩
  | eol h1 h2 h3 h4 => exact .inl ⟨rfl, fun r hr => .next ⟨_, h1, h3, .inr (.inr (.inr (.inl ⟨h2, h4⟩)))⟩ hr⟩
  | orL g h1 h2 h3 => exact .inl ⟨rfl, fun r hr => .next ⟨_, h1, h3, .inr (.inr (.inr (.inr ⟨g, h2⟩)))⟩ hr⟩
  | orR g h1 h2 => exact .inl ⟨rfl, fun r hr => .right h1 h2 hr⟩
  | nop h => cases h

/-- The instruction is reached by taking a character. -/
def Arr (I : List Inst) (t : Text) (x0 : Conf) (pc s : Nat) : Prop :=
  ∃ n pc0 i c x r, Steps false I t n x0 (pc0, i, c) ∧ I[pc0]? = some x ∧ takes x.op r = true ∧ x.next = some pc ∧ t.chr i r s

/-- The last part of a run. -/
theorem run_split {I t n a b} (h : Steps false I t n a b) :
    (a.2.1 = b.2.1 ∧ EpsPath I t b.2.1 a.1 b.1) ∨ ∃ pc, Arr I t a pc b.2.1 ∧ EpsPath I t b.2.1 pc b.1 := by
  induction h with
  | refl => exact .inl ⟨rfl, .refl⟩
  | @head x y n z s _ ih =>
    obtain ⟨pc, i, c⟩ := x
    obtain ⟨pc', j, c'⟩ := y
    rcases step_cases s with ⟨e, hr⟩ | ⟨e, x, r, h1, h2, h3, h4⟩
    · subst e
      rcases ih with ⟨e1, e2⟩ | ⟨q, ⟨n, pc0, i0, c0, x, r, h1, h2⟩, h3⟩
      · simp only at e1
        exact .inl ⟨e1, by rw [← e1] at e2 ⊢; exact hr _ e2⟩
      · exact .inr ⟨q, ⟨n + 1, pc0, i0, c0, x, r, .head s h1, h2⟩, h3⟩
    · rcases ih with ⟨e1, e2⟩ | ⟨q, ⟨n, pc0, i0, c0, x, r, h1, h2⟩, h3⟩
      · simp only at e1
        exact .inr ⟨pc', ⟨0, pc, i, c, x, r, .refl, h1, h2, h3, e1 ▸ h4⟩, e2⟩
      · exact .inr ⟨q, ⟨n + 1, pc0, i0, c0, x, r, .head s h1, h2⟩, h3⟩

/-- What a run of all threads at a place covers. -/
theorem covered {I t} {p : Place} {D : List (Nat × Nat)} {st : Run} (hD : ∀ e ∈ D, ∀ pc', Chain I t p.s e.1 pc' → Ran I p D st e.2 pc')
    (hpend : st.pend = []) {x pc q : Nat} (h : EpsPath I t p.s pc q) : ∀ e ∈ D, e.2 ≤ x → Chain I t p.s e.1 pc →
    ∃ y, y ≤ x ∧ Ran I p D st y q := by
  induction h with
  | refl => intro e he hx hc; exact ⟨e.2, hx, hD e he _ hc⟩
  | next h1 _ ih => intro e he hx hc; exact ih e he hx (hc.tail h1)
  | right h1 h2 _ ih =>
    intro e he hx hc
    rcases (hD e he _ hc _ h1).2.2 _ h2 with ⟨y, hy, hd⟩ | ⟨th, hth, _⟩
    · exact ih (_, y) hd (by simp; omega) .refl
    · rw [hpend] at hth; simp at hth

/-! ## One place -/

section
variable (I : List Inst) (start : Nat) (t : Text) (B : Nat → Prop) (ms : Nat)

/-- The beginning of a run. -/
abbrev init (x : Nat) : Conf := (start, x, Caps.none.opened 0 x)

/-- Nothing has been lost before the place `s`. -/
structure Complete (s : Nat) (tl : List Thread) (mp : List Resub) (matched : Bool) : Prop where
  cov : ∀ x pc, B x → Arr I t (init start x) pc s → Cov tl pc x ∨ Beat mp matched x
  done : ∀ x n q j c, B x → Steps false I t n (init start x) (q, j, c) → AtFin I q → j < s → Done mp matched x j

/-- What holds before the place `s`. -/
structure Snd (s : Nat) (tl : List Thread) (mp : List Resub) (matched : Bool) : Prop where
  here : B s
  tl : ∀ th ∈ tl, ThreadOk I start t B s th
  mp : ∃ sb, MatchOk I start t B ms sb mp matched ∧ (matched = true → sb < s)

variable {I start t B ms}

theorem MatchOk.weaken {s s' mp matched} (h : MatchOk I start t B ms s mp matched) (hs : s ≤ s') : MatchOk I start t B ms s' mp matched :=
  ⟨h.1, fun e => by
    obtain ⟨x, q, j, se, a, b⟩ := h.2 e
    exact ⟨x, q, j, se, by omega, b⟩⟩

theorem beat_done {mp matched x j} (h : Beat mp matched x) : Done mp matched x j := by
  obtain ⟨h1, h2 | ⟨a, b, h3, h4⟩⟩ := h
  · exact ⟨h1, .inl h2⟩
  · exact ⟨h1, .inr ⟨a, b, h3, .inl h4⟩⟩

theorem done_le {mp matched x y j} (h : Done mp matched y j) (hy : y ≤ x) : Done mp matched x j := by
  obtain ⟨h1, h2 | ⟨a, b, h3, h4⟩⟩ := h
  · exact ⟨h1, .inl h2⟩
  · exact ⟨h1, .inr ⟨a, b, h3, by omega⟩⟩

theorem cov_le {l q x y} (h : Cov l q y) (hy : y ≤ x) : Cov l q x := by
  obtain ⟨th, h1, h2, z, h3, h4⟩ := h
  exact ⟨th, h1, h2, z, h3, by omega⟩

/-- The first instruction is added to the list. -/
theorem renewempty_spec {cap s tl tl'} (h : renewempty cap start s tl = .ok tl') (hB : B s) (htl : ∀ th ∈ tl, ThreadOk I start t B s th) :
    (∀ th ∈ tl', ThreadOk I start t B s th) ∧ (∀ q x, Cov tl q x → Cov tl' q x) ∧ Cov tl' start s := by
  have e : tl' = (renewthread start (setSp (List.replicate 32 ⟨none, none⟩) 0 s) tl).1 := by
    simp only [renewempty] at h
    split at h
    · cases h
    · cases h; rfl
  have hf : first (setSp (List.replicate 32 ⟨none, none⟩) 0 s) = ⟨some s, none⟩ := by simp [first, setSp, List.replicate]
  obtain ⟨c1, c2⟩ := renew_cov (ip := start) (z := s) (fun th hth => (htl th hth).hasSp) (by rw [hf])
  refine ⟨?_, fun q x hq => e ▸ c1 q x hq, e ▸ c2⟩
  intro th hth
  rcases renew_mem (e ▸ hth) with hth | rfl
  · exact htl th hth
  · refine ⟨s, hB, Nat.le_refl _, ⟨0, ?_⟩, by simp [setSp], hf⟩
    rw [capOf_setSp (by simp)]
    have : capOf (List.replicate 32 ⟨none, none⟩) = Caps.none := by
      funext n
      simp only [capOf, Caps.none, List.getD_eq_getElem?_getD, List.getElem?_replicate]
      split <;> rfl
    rw [this]
    exact .refl

theorem steps_place (hB : ∀ i r j, B i → t.chr i r j → B j) {n a b} (h : Steps false I t n a b) (h0 : B a.2.1) : B b.2.1 := by
  induction h with
  | refl => exact h0
  | @head x y n z s _ ih =>
    obtain ⟨pc, i, c⟩ := x
    obtain ⟨pc', j, c'⟩ := y
    apply ih
    rcases step_cases s with ⟨e, _⟩ | ⟨e, x, r, h1, h2, h3, h4⟩
    · exact e ▸ h0
    · exact hB _ _ _ h0 h4

/-- From one place to the next. -/
theorem place_step {p s' tl tl' mp matched st' n} (hids : IdsOk I) (hp : PlaceOk t p s') (hnext : p.r ≠ 0 → B s')
    (hB' : ∀ i r j, B i → t.chr i r j → B j) (hgap : p.r ≠ 0 → ∀ j, B j → j < s' → j ≤ p.s)
    (hpred : ∀ i i' r r' j, t.chr i r j → t.chr i' r' j → i = i')
    (hinv : Snd I start t B ms p.s tl mp matched)
    (hadd : (if matched then .ok tl else renewempty p.cap start p.s tl) = .ok tl')
    (hrun : runList I p n { used := 0, pend := tl', nl := [], mp := mp, matched := matched } = .ok st') :
    MatchOk I start t B ms p.s st'.mp st'.matched ∧ (p.r ≠ 0 → Snd I start t B ms s' st'.nl st'.mp st'.matched) ∧
    (Complete I start t B p.s tl mp matched →
      (p.r ≠ 0 → Complete I start t B s' st'.nl st'.mp st'.matched) ∧
      (∀ x n q j c, B x → Steps false I t n (init start x) (q, j, c) → AtFin I q → j ≤ p.s → Done st'.mp st'.matched x j)) := by
  obtain ⟨hB, htl, sb, hmp, hsb⟩ := hinv
  have hmp' : MatchOk I start t B ms p.s mp matched := by
    cases matched with
    | false => exact ⟨hmp.1, by simp⟩
    | true => exact hmp.weaken (Nat.le_of_lt (hsb rfl))
  have hpend : (∀ th ∈ tl', ThreadOk I start t B p.s th) ∧ (∀ q x, Cov tl q x → Cov tl' q x) ∧
      (Cov tl' start p.s ∨ Beat mp matched p.s) := by
    cases matched with
    | true =>
      simp only [if_true] at hadd
      cases hadd
      refine ⟨htl, fun _ _ h => h, .inr ⟨rfl, ?_⟩⟩
      by_cases h0 : mp = []
      · exact .inl h0
      · obtain ⟨a, b, h1, h2, h3⟩ := hmp.shape h0
        have := hsb rfl
        exact .inr ⟨a, b, h1, by omega⟩
    | false =>
      simp only [Bool.false_eq_true, if_false] at hadd
      obtain ⟨a, b, c⟩ := renewempty_spec hadd hB htl
      exact ⟨a, b, .inl c⟩
  obtain ⟨hp1, hp2, hp3⟩ := hpend
  obtain ⟨D, r1, r2, r3, r4, r5, r6, r7⟩ := runList_spec (start := start) (B := B) (ms := ms) hids hp n [] _ st' hrun ⟨hp1, by simp, by simp, hmp'⟩ (by simp)
  refine ⟨r1.mp, fun h0 => ⟨hnext h0, r1.nl h0, p.s, r1.mp, fun _ => hp.lt⟩, fun hc => ?_⟩
  have key : ∀ x n pc c, B x → Steps false I t n (init start x) (pc, p.s, c) →
      Beat st'.mp st'.matched x ∨ ∃ y, y ≤ x ∧ Ran I p D st' y pc := by
    intro x n pc c hx hs
    have cover : ∀ q, EpsPath I t p.s q pc → (Cov tl' q x ∨ Beat mp matched x) →
        Beat st'.mp st'.matched x ∨ ∃ y, y ≤ x ∧ Ran I p D st' y pc := by
      rintro q hq (h | h)
      · right
        rcases r5 _ _ (.inr h) with ⟨y, hy, hd⟩ | ⟨th, hth, _⟩
        · exact covered r6 r7 hq (q, y) hd hy .refl
        · simp at hth
      · exact .inl (r4 _ h)
    rcases run_split hs with ⟨e, h⟩ | ⟨q, ha, h⟩
    · simp only at e h
      subst e
      exact cover start h hp3
    · simp only at ha h
      exact cover q h ((hc.cov x q hx ha).imp (hp2 _ _) id)
  have fin : ∀ x n q j c, B x → Steps false I t n (init start x) (q, j, c) → AtFin I q → j ≤ p.s → Done st'.mp st'.matched x j := by
    intro x n q j c hx h1 h2 h3
    by_cases hj : j < p.s
    · exact r3 _ _ (hc.done x n q j c hx h1 h2 hj)
    · have e : j = p.s := by omega
      subst e
      obtain ⟨z, hz, hzf⟩ := h2
      rcases key x n q c hx h1 with h | ⟨y, hy, h⟩
      · exact beat_done h
      · exact done_le ((h _ hz).2.1 hzf) hy
  refine ⟨fun h0 => ⟨?_, ?_⟩, ?_⟩
  · rintro x pc hx ⟨n, pc0, i, c, z, r, h1, h2, h3, h4, h5⟩
    have e := hpred _ _ _ _ _ h5 (hp.chr h0)
    subst e
    obtain ⟨e1, _⟩ := hp.only _ _ h5
    subst e1
    rcases key x n pc0 c hx h1 with h | ⟨y, hy, h⟩
    · exact .inr h
    · exact .inl (cov_le ((h _ h2).1 h3 _ h4) hy)
  · intro x n q j c hx h1 h2 h3
    exact fin x n q j c hx h1 h2 (hgap h0 j (steps_place hB' h1 hx) h3)
  · exact fin

/-! ## The check for the first character -/

variable (I start t) in
/-- A run that begins here does not get anywhere. -/
def Stuck (s : Nat) : Prop := (∀ c y, ¬ Step false I t (start, s, c) y) ∧ ¬ AtFin I start

theorem step_of_next {s pc q} (h : NextEps I t s pc q) (c : Caps) : ∃ y, Step false I t (pc, s, c) y := by
  obtain ⟨x, h1, h2, h3⟩ := h
  rcases h3 with ⟨g, h⟩ | ⟨g, h⟩ | ⟨h, h'⟩ | ⟨h, h'⟩ | ⟨g, h⟩
  · exact ⟨_, .lbra g h1 h h2⟩
  · exact ⟨_, .rbra g h1 h h2⟩
  · exact ⟨_, .bol h1 h h2 h'⟩
  · exact ⟨_, .eol h1 h h2 h'⟩
  · exact ⟨_, .orL g h1 h h2⟩

theorem stuck_eps {s q} (h : Stuck I start t s) (he : EpsPath I t s start q) : q = start := by
  cases he with
  | refl => rfl
  | next h1 _ => obtain ⟨y, hy⟩ := step_of_next h1 Caps.none; exact absurd hy (h.1 _ _)
  | right h1 h2 _ => exact absurd (.orR _ h1 h2) (h.1 Caps.none _)

/-- Runs at a place where none can begin. -/
theorem stuck_run {s mp matched x n pc c} (h : Stuck I start t s) (hc : Complete I start t B s [] mp matched) (hx : B x)
    (hs : Steps false I t n (init start x) (pc, s, c)) : Beat mp matched x ∨ pc = start := by
  rcases run_split hs with ⟨e, h1⟩ | ⟨q, ha, h1⟩
  · exact .inr (stuck_eps h h1)
  · rcases hc.cov x q hx ha with ⟨th, hth, _⟩ | h
    · simp at hth
    · exact .inl h

theorem stuck_done {s mp matched} (h : Stuck I start t s) (hc : Complete I start t B s [] mp matched) :
    ∀ x n q j c, B x → Steps false I t n (init start x) (q, j, c) → AtFin I q → j ≤ s → Done mp matched x j := by
  intro x n q j c hx hs hf hj
  by_cases hj' : j < s
  · exact hc.done x n q j c hx hs hf hj'
  · have e : j = s := by omega
    subst e
    rcases stuck_run h hc hx hs with h1 | rfl
    · exact beat_done h1
    · exact absurd hf h.2

theorem skip_step {s s' r mp matched} (hB' : ∀ i r j, B i → t.chr i r j → B j) (hgap : ∀ j, B j → j < s' → j ≤ s)
    (hpred : ∀ i i' r r' j, t.chr i r j → t.chr i' r' j → i = i') (hch : t.chr s r s')
    (h : Stuck I start t s) (hc : Complete I start t B s [] mp matched) : Complete I start t B s' [] mp matched := by
  refine ⟨?_, ?_⟩
  · rintro x pc hx ⟨n, pc0, i, c, z, r, h1, h2, h3, h4, h5⟩
    have e := hpred _ _ _ _ _ h5 hch
    subst e
    rcases stuck_run h hc hx h1 with h6 | rfl
    · exact .inr h6
    · exact absurd (.take h2 h3 h4 h5) (h.1 c _)
  · intro x n q j c hx hs hf hj
    exact stuck_done h hc x n q j c hx hs hf (hgap j (steps_place hB' hs hx) hj)

end

/-! ## The loop -/

/-- The places of the text from `lo` on. -/
def Bd (cs : List Char) (lo x : Nat) : Prop := lo ≤ x ∧ ∃ a b, cs = a ++ b ∧ x = (encode a).length

theorem bd_chr {cs lo i r j} (h : Bd cs lo i) (hc : charAt cs i r j) : Bd cs lo j := by
  have := charAt_lt hc
  obtain ⟨a, c, b, h1, h2, h3, h4⟩ := hc
  exact ⟨by have := h.1; omega, a ++ [c], b, by simp [h1], h4⟩

theorem bd_gap {cs lo} {pre post : List Char} {c : Char} (hcs : cs = pre ++ c :: post) {j} (h : Bd cs lo j)
    (hj : j < (encode (pre ++ [c])).length) : j ≤ (encode pre).length := by
  obtain ⟨_, a, b, h1, h2⟩ := h
  subst hcs
  rcases List.prefix_or_prefix_of_prefix (List.prefix_append (pre ++ [c]) post) (⟨b, by rw [← h1]; simp⟩ : a <+: pre ++ [c] ++ post) with ⟨d, rfl⟩ | hp
  · rw [h2, encode_append (pre ++ [c]), List.length_append] at hj; omega
  · rw [List.prefix_concat_iff] at hp
    rcases hp with rfl | ⟨d, rfl⟩
    · omega
    · rw [h2, encode_append a, List.length_append]; omega

theorem bd_le {cs lo j} (h : Bd cs lo j) : j ≤ (encode cs).length := by
  obtain ⟨_, a, b, h1, h2⟩ := h
  rw [h1, h2, encode_append, List.length_append]; omega

theorem bd_here {cs lo} {pre post : List Char} (hcs : cs = pre ++ post) (h : lo ≤ (encode pre).length) : Bd cs lo (encode pre).length :=
  ⟨h, pre, post, hcs, rfl⟩

/-- Characters at which no run can begin are skipped. -/
theorem skip_many {I start cs lo mp matched} (rest : List Char) : ∀ (a pre : List Char), cs = pre ++ a ++ rest →
    (∀ a1 c a2, a = a1 ++ c :: a2 → Stuck I start (Text.of cs) (encode (pre ++ a1)).length) →
    Complete I start (Text.of cs) (Bd cs lo) (encode pre).length [] mp matched →
    Complete I start (Text.of cs) (Bd cs lo) (encode (pre ++ a)).length [] mp matched := by
  intro a
  induction a with
  | nil => intro pre _ _ h; simpa using h
  | cons c a ih =>
    intro pre hcs hst hc
    have h0 := hst [] c a rfl
    rw [List.append_nil] at h0
    have hcs' : cs = pre ++ c :: (a ++ rest) := by simp [hcs]
    have h1 := skip_step (t := Text.of cs) (fun i r j => bd_chr) (fun j hj => bd_gap hcs' hj) (fun i i' r r' j => charAt_pred)
      (show charAt cs _ _ _ by rw [hcs']; exact (charAt_here rfl).2 ⟨rfl, rfl⟩) h0 hc
    have := ih (pre ++ [c]) (by simp [hcs]) (fun a1 d a2 e => by
      have := hst (c :: a1) d a2 (by rw [e]; rfl)
      simpa using this) h1
    simpa using this

/-- The kind of the first instruction. -/
def TyOk (I : List Inst) (start : Nat) : StartType → Prop
  | .no => True
  | .rune c => c ≠ 0 ∧ c < 128 ∧ ∃ x, I[start]? = some x ∧ x.op = .rune c
  | .bol => ∃ x, I[start]? = some x ∧ x.op = .bol

theorem stuck_rune {I start cs c s} (hx : ∃ x, I[start]? = some x ∧ x.op = .rune c) (h : ∀ j, ¬ charAt cs s c j) :
    Stuck I start (Text.of cs) s := by
  obtain ⟨x, h1, h2⟩ := hx
  refine ⟨?_, ?_⟩
  · intro c' y hs
    obtain ⟨k, r, j, _, e2, e3, _⟩ := step_single hs h1 (by rw [h2]; rfl)
    rw [h2] at e2
    simp [takes] at e2
    subst e2
    exact h j e3
  · rintro ⟨y, h3, h4⟩
    rw [h1] at h3; cases h3; rw [h2] at h4; cases h4

theorem stuck_bol {I start cs s} (hx : ∃ x, I[start]? = some x ∧ x.op = .bol) (h : ¬ (Text.of cs).bol s) :
    Stuck I start (Text.of cs) s := by
  obtain ⟨x, h1, h2⟩ := hx
  refine ⟨?_, ?_⟩
  · intro c' y hs
    have := step_inv hs h1
    rw [h2] at this
    obtain ⟨_, _, _, h3⟩ := this
    exact h h3
  · rintro ⟨y, h3, h4⟩
    rw [h1] at h3; cases h3; rw [h2] at h4; cases h4

/-- What the check for the first character does. -/
theorem skipTo_spec {I start cs lo ms ty q} {pre post : List Char} {mp matched} (hz : ∀ c ∈ cs, c ≠ '\x00') (hty : TyOk I start ty)
    (hcs : cs = pre ++ post) (h : skipTo ty (encode cs) none (encode pre).length = .ok q)
    (hs : Snd I start (Text.of cs) (Bd cs lo) ms (encode pre).length [] mp matched) :
    match q with
    | none => (ty = .bol → '\n' ∉ cs) → Complete I start (Text.of cs) (Bd cs lo) (encode pre).length [] mp matched →
        ∀ x n q j c, Bd cs lo x → Steps false I (Text.of cs) n (init start x) (q, j, c) → AtFin I q → Done mp matched x j
    | some s => ∃ pre' post', cs = pre' ++ post' ∧ s = (encode pre').length ∧
        Snd I start (Text.of cs) (Bd cs lo) ms s [] mp matched ∧
        ((ty = .bol → '\n' ∉ cs) → Complete I start (Text.of cs) (Bd cs lo) (encode pre).length [] mp matched →
          Complete I start (Text.of cs) (Bd cs lo) s [] mp matched) := by
  have hzp : ∀ c ∈ post, c ≠ '\x00' := fun c hc => hz c (by rw [hcs]; simp [hc])
  have later : ∀ a b : List Char, cs = pre ++ a ++ b → Snd I start (Text.of cs) (Bd cs lo) ms (encode (pre ++ a)).length [] mp matched := by
    intro a b e
    obtain ⟨h1, h2, sb, h3, h4⟩ := hs
    have hl : (encode pre).length ≤ (encode (pre ++ a)).length := by rw [encode_append, List.length_append]; omega
    exact ⟨bd_here e (by have := h1.1; omega), by simp, sb, h3, fun e => by have := h4 e; omega⟩
  cases ty with
  | no =>
    simp only [skipTo] at h
    cases h
    exact ⟨pre, post, hcs, rfl, hs, fun _ h => h⟩
  | rune c =>
    obtain ⟨h0, h128, hx⟩ := hty
    have hval : (Char.ofNat c).val.toNat = c := by
      rw [Char.ofNat, dif_pos (by left; omega)]
      simp [Char.ofNatAux]
    obtain ⟨u1, u2⟩ := utfrune_eq (Char.ofNat c) pre post hzp (by
      intro e; rw [e] at hval; simp at hval; omega)
    rw [hval, ← hcs] at u1 u2
    have nochar : ∀ {a1 d a2}, cs = a1 ++ d :: a2 → d ≠ Char.ofNat c → Stuck I start (Text.of cs) (encode a1).length := by
      intro a1 d a2 e hd
      refine stuck_rune hx fun j hj => ?_
      rw [e] at hj
      obtain ⟨e1, _⟩ := (charAt_here rfl).1 hj
      exact hd (val_inj (by rw [hval, ← e1]))
    by_cases hm : Char.ofNat c ∈ post
    · obtain ⟨a, b, e, hna⟩ := exists_first _ _ hm
      simp only [skipTo, u2 a b e hna, lift', Res.bind] at h
      cases h
      have e' : cs = pre ++ a ++ (Char.ofNat c :: b) := by rw [hcs, e]; simp
      refine ⟨pre ++ a, _, e', rfl, later _ _ e', fun _ hc => skip_many _ a pre e' ?_ hc⟩
      intro a1 d a2 ea
      exact nochar (a1 := pre ++ a1) (d := d) (a2 := a2 ++ Char.ofNat c :: b) (by rw [e', ea]; simp) (by rintro rfl; apply hna; rw [ea]; simp)
    · simp only [skipTo, u1 hm, lift', Res.bind] at h
      cases h
      intro _ hc
      have h1 := skip_many [] post pre (by simp [hcs]) (fun a1 d a2 ea => nochar (a2 := a2) (d := d) (by rw [hcs, ea]; simp)
        (by rintro rfl; apply hm; rw [ea]; simp)) hc
      rw [← hcs] at h1
      intro x n q j c hx' hs hf
      exact stuck_done (stuck_rune hx fun j hj => charAt_end rfl hj) h1 x n q j c hx' hs hf
        (bd_le (steps_place (B := Bd cs lo) (t := Text.of cs) (fun i r j => bd_chr) hs hx'))
  | bol =>
    simp only [skipTo] at h
    split at h
    · cases h
      exact ⟨pre, post, hcs, rfl, hs, fun _ h => h⟩
    · rename_i hne
      obtain ⟨u1, u2⟩ := utfrune_eq '\n' pre post hzp (by decide)
      rw [← hcs, show ('\n' : Char).val.toNat = 10 by decide] at u1 u2
      by_cases hm : '\n' ∈ post
      · obtain ⟨a, b, e, hna⟩ := exists_first _ _ hm
        simp only [u2 a b e hna, lift', Res.bind] at h
        cases h
        have e' : cs = pre ++ (a ++ ['\n']) ++ b := by rw [hcs, e]; simp
        have el : (encode (pre ++ a)).length + 1 = (encode (pre ++ (a ++ ['\n']))).length := by
          rw [← List.append_assoc, encode_snoc_length]; rfl
        refine ⟨pre ++ (a ++ ['\n']), b, e', el, el ▸ later _ _ e', fun hn _ => ?_⟩
        exact absurd (by rw [hcs]; simp [hm]) (hn rfl)
      · simp only [u1 hm, lift', Res.bind] at h
        cases h
        intro hn hc
        have hn := hn rfl
        have nobol : ∀ s, s ≠ 0 → Stuck I start (Text.of cs) s := by
          intro s hs
          refine stuck_bol hty ?_
          rintro (h | ⟨j, a, c, b, h1, h2, _⟩)
          · exact hs h
          · have : c = '\n' := val_inj (by rw [← h2]; decide)
            exact hn (by rw [h1, this]; simp)
        have hpos : ∀ a, (encode (pre ++ a)).length ≠ 0 := by
          intro a; rw [encode_append, List.length_append]; omega
        have h1 := skip_many [] post pre (by simp [hcs]) (fun a1 d a2 ea => nobol _ (hpos a1)) hc
        intro x n q j c hx' hs hf
        rw [← hcs] at h1
        exact stuck_done (nobol _ (by rw [hcs]; exact hpos _)) h1 x n q j c hx' hs hf
          (bd_le (steps_place (B := Bd cs lo) (t := Text.of cs) (fun i r j => bd_chr) hs hx'))

/-- The main loop. -/
theorem execLoop_spec {prog : Prog} {cs : List Char} {cap lo ms : Nat} {ty : StartType} (hids : IdsOk prog.insts) (hz : ∀ c ∈ cs, c ≠ '\x00')
    (hty : TyOk prog.insts prog.start ty) : ∀ (fuel : Nat) (pre post : List Char) (cst : Bool) tl mp matched res,
    cs = pre ++ post → execLoop prog ty (encode cs) cap none fuel cst (encode pre).length tl mp matched = .ok res →
    (cst = true → tl = []) →
    Snd prog.insts prog.start (Text.of cs) (Bd cs lo) ms (encode pre).length tl mp matched →
    (∃ s, MatchOk prog.insts prog.start (Text.of cs) (Bd cs lo) ms s res.2 res.1) ∧
    ((ty = .bol → '\n' ∉ cs) → Complete prog.insts prog.start (Text.of cs) (Bd cs lo) (encode pre).length tl mp matched →
      ∀ x n q j c, Bd cs lo x → Steps false prog.insts (Text.of cs) n (init prog.start x) (q, j, c) → AtFin prog.insts q →
        Done res.2 res.1 x j) := by
  intro fuel
  induction fuel with
  | zero => intro pre post cst tl mp matched res _ h; simp [execLoop] at h
  | succ n ih =>
    intro pre post cst tl mp matched res hcs h hcst hsnd
    rw [execLoop] at h
    -- after the check for the first character
    have main : ∀ (pre post : List Char), cs = pre ++ post → ∀ tl,
        Snd prog.insts prog.start (Text.of cs) (Bd cs lo) ms (encode pre).length tl mp matched →
        ((lift' (runeAt (encode cs) (encode pre).length)).bind fun (r, k) =>
          (if matched then .ok tl else renewempty cap prog.start (encode pre).length tl).bind fun tl =>
          (runList prog.insts { text := encode cs, cap := cap, eol := none, s := (encode pre).length, r := r } cap
            { used := 0, pend := tl, nl := [], mp := mp, matched := matched }).bind fun st =>
          if (none : Option Nat) = some (encode pre).length then .ok (st.matched, st.mp)
          else if r = 0 then .ok (st.matched, st.mp)
          else execLoop prog ty (encode cs) cap none n (decide (ty ≠ .no) && st.nl.isEmpty) ((encode pre).length + k) st.nl st.mp st.matched) = .ok res →
        (∃ s, MatchOk prog.insts prog.start (Text.of cs) (Bd cs lo) ms s res.2 res.1) ∧
        ((ty = .bol → '\n' ∉ cs) → Complete prog.insts prog.start (Text.of cs) (Bd cs lo) (encode pre).length tl mp matched →
          ∀ x n q j c, Bd cs lo x → Steps false prog.insts (Text.of cs) n (init prog.start x) (q, j, c) → AtFin prog.insts q →
            Done res.2 res.1 x j) := by
      intro pre post hcs tl hsnd h
      cases hr : runeAt (encode cs) (encode pre).length with
      | err e => exact nomatch e
      | panic m => rw [hr] at h; simp [lift', Res.bind] at h
      | diverge => rw [hr] at h; simp [lift', Res.bind] at h
      | ok rk =>
        obtain ⟨r, k⟩ := rk
        rw [hr] at h
        simp only [lift', Res.bind] at h
        obtain ⟨tl', hadd, h⟩ : ∃ tl', (if matched then .ok tl else renewempty cap prog.start (encode pre).length tl) = .ok tl' ∧ _ := by
          cases ha : (if matched then (.ok tl : Res Unit _) else renewempty cap prog.start (encode pre).length tl) with
          | ok tl' => rw [ha] at h; exact ⟨tl', rfl, h⟩
          | err _ => rw [ha] at h; cases h
          | panic _ => rw [ha] at h; cases h
          | diverge => rw [ha] at h; cases h
        simp only at h
        obtain ⟨st, hrun, h⟩ : ∃ st, runList prog.insts { text := encode cs, cap := cap, eol := none, s := (encode pre).length, r := r } cap
            { used := 0, pend := tl', nl := [], mp := mp, matched := matched } = .ok st ∧ _ := by
          cases ha : runList prog.insts { text := encode cs, cap := cap, eol := none, s := (encode pre).length, r := r } cap
            { used := 0, pend := tl', nl := [], mp := mp, matched := matched } with
          | ok st => rw [ha] at h; exact ⟨st, rfl, h⟩
          | err _ => rw [ha] at h; cases h
          | panic _ => rw [ha] at h; cases h
          | diverge => rw [ha] at h; cases h
        simp only [reduceCtorEq, if_false] at h
        subst hcs
        obtain ⟨hp, hr0, hr1⟩ := placeOk (cap := cap) hz hr
        obtain ⟨g1, g2, g3⟩ := place_step (start := prog.start) (B := Bd (pre ++ post) lo) (ms := ms) hids hp
          (fun h0 => by
            obtain ⟨c, post', e1, e2, e3⟩ := hr1 h0
            exact e3 ▸ bd_here (pre := pre ++ [c]) (post := post') (by rw [e1]; simp) (by have := hsnd.here.1; rw [encode_snoc_length]; omega))
          (fun i r j => bd_chr)
          (fun h0 j hj hj' => by
            obtain ⟨c, post', e1, e2, e3⟩ := hr1 h0
            exact bd_gap (by rw [e1]) hj (e3 ▸ hj'))
          (fun i i' r r' j => charAt_pred) hsnd hadd hrun
        by_cases h0 : r = 0
        · rw [if_pos h0] at h
          cases h
          refine ⟨⟨_, g1⟩, fun _ hc x n q j c hx hs hf => (g3 hc).2 x n q j c hx hs hf ?_⟩
          have := bd_le (steps_place (B := Bd (pre ++ post) lo) (t := Text.of (pre ++ post)) (fun i r j => bd_chr) hs hx)
          rw [hr0 h0, List.append_nil] at this
          exact this
        · rw [if_neg h0] at h
          obtain ⟨c, post', e1, e2, e3⟩ := hr1 h0
          rw [e3] at h
          obtain ⟨i1, i2⟩ := ih (pre ++ [c]) post' _ _ _ _ _ (by rw [e1]; simp) h (by
            intro hh
            simp only [Bool.and_eq_true, List.isEmpty_iff] at hh
            exact hh.2) (e3 ▸ g2 h0)
          exact ⟨i1, fun hb hc => i2 hb (e3 ▸ (g3 hc).1 h0)⟩
    cases hcst' : cst with
    | false =>
      rw [hcst'] at h
      simp only [Bool.false_eq_true, if_false, Res.bind] at h
      exact main pre post hcs tl hsnd h
    | true =>
      rw [hcst'] at h
      have htl := hcst hcst'
      subst htl
      simp only [if_true] at h
      cases hq : skipTo ty (encode cs) none (encode pre).length with
      | err _ => rw [hq] at h; cases h
      | panic _ => rw [hq] at h; cases h
      | diverge => rw [hq] at h; cases h
      | ok q =>
        rw [hq] at h
        simp only [Res.bind] at h
        have hsk := skipTo_spec hz hty hcs hq hsnd
        cases q with
        | none =>
          cases h
          obtain ⟨_, _, sb, hm, _⟩ := hsnd
          exact ⟨⟨sb, hm⟩, hsk⟩
        | some s =>
          obtain ⟨pre', post', e1, e2, e3, e4⟩ := hsk
          subst e2
          obtain ⟨a, b⟩ := main pre' post' e1 [] e3 h
          exact ⟨a, fun hb hc => b hb (e4 hb hc)⟩

end Che.Proofs.Regexp9
