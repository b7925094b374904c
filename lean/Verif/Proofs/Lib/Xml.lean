import Verif.Model.Lib.Xml
import Verif.Spec.Lib.Xml

/-!
How `read_tag` reads the texts of tags.
-/
namespace Che.Proofs.Lib.Xml
open Che.Lib Che.Lib.Xml Che.Spec.Lib.Xml

theorem space_iff (c : UInt8) : isspace c = true ↔ c = 32 ∨ (9 ≤ c ∧ c ≤ 13) := by
  simp [isspace]

theorem letter_iff (c : UInt8) : isalpha c = true ↔ Letter c := by
  simp [isalpha, Letter]

theorem space_not_letter : ∀ c : UInt8, isspace c = true → isalpha c = false := by
  intro c h
  have : ∀ b : BitVec 8, isspace ⟨b⟩ = true → isalpha ⟨b⟩ = false := by decide +kernel
  exact this c.toBitVec h

theorem letter_not_space : ∀ c : UInt8, isalpha c = true → isspace c = false := by
  intro c h
  cases hs : isspace c with
  | false => rfl
  | true => rw [space_not_letter c hs] at h; exact absurd h (by simp)

theorem takeWhile_app {p : UInt8 → Bool} {a b : Bytes} (ha : ∀ c ∈ a, p c = true) (hb : ∀ c, b.head? = some c → p c = false) :
    (a ++ b).takeWhile p = a := by
  induction a with
  | nil =>
    cases b with
    | nil => rfl
    | cons c b => simp [hb c rfl]
  | cons c a ih =>
    simp only [List.cons_append, List.takeWhile_cons, ha c (by simp), if_true]
    rw [ih fun c h => ha c (by simp [h])]

theorem dropWhile_app {p : UInt8 → Bool} {a b : Bytes} (ha : ∀ c ∈ a, p c = true) (hb : ∀ c, b.head? = some c → p c = false) :
    (a ++ b).dropWhile p = b := by
  induction a with
  | nil =>
    cases b with
    | nil => rfl
    | cons c b => simp [hb c rfl]
  | cons c a ih =>
    simp only [List.cons_append, List.dropWhile_cons, ha c (by simp), if_true]
    exact ih fun c h => ha c (by simp [h])

theorem space_all {s : Bytes} (h : Space s) : ∀ c ∈ s, isspace c = true := fun c hc => (space_iff c).2 (h c hc)

theorem name_all {n : Bytes} (h : Name n) : ∀ c ∈ n, isalpha c = true := fun c hc => (letter_iff c).2 (h.2.2 c hc)

/-- A letter is at the beginning of a name. -/
theorem name_head {n : Bytes} (h : Name n) (s : Bytes) : ∃ c t, n ++ s = c :: t ∧ isalpha c = true := by
  cases n with
  | nil => exact absurd rfl h.1
  | cons c n => exact ⟨c, n ++ s, rfl, name_all h c (by simp)⟩

/-- What is after a value of an attribute, or after the name of a tag, does not go on a name. -/
theorem attrs_head {as s} (h : Attrs true as s) {c : UInt8} {rest : Bytes} (hc : isalpha c = false) :
    ∀ d, (s ++ c :: rest).head? = some d → isalpha d = false := by
  intro d hd
  cases h with
  | nil hs =>
    cases s with
    | nil => simp at hd; exact hd ▸ hc
    | cons e s =>
      simp at hd
      exact space_not_letter d (space_all hs d (by simp [hd]))
  | @cons _ sp n v as s hs hne hn hv hl h =>
    cases sp with
    | nil => exact absurd rfl (hne rfl)
    | cons e sp =>
      simp at hd
      exact space_not_letter d (space_all hs d (by simp [hd]))

/-- An attribute is read. -/
theorem readAttr_text (x : X) {n v rest : Bytes} (hn : Name n) (hv : ∀ c ∈ v, c ≠ 34) (hl : v.length ≤ 4095)
    (hx : x.rest = n ++ ([61, 34] ++ v ++ [34] ++ rest)) (ha : x.next.attrs.length < 64) :
    readAttr x = .ok { x with rest := rest, next := { x.next with attrs := x.next.attrs ++ [(n, v)] } } := by
  have e1 : (n ++ ([61, 34] ++ v ++ [34] ++ rest)).takeWhile isalpha = n :=
    takeWhile_app (name_all hn) (by intro c hc; simp at hc; subst hc; decide)
  have e2 : (n ++ ([61, 34] ++ v ++ [34] ++ rest)).dropWhile isalpha = [61, 34] ++ v ++ [34] ++ rest :=
    dropWhile_app (name_all hn) (by intro c hc; simp at hc; subst hc; decide)
  have e3 : (v ++ (34 :: rest)).takeWhile (· ≠ 34) = v :=
    takeWhile_app (by intro c hc; simp [hv c hc]) (by intro c hc; simp at hc; simp [← hc])
  have e4 : (v ++ (34 :: rest)).dropWhile (· ≠ 34) = 34 :: rest :=
    dropWhile_app (by intro c hc; simp [hv c hc]) (by intro c hc; simp at hc; simp [← hc])
  have h64 : ¬ x.next.attrs.length ≥ 64 := by omega
  have h15 : ¬ n.length > 15 := Nat.not_lt.2 hn.2.1
  have h4 : ¬ v.length > 4095 := by omega
  have ex : expect (expect { x with rest := [61, 34] ++ v ++ [34] ++ rest } 61) 34 = { x with rest := v ++ (34 :: rest) } := by
    simp [expect]
  unfold readAttr
  rw [hx, e1, e2, if_neg h64]
  simp only [if_neg h15]
  unfold readValue
  rw [ex]
  simp only [e3, e4, if_neg h4, Res.bind, expect, List.tail_cons, List.head?_cons, ne_eq, not_true_eq_false, decide_false,
    Bool.or_false]

/-- The attributes are read up to something that is no space and no letter. -/
theorem readAttrs_text {b as s} (h : Attrs b as s) : ∀ (k : Nat) (x : X) (c : UInt8) (rest : Bytes),
    isspace c = false → isalpha c = false → x.rest = s ++ c :: rest → as.length < k → x.next.attrs.length + as.length ≤ 64 →
    readAttrs k x = .ok { x with rest := c :: rest, next := { x.next with attrs := x.next.attrs ++ as } } := by
  induction h with
  | @nil b s hs =>
    intro k x c rest h1 h2 hx hk ha
    cases k with
    | zero => simp at hk
    | succ k =>
      have e : discard_spaces x = { x with rest := c :: rest } := by
        unfold discard_spaces
        rw [hx, dropWhile_app (space_all hs) (by intro d hd; simp at hd; exact hd ▸ h1)]
      unfold readAttrs
      simp only [e, atName, List.head?_cons, Option.map_some, Option.getD_some, h2, Bool.not_false, if_true, List.append_nil]
  | @cons b sp n v as s hs hne hn hv hl h ih =>
    intro k x c rest h1 h2 hx hk ha
    cases k with
    | zero => simp at hk
    | succ k =>
      obtain ⟨d, t, hd, hdl⟩ := name_head hn ([61, 34] ++ v ++ [34] ++ (s ++ c :: rest))
      have hx' : x.rest = sp ++ (n ++ ([61, 34] ++ v ++ [34] ++ (s ++ c :: rest))) := by
        rw [hx]; simp only [List.append_assoc, List.cons_append, List.nil_append]
      have e : discard_spaces x = { x with rest := n ++ ([61, 34] ++ v ++ [34] ++ (s ++ c :: rest)) } := by
        unfold discard_spaces
        rw [hx', dropWhile_app (space_all hs)]
        intro g hg
        rw [hd] at hg
        simp at hg
        exact letter_not_space g (hg ▸ hdl)
      have hat : atName { x with rest := n ++ ([61, 34] ++ v ++ [34] ++ (s ++ c :: rest)) } = true := by
        unfold atName
        simp only [hd, List.head?_cons, Option.map_some, Option.getD_some, hdl]
      simp only [List.length_cons] at ha hk
      unfold readAttrs
      simp only [e, hat, Bool.not_true, Bool.false_eq_true, if_false]
      rw [readAttr_text _ hn hv hl rfl (by show x.next.attrs.length < 64; omega)]
      simp only [Res.bind]
      rw [ih k _ c rest h1 h2 rfl (by omega) (by simp only [List.length_append, List.length_singleton]; omega)]
      simp only [List.append_assoc, List.cons_append, List.nil_append]

/-- The tags. -/
inductive Tok
  | opn (n : Bytes) (as : List (Bytes × Bytes))
  | mono (n : Bytes) (as : List (Bytes × Bytes))
  | cls (n : Bytes)

/-- The texts of tags. -/
inductive TagText : Tok → Bytes → Prop
  | opn {n as s} : Name n → as.length ≤ 64 → Attrs true as s → TagText (.opn n as) ([60] ++ n ++ s ++ [62])
  | mono {n as s} : Name n → as.length ≤ 64 → Attrs true as s → TagText (.mono n as) ([60] ++ n ++ s ++ [47, 62])
  | cls {n} : Name n → TagText (.cls n) ([60, 47] ++ n ++ [62])

/-- The tag that was read. -/
def Is (g : Tag) : Tok → Prop
  | .opn n as => g = ⟨n, .opening, as⟩
  | .mono n as => g = ⟨n, .mono, as⟩
  | .cls n => g.name = n ∧ g.ty = .close

theorem Is.ne {g t} (h : Is g t) : g.ty ≠ .null := by
  cases t with
  | opn n as => rw [show g = _ from h]; simp
  | mono n as => rw [show g = _ from h]; simp
  | cls n => rw [h.2]; simp

/-- The name of a tag is read. -/
theorem readName_text (x : X) {n rest : Bytes} (hn : Name n) (hx : x.rest = n ++ rest)
    (hr : ∀ d, rest.head? = some d → isalpha d = false) :
    readName x = ({ x with rest := rest, next := { x.next with name := n } }, true) := by
  have h15 : ¬ n.length > 15 := Nat.not_lt.2 hn.2.1
  unfold readName
  simp only [hx, takeWhile_app (name_all hn) hr, dropWhile_app (name_all hn) hr, if_neg h15, if_neg hn.1]

theorem len_attrs {b as s} (h : Attrs b as s) : as.length ≤ s.length := by
  induction h with
  | nil => simp
  | cons _ _ _ _ _ _ ih => simp only [List.length_cons, List.length_append, List.length_nil]; omega

/-- The rest of a tag is read. -/
theorem readRest_text (x : X) {as s c rest} (h : Attrs true as s) (hl : as.length ≤ 64) (hs : isspace c = false)
    (ha : isalpha c = false) (hx : x.rest = s ++ c :: rest) :
    readRest x = .ok (expect (mark { x with rest := c :: rest, next := { x.next with attrs := as } } .mono .opening) 62) := by
  unfold readRest
  rw [readAttrs_text h _ { x with next := { x.next with attrs := [] } } c rest hs ha hx (by have := len_attrs h; rw [hx]; simp; omega) (by simpa using hl)]
  rfl

/-- A tag is read. -/
theorem read_tag_text {t tt} (h : TagText t tt) (x : X) {sp rest : Bytes} (hs : Space sp) (hx : x.rest = sp ++ tt ++ rest)
    (h0 : x.next.ty = .null) : ∃ g, Is g t ∧ read_tag x = .ok { x with rest := rest, next := g } := by
  have e0 : ∀ r, x.rest = sp ++ 60 :: r → discard_spaces x = { x with rest := 60 :: r } := by
    intro r hr
    unfold discard_spaces
    rw [hr, dropWhile_app (space_all hs) (by intro d hd; simp at hd; subst hd; decide)]
  have hne : ¬ x.next.ty ≠ .null := by simp [h0]
  cases h with
  | @opn n as s hn hl ha =>
    have hx' : x.rest = sp ++ 60 :: (n ++ (s ++ 62 :: rest)) := by rw [hx]; simp
    refine ⟨⟨n, .opening, as⟩, rfl, ?_⟩
    unfold read_tag
    obtain ⟨d, t, hd, hdl⟩ := name_head hn (s ++ 62 :: rest)
    have hm : mark (expect { x with rest := 60 :: (n ++ (s ++ 62 :: rest)) } 60) .close .null = { x with rest := n ++ (s ++ 62 :: rest) } := by
      have : d ≠ 47 := by rintro rfl; revert hdl; decide
      unfold mark expect
      simp only [List.tail_cons, hd, List.head?_cons, Option.some.injEq, if_neg this, ne_eq, not_true_eq_false, decide_false, Bool.or_false]
      obtain ⟨r, nd, ⟨nn, ny, na⟩, p, er⟩ := x
      simp only at h0
      subst h0
      rfl
    rw [if_neg hne, e0 _ hx']
    simp only [List.cons_ne_nil, if_false, hm]
    rw [readName_text _ hn rfl (attrs_head ha (by decide))]
    have h2 : ¬ (x.next.ty = .close) := by simp [h0]
    simp only [Bool.not_true, Bool.false_eq_true, if_false, h2]
    rw [readRest_text _ ha hl (by decide) (by decide) rfl]
    simp [mark, expect]
  | @mono n as s hn hl ha =>
    have hx' : x.rest = sp ++ 60 :: (n ++ (s ++ 47 :: (62 :: rest))) := by rw [hx]; simp
    refine ⟨⟨n, .mono, as⟩, rfl, ?_⟩
    unfold read_tag
    obtain ⟨d, t, hd, hdl⟩ := name_head hn (s ++ 47 :: (62 :: rest))
    have hm : mark (expect { x with rest := 60 :: (n ++ (s ++ 47 :: (62 :: rest))) } 60) .close .null =
        { x with rest := n ++ (s ++ 47 :: (62 :: rest)) } := by
      have : d ≠ 47 := by rintro rfl; revert hdl; decide
      unfold mark expect
      simp only [List.tail_cons, hd, List.head?_cons, Option.some.injEq, if_neg this, ne_eq, not_true_eq_false, decide_false, Bool.or_false]
      obtain ⟨r, nd, ⟨nn, ny, na⟩, p, er⟩ := x
      simp only at h0
      subst h0
      rfl
    rw [if_neg hne, e0 _ hx']
    simp only [List.cons_ne_nil, if_false, hm]
    rw [readName_text _ hn rfl (attrs_head ha (by decide))]
    have h2 : ¬ (x.next.ty = .close) := by simp [h0]
    simp only [Bool.not_true, Bool.false_eq_true, if_false, h2]
    rw [readRest_text _ ha hl (by decide) (by decide) rfl]
    simp [mark, expect]
  | @cls n hn =>
    have hx' : x.rest = sp ++ 60 :: (47 :: (n ++ 62 :: rest)) := by rw [hx]; simp
    refine ⟨⟨n, .close, x.next.attrs⟩, ⟨rfl, rfl⟩, ?_⟩
    unfold read_tag
    have hm : mark (expect { x with rest := 60 :: (47 :: (n ++ 62 :: rest)) } 60) .close .null =
        { x with rest := n ++ 62 :: rest, next := { x.next with ty := .close } } := by
      simp [mark, expect]
    rw [if_neg hne, e0 _ hx']
    simp only [List.cons_ne_nil, if_false, hm]
    rw [readName_text _ hn rfl (by intro d hd; simp at hd; subst hd; decide)]
    simp [expect]
end Che.Proofs.Lib.Xml
