import Verif.Model.Lib.Strings
import Verif.Spec.Lib.Strings
import Verif.Proofs.Lib.Bits
import Mathlib.Data.List.Infix

/-!
C57: string functions.  C58: string builders.
-/
namespace Che.Props
open Che.Lib Che.Lib.Strings Che.Spec.Lib

/-! ### Comparing -/

/-- C57: `starts_with` tells whether the second string is a prefix of the first. -/
theorem C57_starts_with (s p : Bytes) : starts_with s p = true ↔ p <+: s := by
  induction s generalizing p with
  | nil => cases p <;> simp [starts_with]
  | cons a s ih =>
    cases p with
    | nil => simp [starts_with]
    | cons b p =>
      rw [starts_with, List.cons_prefix_cons]
      by_cases h : a = b
      · simp [h, ih]
      · simp [h]; intro e; exact absurd e.symm h

theorem tolower_spec (c : UInt8) : tolower c = asciiLower c := rfl

/-- C57: the same ignoring the case of ASCII letters. -/
theorem C57_starts_with_i (s p : Bytes) : starts_with_i s p = true ↔ p.map asciiLower <+: s.map asciiLower := by
  induction s generalizing p with
  | nil => cases p <;> simp [starts_with_i]
  | cons a s ih =>
    cases p with
    | nil => simp [starts_with_i]
    | cons b p =>
      rw [starts_with_i, List.map_cons, List.map_cons, List.cons_prefix_cons, tolower_spec, tolower_spec]
      by_cases h : asciiLower a = asciiLower b
      · simp [h, ih]
      · simp [h]; intro e; exact absurd e.symm h

/-- C57: `casecmp` tells whether the strings are equal ignoring the case of ASCII
letters. -/
theorem C57_casecmp (a b : Bytes) : casecmp a b = true ↔ a.map asciiLower = b.map asciiLower := by
  induction a generalizing b with
  | nil => cases b <;> simp [casecmp]
  | cons x a ih =>
    cases b with
    | nil => simp [casecmp]
    | cons y b =>
      rw [casecmp, List.map_cons, List.map_cons, tolower_spec, tolower_spec]
      by_cases h : asciiLower x = asciiLower y
      · simp [h, ih]
      · simp [h]

theorem endsLoop_spec (s p : Bytes) (x y : Nat) (hx : x ≤ s.length) (hy : y ≤ p.length) :
    endsLoop s p x y = true ↔ y ≤ x ∧ ∀ j, 1 ≤ j → j ≤ y → s.getD (x - y + j) 0 = p.getD j 0 := by
  induction x generalizing y with
  | zero =>
    rw [endsLoop]
    · constructor
      · intro h
        simp at h
        subst h
        exact ⟨Nat.le_refl _, fun j h1 h2 => by omega⟩
      · rintro ⟨h, _⟩
        simp; omega
    · intro x y h; omega
  | succ x ih =>
    cases y with
    | zero =>
      rw [endsLoop]
      · constructor
        · intro _; exact ⟨by omega, fun j h1 h2 => by omega⟩
        · intro _; rfl
      · intro x y _ h; omega
    | succ y =>
      rw [endsLoop]
      have := ih y (by omega) (by omega)
      by_cases he : s.getD (x + 1) 0 = p.getD (y + 1) 0
      · rw [if_neg (by simpa using he), this]
        constructor
        · rintro ⟨h1, h2⟩
          refine ⟨by omega, ?_⟩
          intro j hj1 hj2
          by_cases hj : j = y + 1
          · subst hj
            have : x + 1 - (y + 1) + (y + 1) = x + 1 := by omega
            rw [this]; exact he
          · have e : x + 1 - (y + 1) = x - y := by omega
            rw [e]
            exact h2 j hj1 (by omega)
        · rintro ⟨h1, h2⟩
          refine ⟨by omega, ?_⟩
          intro j hj1 hj2
          have := h2 j hj1 (by omega)
          have e : x + 1 - (y + 1) = x - y := by omega
          rwa [e] at this
      · rw [if_pos he]
        constructor
        · intro h; simp at h
        · rintro ⟨h1, h2⟩
          exfalso
          apply he
          have := h2 (y + 1) (by omega) (Nat.le_refl _)
          have e : x + 1 - (y + 1) + (y + 1) = x + 1 := by omega
          rwa [e] at this

/-- C57, what `ends_with` does: it does not look at the first character of the suffix. -/
theorem C57_ends_with_partial (s p : Bytes) :
    ends_with s p = true ↔ p.length ≤ s.length ∧ p.drop 1 <:+ s := by
  rw [ends_with, endsLoop_spec s p _ _ (Nat.le_refl _) (Nat.le_refl _)]
  constructor
  · rintro ⟨h1, h2⟩
    refine ⟨h1, ?_⟩
    rw [List.suffix_iff_eq_drop]
    apply List.ext_getElem?
    intro j
    rw [List.getElem?_drop, List.getElem?_drop]
    by_cases hj : 1 + j < p.length
    · have := h2 (1 + j) (by omega) (by omega)
      have hidx : s.length - (p.drop 1).length + j = s.length - p.length + (1 + j) := by
        rw [List.length_drop]; omega
      rw [hidx]
      rw [List.getD_eq_getElem?_getD, List.getD_eq_getElem?_getD, List.getElem?_eq_getElem hj,
        List.getElem?_eq_getElem (by omega)] at this
      rw [List.getElem?_eq_getElem hj, List.getElem?_eq_getElem (by omega)]
      simpa using this.symm
    · rw [List.getElem?_eq_none (by omega), List.getElem?_eq_none (by rw [List.length_drop]; omega)]
  · rintro ⟨h1, h2⟩
    refine ⟨h1, ?_⟩
    intro j hj1 hj2
    rw [List.suffix_iff_eq_drop] at h2
    by_cases hj : j = p.length
    · subst hj
      rw [List.getD_eq_getElem?_getD, List.getD_eq_getElem?_getD, List.getElem?_eq_none (by omega),
        List.getElem?_eq_none (by omega)]
    · have : (p.drop 1)[j - 1]? = (s.drop (s.length - (p.drop 1).length))[j - 1]? := by rw [← h2]
      rw [List.getElem?_drop, List.getElem?_drop, List.length_drop] at this
      have e1 : 1 + (j - 1) = j := by omega
      have e2 : s.length - (p.length - 1) + (j - 1) = s.length - p.length + j := by omega
      rw [e1, e2] at this
      rw [List.getD_eq_getElem?_getD, List.getD_eq_getElem?_getD, this]

/-- C57: a suffix is recognised. -/
theorem C57_ends_with_complete (s p : Bytes) (h : p <:+ s) : ends_with s p = true := by
  rw [C57_ends_with_partial]
  exact ⟨h.length_le, (List.drop_suffix 1 p).trans h⟩

/-- C57 is false of `ends_with`: "abc" ends with "xbc". -/
theorem C57_counterexample_ends_with : ends_with [97, 98, 99] [120, 98, 99] = true ∧ ¬ [120, 98, 99] <:+ [97, 98, 99] := by
  decide +kernel

/-! ### Trimming -/

theorem rtrimLoop_spec (set s : Bytes) (n : Nat) (hn : n ≤ s.length) :
    ∃ k ≤ n, rtrimLoop set s n = s.take k ∧ (∀ j, k ≤ j → j < n → s.getD j 0 ∈ set) ∧ (k = 0 ∨ s.getD (k - 1) 0 ∉ set) := by
  induction n with
  | zero => exact ⟨0, Nat.le_refl _, by simp [rtrimLoop], fun j h1 h2 => by omega, Or.inl rfl⟩
  | succ n ih =>
    rw [rtrimLoop]
    by_cases h : s.getD n 0 ∈ set
    · rw [if_pos (by simpa using h)]
      obtain ⟨k, h1, h2, h3, h4⟩ := ih (by omega)
      refine ⟨k, by omega, h2, ?_, h4⟩
      intro j hj1 hj2
      by_cases hj : j = n
      · subst hj; exact h
      · exact h3 j hj1 (by omega)
    · rw [if_neg (by simpa using h)]
      exact ⟨n + 1, Nat.le_refl _, rfl, fun j h1 h2 => by omega, Or.inr h⟩

/-- C57: `rtrim` cuts characters of the set off the end, as many as possible. -/
theorem C57_rtrim (s set : Bytes) :
    ∃ cut, s = rtrim s set ++ cut ∧ (∀ c ∈ cut, c ∈ set) ∧ ∀ c, (rtrim s set).getLast? = some c → c ∉ set := by
  obtain ⟨k, h1, h2, h3, h4⟩ := rtrimLoop_spec set s s.length (Nat.le_refl _)
  refine ⟨s.drop k, ?_, ?_, ?_⟩
  · rw [rtrim, h2, List.take_append_drop]
  · intro c hc
    obtain ⟨j, hj, rfl⟩ := List.getElem_of_mem hc
    rw [List.length_drop] at hj
    have := h3 (k + j) (by omega) (by omega)
    rw [List.getD_eq_getElem?_getD, List.getElem?_eq_getElem (by omega)] at this
    simpa using this
  · intro c hc
    rw [rtrim, h2] at hc
    rcases h4 with rfl | h4
    · simp at hc
    · rw [List.getLast?_eq_getElem?, List.length_take, Nat.min_eq_left h1] at hc
      by_cases hk : k = 0
      · subst hk; simp at hc
      · rw [List.getElem?_take_of_lt (by omega)] at hc
        rw [List.getD_eq_getElem?_getD, hc] at h4
        exact h4

theorem isspace_spec (c : UInt8) : isspace c = true ↔ c ∈ whitespace := by
  have : ∀ n : Fin 256, isspace (UInt8.ofNat n.val) = true ↔ UInt8.ofNat n.val ∈ whitespace := by decide +kernel
  exact Che.Lib.Bits.forall_byte (P := fun c => isspace c = true ↔ c ∈ whitespace) this c

theorem leftSpaces_spec (s : Bytes) :
    (∀ c ∈ s.take (leftSpaces s), c ∈ whitespace) ∧ ∀ c, (s.drop (leftSpaces s)).head? = some c → c ∉ whitespace := by
  induction s with
  | nil => simp [leftSpaces]
  | cons a s ih =>
    rw [leftSpaces]
    by_cases h : isspace a = true
    · rw [if_pos h]
      simp only [List.take_succ_cons, List.drop_succ_cons, List.mem_cons, forall_eq_or_imp]
      exact ⟨⟨(isspace_spec a).1 h, ih.1⟩, ih.2⟩
    · rw [if_neg h]
      refine ⟨by simp, ?_⟩
      intro c hc
      simp at hc
      subst hc
      exact fun e => h ((isspace_spec a).2 e)

/-- C57, what `trim` does: on the left all white space is removed, on the right only
space, tab, carriage return and new line. -/
theorem C57_trim_partial (s : Bytes) :
    ∃ l r, s = l ++ trim s ++ r ∧ (∀ c ∈ l, c ∈ whitespace) ∧ (∀ c ∈ r, c ∈ [32, 9, 13, 10]) ∧
      (∀ c, (trim s).head? = some c → c ∉ whitespace) ∧ ∀ c, (trim s).getLast? = some c → c ∉ [32, 9, 13, 10] := by
  have hs : trim s = rtrim (s.drop (leftSpaces s)) [32, 9, 13, 10] := by
    unfold trim
    simp only
    split
    · rfl
    · have : leftSpaces s = 0 := by omega
      rw [this]; rfl
  obtain ⟨h1, h2⟩ := leftSpaces_spec s
  obtain ⟨cut, c1, c2, c3⟩ := C57_rtrim (s.drop (leftSpaces s)) [32, 9, 13, 10]
  rw [hs]
  refine ⟨s.take (leftSpaces s), cut, ?_, h1, c2, ?_, c3⟩
  · rw [List.append_assoc, ← c1, List.take_append_drop]
  · intro c hc
    refine h2 c ?_
    rw [c1]
    cases hr : rtrim (s.drop (leftSpaces s)) [32, 9, 13, 10] with
    | nil => rw [hr] at hc; simp at hc
    | cons a t => rw [hr] at hc; simpa using hc

/-- C57: `trim` leaves a vertical tab or form feed at the end (it removes them at the
start). -/
theorem C57_counterexample_trim : trim [11, 97, 11] = [97, 11] := by decide +kernel

/-! ### Splitting -/

theorem strstr_spec (needle s : Bytes) :
    (∀ i, strstr needle s = some i → i ≤ s.length ∧ needle <+: s.drop i ∧ ∀ j < i, ¬ needle <+: s.drop j) ∧
    (strstr needle s = none → ¬ needle <:+: s) := by
  induction s with
  | nil =>
    rw [strstr]
    by_cases h : needle = []
    · simp [h]
    · simp [h]
  | cons c s ih =>
    rw [strstr]
    by_cases h : needle.isPrefixOf (c :: s) = true
    · rw [if_pos h]
      refine ⟨?_, by simp⟩
      intro i hi
      injection hi with hi
      subst hi
      exact ⟨by simp, List.isPrefixOf_iff_prefix.1 h, fun j hj => by omega⟩
    · rw [if_neg h]
      have hno : ¬ needle <+: c :: s := fun e => h (List.isPrefixOf_iff_prefix.2 e)
      refine ⟨?_, ?_⟩
      · intro i hi
        cases hs : strstr needle s with
        | none => rw [hs] at hi; simp at hi
        | some i' =>
          rw [hs] at hi
          simp at hi
          subst hi
          obtain ⟨a, b, d⟩ := ih.1 i' hs
          refine ⟨by simpa using a, by simpa using b, ?_⟩
          intro j hj
          cases j with
          | zero => simpa using hno
          | succ j => simpa using d j (by omega)
      · intro hs
        have hnone : strstr needle s = none := by
          cases hx : strstr needle s with
          | none => rfl
          | some _ => rw [hx] at hs; simp at hs
        rw [List.infix_cons_iff]
        rintro (e | e)
        · exact hno e
        · exact ih.2 hnone e

/-- C57: splitting gives at most the number of parts asked for; put together with the
separator they are the string; each part but the last ends where the separator occurs
for the first time; and the last part has no separator in it unless the number of parts
is the number asked for. -/
theorem C57_split (sep str : Bytes) (size : Nat) (h1 : 1 ≤ size) (hsep : sep ≠ []) :
    ∃ parts, split sep str size = .ok parts ∧ joined sep parts = str ∧ parts ≠ [] ∧ parts.length ≤ size ∧
      (∀ p ∈ parts.dropLast, ∀ j, j < p.length → ¬ sep <+: (p ++ sep).drop j) ∧
      (parts.length < size → ∀ p, parts.getLast? = some p → ¬ sep <:+: p) := by
  unfold split
  induction size generalizing str with
  | zero => omega
  | succ k ih =>
    cases k with
    | zero => exact ⟨[str], rfl, rfl, by simp, by simp, by simp, by simp⟩
    | succ k =>
      rw [splitLoop]
      cases hs : strstr sep str with
      | none =>
        refine ⟨[str], rfl, rfl, by simp, by simp, by simp, ?_⟩
        intro _ p hp
        simp at hp
        subst hp
        exact (strstr_spec sep str).2 hs
      | some pos =>
        obtain ⟨a, b, d⟩ := (strstr_spec sep str).1 pos hs
        obtain ⟨parts, i1, i2, i3, i4, i5, i6⟩ := ih (str.drop (pos + sep.length)) (by omega)
        have hpart : newsubstr str 0 pos = str.take pos := by simp [newsubstr]
        have hstr : str = str.take pos ++ sep ++ str.drop (pos + sep.length) := by
          obtain ⟨t, ht⟩ := b
          have : str.drop (pos + sep.length) = t := by
            rw [← List.drop_drop, ← ht, List.drop_left]
          rw [this, List.append_assoc, ht, List.take_append_drop]
        refine ⟨newsubstr str 0 pos :: parts, by simp only [bind, Res.bind, i1], ?_, by simp, by simpa using i4, ?_, ?_⟩
        · cases parts with
          | nil => exact absurd rfl i3
          | cons q rest => rw [joined, i2, hpart, ← hstr]
        · intro p hp j hj
          rw [List.dropLast_cons_of_ne_nil i3] at hp
          rcases List.mem_cons.1 hp with rfl | hp
          · rw [hpart] at hj ⊢
            have hj' : j < pos := by rw [List.length_take] at hj; omega
            intro hpre
            refine d j hj' (hpre.trans ?_)
            have : str.drop j = (str.take pos ++ sep).drop j ++ str.drop (pos + sep.length) := by
              conv => lhs; rw [hstr]
              rw [List.drop_append_of_le_length]
              rw [List.length_append, List.length_take]; omega
            rw [this]
            exact List.prefix_append _ _
          · exact i5 p hp j hj
        · intro hlen p hp
          refine i6 (by simpa using hlen) p ?_
          cases parts with
          | nil => exact absurd rfl i3
          | cons q rest => simpa using hp

/-- C57 is false when no slots are offered: the result is written past the end. -/
theorem C57_counterexample_split (sep str : Bytes) : ∃ msg, split sep str 0 = .panic msg :=
  ⟨_, rfl⟩

/-! ### Digits and case -/

/-- C57: the two digit functions are inverse to each other, and -1 is for anything that
is not a digit. -/
theorem C57_digits (n : Nat) (c : UInt8) :
    (n ≤ 9 → ∃ d, ascii_digit n = .ok d ∧ num_from_ascii d.toNat = n) ∧
    (num_from_ascii c.toNat ≠ -1 → ascii_digit (num_from_ascii c.toNat) = .ok c) ∧
    (num_from_ascii c.toNat = -1 ↔ ¬ (0x30 ≤ c ∧ c ≤ 0x39)) := by
  refine ⟨?_, ?_, ?_⟩
  · intro h
    have : ∀ n : Fin 10, ∃ d, ascii_digit (n.val : Int) = .ok d ∧ num_from_ascii d.toNat = n.val := by
      intro n
      refine ⟨UInt8.ofNat (48 + n.val), ?_, ?_⟩ <;> revert n <;> decide +kernel
    exact this ⟨n, by omega⟩
  · revert c
    apply Che.Lib.Bits.forall_byte
    decide +kernel
  · revert c
    apply Che.Lib.Bits.forall_byte
    decide +kernel

/-- C57: `allupper` tells whether there is no lower case ASCII letter. -/
theorem C57_allupper (s : Bytes) : allupper s = true ↔ ∀ c ∈ s, ¬ (0x61 ≤ c ∧ c ≤ 0x7A) := by
  induction s with
  | nil => simp [allupper]
  | cons a s ih =>
    rw [allupper]
    by_cases h : islower a = true
    · rw [if_pos h]
      constructor
      · intro e; simp at e
      · intro e
        exact absurd (by simpa [islower] using h) (e a List.mem_cons_self)
    · rw [if_neg h, ih]
      constructor
      · intro e c hc
        rcases List.mem_cons.1 hc with rfl | hc
        · intro e'; exact h (by simpa [islower] using e')
        · exact e c hc
      · intro e c hc; exact e c (List.mem_cons_of_mem _ hc)

example : split [44] [97, 44, 98, 44, 99] 9 = .ok [[97], [98], [99]] := by decide +kernel
example : split [44] [97, 44, 98, 44, 99] 2 = .ok [[97], [98, 44, 99]] := by decide +kernel
example : trim [32, 97, 32, 98, 10, 32] = [97, 32, 98] := by decide +kernel
example : casecmp [72, 105] [104, 73] = true := by decide +kernel

/-! ### C58: `strbuilder.c` -/
open Che.Lib.StrBuilder

/-- A builder holds the text, and zeros after it; `b` bounds the lengths it has had. -/
structure Holds (b : Nat) (s : Str) (text : Bytes) : Prop where
  err : s.err = false
  len : s.len = text.length
  room : s.len < s.max ∨ s.max = 0 ∧ s.len = 0
  data : s.data = text ++ List.replicate (s.max - s.len) 0
  max : s.max = 0 ∨ 16 ≤ s.max
  bound : s.len ≤ b ∧ s.max ≤ 2 * b + 32

theorem put_holds (b : Nat) (s : Str) (text : Bytes) (c : UInt8) (h : Holds b s text) (hroom : s.len + 1 < s.max)
    (hb : s.len < b) : Holds b (put s c) (text ++ [c]) := by
  obtain ⟨h1, h2, h3, h4, h5, h6⟩ := h
  refine ⟨h1, by simp [put, h2], Or.inl (by simpa [put] using hroom), ?_, ?_, ?_⟩
  · simp only [put]
    rw [h4, h2, List.set_append_right _ _ (Nat.le_refl _), Nat.sub_self]
    have : s.max - text.length = (s.max - (text.length + 1)) + 1 := by omega
    rw [this, List.replicate_succ, List.set_cons_zero]
    simp
  · simp only [put]; omega
  · simp only [put]; omega

theorem holds_mono (b b' : Nat) (s : Str) (text : Bytes) (h : Holds b s text) (hb : b ≤ b') : Holds b' s text :=
  ⟨h.err, h.len, h.room, h.data, h.max, by have := h.bound; omega⟩

theorem addc_holds (b : Nat) (s : Str) (text : Bytes) (c : UInt8) (h : Holds b s text) (hlim : b < 2 ^ 61) :
    (addc s c).2 = true ∧ Holds (b + 1) (addc s c).1 (text ++ [c]) := by
  have h0 := holds_mono b (b + 1) s text h (by omega)
  obtain ⟨h1, h2, h3, h4, h5, h6⟩ := h
  unfold addc
  rw [h1]
  simp only [Bool.false_eq_true, ↓reduceIte]
  by_cases hg : s.len + 1 ≥ s.max
  · rw [if_pos hg]
    have hmax : ¬ s.max > SIZE_MAX / 2 := by
      have : SIZE_MAX / 2 = 2 ^ 63 - 1 := by decide
      omega
    have hgrow : grow s = some { s with max := (if s.max = 0 then 16 else s.max * 2),
                                        data := s.data.take s.len ++ List.replicate ((if s.max = 0 then 16 else s.max * 2) - s.len) 0 } := by
      unfold grow
      rw [if_neg hmax]
    rw [hgrow]
    refine ⟨rfl, put_holds (b + 1) _ text c ⟨h1, h2, ?_, ?_, ?_, ?_⟩ ?_ ?_⟩
    · left; simp only; split <;> omega
    · simp only
      rw [h4, h2, List.take_left]
    · right; simp only; split <;> omega
    · simp only; split <;> omega
    · simp only; split <;> omega
    · simp only; omega
  · rw [if_neg hg]
    exact ⟨rfl, put_holds (b + 1) s text c h0 (by omega) (by omega)⟩

theorem adds_holds (t : Bytes) (b : Nat) (s : Str) (text : Bytes) (h : Holds b s text) (hlim : b + t.length < 2 ^ 61) :
    (adds s t).2 = true ∧ Holds (b + t.length) (adds s t).1 (text ++ t) := by
  induction t generalizing b s text with
  | nil => simp [adds, h.err, h]
  | cons c t ih =>
    simp only [List.length_cons] at hlim
    obtain ⟨a1, a2⟩ := addc_holds b s text c h (by omega)
    rw [adds, h.err]
    simp only [Bool.false_eq_true, ↓reduceIte, a1, Bool.not_true]
    have := ih _ _ _ a2 (by omega)
    rw [List.append_assoc] at this
    have e : b + (c :: t).length = b + 1 + t.length := by rw [List.length_cons]; omega
    rw [e]
    exact this

theorem clear_holds (b : Nat) (s : Str) (text : Bytes) (h : Holds b s text) : Holds b (clear s) [] := by
  obtain ⟨h1, h2, h3, h4, h5, h6⟩ := h
  unfold clear
  by_cases h0 : s.len = 0
  · rw [if_pos h0]
    have : text = [] := List.length_eq_zero_iff.1 (by omega)
    subst this
    exact ⟨h1, h2, h3, h4, h5, h6⟩
  · rw [if_neg h0]
    refine ⟨h1, rfl, ?_, ?_, h5, ?_⟩
    · left; simp only; omega
    · simp only
      rw [h4, h2, List.drop_left, List.replicate_append_replicate, List.nil_append]
      congr 1; omega
    · simp only; omega

/-- Calls on a builder. -/
inductive BuildOp
  | char (c : UInt8)
  | str (s : Bytes)
  | format (text : Bytes)
  | clear

/-- The builder after a call. -/
def BuildOp.run (s : Str) : BuildOp → Str
  | .char c => (addc s c).1
  | .str t => (adds s t).1
  | .format t => (addf s t).1
  | .clear => StrBuilder.clear s

/-- The text after a call: formatted text is cut at 999 bytes. -/
def BuildOp.after (text : Bytes) : BuildOp → Bytes
  | .char c => text ++ [c]
  | .str t => text ++ t
  | .format t => text ++ t.take 999
  | .clear => []

/-- How much a call adds at most. -/
def BuildOp.size : BuildOp → Nat
  | .char _ => 1
  | .str t => t.length
  | .format t => t.length
  | .clear => 0

theorem build_holds (ops : List BuildOp) (b : Nat) (s : Str) (text : Bytes) (h : Holds b s text)
    (hlim : b + (ops.map BuildOp.size).sum < 2 ^ 61) :
    ∃ b', Holds b' (ops.foldl BuildOp.run s) (ops.foldl BuildOp.after text) := by
  induction ops generalizing b s text with
  | nil => exact ⟨b, h⟩
  | cons op ops ih =>
    simp only [List.map_cons, List.sum_cons] at hlim
    have hop : Holds (b + op.size) (op.run s) (op.after text) := by
      cases op with
      | char c => exact (addc_holds b s text c h (by omega)).2
      | str t => exact (adds_holds t b s text h (by simp only [BuildOp.size] at hlim; omega)).2
      | format t =>
        have hl : (t.take 999).length ≤ t.length := by rw [List.length_take]; omega
        have := (adds_holds (t.take 999) b s text h (by simp only [BuildOp.size] at hlim; omega)).2
        refine holds_mono _ _ _ _ ?_ (Nat.add_le_add_left hl b)
        simpa [BuildOp.run, BuildOp.after, addf, h.err] using this
      | clear => exact clear_holds b s text h
    exact ih _ _ _ hop (by omega)

/-- C58: whatever was done with a builder, its length is the length of the text, its
buffer begins with the text, and a NUL follows (unless there is nothing in it). -/
theorem C58_text (ops : List BuildOp) (hlim : (ops.map BuildOp.size).sum < 2 ^ 61) :
    (ops.foldl BuildOp.run new).err = false ∧
    (ops.foldl BuildOp.run new).len = (ops.foldl BuildOp.after []).length ∧
    ops.foldl BuildOp.after [] <+: (ops.foldl BuildOp.run new).data ∧
    (ops.foldl BuildOp.after [] ≠ [] → (ops.foldl BuildOp.run new).data[(ops.foldl BuildOp.after []).length]? = some 0) := by
  have h0 : Holds 0 new [] := ⟨rfl, rfl, Or.inr ⟨rfl, rfl⟩, rfl, Or.inl rfl, by decide⟩
  obtain ⟨b, h⟩ := build_holds ops 0 new [] h0 (by omega)
  refine ⟨h.err, h.len, by rw [h.data]; exact List.prefix_append _ _, ?_⟩
  intro hne
  have hpos := List.length_pos_iff.2 hne
  have hl := h.len
  have hroom : (ops.foldl BuildOp.run new).len < (ops.foldl BuildOp.run new).max := by
    rcases h.room with hr | hr
    · exact hr
    · omega
  rw [h.data, List.getElem?_append_right (Nat.le_refl _), Nat.sub_self]
  rw [List.getElem?_replicate, if_pos (by omega)]

/-- C58, what C code sees: the raw string is the text if no NUL was added. -/
theorem C58_raw (ops : List BuildOp) (hlim : (ops.map BuildOp.size).sum < 2 ^ 61)
    (hz : 0 ∉ ops.foldl BuildOp.after []) : raw (ops.foldl BuildOp.run new) = ops.foldl BuildOp.after [] := by
  have h0 : Holds 0 new [] := ⟨rfl, rfl, Or.inr ⟨rfl, rfl⟩, rfl, Or.inl rfl, by decide⟩
  obtain ⟨b, h⟩ := build_holds ops 0 new [] h0 (by omega)
  rw [raw, h.data, List.takeWhile_append_of_pos]
  · have : List.takeWhile (fun x : UInt8 => decide (x ≠ 0))
        (List.replicate ((ops.foldl BuildOp.run new).max - (ops.foldl BuildOp.run new).len) 0) = [] := by
      cases (ops.foldl BuildOp.run new).max - (ops.foldl BuildOp.run new).len with
      | zero => rfl
      | succ n => rw [List.replicate_succ]; rfl
    rw [this, List.append_nil]
  · intro c hc
    have : c ≠ 0 := fun e => hz (e ▸ hc)
    simpa using this

/-- C58: formatted text of 1000 bytes or more loses its end, and the call succeeds. -/
theorem C58_counterexample_format (text : Bytes) (h : 999 < text.length) (hlim : text.length < 2 ^ 61) :
    (addf new text).2 = true ∧ (addf new text).1.len = 999 := by
  have h0 : Holds 0 new [] := ⟨rfl, rfl, Or.inr ⟨rfl, rfl⟩, rfl, Or.inl rfl, by decide⟩
  have hl : (text.take 999).length = 999 := by rw [List.length_take]; omega
  obtain ⟨a, b⟩ := adds_holds (text.take 999) 0 new [] h0 (by omega)
  unfold addf
  refine ⟨by simpa [new] using a, ?_⟩
  have := b.len
  rw [List.nil_append, hl] at this
  simpa [new] using this

example : ([.str [104, 105], .char 33, .clear, .format [111, 107]] : List BuildOp).foldl BuildOp.after [] = [111, 107] := rfl
example : raw (([.str [104, 105], .char 33, .clear, .format [111, 107]] : List BuildOp).foldl BuildOp.run new) = [111, 107] := by
  decide +kernel

end Che.Props
