import Std.Data.String.ToNat
import Verif.Proofs.Heads
import Verif.Spec.Names
import Verif.Spec.Demo
/-!
# C14, C15: generated global names
-/
namespace Che.Props
open Che Spec

/-- Texts that agree up to the first underscore. -/
theorem split_underscore : ∀ {a b r s : List Char}, '_' ∉ a → '_' ∉ b →
    a ++ '_' :: r = b ++ '_' :: s → a = b ∧ r = s := by
  intro a
  induction a with
  | nil =>
    intro b r s _ hb h
    cases b with
    | nil => simpa using h
    | cons c cs =>
      simp only [List.nil_append, List.cons_append, List.cons.injEq] at h
      simp [← h.1] at hb
  | cons c cs ih =>
    intro b r s ha hb h
    cases b with
    | nil =>
      simp only [List.nil_append, List.cons_append, List.cons.injEq] at h
      simp [h.1] at ha
    | cons d ds =>
      simp only [List.cons_append, List.cons.injEq] at h
      simp only [List.mem_cons, not_or] at ha hb
      obtain ⟨h1, h2⟩ := ih ha.2 hb.2 h.2
      exact ⟨by rw [h.1, h1], h2⟩

theorem toList_modId (i : Nat) (p : String) :
    (modId i p).toList =
      'm' :: 'o' :: 'd' :: (Nat.toDigits 10 i ++ '_' :: (RStr.replace (basename p) ".c" "").toList) := by
  simp [modId, String.toList_append]

/-- The module number can be read off the generated name. -/
theorem modId_prefix_inj {i j : Nat} {p q x y : String}
    (h : nsprefix (modId i p) x = nsprefix (modId j q) y) : i = j := by
  have h := congrArg String.toList h
  simp only [nsprefix, String.toList_append, toList_modId, List.cons_append, List.append_assoc,
    List.cons.injEq, true_and] at h
  obtain ⟨h, _⟩ := split_underscore Nat.underscore_not_in_toDigits Nat.underscore_not_in_toDigits h
  apply Nat.repr_injective
  rw [Nat.repr_eq_ofList_toDigits, Nat.repr_eq_ofList_toDigits, h]

/-- C14: within a project the C names of two exported elements are equal only if
module and element name are the same. -/
theorem C14_names_injective [Unicode] {fs : FS} {fuel : Nat} {main : String}
    {heads : List ModuleInfo} (h : projectHeads fs fuel main = .ok heads)
    {i j : Nat} {a b : ModuleInfo} (hi : heads[i]? = some a) (hj : heads[j]? = some b)
    (x y : String) :
    nsprefix a.uniqid x = nsprefix b.uniqid y ↔ i = j ∧ x = y := by
  obtain ⟨_, _, _, _, hget⟩ := projectHeads_get h
  obtain ⟨ma, _, ha⟩ := hget i a hi
  obtain ⟨mb, _, hb⟩ := hget j b hj
  have ha' : a.uniqid = modId i a.filepath := congrArg ModuleInfo.uniqid ha
  have hb' : b.uniqid = modId j b.filepath := congrArg ModuleInfo.uniqid hb
  constructor
  · intro e
    rw [ha', hb'] at e
    have hij := modId_prefix_inj e
    subst hij
    rw [hi] at hj; cases hj
    refine ⟨rfl, ?_⟩
    have e := congrArg String.toList e
    simp only [nsprefix, String.toList_append, List.append_assoc] at e
    exact String.toList_injective (List.append_cancel_left (List.append_cancel_left e))
  · rintro ⟨rfl, rfl⟩
    rw [hi] at hj; cases hj; rfl

/-- The two modules of the example really have different names for `f`, although
both files are called `a.c`. -/
example : nsprefix (modId 0 "/p/a.c") "f" ≠ nsprefix (modId 1 "/q/a.c") "f" := by decide +kernel

/-! ## C15 -/

theorem identChar_digit {c : Char} (h : c.isDigit = true) : IdentChar c := by
  simp only [Char.isDigit, ge_iff_le, Bool.and_eq_true, decide_eq_true_eq] at h
  exact .inr (.inr (.inl ⟨h.1, h.2⟩))

/-- C15: a generated name is an identifier exactly when the base name of the
module's file, without `.c`, consists of identifier characters. -/
theorem C15_iff_partial (i : Nat) (p : String) {x : String} (hx : CIdent x) :
    CIdent (nsprefix (modId i p) x) ↔
      ∀ c ∈ (RStr.replace (basename p) ".c" "").toList, IdentChar c := by
  have hl : (nsprefix (modId i p) x).toList =
      'm' :: 'o' :: 'd' :: (Nat.toDigits 10 i ++ '_' ::
        ((RStr.replace (basename p) ".c" "").toList ++ '_' :: '_' :: x.toList)) := by
    simp [nsprefix, String.toList_append, toList_modId]
  have hus : IdentChar '_' := by simp [IdentChar]
  obtain ⟨x0, xs, hxl, _, hxall⟩ := hx
  constructor
  · rintro ⟨c, cs, hc, _, hall⟩ d hd
    rw [hl] at hc
    simp only [List.cons.injEq] at hc
    obtain ⟨rfl, rfl⟩ := hc
    exact hall d (by simp [hd])
  · intro h
    refine ⟨'m', _, hl, by decide, ?_⟩
    intro d hd
    simp only [List.mem_cons, List.mem_append] at hd
    rcases hd with rfl | rfl | rfl | hd | rfl | hd | rfl | rfl | hd
    · simp [IdentChar]
    · simp [IdentChar]
    · simp [IdentChar]
    · exact identChar_digit (Nat.isDigit_of_mem_toDigits (by decide) (by decide) hd)
    · exact hus
    · exact h d hd
    · exact hus
    · exact hus
    · rw [hxl] at hd; exact hxall d hd

theorem splitL_getLast : ∀ (d b : List Char), '/' ∉ b →
    (RStr.splitL '/' (d ++ '/' :: b)).getLast? = some b := by
  have base : ∀ b : List Char, '/' ∉ b → RStr.splitL '/' b = [b] := by
    intro b
    induction b with
    | nil => intro _; rfl
    | cons c cs ih =>
      intro h
      simp only [List.mem_cons, not_or] at h
      simp [RStr.splitL, ih h.2, Ne.symm h.1]
  intro d b hb
  induction d with
  | nil => simp [RStr.splitL, base b hb]
  | cons c cs ih =>
    simp only [List.cons_append, RStr.splitL]
    split
    · rw [List.getLast?_cons]; simp [ih]
    · cases hs : RStr.splitL '/' (cs ++ '/' :: b) with
      | nil => rw [hs] at ih; simp at ih
      | cons q qs =>
        rw [hs] at ih
        cases qs with
        | nil =>
          exfalso
          -- a list with a separator has at least two pieces
          have : ∀ l : List Char, (RStr.splitL '/' (l ++ '/' :: b)).length ≥ 2 := by
            intro l
            induction l with
            | nil => simp [RStr.splitL, base b hb]
            | cons e es ih2 =>
              simp only [List.cons_append, RStr.splitL]
              split
              · simp only [List.length_cons]; omega
              · cases hq : RStr.splitL '/' (es ++ '/' :: b) with
                | nil => rw [hq] at ih2; simp at ih2
                | cons _ _ => rw [hq] at ih2; simpa using ih2
          have := this cs
          rw [hs] at this
          simp at this
        | cons r rs => simpa [List.getLast?_cons] using ih

theorem replaceL_stem : ∀ (stem : List Char) (n : Nat), '.' ∉ stem → stem.length + 2 ≤ n →
    RStr.replaceL ".c".toList "".toList n (stem ++ ".c".toList) = stem := by
  intro stem
  induction stem with
  | nil =>
    intro n _ hn
    obtain ⟨n, rfl⟩ : ∃ k, n = k + 2 := ⟨n - 2, by simp at hn; omega⟩
    simp [RStr.replaceL]
  | cons c cs ih =>
    intro n h hn
    obtain ⟨n, rfl⟩ : ∃ k, n = k + 1 := ⟨n - 1, by simp at hn; omega⟩
    simp only [List.mem_cons, not_or] at h
    have : (".c".toList).isPrefixOf (c :: (cs ++ ".c".toList)) = false := by
      simp [List.isPrefixOf, h.1]
    simp only [List.cons_append, RStr.replaceL, this]
    simp only [Bool.false_eq_true, if_false]
    rw [ih n h.2 (by simp at hn; omega)]

/-- C15 as stated, for module files whose name without `.c` is made of
identifier characters. -/
theorem C15_partial (i : Nat) (dir stem : String) (hs : ∀ c ∈ stem.toList, IdentChar c)
    {x : String} (hx : CIdent x) :
    CIdent (nsprefix (modId i (dir ++ "/" ++ stem ++ ".c")) x) := by
  rw [C15_iff_partial i _ hx]
  have hns : '/' ∉ stem.toList := fun h => by
    have := hs _ h; simp [IdentChar] at this
  have hnd : '.' ∉ stem.toList := fun h => by
    have := hs _ h; simp [IdentChar] at this
  have hb : basename (dir ++ "/" ++ stem ++ ".c") = stem ++ ".c" := by
    have : (RStr.split '/' (dir ++ "/" ++ stem ++ ".c")).getLast? = some (stem ++ ".c") := by
      have hl : (dir ++ "/" ++ stem ++ ".c").toList = dir.toList ++ '/' :: (stem.toList ++ ".c".toList) := by
        simp [String.toList_append]
      rw [RStr.split, List.getLast?_map, hl, splitL_getLast _ _ (by simp [hns])]
      simp only [Option.map_some, Option.some.injEq]
      apply String.toList_injective; simp
    unfold basename
    rw [this]
  rw [hb]
  have : (RStr.replace (stem ++ ".c") ".c" "").toList = stem.toList := by
    unfold RStr.replace
    rw [String.toList_ofList, String.toList_append]
    apply replaceL_stem _ _ hnd
    rw [String.length_append]; exact Nat.le_refl _
  rw [this]; exact hs

/-- C15 is false of the code without that restriction: an exported `f` of `a-b.c`
gets the name `mod0_a-b__f`, which is not an identifier. -/
theorem C15_counterexample :
    CIdent "f" ∧ ¬ CIdent (nsprefix (modId 0 "/p/a-b.c") "f") := by
  have hf : CIdent "f" := ⟨'f', [], rfl, by decide, by simp [IdentChar]⟩
  refine ⟨hf, ?_⟩
  rw [C15_iff_partial 0 _ hf]
  intro h
  have e : (RStr.replace (basename "/p/a-b.c") ".c" "").toList = ['a', '-', 'b'] := by decide +kernel
  rw [e] at h
  have := h '-' (by simp)
  simp [IdentChar] at this

/-- `C15_partial` covers, for instance, `/lib/os_net.c`. -/
example : CIdent (nsprefix (modId 3 ("/lib" ++ "/" ++ "os_net" ++ ".c")) "dial") :=
  C15_partial 3 "/lib" "os_net" (by
    intro c hc
    have : c ∈ ['o', 's', '_', 'n', 'e', 't'] := hc
    simp only [List.mem_cons, List.not_mem_nil, or_false] at this
    rcases this with rfl | rfl | rfl | rfl | rfl | rfl <;> simp [IdentChar]) ⟨'d', ['i', 'a', 'l'], rfl, by decide, by
    intro d hd
    simp only [List.mem_cons, List.not_mem_nil, or_false] at hd
    rcases hd with rfl | rfl | rfl | rfl <;> simp [IdentChar]⟩

end Che.Props
