import Mathlib.Data.List.TakeWhile
import Verif.Model.Resolve
import Verif.Spec.Paths
import Verif.Spec.Demo
/-!
# C10: imports resolve by rule
-/
namespace Che.Props
open Che Spec

theorem pieces_ne_nil (p : List Char) : pieces p ≠ [] := by
  cases p with
  | nil => simp [pieces]
  | cons c cs =>
    simp only [pieces]
    split
    · simp
    · split <;> simp

theorem pieces_noSep {p : List Char} (h : '/' ∉ p) : pieces p = [p] := by
  induction p with
  | nil => rfl
  | cons c cs ih =>
    simp only [List.mem_cons, not_or] at h
    simp [pieces, ih h.2, Ne.symm h.1]

theorem pieces_append (a b : List Char) : pieces (a ++ '/' :: b) = pieces a ++ pieces b := by
  induction a with
  | nil => simp [pieces]
  | cons c cs ih =>
    simp only [List.cons_append, pieces]
    split
    · simp [ih]
    · rw [ih]
      cases h : pieces cs with
      | nil => exact absurd h (pieces_ne_nil cs)
      | cons p ps => simp

theorem comps_append (a b : List Char) : comps (a ++ '/' :: b) = comps a ++ comps b := by
  simp [comps, pieces_append]

/-- `Path::parse_next_component_back` in terms of components. -/
theorem lastComponent_spec {p : List Char} (hlen : p.length > Path.lenBeforeBody p) :
    ∃ comp, (Path.lastComponent p).2 = (comp != [] && comp != ['.']) ∧
      0 < (Path.lastComponent p).1 ∧ (Path.lastComponent p).1 ≤ p.length ∧
      comps p = comps (p.take (p.length - (Path.lastComponent p).1)) ++
        (if (Path.lastComponent p).2 then [comp] else []) ∧
      isAbs (p.take (p.length - (Path.lastComponent p).1)) = isAbs p := by
  generalize hs : Path.lenBeforeBody p = start at hlen
  generalize hb : p.drop start = body
  generalize hc : (body.reverse.takeWhile (fun c => !Path.isSep c)).reverse = comp
  have hl : Path.lastComponent p =
      (comp.length + (if comp.length < body.length then 1 else 0), !(comp == [] || comp == ['.'])) := by
    simp only [Path.lastComponent, hs, hb, hc]
  have hbody : body.length = p.length - start := by rw [← hb]; simp
  have hsplit := List.takeWhile_append_dropWhile (p := fun c => !Path.isSep c) (l := body.reverse)
  generalize hd : body.reverse.dropWhile (fun c => !Path.isSep c) = d at hsplit
  have hbd : body = d.reverse ++ comp := by
    rw [← hc, ← List.reverse_append, hsplit, List.reverse_reverse]
  have hnosep : '/' ∉ comp := by
    intro hm
    rw [← hc, List.mem_reverse] at hm
    have := List.mem_takeWhile_imp hm
    simp [Path.isSep] at this
  have hreal : (!(comp == [] || comp == ['.'])) = (comp != [] && comp != ['.']) := by
    simp [bne, Bool.not_or]
  have hcomp : comps comp = if (comp != [] && comp != ['.']) then [comp] else [] := by
    simp only [comps, pieces_noSep hnosep, List.filter_cons, List.filter_nil]
  have hp : p = p.take start ++ body := by rw [← hb, List.take_append_drop]
  have hstart : start ≤ 1 ∧ (start = 0 ∨ (p.take start = ['/'] ∧ isAbs p = true) ∨
      (p.take start = ['.'] ∧ (body = [] ∨ ∃ r, body = '/' :: r))) := by
    rw [← hs]
    unfold Path.lenBeforeBody Path.includeCurDir Path.hasRoot
    cases p with
    | nil => simp
    | cons c cs =>
      simp only [Path.isSep, beq_iff_eq]
      by_cases hc1 : c = '/'
      · subst hc1; simp [isAbs]
      · simp only [hc1, if_false]
        by_cases hc2 : c = '.'
        · subst hc2
          cases cs with
          | nil =>
            simp only [if_true, List.take_succ_cons, List.take_zero, Nat.zero_add]
            refine ⟨by simp, .inr (.inr ⟨by simp, ?_⟩)⟩
            left
            rw [← hb, ← hs]
            simp [Path.lenBeforeBody, Path.includeCurDir, Path.hasRoot, Path.isSep]
          | cons e es =>
            by_cases he : e = '/'
            · subst he
              simp only [beq_self_eq_true, if_true, Nat.zero_add]
              refine ⟨by simp, .inr (.inr ⟨by simp, ?_⟩)⟩
              right
              refine ⟨es, ?_⟩
              rw [← hb, ← hs]
              simp [Path.lenBeforeBody, Path.includeCurDir, Path.hasRoot, Path.isSep]
            · simp [he]
        · cases cs with
          | nil => simp [hc2]
          | cons e es => simp [hc2]
  refine ⟨comp, by rw [hl]; exact hreal, ?_⟩
  have hbpos : 0 < body.length := by omega
  rw [hl, hreal]
  simp only
  by_cases hlt : comp.length < body.length
  · -- there is a separator before the last component
    rw [if_pos hlt]
    have hdne : d ≠ [] := by
      intro h0; subst h0; simp at hbd; rw [hbd] at hlt; exact absurd hlt (Nat.lt_irrefl _)
    obtain ⟨x, xs, rfl⟩ := List.exists_cons_of_ne_nil hdne
    have hx : x = '/' := by
      have := List.head_dropWhile_not (fun c => !Path.isSep c) (l := body.reverse) (by rw [hd]; simp)
      simp only [hd, List.head_cons] at this
      simpa [Path.isSep] using this
    subst hx
    have hbody2 : body = xs.reverse ++ '/' :: comp := by rw [hbd]; simp
    have hp2 : p = (p.take start ++ xs.reverse) ++ '/' :: comp := by
      conv => lhs; rw [hp, hbody2]
      simp
    have htake : p.take (p.length - (comp.length + 1)) = p.take start ++ xs.reverse := by
      have hlen2 : p.length - (comp.length + 1) = (p.take start ++ xs.reverse).length := by
        have := congrArg List.length hp2
        simp only [List.length_append, List.length_cons] at this ⊢
        omega
      rw [hlen2]
      conv => lhs; rw [hp2]
      rw [List.take_left']
      rw [← hp2]
    have hle : comp.length + 1 ≤ p.length := by
      have := congrArg List.length hp2; simp only [List.length_append, List.length_cons] at this; omega
    refine ⟨by omega, hle, ?_, ?_⟩
    · rw [htake, ← hcomp]
      conv => lhs; rw [hp2]
      exact comps_append _ _
    · rw [htake]
      rcases hstart.2 with h0 | ⟨h0, h1⟩ | ⟨h0, h1⟩
      · subst h0
        simp only [List.take_zero, List.nil_append] at hp2 ⊢
        cases hx : xs.reverse with
        | nil =>
          rw [hx] at hp2
          -- then the path would have had a root
          exfalso
          have : Path.hasRoot p = true := by rw [hp2]; simp [Path.hasRoot, Path.isSep]
          have h2 := hs
          unfold Path.lenBeforeBody at h2
          rw [if_pos this] at h2
          omega
        | cons y ys => rw [hx] at hp2; rw [hp2]; simp [isAbs]
      · rw [h0, h1]; simp [isAbs]
      · rw [h0] at hp2 ⊢; rw [hp2]; simp [isAbs]
  · rw [if_neg hlt]
    have heq : comp = body := by
      have h0 : d = [] := by
        have := congrArg List.length hbd
        simp only [List.length_append, List.length_reverse] at this
        exact List.length_eq_zero_iff.1 (by omega)
      rw [hbd, h0]; simp
    have htake : p.take (p.length - (comp.length + 0)) = p.take start := by
      rw [heq, hbody]
      congr 1; omega
    have hle : comp.length + 0 ≤ p.length := by rw [heq]; omega
    refine ⟨by rw [heq]; omega, hle, ?_, ?_⟩
    · rw [htake, ← hcomp]
      rcases hstart.2 with h0 | ⟨h0, h1⟩ | ⟨h0, h1 | ⟨r, h1⟩⟩
      · subst h0
        rw [heq]
        conv => lhs; rw [hp]
        simp [comps, pieces]
      · rw [h0, heq]
        conv => lhs; rw [hp, h0]
        simp [comps, pieces]
      · rw [h1] at hbpos; simp at hbpos
      · rw [heq, h1] at hnosep; simp at hnosep
    · rw [htake]
      rcases hstart.2 with h0 | ⟨h0, h1⟩ | ⟨h0, h1⟩
      · subst h0
        rw [hp, ← heq]
        simp only [List.take_zero, List.nil_append]
        cases comp with
        | nil => rfl
        | cons y ys =>
          simp only [List.mem_cons, not_or] at hnosep
          simp [isAbs, Ne.symm hnosep.1]
      · rw [h0, h1]; simp [isAbs]
      · rw [h0]
        rw [hp, h0]; simp [isAbs]

theorem comps_nil_of_short {p : List Char} (h : ¬ p.length > Path.lenBeforeBody p) : comps p = [] := by
  cases p with
  | nil => simp [comps, pieces]
  | cons c cs =>
    unfold Path.lenBeforeBody Path.includeCurDir Path.hasRoot at h
    simp only [Path.isSep, beq_iff_eq, List.length_cons] at h
    by_cases hc1 : c = '/'
    · subst hc1
      simp only [if_true, Bool.false_eq_true, if_false] at h
      have : cs = [] := List.length_eq_zero_iff.1 (by omega)
      subst this; decide
    · simp only [hc1, if_false] at h
      have : cs = [] := by
        apply List.length_eq_zero_iff.1
        split at h <;> (try split at h) <;> omega
      subst this
      by_cases hc2 : c = '.'
      · subst hc2; decide
      · simp [hc2] at h

theorem dropLast_spec : ∀ (n : Nat) {p p' : List Char}, Path.dropLast n p = some p' →
    comps p' = (comps p).dropLast ∧ isAbs p' = isAbs p := by
  intro n
  induction n with
  | zero => intro p p' h; simp [Path.dropLast] at h
  | succ n ih =>
    intro p p' h
    unfold Path.dropLast at h
    split at h
    · rename_i hl
      obtain ⟨comp, _, _, _, h4, h5⟩ := lastComponent_spec hl
      split at h
      rename_i size real heq
      simp only [heq] at h4 h5
      split at h
      · rename_i hr
        cases h
        rw [h4]; simp [hr, h5]
      · rename_i hr
        obtain ⟨i1, i2⟩ := ih h
        rw [h4]
        simp only [hr, Bool.false_eq_true, if_false, List.append_nil]
        exact ⟨i1, i2.trans h5⟩
    · cases h

theorem dropLast_some : ∀ (n : Nat) {p : List Char}, p.length ≤ n → comps p ≠ [] →
    ∃ p', Path.dropLast n p = some p' := by
  intro n
  induction n with
  | zero =>
    intro p h hc
    have : p = [] := List.length_eq_zero_iff.1 (by omega)
    subst this; exact absurd (by decide) hc
  | succ n ih =>
    intro p h hc
    unfold Path.dropLast
    split
    · rename_i hl
      obtain ⟨comp, _, h2, h3, h4, _⟩ := lastComponent_spec hl
      split
      rename_i size real heq
      simp only [heq] at h2 h3 h4
      split
      · exact ⟨_, rfl⟩
      · rename_i hr
        apply ih
        · rw [List.length_take]; omega
        · rw [h4] at hc; simpa [hr] using hc
    · rename_i hl
      exact absurd (comps_nil_of_short hl) hc

theorem trimRight_spec : ∀ (n : Nat) (p : List Char),
    comps (Path.trimRight n p) = comps p ∧ isAbs (Path.trimRight n p) = isAbs p := by
  intro n
  induction n with
  | zero => intro p; exact ⟨rfl, rfl⟩
  | succ n ih =>
    intro p
    unfold Path.trimRight
    split
    · rename_i hl
      obtain ⟨comp, _, _, _, h4, h5⟩ := lastComponent_spec hl
      split
      rename_i size real heq
      simp only [heq] at h4 h5
      split
      · exact ⟨rfl, rfl⟩
      · rename_i hr
        obtain ⟨i1, i2⟩ := ih (p.take (p.length - size))
        rw [i1, i2, h5]
        refine ⟨?_, rfl⟩
        rw [h4]; simp [hr]
    · exact ⟨rfl, rfl⟩

/-- `Path::parent` drops the last component. -/
theorem parent_spec {p : List Char} (h : comps p ≠ []) :
    ∃ d, Path.parent p = some d ∧ comps d = (comps p).dropLast ∧ isAbs d = isAbs p := by
  obtain ⟨p', hp'⟩ := dropLast_some p.length (Nat.le_refl _) h
  obtain ⟨h1, h2⟩ := dropLast_spec _ hp'
  obtain ⟨h3, h4⟩ := trimRight_spec p'.length p'
  exact ⟨_, by simp only [Path.parent, hp'], h3.trans h1, h4.trans h2⟩

/-- `Path::join` appends the components. -/
theorem join_spec {d name : List Char} (h : isAbs name = false) :
    comps (Path.join d name) = comps d ++ comps name ∧ isAbs (Path.join d name) = isAbs d := by
  have hr : Path.hasRoot name = false := by
    cases name with
    | nil => rfl
    | cons c cs => simpa [isAbs, Path.hasRoot, Path.isSep] using h
  unfold Path.join
  rw [hr]
  simp only [Bool.false_eq_true, if_false]
  cases hl : d.getLast? with
  | none =>
    have : d = [] := by simpa using hl
    subst this
    exact ⟨by simp [comps, pieces], by simpa [isAbs] using h⟩
  | some c =>
    obtain ⟨ys, rfl⟩ := List.getLast?_eq_some_iff.1 hl
    simp only [Path.isSep, beq_iff_eq]
    split
    · rename_i hc
      subst hc
      rw [List.append_assoc, List.singleton_append, comps_append]
      refine ⟨?_, ?_⟩
      · rw [comps_append]; simp [comps, pieces]
      · cases ys <;> simp [isAbs]
    · have : ys ++ [c] ++ ['/'] ++ name = (ys ++ [c]) ++ '/' :: name := by simp
      rw [this, comps_append]
      refine ⟨rfl, ?_⟩
      cases ys <;> simp [isAbs]

theorem join_abs {d name : List Char} (h : isAbs name = true) : Path.join d name = name := by
  have hr : Path.hasRoot name = true := by
    cases name with
    | nil => simp [isAbs] at h
    | cons c cs => simpa [isAbs, Path.hasRoot, Path.isSep] using h
  simp [Path.join, hr]

/-- The path an import denotes: relative to the importing file for names ending
in `.c`, in the library of the installation otherwise. -/
def ImportDenotes (home base name : String) (path : String) : Prop :=
  if ".c".toList <:+ name.toList then
    if isAbs name.toList then path = name
    else comps path.toList = (comps base.toList).dropLast ++ comps name.toList ∧
      isAbs path.toList = isAbs base.toList
  else path = home ++ "/lib/" ++ name ++ ".c"

/-- C10, path part: an import resolves to the path it denotes if that exists and
is an error otherwise; there is no other outcome. -/
theorem C10_path (fs : FS) (base name : String) (hb : comps base.toList ≠ []) :
    ∃ path, ImportDenotes fs.home base name path ∧
      (fs.metaOk path = true → ∃ r, resolveImport fs base name = .ok r ∧ r.path = path) ∧
      (fs.metaOk path = false → ∃ e, resolveImport fs base name = .err e) := by
  by_cases hn : RStr.endsWith name ".c"
  · obtain ⟨d, hd, h1, h2⟩ := parent_spec hb
    have hn' : ".c".toList <:+ name.toList := List.isSuffixOf_iff_suffix.1 hn
    refine ⟨String.ofList (Path.join d name.toList), ?_, ?_⟩
    · unfold ImportDenotes
      rw [if_pos hn']
      cases ha : isAbs name.toList with
      | true =>
        simp only [if_true]
        rw [join_abs ha]; simp
      | false =>
        obtain ⟨h3, h4⟩ := join_spec (d := d) ha
        simp only [Bool.false_eq_true, if_false, String.toList_ofList]
        exact ⟨by rw [h3, h1], by rw [h4, h2]⟩
    · simp only [resolveImport, hn, hd, if_true]
      exact ⟨fun h => ⟨_, by rw [h]; rfl, rfl⟩, fun h => ⟨_, by rw [h]; rfl⟩⟩
  · have hn' : ¬ ".c".toList <:+ name.toList := fun h => hn (List.isSuffixOf_iff_suffix.2 h)
    refine ⟨fs.home ++ "/lib/" ++ name ++ ".c", ?_, ?_⟩
    · unfold ImportDenotes; rw [if_neg hn']
    · simp only [resolveImport, hn, Bool.false_eq_true, if_false]
      exact ⟨fun h => ⟨_, by rw [h]; rfl, rfl⟩, fun h => ⟨_, by rw [h]; rfl⟩⟩

theorem splitL_eq_pieces (p : List Char) : RStr.splitL '/' p = pieces p := by
  induction p with
  | nil => rfl
  | cons c cs ih =>
    simp only [RStr.splitL, pieces, ih]
    split
    · rfl
    · cases h : pieces cs with
      | nil => exact absurd h (pieces_ne_nil cs)
      | cons q qs => rfl

theorem resolve_ok {fs : FS} {base name : String} {r : ModuleRef}
    (h : resolveImport fs base name = .ok r) : r.ns = stripExt (basename r.path) := by
  simp only [resolveImport] at h
  split at h
  · cases h
  · split at h <;> cases h; rfl

/-- C10, namespace part, for file names in ASCII: a module resolved to
`…/stem.c` has the namespace `stem`.  Missing: other file names, see the
counterexample. -/
theorem C10_namespace_partial {fs : FS} {base name : String} {r : ModuleRef}
    (h : resolveImport fs base name = .ok r) {dir stem : String}
    (hp : r.path = dir ++ "/" ++ stem ++ ".c") (hs : '/' ∉ stem.toList)
    (ha : ∀ c ∈ stem.toList, c.toNat < 128) : r.ns = stem := by
  rw [resolve_ok h, hp]
  have hb : basename (dir ++ "/" ++ stem ++ ".c") = stem ++ ".c" := by
    have : (RStr.split '/' (dir ++ "/" ++ stem ++ ".c")).getLast? = some (stem ++ ".c") := by
      have hl : (dir ++ "/" ++ stem ++ ".c").toList = dir.toList ++ '/' :: (stem.toList ++ ".c".toList) := by
        simp [String.toList_append]
      have hns : '/' ∉ stem.toList ++ ".c".toList := by simp [hs]
      rw [RStr.split, hl, splitL_eq_pieces, pieces_append, pieces_noSep hns]
      simp only [List.map_append, List.map_cons, List.map_nil, List.getLast?_append,
        List.getLast?_singleton, Option.some_or, Option.some.injEq]
      apply String.toList_injective; simp
    unfold basename
    rw [this]
  rw [hb]
  have hu : ∀ l : List Char, (∀ c ∈ l, c.toNat < 128) → (String.ofList l).utf8ByteSize = l.length := by
    intro l hl
    induction l with
    | nil => rfl
    | cons c cs ih =>
      have h1 := hl c (by simp)
      have h2 := ih (fun d hd => hl d (by simp [hd]))
      have : String.ofList (c :: cs) = String.singleton c ++ String.ofList cs := by
        apply String.toList_injective; simp
      rw [this, String.utf8ByteSize_append, h2]
      have : (String.singleton c).utf8ByteSize = 1 := by
        rw [String.utf8ByteSize_singleton]
        have : c.val ≤ 0x7f := by
          have : c.val.toNat < 128 := h1
          rw [UInt32.le_iff_toNat_le]; simp; omega
        simp [Char.utf8Size, this]
      rw [this]; simp; omega
  unfold stripExt
  have h1 : (stem ++ ".c").utf8ByteSize = stem.toList.length + 2 := by
    have := hu (stem ++ ".c").toList (by
      intro c hc
      rw [String.toList_append, List.mem_append] at hc
      rcases hc with hc | hc
      · exact ha c hc
      · simp at hc; rcases hc with rfl | rfl <;> decide)
    rw [String.ofList_toList] at this
    rw [this, String.toList_append]; simp
  rw [h1, String.toList_append]
  simp

/-- C10 is false of the code for other file names: the length in bytes is used to
cut characters, so `é.c` gets the namespace `é.`. -/
theorem C10_counterexample :
    resolveImport (memFS [("/p/é.c", "")]) "/p/m.c" "é.c" = .ok { path := "/p/é.c", ns := "é." } := by
  decide +kernel

/-- A resolved import, through `./` and `../`. -/
example : resolveImport (memFS [("/p/q/../a.c", "")]) "/p/q/./m.c" "../a.c" =
    .ok { path := "/p/q/../a.c", ns := "a" } := by decide +kernel

end Che.Props
