import Verif.Proofs.Prog.Zipranges

/-!
C126: `prog/zipranges` writes the ranges of the numbers it reads.
-/
namespace Che.Props
open Che Che.Lib Che.Prog

/-- C126: for numbers of `int` in ranges, of which no more than 4000 and only the last one ends with the greatest `int`, the ranges are written. -/
theorem C126_ranges_partial {input : Bytes} {vs : List Int} (h : Zipranges.Numbers input vs) {rs : List (Int × Int)} (hr : Zipranges.Ranges rs vs) (hn : rs.length ≤ 4000)
    (hv : ∀ v ∈ vs, -2 ^ 31 ≤ v ∧ v < 2 ^ 31) (hm : ∀ u r s v, rs = u ++ r :: s :: v → r.2 < 2 ^ 31 - 1) {n : Nat} (hk : vs.length < n) :
    Zipranges.main n input [] = .ok (0, (rs.map fun r => cstr (toString r.1) ++ [45] ++ cstr (toString r.2) ++ [32]).flatten ++ [10]) := by
  have hb : ∀ r ∈ rs, r.2 ≤ 2147483647 := by
    have key : ∀ {rs : List (Int × Int)} {vs : List Int}, Zipranges.Ranges rs vs → ∀ r ∈ rs, r.2 ∈ vs := by
      intro rs vs h
      have hin : ∀ {r : Int × Int}, r.1 ≤ r.2 → r.2 ∈ Zipranges.expand r := by
        intro r hr
        unfold Zipranges.expand
        rw [List.mem_map]
        exact ⟨(r.2 - r.1).toNat, by rw [List.mem_range]; omega, by omega⟩
      induction h with
      | none => simp
      | one hr => intro r h; rw [List.mem_singleton] at h; subst h; exact hin hr
      | more hr _ _ ih =>
        intro r h
        rw [List.mem_append]
        rcases List.mem_cons.1 h with rfl | h
        · exact .inl (hin hr)
        · exact .inr (ih r h)
    intro r h
    have := hv _ (key hr r h)
    omega
  rw [Zipranges.main_feed h [] hk (fun v h => by have := hv v h; omega), Zipranges.feed_ranges hr (by simpa using hn) hb (fun u r s v e => by have := hm u r s v e; omega) (fun ds d _ _ e => by simp at e)]
  rfl

/-- C126: there are ranges for all numbers, not more than numbers. -/
theorem C126_exist (vs : List Int) : ∃ rs, Zipranges.Ranges rs vs ∧ rs.length ≤ vs.length := Zipranges.ranges_exist vs

example : Zipranges.main 9 (cstr "1\n2 3\n7\n-2\t-1 0\n+1") [] = .ok (0, cstr "1-3 7-7 -2-1 \n") := by decide +kernel

/-- C126 is false of more than 4000 ranges: they are written past the end of the array. -/
theorem C126_counterexample_many : ∃ m, Zipranges.main 4002 (List.replicate 4001 [48, 32]).flatten [] = .panic ("undefined" ++ m) := by
  have hnum : ∀ n, Zipranges.Numbers (List.replicate n [48, 32]).flatten (List.replicate n 0) := by
    intro n
    induction n with
    | zero => exact .none (by simp)
    | succ n ih =>
      have := Zipranges.Numbers.more (w := []) (t := [48]) (v := 0) (c := 32) (by simp) (.plain (n := 0) (.one (d := 0) (by omega))) (.inl rfl) ih
      simpa [List.replicate_succ] using this
  have e1 : Zipranges.expand (0, 0) = [0] := by decide
  have hran : ∀ n, Zipranges.Ranges (List.replicate n (0, 0)) (List.replicate n 0) := by
    intro n
    induction n with
    | zero => exact .none
    | succ n ih =>
      cases n with
      | zero => have := Zipranges.Ranges.one (r := (0, 0)) (by simp); rw [e1] at this; exact this
      | succ n =>
        rw [List.replicate_succ] at ih
        have := Zipranges.Ranges.more (r := (0, 0)) (by simp) (by simp) ih
        rw [e1] at this
        simpa [List.replicate_succ] using this
  have hmem : ∀ {n : Nat} {u v : List (Int × Int)} {r : Int × Int}, List.replicate n (0, 0) = u ++ r :: v → r = (0, 0) := by
    intro n u v r e
    have : r ∈ List.replicate n ((0 : Int), (0 : Int)) := by rw [e]; simp
    exact List.eq_of_mem_replicate this
  refine ⟨": index out of cells", ?_⟩
  rw [Zipranges.main_feed (hnum 4001) [] (by rw [List.length_replicate]; omega) (fun v h => by rw [List.eq_of_mem_replicate h]; omega)]
  have e2 : List.replicate 4001 (0 : Int) = List.replicate 4000 0 ++ [0] := List.replicate_succ'
  rw [e2, Zipranges.feed_append, Zipranges.feed_ranges (hran 4000) (by rw [List.length_replicate]; simp) (fun r h => by rw [List.eq_of_mem_replicate h]; simp)
    (fun u r s v e => by rw [hmem e]; simp) (fun ds d _ _ e => by simp at e)]
  simp only [Res.bind, List.nil_append, Zipranges.feed]
  have e3 : List.replicate 4000 ((0 : Int), (0 : Int)) = List.replicate 3999 (0, 0) ++ [(0, 0)] := List.replicate_succ'
  have e4 : Zipranges.append (List.replicate 4000 (0, 0)) 0 = .panic "undefined: index out of cells" := by
    unfold Zipranges.append
    rw [e3, Zipranges.last_append, ← e3]
    simp only
    rw [if_neg (by omega), if_neg (by omega), if_neg (by rw [List.length_replicate]; omega)]
  rw [e4]
  rfl

/-- C126 is false of numbers that follow the greatest `int`. -/
theorem C126_counterexample_greatest : ∃ m, Zipranges.main 9 (cstr "2147483647\n1\n") [] = .panic ("undefined" ++ m) := ⟨": int overflow", by decide +kernel⟩

/-- C126: what is not a number ends the program with nothing written. -/
theorem C126_bad {w t : Bytes} {c : UInt8} (hw : ∀ c ∈ w, Zipranges.Space c) (hc : ¬ Zipranges.Space c) (h1 : c ≠ 43) (h2 : c ≠ 45) (h3 : ¬ (48 ≤ c ∧ c ≤ 57)) (n : Nat) (cells : List (Int × Int)) :
    Zipranges.main (n + 1) (w ++ c :: t) cells = .ok (1, []) := by
  have h4 : Zipranges.isdigit c = false := by
    cases h : Zipranges.isdigit c with
    | false => rfl
    | true => simp [Zipranges.isdigit] at h; exact absurd h h3
  have e := (Zipranges.takeWhile_end (p := Strings.isspace) (fun c hc => (Zipranges.space_iff c).2 (hw c hc)) (r := c :: t) (by
    intro c' r' e
    injection e with e _
    rw [← e]
    cases h : Strings.isspace c with
    | false => rfl
    | true => exact absurd ((Zipranges.space_iff c).1 h) hc)).2
  rw [Zipranges.main, Zipranges.scan, e]
  have e2 : Zipranges.scanNumber (c :: t) = .bad := by
    unfold Zipranges.scanNumber
    split
    · rename_i h; simp at h
    · rename_i h; injection h with h _; exact absurd h h2
    · rename_i h; injection h with h _; exact absurd h h1
    · simp [Zipranges.scanDigits, List.takeWhile_cons, h4]
  rw [e2]
end Che.Props
