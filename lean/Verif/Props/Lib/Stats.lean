import Mathlib.Order.Interval.Finset.Nat
import Verif.Proofs.Lib.Stats
import Verif.Proofs.Lib.Rnd

/-!
C127: `lib/stats.c` gives the count, the least and the greatest value and the percentiles of a series.
C128: `sample_from_distribution` chooses a number as often as its frequency says.
-/
namespace Che.Props
open Che Che.Lib Che.Lib.Stats

/-- What a program does with a series, in any order. -/
inductive C127_Op where
  | add (v : Int)
  | percentile (p : Int)

def C127_run (s : Series) : C127_Op → Series
  | .add v => add s v
  | .percentile p => (percentile s p).1

/-- The values that are added. -/
def C127_added : List C127_Op → List Int
  | [] => []
  | .add v :: ops => v :: C127_added ops
  | .percentile _ :: ops => C127_added ops

theorem C127_inv : ∀ (ops : List C127_Op) {s : Series} {vs : List Int}, Inv s vs → Inv (ops.foldl C127_run s) (vs ++ C127_added ops)
  | [], s, vs, h => by simpa [C127_added] using h
  | .add v :: ops, s, vs, h => by
    have := C127_inv ops (inv_add h v)
    simpa [C127_added, C127_run] using this
  | .percentile p :: ops, s, vs, h => C127_inv ops (inv_percentile h p)

/-- C127: after any operations a series has the count, the least and the greatest of the values that were added. -/
theorem C127_values (ops : List C127_Op) {vs : List Int} (hv : C127_added ops = vs) :
    count (ops.foldl C127_run newseries) = vs.length ∧
    (vs ≠ [] → (ops.foldl C127_run newseries).min ∈ vs ∧ (∀ v ∈ vs, (ops.foldl C127_run newseries).min ≤ v) ∧
      (ops.foldl C127_run newseries).max ∈ vs ∧ ∀ v ∈ vs, v ≤ (ops.foldl C127_run newseries).max) := by
  have h := C127_inv ops inv_new
  rw [List.nil_append, hv] at h
  exact ⟨by rw [count, h.values], fun hne => ⟨(h.min hne).1, (h.min hne).2, (h.max hne).1, (h.max hne).2⟩⟩

/-- C127: a percentile below 100 is one of the values, and so many per cent of them are before it: not more are less than it, and more are not greater. -/
theorem C127_percentile_partial (ops : List C127_Op) {vs : List Int} (hv : C127_added ops = vs) (hne : vs ≠ []) (hn : vs.length < 2 ^ 31) {p : Nat} (hp : p < 100) :
    ∃ x, (percentile (ops.foldl C127_run newseries) p).2 = .ok x ∧ x ∈ vs ∧ (vs.filter fun v => v < x).length ≤ vs.length * p / 100 ∧ vs.length * p / 100 < (vs.filter fun v => v ≤ x).length := by
  have h := C127_inv ops inv_new
  rw [List.nil_append, hv] at h
  exact percentile_eq h hp hne hn

/-- C127: so at least half of the values are not greater than the median, and at least half of them are not less. -/
theorem C127_median (ops : List C127_Op) {vs : List Int} (hv : C127_added ops = vs) (hne : vs ≠ []) (hn : vs.length < 2 ^ 31) :
    ∃ x, (median (ops.foldl C127_run newseries)).2 = .ok x ∧ x ∈ vs ∧ vs.length ≤ 2 * (vs.filter fun v => v ≤ x).length ∧ vs.length ≤ 2 * (vs.filter fun v => x ≤ v).length := by
  obtain ⟨x, h1, h2, h3, h4⟩ := C127_percentile_partial ops hv hne hn (p := 50) (by omega)
  have h5 : (vs.filter fun v => v < x).length + (vs.filter fun v => x ≤ v).length = vs.length := by
    clear h1 h2 h3 h4 hv hne hn
    induction vs with
    | nil => rfl
    | cons v vs ih =>
      simp only [List.filter_cons]
      by_cases h : v < x
      · have h' : ¬ x ≤ v := by omega
        simp only [h, h', decide_true, decide_false, if_true, List.length_cons]
        simp
        omega
      · have h' : x ≤ v := by omega
        simp only [h, h', decide_true, decide_false, if_true, List.length_cons]
        simp
        omega
  exact ⟨x, h1, h2, by omega, by omega⟩

example : (percentile ([5, 1, 9, 1].foldl add newseries) 50).2 = .ok 5 ∧ (percentile ([5, 1, 9, 1].foldl add newseries) 99).2 = .ok 9 := by
  have e : ([5, 1, 9, 1] : List Int).mergeSort (fun a b => decide (a ≤ b)) = [1, 1, 5, 9] := by simp [List.mergeSort, List.MergeSort.Internal.splitInTwo, List.merge]
  simp [percentile, sortedValues, add, newseries, e, toInt, Res.ofOption]

/-- C127 is false of the percentile 100: it is read past the end of the values, whatever they are. -/
theorem C127_counterexample_100 (ops : List C127_Op) {vs : List Int} (hv : C127_added ops = vs) (hn : vs.length < 2 ^ 31) : ∃ m, (percentile (ops.foldl C127_run newseries) 100).2 = .panic ("undefined" ++ m) := by
  have h := C127_inv ops inv_new
  rw [List.nil_append, hv] at h
  refine ⟨": index out of the values", ?_⟩
  have hi : toInt ((ops.foldl C127_run newseries).values.length * (100 : Int).toNat % 2 ^ 64 / 100) = (vs.length : Nat) := by
    rw [h.values]
    show toInt (vs.length * 100 % 2 ^ 64 / 100) = _
    generalize vs.length = m at *
    unfold toInt
    rw [Nat.mod_eq_of_lt (show m * 100 < 2 ^ 64 by omega), Nat.mul_div_cancel _ (by omega), Nat.mod_eq_of_lt (show m < 2 ^ 32 by omega), if_pos (by omega)]
  unfold percentile
  rw [if_neg (by omega)]
  simp only
  rw [hi, if_neg (by omega), sortedValues_eq h, Int.toNat_natCast, List.getElem?_eq_none (by rw [List.length_mergeSort])]
  rfl

/-- C127 is false of the percentiles of no values. -/
theorem C127_counterexample_empty : ∃ m, (median newseries).2 = .panic ("undefined" ++ m) := ⟨": index out of the values", by decide +kernel⟩

/-- The sum of the frequencies. -/
def C128_total (fs : List UInt64) : Nat := (fs.map UInt64.toNat).sum

/-- C128: when the sum of the frequencies is below 2^32, a random number below it chooses, and each number of the list is chosen by so many of them as its frequency. -/
theorem C128_sample_partial (fs : List UInt64) (h0 : 0 < C128_total fs) (h1 : C128_total fs < 2 ^ 32) :
    ∃ pick : Nat → Nat, (∀ v, ∃ v', sample_from_distribution v fs = .ok (v', pick ((Rnd.value v 0).toNat % C128_total fs))) ∧
      ∀ r (hr : r < fs.length), ((Finset.range (C128_total fs)).filter fun x => pick x = r).card = fs[r].toNat := by
  have hs : (fs.foldl (· + ·) 0).toNat = C128_total fs := by
    rw [foldl_sum fs 0 (by show 0 + C128_total fs < 2 ^ 64; omega)]
    show 0 + C128_total fs = _
    omega
  have h32 : (fs.foldl (· + ·) 0).toUInt32.toNat = C128_total fs := by
    rw [UInt64.toNat_toUInt32, hs, Nat.mod_eq_of_lt h1]
  have hpick : ∀ x, x < C128_total fs → ∃ r, r < fs.length ∧ sampleFor (UInt64.ofNat x) fs 0 0 = some r ∧ cum fs r ≤ x ∧ x < cum fs (r + 1) := by
    intro x hx
    have hx' : (UInt64.ofNat x).toNat = x := UInt64.toNat_ofNat_of_lt' (by show x < 2 ^ 64; omega)
    obtain ⟨r, g1, g2, g3, g4⟩ := sampleFor_eq (UInt64.ofNat x) fs 0 0 (by show 0 + C128_total fs < 2 ^ 64; omega) (Nat.zero_le _) (by rw [hx']; show x < 0 + C128_total fs; omega)
    rw [hx'] at g3 g4
    refine ⟨r, g1, by rw [g2, Nat.zero_add], ?_, ?_⟩
    · have : (0 : UInt64).toNat = 0 := rfl
      omega
    · have : (0 : UInt64).toNat = 0 := rfl
      omega
  refine ⟨fun x => (sampleFor (UInt64.ofNat x) fs 0 0).getD 0, fun v => ?_, fun r hr => ?_⟩
  · unfold sample_from_distribution
    have hne : (fs.foldl (· + ·) 0).toUInt32 ≠ 0 := by
      intro h
      have := congrArg UInt32.toNat h
      rw [h32] at this
      have : (0 : UInt32).toNat = 0 := rfl
      omega
    simp only
    rw [Rnd.intn, if_neg hne]
    have e : ((Rnd.pcg32 v).2 % (fs.foldl (· + ·) 0).toUInt32).toUInt64 = UInt64.ofNat ((Rnd.value v 0).toNat % C128_total fs) := by
      rw [← h32, show Rnd.value v 0 = (Rnd.pcg32 v).2 from rfl]
      generalize (Rnd.pcg32 v).2 = a
      generalize (fs.foldl (· + ·) 0).toUInt32 = b
      apply UInt64.toNat_inj.1
      rw [UInt32.toNat_toUInt64, UInt32.toNat_mod, UInt64.toNat_ofNat_of_lt']
      have := a.toNat_lt
      have := Nat.mod_le a.toNat b.toNat
      show _ < 2 ^ 64
      omega
    obtain ⟨r, _, g2, _, _⟩ := hpick _ (Nat.mod_lt (Rnd.value v 0).toNat h0)
    refine ⟨(Rnd.pcg32 v).1, ?_⟩
    simp only [Res.bind]
    rw [e, g2]
    rfl
  · have : ((Finset.range (C128_total fs)).filter fun x => (sampleFor (UInt64.ofNat x) fs 0 0).getD 0 = r) = Finset.Ico (cum fs r) (cum fs (r + 1)) := by
      ext x
      rw [Finset.mem_filter, Finset.mem_range, Finset.mem_Ico]
      constructor
      · rintro ⟨hx, e⟩
        obtain ⟨r', _, g2, g3, g4⟩ := hpick x hx
        rw [g2] at e
        have : r' = r := e
        subst this
        exact ⟨g3, g4⟩
      · rintro ⟨g3, g4⟩
        have hx : x < C128_total fs := by
          have hc : cum fs fs.length = C128_total fs := by unfold cum C128_total; rw [List.take_length]
          have := cum_mono fs (show r + 1 ≤ fs.length by omega)
          omega
        obtain ⟨r', _, f2, f3, f4⟩ := hpick x hx
        refine ⟨hx, ?_⟩
        rw [f2]
        show r' = r
        rcases Nat.lt_trichotomy r' r with h | h | h
        · have := cum_mono fs (show r' + 1 ≤ r by omega); omega
        · exact h
        · have := cum_mono fs (show r + 1 ≤ r' by omega); omega
    rw [this, Nat.card_Ico]
    have : cum fs (r + 1) = cum fs r + fs[r].toNat := by
      unfold cum
      rw [List.take_succ_eq_append_getElem hr, List.map_append, List.sum_append]
      simp
    omega

example : sample_from_distribution 1 [100, 1254, 3] = .ok (Rnd.after 1 1, 1) := by decide +kernel

/-- C128 is false when the sum is 2^32 or more: only its last 32 bits are used.  With the frequencies 1 and 2^32 always the first one is chosen. -/
theorem C128_counterexample_large (v : UInt64) : ∃ v', sample_from_distribution v [1, 4294967296] = .ok (v', 0) := by
  unfold sample_from_distribution
  have e : ([1, 4294967296].foldl (· + ·) (0 : UInt64)).toUInt32 = 1 := by decide
  simp only
  rw [e, Rnd.intn, if_neg (by decide)]
  generalize Rnd.pcg32 v = p
  obtain ⟨v1, o⟩ := p
  refine ⟨v1, ?_⟩
  have h : o % 1 = 0 := by
    apply UInt32.toNat_inj.1
    rw [UInt32.toNat_mod]
    exact Nat.mod_one _
  simp only [Res.bind]
  rw [h]
  rfl

/-- C128 is false when the sum is 2^32: the program ends. -/
theorem C128_counterexample_sum (v : UInt64) : ∃ m, sample_from_distribution v [2147483648, 2147483648] = .panic m := by
  unfold sample_from_distribution
  have e : ([2147483648, 2147483648].foldl (· + ·) (0 : UInt64)).toUInt32 = 0 := by decide
  simp only
  rw [e, Rnd.intn, if_pos rfl]
  exact ⟨_, rfl⟩
end Che.Props
