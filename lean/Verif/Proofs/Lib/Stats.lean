import Verif.Model.Lib.Stats

namespace Che.Lib.Stats
open Che

/-! ## Series -/

/-- What is true of a series to which values have been added. -/
structure Inv (s : Series) (vs : List Int) : Prop where
  values : s.values = vs
  sorted : ∀ l, s.sorted = some l → l = vs.mergeSort fun a b => decide (a ≤ b)
  min : vs ≠ [] → s.min ∈ vs ∧ ∀ v ∈ vs, s.min ≤ v
  max : vs ≠ [] → s.max ∈ vs ∧ ∀ v ∈ vs, v ≤ s.max

theorem inv_new : Inv newseries [] := ⟨rfl, fun l h => by simp [newseries] at h, fun h => absurd rfl h, fun h => absurd rfl h⟩

theorem inv_add {s : Series} {vs : List Int} (h : Inv s vs) (v : Int) : Inv (add s v) (vs ++ [v]) := by
  obtain ⟨h1, h2, h3, h4⟩ := h
  refine ⟨by simp [add, h1], fun l h => by simp [add] at h, fun _ => ?_, fun _ => ?_⟩
  · simp only [add, h1]
    split
    · rename_i hc
      refine ⟨by simp, fun w hw => ?_⟩
      rcases List.mem_append.1 hw with hw | hw
      · rcases hc with hc | hc
        · rw [List.eq_nil_of_length_eq_zero hc] at hw; simp at hw
        · have := (h3 (List.ne_nil_of_mem hw)).2 w hw; omega
      · rw [List.mem_singleton] at hw; omega
    · rename_i hc
      have hne : vs ≠ [] := fun e => hc (.inl (by rw [e]; rfl))
      obtain ⟨g1, g2⟩ := h3 hne
      refine ⟨by simp [g1], fun w hw => ?_⟩
      rcases List.mem_append.1 hw with hw | hw
      · exact g2 w hw
      · rw [List.mem_singleton] at hw
        subst hw
        exact Int.not_lt.1 fun hlt => hc (.inr hlt)
  · simp only [add, h1]
    split
    · rename_i hc
      refine ⟨by simp, fun w hw => ?_⟩
      rcases List.mem_append.1 hw with hw | hw
      · rcases hc with hc | hc
        · rw [List.eq_nil_of_length_eq_zero hc] at hw; simp at hw
        · have := (h4 (List.ne_nil_of_mem hw)).2 w hw; omega
      · rw [List.mem_singleton] at hw; omega
    · rename_i hc
      have hne : vs ≠ [] := fun e => hc (.inl (by rw [e]; rfl))
      obtain ⟨g1, g2⟩ := h4 hne
      refine ⟨by simp [g1], fun w hw => ?_⟩
      rcases List.mem_append.1 hw with hw | hw
      · exact g2 w hw
      · rw [List.mem_singleton] at hw
        subst hw
        exact Int.not_lt.1 fun hlt => hc (.inr hlt)

theorem sortedValues_eq {s : Series} {vs : List Int} (h : Inv s vs) : sortedValues s = vs.mergeSort fun a b => decide (a ≤ b) := by
  unfold sortedValues
  cases hs : s.sorted with
  | none => simp only; rw [h.values]
  | some l => exact h.sorted l hs

theorem inv_percentile {s : Series} {vs : List Int} (h : Inv s vs) (p : Int) : Inv (percentile s p).1 vs := by
  unfold percentile
  split
  · exact h
  · exact ⟨h.values, fun l hl => by injection hl with hl; rw [← hl]; exact sortedValues_eq h, h.min, h.max⟩

theorem sort_pairwise (vs : List Int) : (vs.mergeSort fun a b => decide (a ≤ b)).Pairwise (· ≤ ·) := by
  have := List.pairwise_mergeSort (le := fun a b : Int => decide (a ≤ b)) (fun a b c h1 h2 => by simp at *; omega) (fun a b => by simp; omega) vs
  exact this.imp fun h => by simpa using h

/-- How many values of a list in order are before one of them. -/
theorem rank_sorted {l : List Int} (hs : l.Pairwise (· ≤ ·)) {i : Nat} (hi : i < l.length) : (l.filter fun v => v < l[i]).length ≤ i ∧ i < (l.filter fun v => v ≤ l[i]).length := by
  have e : l = l.take i ++ l[i] :: l.drop (i + 1) := by rw [List.getElem_cons_drop, List.take_append_drop]
  generalize hx : l[i] = x at *
  have hp := hs
  rw [e, List.pairwise_append] at hp
  obtain ⟨_, h2, h3⟩ := hp
  rw [List.pairwise_cons] at h2
  constructor
  · have h5 : ∀ v ∈ x :: l.drop (i + 1), ¬ v < x := by
      intro v hv
      rcases List.mem_cons.1 hv with rfl | hv
      · omega
      · have := h2.1 v hv; omega
    have : (l.filter fun v => decide (v < x)) = (l.take i).filter fun v => decide (v < x) := by
      conv => lhs; rw [e]
      rw [List.filter_append]
      have : (x :: l.drop (i + 1)).filter (fun v => decide (v < x)) = [] := by
        rw [List.filter_eq_nil_iff]
        intro v hv
        simpa using h5 v hv
      rw [this, List.append_nil]
    rw [this]
    have := List.length_filter_le (fun v => decide (v < x)) (l.take i)
    rw [List.length_take] at this
    omega
  · have : ((l.take i ++ [x]).filter fun v => decide (v ≤ x)) = l.take i ++ [x] := by
      rw [List.filter_eq_self]
      intro v hv
      rcases List.mem_append.1 hv with hv | hv
      · simpa using h3 v hv x (by simp)
      · rw [List.mem_singleton] at hv; simp [hv]
    have e2 : l = (l.take i ++ [x]) ++ l.drop (i + 1) := by
      rw [List.append_assoc]; exact e
    have h6 : (l.filter fun v => decide (v ≤ x)).length ≥ (l.take i ++ [x]).length := by
      conv => lhs; rw [e2]
      rw [List.filter_append, this, List.length_append]
      omega
    rw [List.length_append, List.length_take] at h6
    simp at h6
    omega

theorem percentile_eq {s : Series} {vs : List Int} (h : Inv s vs) {p : Nat} (hp : p < 100) (hv : vs ≠ []) (hn : vs.length < 2 ^ 31) :
    ∃ x, (percentile s p).2 = .ok x ∧ x ∈ vs ∧ (vs.filter fun v => v < x).length ≤ vs.length * p / 100 ∧ vs.length * p / 100 < (vs.filter fun v => v ≤ x).length := by
  have h0 : 0 < vs.length := List.length_pos_iff.2 hv
  have hm1 : vs.length * p ≤ vs.length * 99 := Nat.mul_le_mul_left _ (by omega)
  have hi : toInt (s.values.length * (p : Int).toNat % 2 ^ 64 / 100) = (vs.length * p / 100 : Nat) := by
    rw [h.values, Int.toNat_natCast]
    generalize vs.length * p = m at *
    unfold toInt
    rw [Nat.mod_eq_of_lt (show m < 2 ^ 64 by omega), Nat.mod_eq_of_lt (show m / 100 < 2 ^ 32 by omega), if_pos (by omega)]
  have hlen : (vs.mergeSort fun a b => decide (a ≤ b)).length = vs.length := List.length_mergeSort _
  have hix : vs.length * p / 100 < (vs.mergeSort fun a b => decide (a ≤ b)).length := by
    rw [hlen]
    generalize vs.length * p = m at *
    omega
  unfold percentile
  rw [if_neg (by omega)]
  simp only
  rw [hi, if_neg (by omega), sortedValues_eq h, Int.toNat_natCast, List.getElem?_eq_getElem hix]
  have hperm := List.mergeSort_perm vs fun a b => decide (a ≤ b)
  obtain ⟨r1, r2⟩ := rank_sorted (sort_pairwise vs) hix
  exact ⟨_, rfl, hperm.mem_iff.1 (List.getElem_mem _), by rw [← (hperm.filter _).length_eq]; exact r1, by rw [← (hperm.filter _).length_eq]; exact r2⟩

/-! ## Samples -/

/-- The sum of the first frequencies. -/
def cum (fs : List UInt64) (r : Nat) : Nat := ((fs.take r).map UInt64.toNat).sum

theorem cum_le (fs : List UInt64) (r : Nat) : cum fs r ≤ cum fs (r + 1) := by
  unfold cum
  induction fs generalizing r with
  | nil => simp
  | cons f fs ih =>
    cases r with
    | zero => simp
    | succ r => simpa using ih r

theorem cum_mono (fs : List UInt64) {r s : Nat} (h : r ≤ s) : cum fs r ≤ cum fs s := by
  induction h with
  | refl => exact Nat.le_refl _
  | step _ ih => exact Nat.le_trans ih (cum_le fs _)

theorem foldl_sum : ∀ (fs : List UInt64) (a : UInt64), a.toNat + (fs.map UInt64.toNat).sum < 2 ^ 64 → (fs.foldl (· + ·) a).toNat = a.toNat + (fs.map UInt64.toNat).sum
  | [], a, _ => by simp
  | f :: fs, a, h => by
    simp only [List.map_cons, List.sum_cons] at h
    have e : (a + f).toNat = a.toNat + f.toNat := by
      rw [UInt64.toNat_add, Nat.mod_eq_of_lt (by omega)]
    rw [List.foldl_cons, foldl_sum fs (a + f) (by rw [e]; omega), e, List.map_cons, List.sum_cons]
    omega

theorem sampleFor_eq (x : UInt64) : ∀ (fs : List UInt64) (i : Nat) (c : UInt64), c.toNat + (fs.map UInt64.toNat).sum < 2 ^ 64 → c.toNat ≤ x.toNat → x.toNat < c.toNat + (fs.map UInt64.toNat).sum →
    ∃ r, r < fs.length ∧ sampleFor x fs i c = some (i + r) ∧ c.toNat + cum fs r ≤ x.toNat ∧ x.toNat < c.toNat + cum fs (r + 1)
  | [], _, _, _, h1, h2 => by simp at h2; omega
  | f :: fs, i, c, h, h1, h2 => by
    simp only [List.map_cons, List.sum_cons] at h h2
    have e : (c + f).toNat = c.toNat + f.toNat := by
      rw [UInt64.toNat_add, Nat.mod_eq_of_lt (by omega)]
    rw [sampleFor]
    by_cases hc : c + f > x
    · rw [if_pos hc]
      have := UInt64.lt_iff_toNat_lt.1 hc
      exact ⟨0, by simp, rfl, by simpa [cum] using h1, by simp [cum]; omega⟩
    · rw [if_neg hc]
      have hc' : (c + f).toNat ≤ x.toNat := Nat.not_lt.1 fun hlt => hc (UInt64.lt_iff_toNat_lt.2 hlt)
      obtain ⟨r, g1, g2, g3, g4⟩ := sampleFor_eq x fs (i + 1) (c + f) (by rw [e]; omega) hc' (by rw [e]; omega)
      refine ⟨r + 1, by simp; omega, by rw [g2]; congr 1; omega, ?_, ?_⟩
      · rw [e] at g3
        simp only [cum, List.take_succ_cons, List.map_cons, List.sum_cons] at g3 ⊢
        omega
      · rw [e] at g4
        simp only [cum, List.take_succ_cons, List.map_cons, List.sum_cons] at g4 ⊢
        omega
end Che.Lib.Stats
