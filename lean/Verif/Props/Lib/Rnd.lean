import Mathlib.Data.Int.CardIntervalMod
import Mathlib.Algebra.BigOperators.Group.Finset.Basic
import Verif.Proofs.Lib.Rnd
import Verif.Proofs.Lib.Time

namespace Che.Props
open Che.Lib Che.Lib.Rnd

/-! ## C122: random numbers -/

/-- C122: a random number is below its limit, and a limit of 0 ends the program. -/
theorem C122_intn (v : UInt64) (n : UInt32) : (n = 0 → ∃ m, intn v n = .panic m) ∧ (n ≠ 0 → ∃ v' r, intn v n = .ok (v', r) ∧ r < n) := by
  refine ⟨fun h => ⟨_, by rw [intn, if_pos h]⟩, fun h => ⟨_, _, by rw [intn, if_neg h], ?_⟩⟩
  rw [UInt32.lt_iff_toNat_lt, UInt32.toNat_mod]
  apply Nat.mod_lt
  apply Nat.pos_of_ne_zero
  intro h0
  exact h (UInt32.toNat_inj.1 h0)

/-- C122: the state comes back after 2 ^ 64 calls and not before. -/
theorem C122_period (v : UInt64) (n : Nat) : after v n = v ↔ 2 ^ 64 ∣ n := by
  constructor
  · intro h
    obtain ⟨j, e⟩ := after_ne h
    exact ⟨j, e⟩
  · rintro ⟨j, rfl⟩
    exact after_periods rfl v j

/-- C122: so every state is met, with every seed. -/
theorem C122_states (v w : UInt64) : ∃ n, n < 2 ^ 64 ∧ after (seed v) n = w := after_surj v w

theorem C122_value (v : UInt64) (n : Nat) : value v n = output (after (step v) n) := by
  have h : after (step v) n = after v (1 + n) := (after_add v 1 n).symm
  rw [h, Nat.add_comm, after_succ]
  rfl

/-- C122: every number of 32 bits is returned by 2 ^ 32 of 2 ^ 64 calls. -/
theorem C122_numbers (v : UInt64) (w : UInt32) : ((Finset.range (2 ^ 64)).filter fun n => value v n = w).card = 2 ^ 32 := by
  have hs : ∀ i, i < 2 ^ 32 → ∃ n, n < 2 ^ 64 ∧ (after (step v) n).toNat = state w.toNat i := by
    intro i hi
    obtain ⟨h1, _⟩ := state_out w.toNat_lt hi
    obtain ⟨n, hn, e⟩ := after_surj (step v) (UInt64.ofNat (state w.toNat i))
    refine ⟨n, hn, ?_⟩
    rw [e, UInt64.toNat_ofNat']; exact Nat.mod_eq_of_lt h1
  have key : ((Finset.range (2 ^ 64)).filter fun n => value v n = w).card = (Finset.range (2 ^ 32)).card := by
    apply Finset.card_bij (fun n _ => index (after (step v) n).toNat)
    · intro n hn
      rw [Finset.mem_filter, Finset.mem_range, C122_value] at hn
      rw [Finset.mem_range]
      exact (index_state (w := w.toNat) (after (step v) n).toNat_lt (by rw [← output_toNat, hn.2])).1
    · intro n hn m hm h
      rw [Finset.mem_filter, Finset.mem_range, C122_value] at hn hm
      have h1 := (index_state (w := w.toNat) (after (step v) n).toNat_lt (by rw [← output_toNat, hn.2])).2
      have h2 := (index_state (w := w.toNat) (after (step v) m).toNat_lt (by rw [← output_toNat, hm.2])).2
      rw [h, h2] at h1
      exact after_inj hn.1 hm.1 (UInt64.toNat_inj.1 h1.symm)
    · intro i hi
      rw [Finset.mem_range] at hi
      obtain ⟨n, hn, e⟩ := hs i hi
      obtain ⟨_, h2, h3⟩ := state_out w.toNat_lt hi
      refine ⟨n, ?_, by rw [e, h3]⟩
      rw [Finset.mem_filter, Finset.mem_range, C122_value]
      refine ⟨hn, UInt32.toNat_inj.1 ?_⟩
      rw [output_toNat, e, h2]
  rw [key, Finset.card_range]

/-- The number that a call with a limit returns, after other calls. -/
def C122_below (v : UInt64) (n : UInt32) (k : Nat) : Option UInt32 :=
  match intn (after v k) n with
  | .ok (_, r) => some r
  | _ => none

/-- C122: of 2 ^ 64 calls with a limit, every number below it is returned by nearly the same number of them: 2 ^ 32 times the quotient of 2 ^ 32 and the limit, or the next whole one. -/
theorem C122_uniform (v : UInt64) {n r : UInt32} (hr : r < n) :
    ((Finset.range (2 ^ 64)).filter fun k => C122_below v n k = some r).card = (2 ^ 32 / n.toNat + if r.toNat < 2 ^ 32 % n.toNat then 1 else 0) * 2 ^ 32 := by
  have hr' := UInt32.lt_iff_toNat_lt.1 hr
  have hn : n ≠ 0 := by rintro rfl; exact absurd hr' (by simp)
  have e1 : ((Finset.range (2 ^ 64)).filter fun k => C122_below v n k = some r) = (Finset.range (2 ^ 64)).filter fun k => (value v k).toNat % n.toNat = r.toNat := by
    apply Finset.filter_congr
    intro k _
    unfold C122_below
    rw [intn, if_neg hn]
    simp only [Option.some.injEq]
    rw [← UInt32.toNat_mod]
    exact UInt32.toNat_inj.symm
  rw [e1]
  rw [Finset.card_eq_sum_card_fiberwise (f := fun k => (value v k).toNat) (t := (Finset.range (2 ^ 32)).filter fun w => w % n.toNat = r.toNat)]
  · rw [Finset.sum_const_nat (m := 2 ^ 32)]
    · refine congrArg (· * 2 ^ 32) ?_
      have := Nat.count_modEq_card (2 ^ 32) (r := n.toNat) (by omega) r.toNat
      rw [Nat.mod_eq_of_lt hr', Nat.count_eq_card_filter_range] at this
      rw [← this]
      refine congrArg Finset.card ?_
      apply Finset.filter_congr
      intro w _
      unfold Nat.ModEq
      rw [Nat.mod_eq_of_lt hr']
    · intro w hw
      rw [Finset.mem_filter, Finset.mem_range] at hw
      rw [← C122_numbers v (UInt32.ofNat w), Finset.filter_filter]
      refine congrArg Finset.card ?_
      apply Finset.filter_congr
      intro k _
      have hw' : (UInt32.ofNat w).toNat = w := by rw [UInt32.toNat_ofNat']; exact Nat.mod_eq_of_lt hw.1
      constructor
      · rintro ⟨_, h⟩
        exact UInt32.toNat_inj.1 (by rw [hw', h])
      · intro h
        rw [h, hw']
        exact ⟨hw.2, rfl⟩
  · intro k hk
    simp only [Finset.coe_filter, Set.mem_ofPred_eq, Finset.mem_range] at hk ⊢
    exact ⟨UInt32.toNat_lt _, hk.2⟩

/-- Numbers with the seed 1. -/
example : (List.range 3).map (value (seed 1)) = [2783811793, 2541515344, 1975030412] := by decide +kernel

/-- C122: `u` gives a number of [0, 1), unless the random number is the greatest one. -/
theorem C122_u_partial (v : UInt64) : (u v).1 = step v ∧ 0 < (u v).2.2 ∧ ((u v).2.1 < (u v).2.2 ∨ value v 0 = 0xffffffff ∧ (u v).2.1 = (u v).2.2) := by
  refine ⟨rfl, ?_⟩
  have hv : value v 0 = (pcg32 v).2 := rfl
  rw [hv]
  unfold u
  generalize (pcg32 v).2 = w
  simp only
  have hw := w.toNat_lt
  by_cases h0 : w.toNat = 0
  · rw [h0]; exact ⟨by decide, .inl (by decide)⟩
  have hl : Nat.log2 w.toNat ≤ 52 + Nat.log2 0xffffffff := Nat.le_trans (Time.log2_le_of_lt (k := 31) hw) (by omega)
  obtain ⟨p0, p1, _⟩ := Time.double_bound w.toNat 0xffffffff (by omega) (by decide) hl
  refine ⟨p0, ?_⟩
  by_cases h1 : w.toNat = 0xffffffff
  · right
    refine ⟨UInt32.toNat_inj.1 h1, ?_⟩
    rw [h1]; decide +kernel
  · left
    generalize Time.double w.toNat 0xffffffff = q at *
    obtain ⟨m, t⟩ := q
    simp only at *
    have : w.toNat * t ≤ 0xfffffffe * t := Nat.mul_le_mul_right _ (by omega)
    omega

/-- C122 is false of `u`: with some seeds its first number is 1. -/
theorem C122_counterexample_u : (u (seed 15778457983585407183)).2 = (2 ^ 52, 2 ^ 52) := by decide +kernel
end Che.Props
