import Verif.Proofs.Prog.SortCircle
import Verif.Proofs.Lib.Rnd

namespace Che.Prog.SortCircle
open Che

/-- The numbers that the shuffle draws: for the place `i - k` the number `k`, less than or equal to the place. -/
def drawn (v : UInt64) (i : Nat) : List Nat := (List.range i).map fun k => (Lib.Rnd.value v k).toNat % (i + 1 - k)

theorem after_next (v : UInt64) (k : Nat) : Lib.Rnd.after v (k + 1) = Lib.Rnd.after (Lib.Rnd.pcg32 v).1 k := by
  rw [Nat.add_comm, Lib.Rnd.after_add]
  rfl

theorem value_zero (v : UInt64) : Lib.Rnd.value v 0 = (Lib.Rnd.pcg32 v).2 := by
  rfl

theorem value_succ (v : UInt64) (k : Nat) : Lib.Rnd.value v (k + 1) = Lib.Rnd.value (Lib.Rnd.pcg32 v).1 k := by
  unfold Lib.Rnd.value
  rw [after_next]

theorem numbers_succ (f g : Nat → Nat) (h : ∀ k, f (k + 1) = g k) (i : Nat) : (List.range (i + 1)).map (fun k => f k % (i + 1 + 1 - k)) = f 0 % (i + 2) :: (List.range i).map fun k => g k % (i + 1 - k) := by
  rw [List.range_succ_eq_map, List.map_cons, List.map_map]
  refine congrArg _ ?_
  apply List.map_congr_left
  intro k _
  simp only [Function.comp]
  rw [h, show i + 1 + 1 - (k + 1) = i + 1 - k by omega]

theorem drawn_succ (v : UInt64) (i : Nat) : drawn v (i + 1) = (Lib.Rnd.pcg32 v).2.toNat % (i + 2) :: drawn (Lib.Rnd.pcg32 v).1 i := by
  have := numbers_succ (fun k => (Lib.Rnd.value v k).toNat) (fun k => (Lib.Rnd.value (Lib.Rnd.pcg32 v).1 k).toNat) (fun k => congrArg UInt32.toNat (value_succ v k)) i
  simp only [value_zero] at this
  exact this

theorem drawn_numbers : ∀ (i : Nat) (v : UInt64), Numbers i (drawn v i)
  | 0, _ => rfl
  | i + 1, v => ⟨_, _, drawn_succ v i, by have := Nat.mod_lt (Lib.Rnd.pcg32 v).2.toNat (show i + 2 > 0 by omega); omega, drawn_numbers i _⟩

theorem shuffleFor_deal : ∀ (i : Nat) (v : UInt64) {a : List Int}, i < a.length → i + 2 < UInt32.size → shuffleFor i v a = .ok (Lib.Rnd.after v i, deal i (drawn v i) a)
  | 0, v, a, _, _ => by rw [shuffleFor, Lib.Rnd.after, deal]; exact fun _ _ _ h => by simp at h
  | i + 1, v, a, h, hi => by
    rw [shuffleFor, drawn_succ, after_next]
    have hn : (UInt32.ofNat (i + 2)).toNat = i + 2 := UInt32.toNat_ofNat_of_lt' (Nat.lt_of_succ_lt hi)
    generalize UInt32.ofNat (i + 2) = n at *
    have hne : n ≠ 0 := by
      rintro rfl
      simp at hn
    rw [Lib.Rnd.intn, if_neg hne]
    generalize Lib.Rnd.pcg32 v = p
    obtain ⟨v1, o⟩ := p
    simp only [Res.bind]
    rw [UInt32.toNat_mod, hn]
    have hr := Nat.mod_lt o.toNat (show i + 2 > 0 by omega)
    rw [swap_exchange h (by omega)]
    simp only
    rw [shuffleFor_deal i _ (by simp [exchange]; omega) (Nat.lt_of_succ_lt hi), deal]
end Che.Prog.SortCircle
