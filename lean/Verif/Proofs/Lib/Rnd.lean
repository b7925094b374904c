import Mathlib.Data.Finset.Card
import Mathlib.Data.Fintype.Card
import Mathlib.Data.Fintype.EquivFin
import Mathlib.Tactic.Ring
import Verif.Model.Lib.Rnd

namespace Che.Lib.Rnd

/-! ## The period -/

theorem after_succ (v : UInt64) (n : Nat) : after v (n + 1) = step (after v n) := rfl

theorem after_add (v : UInt64) (m : Nat) : ∀ n, after v (m + n) = after (after v m) n
  | 0 => rfl
  | n + 1 => by rw [← Nat.add_assoc, after_succ, after_succ, after_add v m n]

theorem step_toNat (v : UInt64) : (step v).toNat = (v.toNat * 0x9b60933458e17d7d + 0xd737232eeccdf7ed) % 2 ^ 64 := by
  unfold step
  rw [UInt64.toNat_add, UInt64.toNat_mul]
  simp

/-- After `2 ^ k` steps the state is `a * v + b`, with `a` one modulo `2 ^ (k + 1)`, and `b` an odd multiple of `2 ^ k`. -/
theorem after_pow (k : Nat) : ∃ a b : Nat, (∀ v, (after v (2 ^ k)).toNat = (v.toNat * (a * 2 ^ (k + 1) + 1) + (2 * b + 1) * 2 ^ k) % 2 ^ 64) ∧ (a * 2 ^ (k + 1)) % 4 = 0 := by
  induction k with
  | zero =>
    refine ⟨0x9b60933458e17d7d / 2, 0xd737232eeccdf7ed / 2, fun v => ?_, by decide⟩
    rw [show after v (2 ^ 0) = step v from rfl, step_toNat]
    congr 1
  | succ k ih =>
    obtain ⟨a, b, h, h4⟩ := ih
    obtain ⟨c, hc⟩ : ∃ c, a * 2 ^ (k + 1) = 4 * c := ⟨a * 2 ^ (k + 1) / 4, by omega⟩
    -- (A x + B) A + B = A² x + (A + 1) B
    refine ⟨a * (a * 2 ^ k + 1), (2 * c + 1) * b + c, fun v => ?_, ?_⟩
    · rw [Nat.pow_succ 2 k, Nat.mul_two, after_add, h, h, ← Nat.mod_add_mod, ← Nat.mod_mul_mod, Nat.mod_mod, Nat.mod_mul_mod, Nat.mod_add_mod]
      congr 1
      have e1 : a * (a * 2 ^ k + 1) * 2 ^ (k + 1 + 1) + 1 = (a * 2 ^ (k + 1) + 1) * (a * 2 ^ (k + 1) + 1) := by
        rw [Nat.pow_succ 2 (k + 1), Nat.pow_succ 2 k]; ring
      have e2 : (2 * ((2 * c + 1) * b + c) + 1) * 2 ^ (k + 1) = (a * 2 ^ (k + 1) + 1 + 1) * ((2 * b + 1) * 2 ^ k) := by
        rw [hc, Nat.pow_succ]; ring
      rw [← Nat.mul_two, ← Nat.pow_succ, e1, e2]
      ring
    · rw [Nat.pow_succ 2 (k + 1), Nat.pow_succ 2 k]
      have : a * (a * 2 ^ k + 1) * (2 ^ k * 2 * 2) = 4 * (a * (a * 2 ^ k + 1) * 2 ^ k) := by ring
      omega

theorem after_zero (v : UInt64) : after v 0 = v := rfl

seal after

theorem after_once {k : Nat} (hk : k < 64) (v : UInt64) : (after v (2 ^ k)).toNat % 2 ^ (k + 1) = (v.toNat + 2 ^ k) % 2 ^ (k + 1) := by
  obtain ⟨a, b, h, _⟩ := after_pow k
  rw [h, Nat.mod_mod_of_dvd _ (Nat.pow_dvd_pow 2 (show k + 1 ≤ 64 by omega))]
  have : v.toNat * (a * 2 ^ (k + 1) + 1) + (2 * b + 1) * 2 ^ k = v.toNat + 2 ^ k + 2 ^ (k + 1) * (v.toNat * a + b) := by
    rw [Nat.pow_succ]; ring
  rw [this, Nat.add_mul_mod_self_left]

theorem after_times {k : Nat} (hk : k < 64) (v : UInt64) : ∀ j, (after v (2 ^ k * j)).toNat % 2 ^ (k + 1) = (v.toNat + 2 ^ k * j) % 2 ^ (k + 1)
  | 0 => by simp only [Nat.mul_zero, after_zero, Nat.add_zero]
  | j + 1 => by
    rw [Nat.mul_succ, after_add, after_once hk, ← Nat.mod_add_mod, after_times hk v j, Nat.mod_add_mod, Nat.add_assoc]

theorem after_period {k : Nat} (hk : k = 64) (v : UInt64) : after v (2 ^ k) = v := by
  obtain ⟨a, b, h, _⟩ := after_pow k
  apply UInt64.toNat_inj.1
  rw [h]
  subst hk
  have : v.toNat * (a * 2 ^ (64 + 1) + 1) + (2 * b + 1) * 2 ^ 64 = v.toNat + 2 ^ 64 * (v.toNat * a * 2 + 2 * b + 1) := by
    rw [Nat.pow_succ]; ring
  rw [this, Nat.add_mul_mod_self_left]
  exact Nat.mod_eq_of_lt v.toNat_lt

theorem after_periods {k : Nat} (hk : k = 64) (v : UInt64) : ∀ j, after v (2 ^ k * j) = v
  | 0 => by rw [Nat.mul_zero, after_zero]
  | j + 1 => by rw [Nat.mul_succ, after_add, after_periods hk v j, after_period hk]

theorem split_two : ∀ n : Nat, n ≠ 0 → ∃ k m, n = 2 ^ k * (2 * m + 1) := by
  intro n
  induction n using Nat.strong_induction_on with
  | _ n ih =>
    intro h
    by_cases ho : n % 2 = 0
    · obtain ⟨k, m, e⟩ := ih (n / 2) (by omega) (by omega)
      refine ⟨k + 1, m, ?_⟩
      rw [Nat.pow_succ, Nat.mul_right_comm, ← e]; omega
    · exact ⟨0, n / 2, by omega⟩

theorem after_ne {v : UInt64} {n : Nat} (h : after v n = v) : ∃ j, n = 2 ^ 64 * j := by
  by_cases h0 : n = 0
  · exact ⟨0, by omega⟩
  obtain ⟨k, m, rfl⟩ := split_two n h0
  by_cases hk : k < 64
  · exfalso
    have h1 := after_times hk v (2 * m + 1)
    rw [h] at h1
    have e : v.toNat + 2 ^ k * (2 * m + 1) = v.toNat + 2 ^ k + 2 ^ (k + 1) * m := by rw [Nat.pow_succ]; ring
    rw [e, Nat.add_mul_mod_self_left, Nat.add_mod] at h1
    have h2 : 2 ^ k % 2 ^ (k + 1) = 2 ^ k := Nat.mod_eq_of_lt (by rw [Nat.pow_succ]; have := Nat.two_pow_pos k; omega)
    rw [h2] at h1
    have h3 : v.toNat % 2 ^ (k + 1) < 2 ^ (k + 1) := Nat.mod_lt _ (Nat.two_pow_pos _)
    have h4 : 0 < 2 ^ k := Nat.two_pow_pos k
    have h5 : 2 ^ (k + 1) = 2 ^ k * 2 := Nat.pow_succ 2 k
    generalize v.toNat % 2 ^ (k + 1) = x at *
    generalize 2 ^ k = y at *
    rw [h5] at h1 h3
    by_cases hlt : x + y < y * 2
    · rw [Nat.mod_eq_of_lt hlt] at h1; omega
    · rw [Nat.mod_eq_sub_mod (by omega), Nat.mod_eq_of_lt (by omega)] at h1; omega
  · refine ⟨2 ^ (k - 64) * (2 * m + 1), ?_⟩
    rw [← Nat.mul_assoc, ← Nat.pow_add, show 64 + (k - 64) = k by omega]

theorem step_inj {v w : UInt64} (h : step v = step w) : v = w := by
  unfold step at h
  have h1 : v * 0x9b60933458e17d7d = w * 0x9b60933458e17d7d := by simpa using h
  -- the inverse of the factor
  have h2 : v * 0x9b60933458e17d7d * 10871551447475725269 = w * 0x9b60933458e17d7d * 10871551447475725269 := by rw [h1]
  have e : (0x9b60933458e17d7d : UInt64) * 10871551447475725269 = 1 := by decide
  rwa [UInt64.mul_assoc, UInt64.mul_assoc, e, UInt64.mul_one, UInt64.mul_one] at h2

theorem after_inj_start {v w : UInt64} : ∀ {n : Nat}, after v n = after w n → v = w
  | 0, h => by rwa [after_zero, after_zero] at h
  | n + 1, h => by
    rw [after_succ, after_succ] at h
    exact after_inj_start (step_inj h)

theorem after_comm (v : UInt64) (m n : Nat) : after (after v m) n = after (after v n) m := by
  rw [← after_add, ← after_add, Nat.add_comm]

theorem after_inj {v : UInt64} {m n : Nat} (hm : m < 2 ^ 64) (hn : n < 2 ^ 64) (h : after v m = after v n) : m = n := by
  have key : ∀ m n, m ≤ n → n < 2 ^ 64 → after v m = after v n → m = n := by
    intro m n hle hn h
    obtain ⟨d, rfl⟩ := Nat.exists_eq_add_of_le hle
    rw [Nat.add_comm m d, after_add, after_comm] at h
    rw [← after_zero (after v m)] at h
    rw [after_zero, after_comm] at h
    obtain ⟨j, e⟩ := after_ne (after_inj_start (n := m) (by rw [h]) : after v d = v)
    have : j = 0 := by
      rcases Nat.eq_zero_or_pos j with h | h
      · exact h
      · have := Nat.mul_le_mul_left (2 ^ 64) h; omega
    subst this; omega
  rcases Nat.le_total m n with h1 | h1
  · exact key m n h1 hn h
  · exact (key n m h1 hm h.symm).symm

theorem after_surj (v w : UInt64) : ∃ n, n < 2 ^ 64 ∧ after v n = w := by
  have hinj : Function.Injective (fun n : Fin (2 ^ 64) => (⟨(after v n.1).toNat, (after v n.1).toNat_lt⟩ : Fin (2 ^ 64))) := by
    intro m n h
    have := congrArg Fin.val h
    exact Fin.ext (after_inj m.2 n.2 (UInt64.toNat_inj.1 this))
  obtain ⟨n, hn⟩ := Finite.surjective_of_injective hinj ⟨w.toNat, w.toNat_lt⟩
  exact ⟨n.1, n.2, UInt64.toNat_inj.1 (congrArg Fin.val hn)⟩

/-! ## The numbers -/

/-- The number made of a state. -/
def out (v : Nat) : Nat := v / 2 ^ (29 - v / 2 ^ 61) % 2 ^ 32

theorem output_toNat (v : UInt64) : (output v).toNat = out v.toNat := by
  have hv := v.toNat_lt
  unfold output out
  have h1 : (v >>> (61 : UInt64)).toNat = v.toNat / 2 ^ 61 := by
    rw [UInt64.toNat_shiftRight, Nat.shiftRight_eq_div_pow]; rfl
  have h2 : ((29 : UInt64) - (v >>> (61 : UInt64))).toNat = 29 - v.toNat / 2 ^ 61 := by
    rw [UInt64.toNat_sub_of_le]
    · rw [h1]; rfl
    · rw [UInt64.le_iff_toNat_le, h1]
      show _ ≤ 29
      omega
  rw [UInt64.toNat_toUInt32, UInt64.toNat_shiftRight, h2, Nat.shiftRight_eq_div_pow, Nat.mod_eq_of_lt (show 29 - v.toNat / 2 ^ 61 < 64 by omega)]

theorem eight {k : Nat} (h : k < 8) : k = 0 ∨ k = 1 ∨ k = 2 ∨ k = 3 ∨ k = 4 ∨ k = 5 ∨ k = 6 ∨ k = 7 := by omega

/-- The states that make a number. -/
def state (w i : Nat) : Nat :=
  i / 2 ^ 29 * 2 ^ 61 + i % 2 ^ 29 / 2 ^ (29 - i / 2 ^ 29) * 2 ^ (61 - i / 2 ^ 29) + w * 2 ^ (29 - i / 2 ^ 29) + i % 2 ^ 29 % 2 ^ (29 - i / 2 ^ 29)

/-- Which of the states it is. -/
def index (v : Nat) : Nat :=
  v / 2 ^ 61 * 2 ^ 29 + v % 2 ^ 61 / 2 ^ (61 - v / 2 ^ 61) * 2 ^ (29 - v / 2 ^ 61) + v % 2 ^ (29 - v / 2 ^ 61)

theorem state_out {w i : Nat} (hw : w < 2 ^ 32) (hi : i < 2 ^ 32) : state w i < 2 ^ 64 ∧ out (state w i) = w ∧ index (state w i) = i := by
  obtain ⟨k, r, hr, rfl⟩ : ∃ k r, r < 2 ^ 29 ∧ i = k * 2 ^ 29 + r := ⟨i / 2 ^ 29, i % 2 ^ 29, Nat.mod_lt _ (by decide), by omega⟩
  have e1 : (k * 2 ^ 29 + r) / 2 ^ 29 = k := by omega
  have e2 : (k * 2 ^ 29 + r) % 2 ^ 29 = r := by omega
  have hk : k < 8 := by omega
  have es : ∀ v, state w (k * 2 ^ 29 + r) = v → v / 2 ^ 61 = k ∧ v < 2 ^ 64 ∧ v / 2 ^ (29 - k) % 2 ^ 32 = w ∧
      v / 2 ^ 61 * 2 ^ 29 + v % 2 ^ 61 / 2 ^ (61 - k) * 2 ^ (29 - k) + v % 2 ^ (29 - k) = k * 2 ^ 29 + r := by
    intro v hv
    unfold state at hv
    rw [e1, e2] at hv
    rcases eight hk with rfl | rfl | rfl | rfl | rfl | rfl | rfl | rfl <;> (simp only [Nat.reducePow, Nat.reduceSub] at *; omega)
  obtain ⟨a1, a2, a3, a4⟩ := es _ rfl
  refine ⟨a2, ?_, ?_⟩
  · unfold out; rw [a1]; exact a3
  · unfold index; rw [a1] at a4 ⊢; exact a4

theorem index_state {w v : Nat} (hv : v < 2 ^ 64) (h : out v = w) : index v < 2 ^ 32 ∧ state w (index v) = v := by
  subst h
  have hk : v / 2 ^ 61 < 8 := by omega
  have es : ∀ i, index v = i → i / 2 ^ 29 = v / 2 ^ 61 ∧ i < 2 ^ 32 ∧ v / 2 ^ 61 * 2 ^ 61 + i % 2 ^ 29 / 2 ^ (29 - v / 2 ^ 61) * 2 ^ (61 - v / 2 ^ 61) + v / 2 ^ (29 - v / 2 ^ 61) % 2 ^ 32 * 2 ^ (29 - v / 2 ^ 61) +
      i % 2 ^ 29 % 2 ^ (29 - v / 2 ^ 61) = v := by
    intro i hi
    unfold index at hi
    generalize hkk : v / 2 ^ 61 = k at *
    rcases eight hk with rfl | rfl | rfl | rfl | rfl | rfl | rfl | rfl <;> (simp only [Nat.reducePow, Nat.reduceSub] at *; omega)
  obtain ⟨a1, a2, a3⟩ := es _ rfl
  refine ⟨a2, ?_⟩
  unfold state out; rw [a1]; exact a3

end Che.Lib.Rnd
