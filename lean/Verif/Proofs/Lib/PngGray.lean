import Mathlib.Tactic.Linarith
import Mathlib.Tactic.Positivity
import Mathlib.Tactic.NormNum
import Mathlib.Tactic.Ring
import Mathlib.Tactic.FieldSimp
import Verif.Proofs.Lib.Time
import Verif.Proofs.Lib.Png

/-!
The gray level of a colour: the sum of doubles is close to the sum of the rational numbers.
-/
namespace Che.Lib.Png
open Che.Lib Che.Lib.Image

/-- A fraction is within `i` roundings of `v`. -/
def Within (i : Nat) (v : ℚ) (x : Nat × Nat) : Prop :=
  0 < x.2 ∧ v * (1 - 1 / 2 ^ 53) ^ i ≤ (x.1 : ℚ) / x.2 ∧ (x.1 : ℚ) / x.2 ≤ v * (1 + 1 / 2 ^ 53) ^ i

theorem double_within (n d : Nat) (hd : 0 < d) (hl : n < 2 ^ 52 * d) : Within 1 ((n : ℚ) / d) (Time.double n d) := by
  by_cases h0 : n = 0
  · subst h0
    simp [Within, Time.double]
  have hn : 0 < n := by omega
  have hlog : Nat.log2 n ≤ 52 + Nat.log2 d := by
    have h1 : 2 ^ Nat.log2 n ≤ n := Nat.log2_self_le (by omega)
    have h2 : d < 2 ^ (Nat.log2 d + 1) := Nat.lt_log2_self
    have h3 : 2 ^ Nat.log2 n < 2 ^ (53 + Nat.log2 d) := by
      calc 2 ^ Nat.log2 n ≤ n := h1
        _ < 2 ^ 52 * d := hl
        _ ≤ 2 ^ 52 * 2 ^ (Nat.log2 d + 1) := Nat.mul_le_mul_left _ (by omega)
        _ = 2 ^ (53 + Nat.log2 d) := by rw [← Nat.pow_add]; congr 1; omega
    have := (Nat.pow_lt_pow_iff_right (by omega : 1 < 2)).mp h3
    omega
  obtain ⟨h1, h2, h3⟩ := Time.double_bound n d hn hd hlog
  generalize Time.double n d = x at *
  have hx : (0 : ℚ) < x.2 := by exact_mod_cast h1
  have hdq : (0 : ℚ) < d := by exact_mod_cast hd
  have h2' : (2 ^ 53 : ℚ) * (x.1 * d) ≤ (2 ^ 53 + 1) * (n * x.2) := by exact_mod_cast h2
  have h3' : (2 ^ 53 - 1 : ℚ) * (n * x.2) ≤ 2 ^ 53 * (x.1 * d) := by
    have : (((2 ^ 53 - 1 : Nat)) : ℚ) * (n * x.2) ≤ 2 ^ 53 * (x.1 * d) := by exact_mod_cast h3
    norm_num at this ⊢
    exact this
  refine ⟨h1, ?_, ?_⟩
  · rw [pow_one, div_mul_eq_mul_div, div_le_div_iff₀ hdq hx]
    norm_num at h3' ⊢
    linarith
  · rw [pow_one, div_mul_eq_mul_div, div_le_div_iff₀ hx hdq]
    norm_num at h2' ⊢
    linarith

theorem Within.nonneg {i : Nat} {v : ℚ} {x : Nat × Nat} (_ : Within i v x) : (0 : ℚ) ≤ (x.1 : ℚ) / x.2 := by positivity

theorem within_mono {i j : Nat} (hij : i ≤ j) {v : ℚ} (hv : 0 ≤ v) {x : Nat × Nat} (h : Within i v x) : Within j v x := by
  obtain ⟨h1, h2, h3⟩ := h
  refine ⟨h1, le_trans ?_ h2, le_trans h3 ?_⟩
  · exact mul_le_mul_of_nonneg_left (pow_le_pow_of_le_one (by norm_num) (by norm_num) hij) hv
  · exact mul_le_mul_of_nonneg_left (pow_le_pow_right₀ (by norm_num) hij) hv

/-- A rounding after `i` roundings. -/
theorem within_double {i : Nat} {v : ℚ} {n d : Nat} (hd : 0 < d) (hl : n < 2 ^ 52 * d)
    (h1 : v * (1 - 1 / 2 ^ 53) ^ i ≤ (n : ℚ) / d) (h2 : (n : ℚ) / d ≤ v * (1 + 1 / 2 ^ 53) ^ i) : Within (i + 1) v (Time.double n d) := by
  obtain ⟨k1, k2, k3⟩ := double_within n d hd hl
  refine ⟨k1, le_trans ?_ k2, le_trans k3 ?_⟩
  · rw [pow_one, pow_succ _ i, ← mul_assoc]
    exact mul_le_mul_of_nonneg_right h1 (by norm_num)
  · rw [pow_one, pow_succ _ i, ← mul_assoc]
    exact mul_le_mul_of_nonneg_right h2 (by norm_num)

/-- The fraction of a number that is within 4 roundings is not much greater. -/
theorem within_lt {i : Nat} (hi : i ≤ 4) {v : ℚ} (hv : 0 ≤ v) (B : Nat) (hB : v < B) {x : Nat × Nat} (h : Within i v x) : x.1 < 2 * B * x.2 := by
  obtain ⟨h1, _, h3⟩ := within_mono hi hv h
  have hx : (0 : ℚ) < x.2 := by exact_mod_cast h1
  have : (1 + 1 / 2 ^ 53 : ℚ) ^ 4 ≤ 2 := by norm_num
  have h4 : v * (1 + 1 / 2 ^ 53) ^ 4 ≤ v * 2 := mul_le_mul_of_nonneg_left this hv
  have h5 : (x.1 : ℚ) / x.2 < 2 * B := by linarith
  rw [div_lt_iff₀ hx] at h5
  exact_mod_cast h5

theorem scale_within (n k : Nat) (hn : n < 256) (hk : k < 10000) : Within 2 ((n : ℚ) * (k / 10000)) (scale n k) := by
  have hw := double_within k 10000 (by omega) (by omega)
  have hlt := within_lt (by omega : 1 ≤ 4) (by positivity) 1 (by
    rw [div_lt_iff₀ (by norm_num)]; norm_num; exact_mod_cast hk) hw
  obtain ⟨h1, h2, h3⟩ := hw
  unfold scale
  generalize Time.double k 10000 = x at *
  have hnq : (0 : ℚ) ≤ n := by positivity
  have e : ((n * x.1 : Nat) : ℚ) / x.2 = n * ((x.1 : ℚ) / x.2) := by push_cast; ring
  refine within_double h1 ?_ ?_ ?_
  · calc n * x.1 ≤ 256 * x.1 := Nat.mul_le_mul_right _ (by omega)
      _ < 2 ^ 52 * x.2 := by omega
  · rw [e, mul_assoc]
    exact mul_le_mul_of_nonneg_left (by exact_mod_cast h2) hnq
  · rw [e, mul_assoc]
    exact mul_le_mul_of_nonneg_left (by exact_mod_cast h3) hnq

theorem add_within {i : Nat} (hi : i ≤ 4) {v w : ℚ} (hv : 0 ≤ v) (hw : 0 ≤ w) (hv' : v < 1000) (hw' : w < 1000) {x y : Nat × Nat}
    (hx : Within i v x) (hy : Within i w y) : Within (i + 1) (v + w) (addDouble x y) := by
  have l1 := within_lt hi hv 1000 (by exact_mod_cast hv') hx
  have l2 := within_lt hi hw 1000 (by exact_mod_cast hw') hy
  obtain ⟨x1, x2, x3⟩ := hx
  obtain ⟨y1, y2, y3⟩ := hy
  have hxq : (0 : ℚ) < x.2 := by exact_mod_cast x1
  have hyq : (0 : ℚ) < y.2 := by exact_mod_cast y1
  have e : ((x.1 * y.2 + y.1 * x.2 : Nat) : ℚ) / ((x.2 * y.2 : Nat) : ℚ) = (x.1 : ℚ) / x.2 + (y.1 : ℚ) / y.2 := by
    push_cast
    field_simp
    try ring
  unfold addDouble
  refine within_double (Nat.mul_pos x1 y1) ?_ ?_ ?_
  · have a1 : x.1 * y.2 ≤ 2 * 1000 * (x.2 * y.2) := by rw [← Nat.mul_assoc]; exact Nat.mul_le_mul_right _ (by omega)
    have a2 : y.1 * x.2 ≤ 2 * 1000 * (x.2 * y.2) := by rw [Nat.mul_comm x.2, ← Nat.mul_assoc]; exact Nat.mul_le_mul_right _ (by omega)
    have a3 : 0 < x.2 * y.2 := Nat.mul_pos x1 y1
    omega
  · rw [e, add_mul]; exact add_le_add x2 y2
  · rw [e, add_mul]; exact add_le_add x3 y3

/-- The gray level is the whole part of the weighted sum, except that for an exact whole sum it may be one less. -/
theorem gray_bound (c : Rgba) (h : Valid c) :
    (gray c).toNat = (2989 * c.red.toNat + 5870 * c.green.toNat + 1140 * c.blue.toNat) / 10000 ∨
    10000 * ((gray c).toNat + 1) = 2989 * c.red.toNat + 5870 * c.green.toNat + 1140 * c.blue.toNat := by
  obtain ⟨h1, h2, h3, h4, h5, h6, _, _⟩ := h
  unfold gray
  simp only
  generalize hr : c.red.toNat = r
  generalize hg : c.green.toNat = g
  generalize hb : c.blue.toNat = b
  have hr' : r < 256 := by omega
  have hg' : g < 256 := by omega
  have hb' : b < 256 := by omega
  have qr : (r : ℚ) < 256 := by exact_mod_cast hr'
  have qg : (g : ℚ) < 256 := by exact_mod_cast hg'
  have qb : (b : ℚ) < 256 := by exact_mod_cast hb'
  have r0 : (0 : ℚ) ≤ r := by positivity
  have g0 : (0 : ℚ) ≤ g := by positivity
  have b0 : (0 : ℚ) ≤ b := by positivity
  have s1 := scale_within r 2989 hr' (by omega)
  have s2 := scale_within g 5870 hg' (by omega)
  have s3 := scale_within b 1140 hb' (by omega)
  have p1 := add_within (by omega) (by positivity) (by positivity) (by push_cast; linarith) (by push_cast; linarith) s1 s2
  have p2 := add_within (by omega) (by positivity) (by positivity) (by push_cast; linarith) (by push_cast; linarith) p1
    (within_mono (by omega : 2 ≤ 3) (by positivity) s3)
  generalize addDouble (addDouble (scale r 2989) (scale g 5870)) (scale b 1140) = x at *
  obtain ⟨x0, x1, x2⟩ := p2
  have hxq : (0 : ℚ) < x.2 := by exact_mod_cast x0
  have b1 : (1 + 1 / 2 ^ 53 : ℚ) ^ (2 + 1 + 1) ≤ 1 + 1 / 2 ^ 50 := by norm_num
  have b2 : (1 - 1 / 2 ^ 50 : ℚ) ≤ (1 - 1 / 2 ^ 53) ^ (2 + 1 + 1) := by norm_num
  generalize (1 + 1 / 2 ^ 53 : ℚ) ^ (2 + 1 + 1) = u at *
  generalize (1 - 1 / 2 ^ 53 : ℚ) ^ (2 + 1 + 1) = l at *
  generalize hS : (r : ℚ) * ((2989 : Nat) / 10000) + (g : ℚ) * ((5870 : Nat) / 10000) + (b : ℚ) * ((1140 : Nat) / 10000) = S at *
  have hSe : S = ((2989 * r + 5870 * g + 1140 * b : Nat) : ℚ) / 10000 := by rw [← hS]; push_cast; ring
  have hN : 2989 * r + 5870 * g + 1140 * b ≤ 255 * 9999 := by omega
  generalize 2989 * r + 5870 * g + 1140 * b = N at *
  have hNq : (N : ℚ) ≤ 255 * 9999 := by exact_mod_cast hN
  have hN0 : (0 : ℚ) ≤ N := by positivity
  have hS0 : 0 ≤ S := by rw [hSe]; positivity
  have hS1 : S ≤ 255 := by rw [hSe, div_le_iff₀ (by norm_num)]; linarith
  have c1 : S * u ≤ S * (1 + 1 / 2 ^ 50) := mul_le_mul_of_nonneg_left b1 hS0
  have c2 : S * (1 - 1 / 2 ^ 50) ≤ S * l := mul_le_mul_of_nonneg_left b2 hS0
  have d1 : (x.1 : ℚ) / x.2 < (N + 1) / 10000 := by
    have : S * (1 + 1 / 2 ^ 50) < (N + 1) / 10000 := by rw [hSe] at hS1 ⊢; norm_num at hS1 ⊢; linarith
    linarith
  have d2 : ((N : ℚ) - 1) / 10000 < (x.1 : ℚ) / x.2 := by
    have : ((N : ℚ) - 1) / 10000 < S * (1 - 1 / 2 ^ 50) := by rw [hSe] at hS1 ⊢; norm_num at hS1 ⊢; linarith
    linarith
  rw [div_lt_div_iff₀ hxq (by norm_num)] at d1
  rw [div_lt_div_iff₀ (by norm_num) hxq] at d2
  have d1' : x.1 * 10000 < (N + 1) * x.2 := by exact_mod_cast d1
  have d2' : N * x.2 < x.1 * 10000 + x.2 := by
    have : (N : ℚ) * x.2 < x.1 * 10000 + x.2 := by linarith
    exact_mod_cast this
  have m1 : x.2 * (x.1 / x.2) ≤ x.1 := Nat.mul_div_le _ _
  have m2 : x.1 < x.2 * (x.1 / x.2) + x.2 := by
    have := Nat.lt_mul_div_succ x.1 x0
    rwa [Nat.mul_succ] at this
  generalize x.1 / x.2 = q at *
  have f1 : 10000 * q < N + 1 := by
    have : 10000 * q * x.2 < (N + 1) * x.2 := by
      calc 10000 * q * x.2 = 10000 * (x.2 * q) := by ring
        _ ≤ x.1 * 10000 := by omega
        _ < _ := d1'
    exact Nat.lt_of_mul_lt_mul_right this
  have f2 : N < 10000 * (q + 1) + 1 := by
    have : N * x.2 < (10000 * (q + 1) + 1) * x.2 := by
      calc N * x.2 < x.1 * 10000 + x.2 := d2'
        _ ≤ (x.2 * q + x.2) * 10000 + x.2 := by omega
        _ = (10000 * (q + 1) + 1) * x.2 := by ring
    exact Nat.lt_of_mul_lt_mul_right this
  rw [UInt8.toNat_ofNat', Nat.mod_eq_of_lt (by omega)]
  omega
end Che.Lib.Png
