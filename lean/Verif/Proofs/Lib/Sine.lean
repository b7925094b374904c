import Mathlib.Analysis.Complex.Trigonometric
import Mathlib.Analysis.Complex.Exponential
import Mathlib.Algebra.Order.Floor.Ring
import Mathlib.Tactic.Linarith
import Mathlib.Tactic.Ring
import Mathlib.Tactic.LinearCombination
import Mathlib.Tactic.NormNum
import Mathlib.Tactic.Positivity
import Mathlib.Data.Nat.Factorial.Basic

/-!
Sines of whole numbers, to many digits: the exponential series at `i`, then the addition
theorems, in integers scaled by 10^60.
-/
namespace Che.Lib.Sine
open Complex

/-- `i^m / m!` as two rationals. -/
def term : Nat → ℚ × ℚ
  | 0 => (1, 0)
  | m + 1 => (-(term m).2 / (m + 1), (term m).1 / (m + 1))

theorem term_spec (m : Nat) : ((term m).1 : ℂ) + (term m).2 * I = I ^ m / m.factorial := by
  induction m with
  | zero => simp [term]
  | succ m ih =>
    rw [pow_succ, Nat.factorial_succ]
    have h1 : ((m : ℂ) + 1) ≠ 0 := by exact_mod_cast Nat.succ_ne_zero m
    have h2 : ((m.factorial : ℕ) : ℂ) ≠ 0 := by exact_mod_cast Nat.factorial_ne_zero m
    have : I ^ m * I / (((m + 1) * m.factorial : ℕ) : ℂ) = (I ^ m / m.factorial) * I / (m + 1) := by
      push_cast; field_simp
    rw [this, ← ih]
    simp only [term]
    push_cast
    field_simp
    linear_combination (-(term m).2 : ℂ) * I_mul_I

/-- The partial sums. -/
def sum : Nat → ℚ × ℚ
  | 0 => (0, 0)
  | m + 1 => ((sum m).1 + (term m).1, (sum m).2 + (term m).2)

theorem sum_spec (n : Nat) : ((sum n).1 : ℂ) + (sum n).2 * I = ∑ m ∈ Finset.range n, I ^ m / m.factorial := by
  induction n with
  | zero => simp [sum]
  | succ n ih =>
    rw [Finset.sum_range_succ, ← ih, ← term_spec]
    simp only [sum]
    push_cast
    ring

def D : Int := 10 ^ 60
def s1 : Int := 841470984807896506652502321630298999622563060798371065672751
def c1 : Int := 540302305868139717400936607442976603732310420617922227670097

theorem exp_close : ‖exp I - (((sum 52).1 : ℂ) + (sum 52).2 * I)‖ ≤ ((53 : ℝ) * ((52).factorial * 52 : ℝ)⁻¹) := by
  have h := exp_bound (x := I) (by simp) (n := 52) (by norm_num)
  rw [← sum_spec] at h
  simpa using h

theorem cos_sin_close : |Real.cos 1 - ((sum 52).1 : ℝ)| ≤ ((53 : ℝ) * ((52).factorial * 52 : ℝ)⁻¹) ∧
    |Real.sin 1 - ((sum 52).2 : ℝ)| ≤ ((53 : ℝ) * ((52).factorial * 52 : ℝ)⁻¹) := by
  have h := exp_close
  have he : exp I = (Real.cos 1 : ℂ) + (Real.sin 1 : ℂ) * I := by
    have := exp_mul_I (1 : ℂ)
    rw [one_mul] at this
    rw [this]; push_cast; rfl
  have hz : exp I - (((sum 52).1 : ℂ) + (sum 52).2 * I) =
      ((Real.cos 1 - ((sum 52).1 : ℝ) : ℝ) : ℂ) + ((Real.sin 1 - ((sum 52).2 : ℝ) : ℝ) : ℂ) * I := by
    rw [he]; push_cast; ring
  rw [hz] at h
  refine ⟨?_, ?_⟩
  · have := abs_re_le_norm (((Real.cos 1 - ((sum 52).1 : ℝ) : ℝ) : ℂ) + ((Real.sin 1 - ((sum 52).2 : ℝ) : ℝ) : ℂ) * I)
    refine le_trans ?_ (this.trans h)
    simp [-ofReal_sub, -ofReal_cos, -ofReal_sin]
  · have := abs_im_le_norm (((Real.cos 1 - ((sum 52).1 : ℝ) : ℝ) : ℂ) + ((Real.sin 1 - ((sum 52).2 : ℝ) : ℝ) : ℂ) * I)
    refine le_trans ?_ (this.trans h)
    simp [-ofReal_sub, -ofReal_cos, -ofReal_sin]

theorem sum_values : |(sum 52).1 * 10 ^ 60 - 540302305868139717400936607442976603732310420617922227670097| ≤ 1 ∧
    |(sum 52).2 * 10 ^ 60 - 841470984807896506652502321630298999622563060798371065672751| ≤ 1 := by
  decide +kernel

theorem small : ((53 : ℝ) * ((52).factorial * 52 : ℝ)⁻¹) * 10 ^ 60 ≤ 1 := by
  norm_num [Nat.factorial]

theorem one_close : |Real.cos 1 * D - c1| ≤ 2 ∧ |Real.sin 1 * D - s1| ≤ 2 := by
  obtain ⟨h1, h2⟩ := cos_sin_close
  obtain ⟨v1, v2⟩ := sum_values
  have hD : ((D : Int) : ℝ) = 10 ^ 60 := by norm_num [D]
  have hc : ((c1 : Int) : ℝ) = 540302305868139717400936607442976603732310420617922227670097 := by norm_num [c1]
  have hs : ((s1 : Int) : ℝ) = 841470984807896506652502321630298999622563060798371065672751 := by norm_num [s1]
  have w1 : |((sum 52).1 : ℝ) * 10 ^ 60 - 540302305868139717400936607442976603732310420617922227670097| ≤ 1 := by exact_mod_cast v1
  have w2 : |((sum 52).2 : ℝ) * 10 ^ 60 - 841470984807896506652502321630298999622563060798371065672751| ≤ 1 := by exact_mod_cast v2
  have hsm := small
  generalize (53 : ℝ) * ((52).factorial * 52 : ℝ)⁻¹ = e at *
  generalize ((sum 52).1 : ℝ) = p at *
  generalize ((sum 52).2 : ℝ) = q at *
  rw [hD, hc, hs]
  rw [abs_le] at *
  refine ⟨⟨?_, ?_⟩, ?_⟩
  · linarith
  · linarith
  · rw [abs_le] at *
    constructor <;> linarith

/-- Cosine and sine of `n`, scaled. -/
def table : Nat → Int × Int
  | 0 => (D, 0)
  | n + 1 => (((table n).1 * c1 - (table n).2 * s1) / D, ((table n).2 * c1 + (table n).1 * s1) / D)

/-- The error of the table. -/
def err (n : Nat) : Int := 9 * 2 ^ n - 9

theorem step_close (x y a b : ℝ) (X Y A B e : ℝ) (hx : |x| ≤ 1) (hy : |y| ≤ 1) (ha : |a| ≤ 1) (hb : |b| ≤ 1)
    (hX : |x * D - X| ≤ e) (hY : |y * D - Y| ≤ e) (hA : |a * D - A| ≤ 2) (hB : |b * D - B| ≤ 2) (he : e ≤ D) (he0 : 0 ≤ e) :
    |(x * a + y * b) * D - (X * A + Y * B) / D| ≤ 2 * e + 8 := by
  have hD0 : (0 : ℝ) < (D : Int) := by norm_num [D]
  generalize hd : ((D : Int) : ℝ) = d at *
  have hXd : |X| ≤ 2 * d := by
    have : |X| ≤ |x * d - X| + |x * d| := by
      have := abs_sub_abs_le_abs_sub X (x * d)
      rw [abs_sub_comm X (x * d)] at this
      linarith
    have h2 : |x * d| ≤ d := by
      rw [abs_mul, abs_of_pos hD0]
      nlinarith [abs_nonneg x]
    linarith
  have hYd : |Y| ≤ 2 * d := by
    have : |Y| ≤ |y * d - Y| + |y * d| := by
      have := abs_sub_abs_le_abs_sub Y (y * d)
      rw [abs_sub_comm Y (y * d)] at this
      linarith
    have h2 : |y * d| ≤ d := by
      rw [abs_mul, abs_of_pos hD0]
      nlinarith [abs_nonneg y]
    linarith
  have key : (x * a + y * b) * d - (X * A + Y * B) / d =
      a * (x * d - X) + b * (y * d - Y) + (X / d) * (a * d - A) + (Y / d) * (b * d - B) := by
    field_simp
    ring
  rw [key]
  have hX1 : |X / d| ≤ 2 := by rw [abs_div, abs_of_pos hD0, div_le_iff₀ hD0]; linarith
  have hY1 : |Y / d| ≤ 2 := by rw [abs_div, abs_of_pos hD0, div_le_iff₀ hD0]; linarith
  have t1 : |a * (x * d - X)| ≤ e := by
    rw [abs_mul]; nlinarith [abs_nonneg a, abs_nonneg (x * d - X)]
  have t2 : |b * (y * d - Y)| ≤ e := by
    rw [abs_mul]; nlinarith [abs_nonneg b, abs_nonneg (y * d - Y)]
  have t3 : |(X / d) * (a * d - A)| ≤ 4 := by
    rw [abs_mul]; nlinarith [abs_nonneg (X / d), abs_nonneg (a * d - A)]
  have t4 : |(Y / d) * (b * d - B)| ≤ 4 := by
    rw [abs_mul]; nlinarith [abs_nonneg (Y / d), abs_nonneg (b * d - B)]
  calc |a * (x * d - X) + b * (y * d - Y) + (X / d) * (a * d - A) + (Y / d) * (b * d - B)|
      ≤ |a * (x * d - X)| + |b * (y * d - Y)| + |(X / d) * (a * d - A)| + |(Y / d) * (b * d - B)| := by
        refine (abs_add_le _ _).trans (add_le_add ((abs_add_le _ _).trans (add_le_add (abs_add_le _ _) le_rfl)) le_rfl)
    _ ≤ 2 * e + 8 := by linarith

theorem floor_close (N : Int) : |(N : ℝ) / (D : Int) - ((N / D : Int) : ℝ)| ≤ 1 := by
  have hD : (0 : Int) < D := by decide
  have h1 := Int.mul_ediv_add_emod N D
  have h2 := Int.emod_nonneg N (show D ≠ 0 by decide)
  have h3 := Int.emod_lt_of_pos N hD
  have hDr : (0 : ℝ) < (D : Int) := by exact_mod_cast hD
  have e1 : (N : ℝ) = (D : ℝ) * ((N / D : Int) : ℝ) + ((N % D : Int) : ℝ) := by exact_mod_cast h1.symm
  have h2' : (0 : ℝ) ≤ ((N % D : Int) : ℝ) := by exact_mod_cast h2
  have h3' : ((N % D : Int) : ℝ) < (D : Int) := by exact_mod_cast h3
  generalize ((N / D : Int) : ℝ) = q at *
  generalize ((N % D : Int) : ℝ) = r at *
  have : (N : ℝ) / (D : Int) - q = r / (D : Int) := by
    rw [e1]; field_simp; ring
  rw [this, abs_of_nonneg (by positivity), div_le_one hDr]
  exact h3'.le

theorem table_close (n : Nat) (hn : n ≤ 64) :
    |Real.cos n * D - ((table n).1 : Int)| ≤ (err n : Int) ∧ |Real.sin n * D - ((table n).2 : Int)| ≤ (err n : Int) := by
  induction n with
  | zero => simp [table, err]
  | succ n ih =>
    obtain ⟨i1, i2⟩ := ih (by omega)
    obtain ⟨o1, o2⟩ := one_close
    have hle : err n ≤ D ∧ 0 ≤ err n := by
      have : ∀ n : Fin 65, err n.val ≤ D ∧ 0 ≤ err n.val := by decide +kernel
      exact this ⟨n, by omega⟩
    have hler : ((err n : Int) : ℝ) ≤ (D : Int) := by exact_mod_cast hle.1
    have hler0 : (0 : ℝ) ≤ ((err n : Int) : ℝ) := by exact_mod_cast hle.2
    have herr : ((err (n + 1) : Int) : ℝ) = 2 * ((err n : Int) : ℝ) + 9 := by
      have : err (n + 1) = 2 * err n + 9 := by unfold err; ring
      exact_mod_cast this
    have hc := Real.abs_cos_le_one n
    have hs := Real.abs_sin_le_one n
    have hc1 := Real.abs_cos_le_one 1
    have hs1 := Real.abs_sin_le_one 1
    refine ⟨?_, ?_⟩
    · have e : Real.cos ((n + 1 : Nat) : ℝ) = Real.cos n * Real.cos 1 + Real.sin n * (-Real.sin 1) := by
        push_cast; rw [Real.cos_add]; ring
      have st := step_close (Real.cos n) (Real.sin n) (Real.cos 1) (-Real.sin 1) _ _ _ (-(s1 : ℝ)) _ hc hs hc1 (by rwa [abs_neg])
        i1 i2 o1 (by rw [← abs_neg] at o2; convert o2 using 2; ring) hler hler0
      have fl := floor_close ((table n).1 * c1 - (table n).2 * s1)
      rw [e, herr]
      have hcast : (((table n).1 * c1 - (table n).2 * s1 : Int) : ℝ) = ((table n).1 : ℝ) * c1 + ((table n).2 : ℝ) * (-(s1 : ℝ)) := by
        push_cast; ring
      rw [hcast] at fl
      have := abs_add_le _ _ |>.trans (add_le_add st fl)
      refine le_trans (le_of_eq ?_) (this.trans (by linarith))
      congr 1
      simp only [table]
      ring
    · have e : Real.sin ((n + 1 : Nat) : ℝ) = Real.sin n * Real.cos 1 + Real.cos n * Real.sin 1 := by
        push_cast; rw [Real.sin_add]
      have st := step_close (Real.sin n) (Real.cos n) (Real.cos 1) (Real.sin 1) _ _ _ (s1 : ℝ) _ hs hc hc1 hs1
        i2 i1 o1 o2 hler hler0
      have fl := floor_close ((table n).2 * c1 + (table n).1 * s1)
      rw [e, herr]
      have hcast : (((table n).2 * c1 + (table n).1 * s1 : Int) : ℝ) = ((table n).2 : ℝ) * c1 + ((table n).1 : ℝ) * s1 := by
        push_cast; ring
      rw [hcast] at fl
      have := abs_add_le _ _ |>.trans (add_le_add st fl)
      refine le_trans (le_of_eq ?_) (this.trans (by linarith))
      congr 1
      simp only [table]
      ring

/-- A number is the integer part if the table says so. -/
theorem floor_sine (n t : Nat) (hn : n ≤ 64) (h1 : t * D + 4294967296 * err n ≤ 4294967296 * |(table n).2|)
    (h2 : 4294967296 * |(table n).2| + 4294967296 * err n < (t + 1) * D) : ⌊4294967296 * |Real.sin n|⌋₊ = t := by
  have hc := (table_close n hn).2
  have hD : (0 : ℝ) < (D : Int) := by exact_mod_cast (show (0 : Int) < D by decide)
  have habs : abs (|Real.sin n| * D - |((table n).2 : ℝ)|) ≤ ((err n : Int) : ℝ) := by
    have := abs_abs_sub_abs_le_abs_sub (Real.sin n * D) ((table n).2 : ℝ)
    rw [abs_mul, abs_of_pos hD] at this
    exact this.trans hc
  have h1' : (t : ℝ) * (D : Int) + 4294967296 * ((err n : Int) : ℝ) ≤ 4294967296 * |((table n).2 : ℝ)| := by exact_mod_cast h1
  have h2' : 4294967296 * |((table n).2 : ℝ)| + 4294967296 * ((err n : Int) : ℝ) < ((t : ℝ) + 1) * (D : Int) := by exact_mod_cast h2
  rw [abs_le] at habs
  rw [Nat.floor_eq_iff (by positivity)]
  constructor
  · have : (t : ℝ) * (D : Int) ≤ 4294967296 * |Real.sin n| * (D : Int) := by nlinarith [habs.1]
    exact le_of_mul_le_mul_right this hD
  · have : 4294967296 * |Real.sin n| * (D : Int) < ((t : ℝ) + 1) * (D : Int) := by nlinarith [habs.2]
    exact lt_of_mul_lt_mul_right this hD.le

end Che.Lib.Sine
