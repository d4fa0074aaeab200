import Verif.Model.OscilTorus
import Verif.Spec.OscilTorus
import Mathlib.Analysis.Calculus.Deriv.Mul
import Mathlib.Analysis.Calculus.Deriv.Pow
import Mathlib.Analysis.SpecialFunctions.Trigonometric.Deriv
import Mathlib.Tactic.FieldSimp
import Mathlib.Tactic.LinearCombination
import Mathlib.Tactic.Positivity
import Mathlib.Tactic.Linarith

/-!
# The modes of the torus with oscillations: algebra
-/

namespace Gyoto.OscTorus

open Gyoto.Spec.Oscil

/-- `√Δ` of the equation of the squared pulsations. -/
theorem disc_gt {n p q : ℝ} (hn : 0 < n) (hp : 0 < p) (hq : 0 < q) (hpq : p < q) :
    p + q < √(4 * n * (n + 1) * (p - q) * (p - q) + (p + q) * (p + q)) := by
  refine Real.lt_sqrt_of_sq_lt ?_
  have : 0 < 4 * n * (n + 1) * ((q - p) * (q - p)) := by
    have := sub_pos.2 hpq
    positivity
  nlinarith

theorem disc_lt {n p q : ℝ} (hn : 0 < n) (hp : 0 < p) (hq : 0 < q) :
    √(4 * n * (n + 1) * (p - q) * (p - q) + (p + q) * (p + q)) < (2 * n + 1) * (p + q) := by
  rw [Real.sqrt_lt' (by positivity)]
  have : 0 < n * (n + 1) * (p * q) := by positivity
  nlinarith

/-- The squared pulsations are the roots of `n s² - (2 n + 1) S s + 4 (n + 1) P`. -/
theorem sigma2_root {n p q e : ℝ} (hn : 0 < n) (hp : 0 < p) (hq : 0 < q) (he : e ^ 2 = 1) :
    n * sigma2 n p q e ^ 2 - (2 * n + 1) * (p + q) * sigma2 n p q e + 4 * (n + 1) * (p * q) = 0 := by
  have h0 : 0 ≤ 4 * n * (n + 1) * (p - q) * (p - q) + (p + q) * (p + q) := by
    have : 0 ≤ 4 * n * (n + 1) * ((p - q) * (p - q)) := mul_nonneg (by positivity) (mul_self_nonneg _)
    have : 0 ≤ (p + q) * (p + q) := mul_self_nonneg _
    linarith
  have hs := Real.sq_sqrt h0
  unfold sigma2
  generalize √(4 * n * (n + 1) * (p - q) * (p - q) + (p + q) * (p + q)) = D at *
  have : n ≠ 0 := hn.ne'
  field_simp
  grind

/-- The sum of the two squares is between the squared pulsations, both positive. -/
theorem sigma2_order {n p q : ℝ} (hn : 0 < n) (hp : 0 < p) (hq : 0 < q) (hpq : p < q) :
    0 < sigma2 n p q (-1) ∧ sigma2 n p q (-1) < p + q ∧ p + q < sigma2 n p q 1 ∧
    2 * n * sigma2 n p q (-1) - (2 * n + 1) * (p + q) < 0 ∧ 0 < 2 * n * sigma2 n p q 1 - (2 * n + 1) * (p + q) := by
  have h1 := disc_gt hn hp hq hpq
  have h2 := disc_lt hn hp hq
  unfold sigma2
  generalize √(4 * n * (n + 1) * (p - q) * (p - q) + (p + q) * (p + q)) = D at *
  have k : 2 * n ≠ 0 := by positivity
  have h2n : 0 < 2 * n := by positivity
  refine ⟨div_pos (by linarith) h2n, ?_, ?_, ?_, ?_⟩
  · rw [div_lt_iff₀ h2n]; linarith
  · rw [lt_div_iff₀ h2n]; linarith
  · rw [mul_div_cancel₀ _ k]; linarith
  · rw [mul_div_cancel₀ _ k]; linarith

/-- The two weights solve the linear equations of the mode. -/
theorem weights {n p q s : ℝ} (hpq : p < q) (h : n * s ^ 2 - (2 * n + 1) * (p + q) * s + 4 * (n + 1) * (p * q) = 0) :
    weight1 n p q s + weight2 n p q s + n * s = 0 ∧
    -p * (weight1 n p q s + weight2 n p q s) - 2 * n * p * weight1 n p q s + n * s * weight1 n p q s = 0 ∧
    -q * (weight1 n p q s + weight2 n p q s) - 2 * n * q * weight2 n p q s + n * s * weight2 n p q s = 0 := by
  have hne : q - p ≠ 0 := (sub_pos.2 hpq).ne'
  unfold weight1 weight2
  refine ⟨?_, ?_, ?_⟩
  · field_simp; ring
  · field_simp
    linear_combination (p * n) * h
  · field_simp
    linear_combination (-q * n) * h

theorem mode_x {n p q : ℝ} (hp : 0 < p) : IsMode n p q p fun x _ => x := by
  refine ⟨hp, ⟨1, 0, one_ne_zero⟩, fun _ _ => 1, fun _ _ => 0, fun _ _ => 0, fun _ _ => 0, fun x y => hasDerivAt_id x,
    fun x y => hasDerivAt_const _ _, fun x y => hasDerivAt_const _ _, fun x y => hasDerivAt_const _ _, fun x y => by ring⟩

theorem mode_y {n p q : ℝ} (hq : 0 < q) : IsMode n p q q fun _ y => y := by
  refine ⟨hq, ⟨0, 1, one_ne_zero⟩, fun _ _ => 0, fun _ _ => 1, fun _ _ => 0, fun _ _ => 0, fun x y => hasDerivAt_const _ _,
    fun x y => hasDerivAt_id y, fun x y => hasDerivAt_const _ _, fun x y => hasDerivAt_const _ _, fun x y => by ring⟩

theorem mode_xy {n p q : ℝ} (hp : 0 < p) (hq : 0 < q) : IsMode n p q (p + q) fun x y => x * y := by
  refine ⟨by positivity, ⟨1, 1, by norm_num⟩, fun _ y => y, fun x _ => x, fun _ _ => 0, fun _ _ => 0, fun x y => ?_, fun x y => ?_,
    fun x y => hasDerivAt_const _ _, fun x y => hasDerivAt_const _ _, fun x y => by ring⟩
  · simpa using (hasDerivAt_id x).mul_const y
  · simpa using (hasDerivAt_id y).const_mul x

theorem quad_deriv (w k : ℝ) (x : ℝ) : HasDerivAt (fun z => k + w * z * z) (2 * w * x) x := by
  have := (((hasDerivAt_id x).const_mul w).mul (hasDerivAt_id x)).const_add k
  refine this.congr_deriv ?_
  simp only [id]; ring

theorem quad_deriv' (w k v : ℝ) (x : ℝ) : HasDerivAt (fun z => k + w * z * z + v) (2 * w * x) x := (quad_deriv w k x).add_const v

theorem mode_quad {n p q s w1 w2 : ℝ} (hs : 0 < s) (h1 : w1 + w2 + n * s = 0)
    (h2 : -p * (w1 + w2) - 2 * n * p * w1 + n * s * w1 = 0) (h3 : -q * (w1 + w2) - 2 * n * q * w2 + n * s * w2 = 0) :
    IsMode n p q s fun x y => 1 + w1 * x * x + w2 * y * y := by
  refine ⟨hs, ⟨0, 0, by norm_num⟩, fun x _ => 2 * w1 * x, fun _ y => 2 * w2 * y, fun _ _ => 2 * w1, fun _ _ => 2 * w2, fun x y => ?_, fun x y => ?_,
    fun x y => ?_, fun x y => ?_, fun x y => ?_⟩
  · exact quad_deriv' w1 1 _ x
  · exact quad_deriv w2 _ y
  · simpa using (hasDerivAt_id x).const_mul (2 * w1)
  · simpa using (hasDerivAt_id y).const_mul (2 * w2)
  · linear_combination 2 * h1 + 2 * x ^ 2 * h2 + 2 * y ^ 2 * h3

end Gyoto.OscTorus
