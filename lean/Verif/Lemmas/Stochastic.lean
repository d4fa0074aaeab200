import Verif.Model.Stochastic
import Verif.Spec.Stochastic
import Mathlib.Analysis.Calculus.ParametricIntervalIntegral
import Mathlib.Analysis.SpecialFunctions.Trigonometric.Deriv
import Mathlib.Analysis.Calculus.Deriv.Comp
import Mathlib.Tactic.Ring
import Mathlib.Tactic.LinearCombination
import Mathlib.Tactic.FieldSimp

namespace Gyoto.Stochastic

open Real MeasureTheory

/-! ### Bessel's integral -/

/-- Derivative under the integral, everything being continuous and the derivative bounded by 1. -/
theorem deriv_integral {F F' : ℝ → ℝ → ℝ} (hF : ∀ x, Continuous (F x)) (hF' : ∀ x, Continuous (F' x))
    (hb : ∀ x t, |F' x t| ≤ 1) (hd : ∀ x t, HasDerivAt (fun y => F y t) (F' x t) x) (x : ℝ) :
    HasDerivAt (fun y => ∫ t in (0 : ℝ)..π, F y t) (∫ t in (0 : ℝ)..π, F' x t) x := by
  refine (intervalIntegral.hasDerivAt_integral_of_dominated_loc_of_deriv_le (bound := fun _ => 1) (s := Set.univ) (F := F) (F' := F')
    Filter.univ_mem (Filter.Eventually.of_forall fun y => (hF y).aestronglyMeasurable) ((hF x).intervalIntegrable _ _)
    (hF' x).aestronglyMeasurable (Filter.Eventually.of_forall fun t _ y _ => by rw [Real.norm_eq_abs]; exact hb y t)
    (continuous_const.intervalIntegrable _ _) (Filter.Eventually.of_forall fun t _ y _ => hd y t)).2

theorem arg_deriv (m τ x : ℝ) : HasDerivAt (fun y : ℝ => m * τ - y * sin τ) (-sin τ) x := by
  have := ((hasDerivAt_id x).mul_const (sin τ)).const_sub (m * τ)
  simpa using this

theorem besselJ_deriv (m : Nat) (x : ℝ) :
    HasDerivAt (besselJ m) (1 / π * ∫ τ in (0 : ℝ)..π, sin τ * sin (m * τ - x * sin τ)) x := by
  refine HasDerivAt.const_mul (1 / π) (deriv_integral (F := fun y τ => cos (m * τ - y * sin τ))
    (F' := fun y τ => sin τ * sin (m * τ - y * sin τ)) (fun y => by fun_prop) (fun y => by fun_prop) (fun y t => ?_) (fun y t => ?_) x)
  · rw [abs_mul]
    exact mul_le_one₀ (abs_sin_le_one _) (abs_nonneg _) (abs_sin_le_one _)
  · refine (arg_deriv m t y).cos.congr_deriv ?_
    ring

theorem besselJ_deriv2 (m : Nat) (x : ℝ) :
    HasDerivAt (fun y => 1 / π * ∫ τ in (0 : ℝ)..π, sin τ * sin (m * τ - y * sin τ))
      (1 / π * ∫ τ in (0 : ℝ)..π, -(sin τ ^ 2 * cos (m * τ - x * sin τ))) x := by
  refine HasDerivAt.const_mul (1 / π) (deriv_integral (F := fun y τ => sin τ * sin (m * τ - y * sin τ))
    (F' := fun y τ => -(sin τ ^ 2 * cos (m * τ - y * sin τ))) (fun y => by fun_prop) (fun y => by fun_prop) (fun y t => ?_) (fun y t => ?_) x)
  · rw [abs_neg, abs_mul, abs_pow]
    exact mul_le_one₀ (pow_le_one₀ (abs_nonneg _) (abs_sin_le_one _)) (abs_nonneg _) (abs_cos_le_one _)
  · refine ((arg_deriv m t y).sin.const_mul (sin t)).congr_deriv ?_
    ring

theorem besselJ_isBessel (m : Nat) : IsBessel m (besselJ m) := by
  refine ⟨_, _, fun x => ⟨besselJ_deriv m x, besselJ_deriv2 m x, ?_⟩⟩
  have c1 : Continuous fun τ : ℝ => -(sin τ ^ 2 * cos (m * τ - x * sin τ)) := by fun_prop
  have c2 : Continuous fun τ : ℝ => sin τ * sin (m * τ - x * sin τ) := by fun_prop
  have c3 : Continuous fun τ : ℝ => cos (m * τ - x * sin τ) := by fun_prop
  have hd : ∀ τ : ℝ, HasDerivAt (fun τ : ℝ => -((m + x * cos τ) * sin (m * τ - x * sin τ)))
      (x ^ 2 * -(sin τ ^ 2 * cos (m * τ - x * sin τ)) + x * (sin τ * sin (m * τ - x * sin τ)) +
        (x ^ 2 - m ^ 2) * cos (m * τ - x * sin τ)) τ := by
    intro τ
    have h1 : HasDerivAt (fun τ : ℝ => (m : ℝ) + x * cos τ) (x * -sin τ) τ := ((hasDerivAt_cos τ).const_mul x).const_add _
    have h2 : HasDerivAt (fun τ : ℝ => m * τ - x * sin τ) (m * 1 - x * cos τ) τ :=
      ((hasDerivAt_id τ).const_mul (m : ℝ)).sub ((hasDerivAt_sin τ).const_mul x)
    refine (h1.mul h2.sin).neg.congr_deriv ?_
    have := sin_sq_add_cos_sq τ
    linear_combination (x ^ 2 * cos (m * τ - x * sin τ)) * this
  have hint := intervalIntegral.integral_eq_sub_of_hasDerivAt (a := 0) (b := π) (fun τ _ => hd τ)
    (Continuous.intervalIntegrable (by fun_prop) _ _)
  have hz : -((m + x * cos π) * sin (m * π - x * sin π)) - -((m + x * cos 0) * sin (m * 0 - x * sin 0)) = 0 := by
    simp [sin_nat_mul_pi]
  rw [hz, intervalIntegral.integral_add, intervalIntegral.integral_add, intervalIntegral.integral_const_mul,
    intervalIntegral.integral_const_mul, intervalIntegral.integral_const_mul] at hint
  · unfold besselJ
    linear_combination (1 / π) * hint
  all_goals exact Continuous.intervalIntegrable (by fun_prop) _ _

theorem besselJ_zero (m : Nat) : besselJ m 0 = if m = 0 then 1 else 0 := by
  unfold besselJ
  simp only [zero_mul, sub_zero]
  split
  · next h => subst h; simp [pi_ne_zero]
  · next h =>
    have hm : (m : ℝ) ≠ 0 := Nat.cast_ne_zero.2 h
    rw [intervalIntegral.integral_comp_mul_left (f := cos) hm]
    simp [sin_nat_mul_pi]

theorem besselJ_continuous (m : Nat) : Continuous (besselJ m) :=
  continuous_iff_continuousAt.2 fun x => (besselJ_deriv m x).continuousAt

/-! ### Waves -/

theorem IsWave.add {u v : ℝ → ℝ → ℝ → ℝ} (hu : IsWave u) (hv : IsWave v) : IsWave fun t r p => u t r p + v t r p := by
  obtain ⟨a1, a2, a3, a4, a5, a6, h⟩ := hu
  obtain ⟨b1, b2, b3, b4, b5, b6, k⟩ := hv
  refine ⟨fun t r p => a1 t r p + b1 t r p, fun t r p => a2 t r p + b2 t r p, fun t r p => a3 t r p + b3 t r p,
    fun t r p => a4 t r p + b4 t r p, fun t r p => a5 t r p + b5 t r p, fun t r p => a6 t r p + b6 t r p, fun t r p => ?_⟩
  obtain ⟨h1, h2, h3, h4, h5, h6, h7⟩ := h t r p
  obtain ⟨k1, k2, k3, k4, k5, k6, k7⟩ := k t r p
  refine ⟨h1.add k1, h2.add k2, h3.add k3, h4.add k4, h5.add k5, h6.add k6, fun hr => ?_⟩
  simp only
  rw [h7 hr, k7 hr]
  ring

theorem isWave_zero : IsWave fun _ _ _ => 0 :=
  ⟨fun _ _ _ => 0, fun _ _ _ => 0, fun _ _ _ => 0, fun _ _ _ => 0, fun _ _ _ => 0, fun _ _ _ => 0, fun t r p =>
    ⟨hasDerivAt_const _ _, hasDerivAt_const _ _, hasDerivAt_const _ _, hasDerivAt_const _ _, hasDerivAt_const _ _, hasDerivAt_const _ _,
      fun _ => by simp⟩⟩

theorem lin_deriv (k c x : ℝ) : HasDerivAt (fun y : ℝ => k * y + c) k x := by
  have := ((hasDerivAt_id x).const_mul k).add_const c
  simpa using this

/-- One mode is a wave. -/
theorem mode_wave {f : ℝ → ℝ} {m : ℝ} (hf : IsBessel m f) (A k a b : ℝ) :
    IsWave fun t r p => A * f (k * r) * cos (m * p + a) * cos (k * t + b) := by
  obtain ⟨f', f'', h⟩ := hf
  refine ⟨fun t r p => A * f (k * r) * cos (m * p + a) * (-sin (k * t + b) * k),
    fun t r p => A * f (k * r) * cos (m * p + a) * (-(cos (k * t + b) * k) * k),
    fun t r p => A * (f' (k * r) * k) * cos (m * p + a) * cos (k * t + b),
    fun t r p => A * (f'' (k * r) * k * k) * cos (m * p + a) * cos (k * t + b),
    fun t r p => A * f (k * r) * (-sin (m * p + a) * m) * cos (k * t + b),
    fun t r p => A * f (k * r) * (-(cos (m * p + a) * m) * m) * cos (k * t + b), fun t r p => ?_⟩
  have hk : HasDerivAt (fun y : ℝ => k * y) k r := by simpa using (hasDerivAt_id r).const_mul k
  obtain ⟨e1, e2, e3⟩ := h (k * r)
  refine ⟨(lin_deriv k b t).cos.const_mul _, (((lin_deriv k b t).sin.neg.mul_const k).const_mul _).congr_deriv (by ring), ?_, ?_, ?_, ?_, ?_⟩
  · exact (((e1.comp r hk).const_mul A).mul_const _).mul_const _
  · exact ((((e2.comp r hk).mul_const k).const_mul A).mul_const _).mul_const _
  · exact ((lin_deriv m a p).cos.const_mul _).mul_const _
  · exact ((((lin_deriv m a p).sin.neg.mul_const m).const_mul _).mul_const _).congr_deriv (by ring)
  · intro hr
    field_simp
    linear_combination (-A * cos (m * p + a) * cos (k * t + b)) * e3

end Gyoto.Stochastic
