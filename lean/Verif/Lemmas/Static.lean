import Verif.Lemmas.Circular
import Verif.Model.Static
import Mathlib.Analysis.SpecialFunctions.Trigonometric.Deriv

/-!
# Lemmas on metrics without rotation
-/

namespace Gyoto.Static

open Gyoto.MetricAlg Gyoto.KerrBL Gyoto.Spacetime

theorem diagΓ_eq (d001 d100 d111 d122 d133 d212 d233 d313 d323 : ℝ) : diagΓ d001 d100 d111 d122 d133 d212 d233 d313 d323 =
    circΓ d001 0 0 0 d100 0 d111 0 d122 d133 0 0 0 d212 0 d233 0 0 d313 d323 := rfl

theorem sin2_deriv (θ : ℝ) : HasDerivAt (fun x => Real.sin x * Real.sin x) (2 * Real.sin θ * Real.cos θ) θ := by
  have := (Real.hasDerivAt_sin θ).mul (Real.hasDerivAt_sin θ)
  refine this.congr_deriv ?_
  ring

/-- The nine equations that the symbols of a spherically symmetric static metric have to satisfy. -/
theorem isChristoffel_sph {f k h : ℝ → ℝ} {pos : Vec} {f' k' h' : ℝ} (hf : HasDerivAt f f' (pos 1)) (hk : HasDerivAt k k' (pos 1))
    (hh : HasDerivAt h h' (pos 1)) {d001 d100 d111 d122 d133 d212 d233 d313 d323 : ℝ} (e001 : f (pos 1) * d001 = f' / 2)
    (e100 : k (pos 1) * d100 = -f' / 2) (e111 : k (pos 1) * d111 = k' / 2) (e122 : k (pos 1) * d122 = -h' / 2)
    (e133 : k (pos 1) * d133 = -(h' * (Real.sin (pos 2) * Real.sin (pos 2))) / 2) (e212 : h (pos 1) * d212 = h' / 2)
    (e233 : d233 = -(Real.sin (pos 2) * Real.cos (pos 2)))
    (e313 : h (pos 1) * d313 = h' / 2) (e323 : Real.sin (pos 2) * d323 = Real.cos (pos 2)) :
    IsChristoffel (fun p => circ (f (p 1)) (k (p 1)) (h (p 1)) (h (p 1) * (Real.sin (p 2) * Real.sin (p 2))) 0) pos
      (diagΓ d001 d100 d111 d122 d133 d212 d233 d313 d323) := by
  rw [diagΓ_eq]
  have hp := hh.mul_const (Real.sin (pos 2) * Real.sin (pos 2))
  have hpθ := (sin2_deriv (pos 2)).const_mul (h (pos 1))
  refine isChristoffel_circ (tt := fun r _ => f r) (rr := fun r _ => k r) (hh := fun r _ => h r)
    (pp := fun r θ => h r * (Real.sin θ * Real.sin θ)) (tp := fun _ _ => 0) hf hk hh hp (hasDerivAt_const _ _) (hasDerivAt_const _ _)
    (hasDerivAt_const _ _) (hasDerivAt_const _ _) hpθ (hasDerivAt_const _ _) ?_ ?_ ?_ ?_ ?_ ?_ ?_ ?_ ?_ ?_ ?_ ?_ ?_ ?_ ?_ ?_ ?_ ?_ ?_ ?_
  · linear_combination e001
  · ring
  · ring
  · ring
  · ring
  · ring
  · linear_combination (Real.sin (pos 2) * Real.sin (pos 2)) * e313
  · linear_combination (h (pos 1) * Real.sin (pos 2)) * e323
  · linear_combination e100
  · ring
  · linear_combination e111
  · ring
  · linear_combination e122
  · linear_combination e133
  · ring
  · ring
  · ring
  · linear_combination e212
  · ring
  · linear_combination h (pos 1) * e233

end Gyoto.Static
