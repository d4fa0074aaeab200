import Verif.Spec.Trapezoid
import Mathlib.Analysis.SpecialFunctions.Trigonometric.Basic

/-! # Hot plasmas: what emission and absorption coefficients must satisfy -/

namespace Gyoto.Plasma

open Gyoto.Spec

/-- Planck's law: `k` is `2h/c²` and `hk` is `h/k_B`. -/
noncomputable def planck (k hk T nu : ℝ) : ℝ := k * nu ^ 3 / (Real.exp (hk * nu / T) - 1)

/-- A beam of light: the polarised part is not more than the whole. -/
def IsBeam (I Q U V : ℝ) : Prop := 0 ≤ I ∧ Q ^ 2 + U ^ 2 + V ^ 2 ≤ I ^ 2

/-- The mean over the directions, `1/2 ∫ g(θ) sin θ dθ`, by `N` trapezoids from 0.01 rad to π − 0.01 rad. -/
noncomputable def mean (N : ℕ) (g : ℝ → ℝ) : ℝ := 1 / 2 * trapezoids (fun θ => g θ * Real.sin θ) 0.01 (Real.pi - 0.01) N

/-- What leaves a uniform slab of depth `s`: the solution of `dI/ds = j - a I` that vanishes at the entrance. -/
noncomputable def slab (j a s : ℝ) : ℝ := j / a * (1 - Real.exp (-a * s))

end Gyoto.Plasma
