import Mathlib.Analysis.Calculus.Deriv.Basic

/-!
# Waves on a disk, and Bessel's equation
-/

namespace Gyoto.Stochastic

/-- `u(t, r, φ)` is a wave of unit speed on the plane in polar coordinates: `u_tt = u_rr + u_r / r + u_φφ / r²` for `r > 0`. -/
def IsWave (u : ℝ → ℝ → ℝ → ℝ) : Prop :=
  ∃ ut utt ur urr up upp : ℝ → ℝ → ℝ → ℝ, ∀ t r p,
    HasDerivAt (fun s => u s r p) (ut t r p) t ∧ HasDerivAt (fun s => ut s r p) (utt t r p) t ∧
    HasDerivAt (fun s => u t s p) (ur t r p) r ∧ HasDerivAt (fun s => ur t s p) (urr t r p) r ∧
    HasDerivAt (fun s => u t r s) (up t r p) p ∧ HasDerivAt (fun s => up t r s) (upp t r p) p ∧
    (0 < r → utt t r p = urr t r p + ur t r p / r + upp t r p / r ^ 2)

/-- `f` solves Bessel's equation of order `m`: `x² f'' + x f' + (x² - m²) f = 0`. -/
def IsBessel (m : ℝ) (f : ℝ → ℝ) : Prop :=
  ∃ f' f'' : ℝ → ℝ, ∀ x, HasDerivAt f (f' x) x ∧ HasDerivAt f' (f'' x) x ∧ x ^ 2 * f'' x + x * f' x + (x ^ 2 - m ^ 2) * f x = 0

end Gyoto.Stochastic
