import Verif.Spec.PolarSpot

/-!
# Jets

A point of a meridional half-plane is given by its distance `ρ` to the axis and its height `z`.
-/

namespace Gyoto.Spacetime

open Gyoto.MetricAlg

/-- Between the two sheets `|z| = kin ρ²` and `|z| = kout ρ²`. -/
def BetweenParabolas (kin kout ρ z : ℝ) : Prop := kout * ρ ^ 2 < |z| ∧ |z| < kin * ρ ^ 2

/-- The point at the distance `r` of the centre, in the direction that makes the angle `t` with the nearest half of the axis. -/
structure IsPolar (r t ρ z : ℝ) : Prop where
  pos : 0 < r
  lo : 0 ≤ t
  hi : t ≤ Real.pi / 2
  rho : ρ = r * Real.sin t
  z : |z| = r * Real.cos t

/-- The observer without angular momentum. -/
structure IsZamo (g : Tensor) (w : Vec) : Prop extends IsObserver g w where
  r : w 1 = 0
  theta : w 2 = 0
  noSpin : lower g w 3 = 0

/-- The Lorentz factor of `u` for the observer `w`. -/
def lorentz (g : Tensor) (w u : Vec) : ℝ := -scalarProd g u w

/-- The unit vector along the rotation for the observer without angular momentum. -/
noncomputable def eastward (g : Tensor) : Vec := ![0, 0, 0, 1 / √(g 3 3)]

/-- The speeds at which the distance to the axis and the height change along a vector, in spherical coordinates. -/
noncomputable def rhoDot (pos v : Vec) : ℝ := v 1 * Real.sin (pos 2) + pos 1 * Real.cos (pos 2) * v 2
noncomputable def zDot (pos v : Vec) : ℝ := v 1 * Real.cos (pos 2) - pos 1 * Real.sin (pos 2) * v 2

/-- The speed at which `z - s k ρ²` changes along a vector: the gas crosses the sheet `s z = k ρ²` unless this is zero there. -/
noncomputable def acrossParabola (s k : ℝ) (pos v : Vec) : ℝ := zDot pos v - s * k * (2 * (pos 1 * Real.sin (pos 2)) * rhoDot pos v)

end Gyoto.Spacetime
