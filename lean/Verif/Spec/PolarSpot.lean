import Verif.Spec.HotSpot
import Mathlib.Analysis.SpecialFunctions.Trigonometric.Basic

/-!
# Angles in the frame of an observer
-/

namespace Gyoto.Spacetime

open Gyoto.MetricAlg

/-- The part of a vector orthogonal to the 4-velocity `u`. -/
def restPart (g : Tensor) (u B : Vec) : Vec := fun i => B i + scalarProd g B u * u i

/-- `θ` is the angle, for the observer `u`, between light of momentum `p` and the spatial part of `B`. -/
def IsAngle (g : Tensor) (u p B : Vec) (θ : ℝ) : Prop :=
  0 ≤ θ ∧ θ ≤ Real.pi ∧
    Real.cos θ * √(scalarProd g (restPart g u B) (restPart g u B)) = scalarProd g (direction g u p) (restPart g u B)

/-- The unit vector away from the centre. -/
noncomputable def outward (g : Tensor) : Vec := ![0, 1 / √(g 1 1), 0, 0]

/-- The unit vector along the rotation for an observer who has only a time and an azimuthal velocity. -/
noncomputable def azimuthal (g : Tensor) (u : Vec) : Vec :=
  let d := √(g 0 3 ^ 2 - g 0 0 * g 3 3)
  ![(g 0 3 * u 0 + g 3 3 * u 3) / d, 0, 0, -(g 0 0 * u 0 + g 0 3 * u 3) / d]

end Gyoto.Spacetime
