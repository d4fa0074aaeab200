import Verif.Spec.Plunge

/-!
# Light seen by the gas that emits it
-/

namespace Gyoto.Spacetime

open Gyoto.MetricAlg

/-- The direction of light of momentum `p` for the observer `u`: the part of `p` orthogonal to `u`, divided by the energy `-p·u`. -/
noncomputable def direction (g : Tensor) (u p : Vec) : Vec := fun i => p i / (-scalarProd g p u) - u i

/-- The unit normal to the equatorial plane. -/
noncomputable def poleward (g : Tensor) : Vec := ![0, 0, 1 / √(g 2 2), 0]

/-- The distance between two points of a plane given by a radius and an angle. -/
noncomputable def planeDist (r1 φ1 r2 φ2 : ℝ) : ℝ :=
  √((r1 * Real.cos φ1 - r2 * Real.cos φ2) ^ 2 + (r1 * Real.sin φ1 - r2 * Real.sin φ2) ^ 2)

end Gyoto.Spacetime
