import Verif.Model.Orbits
import Verif.Spec.Orbits
import Mathlib.Analysis.SpecialFunctions.Integrals.Basic

/-!
# The flux of a thin disk of matter on circular orbits (Page and Thorne 1974)
-/

namespace Gyoto.PageThorne

open Gyoto.MetricAlg Gyoto.KerrBL Gyoto.Orbits Gyoto.Spacetime

/-- A point of the equatorial plane. -/
noncomputable def equator (r : ℝ) : Vec := ![0, r, Real.pi / 2, 0]

/-- Energy, angular momentum (both conserved) and angular velocity of the matter of the disk, whose velocity is that of
`KerrBL::circularVelocity` (that this is the velocity of a free circular orbit is `Orbits.kerr_circular`). -/
noncomputable def energy (a dir r : ℝ) : ℝ := -lower (gmunu a (equator r)) (kerrVel a (equator r) dir) 0
noncomputable def angMom (a dir r : ℝ) : ℝ := lower (gmunu a (equator r)) (kerrVel a (equator r) dir) 3
noncomputable def angVel (a dir r : ℝ) : ℝ := kerrVel a (equator r) dir 3 / kerrVel a (equator r) dir 0

/-- Page and Thorne (1974), equation 12: the function `f` that conservation of energy and of angular momentum gives when no torque
is exerted at the inner edge `r0` (mass 1). The flux from each face is `Mdot f / (4 pi r)` (equations 11b and 15d). -/
noncomputable def conserved (E L Ω : ℝ → ℝ) (r0 r : ℝ) : ℝ :=
  -deriv Ω r / (E r - Ω r * L r) ^ 2 * ∫ s in r0..r, (E s - Ω s * L s) * deriv L s

end Gyoto.PageThorne
