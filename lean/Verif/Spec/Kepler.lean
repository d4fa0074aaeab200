import Verif.Model.MinkowskiKepler
import Mathlib.Analysis.SpecialFunctions.Trigonometric.Deriv
import Mathlib.Analysis.Calculus.MeanValue

/-!
# Newton's law for a curve given by its proper time
-/

namespace Gyoto.MinkowskiKepler

/-- The curve `γ` of states obeys the law `f` at `τ`: the law gives derivatives, and they are those of the curve. -/
def Obeys (f : State → Option State) (γ : ℝ → State) (τ : ℝ) : Prop :=
  ∃ d, f (γ τ) = some d ∧
    HasDerivAt (fun s => (γ s).t) d.t τ ∧ HasDerivAt (fun s => (γ s).x) d.x τ ∧
    HasDerivAt (fun s => (γ s).y) d.y τ ∧ HasDerivAt (fun s => (γ s).z) d.z τ ∧
    HasDerivAt (fun s => (γ s).td) d.td τ ∧ HasDerivAt (fun s => (γ s).xd) d.xd τ ∧
    HasDerivAt (fun s => (γ s).yd) d.yd τ ∧ HasDerivAt (fun s => (γ s).zd) d.zd τ

/-- The distance to the centre, Cartesian coordinates. -/
noncomputable def dist (s : State) : ℝ := √(s.x ^ 2 + s.y ^ 2 + s.z ^ 2)

/-- The square of the velocity along the curve, for the metric `-dt² + dx² + dy² + dz²`. -/
def norm2 (s : State) : ℝ := -s.td ^ 2 + s.xd ^ 2 + s.yd ^ 2 + s.zd ^ 2

/-- Newton's energy by unit of mass: half the square of `dx/dt`, minus the inverse of the distance. -/
noncomputable def energy (s : State) : ℝ :=
  ((s.xd / s.td) ^ 2 + (s.yd / s.td) ^ 2 + (s.zd / s.td) ^ 2) / 2 - 1 / dist s

/-- Newton's angular momentum by unit of mass: the product of the place and of `dx/dt`. -/
noncomputable def momentum (s : State) : ℝ × ℝ × ℝ :=
  (s.y * (s.zd / s.td) - s.z * (s.yd / s.td),
   s.z * (s.xd / s.td) - s.x * (s.zd / s.td),
   s.x * (s.yd / s.td) - s.y * (s.xd / s.td))

end Gyoto.MinkowskiKepler
