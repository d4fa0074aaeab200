import Verif.Spec.Orbits

/-!
# The equations of Euler and Lagrange of a geodesic
-/

namespace Gyoto.Spacetime

open Gyoto.MetricAlg

/-- `v` is the velocity whose momentum is `p`, and `f` the rate of change of the momentum along the geodesic:
`p_α = g_{αν} v^ν` and `f_α = ∂_α g_{μν} v^μ v^ν / 2`. -/
def IsMotion (g : Vec → Tensor) (x p v f : Vec) : Prop :=
  (∀ α, lower (g x) v α = p α) ∧ ∃ D, IsPartial g x D ∧ ∀ α, f α = (∑ μ, ∑ ν, D α μ ν * v μ * v ν) / 2

end Gyoto.Spacetime
