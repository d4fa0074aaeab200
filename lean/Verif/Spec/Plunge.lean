import Verif.Spec.Orbits

/-!
# Gas in free fall
-/

namespace Gyoto.Spacetime

open Gyoto.MetricAlg

/-- The velocity of an observer: a unit vector towards the future. -/
structure IsObserver (g : Tensor) (u : Vec) : Prop where
  future : 0 < u 0
  unit : sp g u u = -1

/-- Gas with the field of velocities `V` is in free fall at `pos`: the momentum `V_α` changes, along `V`, as the equations of Euler and
Lagrange prescribe, `V^μ ∂_μ V_α = ∂_α g_{μν} V^μ V^ν / 2`. -/
def FallsFreely (g : Vec → Tensor) (V : Vec → Vec) (pos : Vec) : Prop :=
  ∃ D, IsPartial g pos D ∧ ∀ α, HasDerivAt (fun s : ℝ => lower (g (pos + s • V pos)) (V (pos + s • V pos)) α)
    ((∑ μ, ∑ ν, D α μ ν * V pos μ * V pos ν) / 2) 0

end Gyoto.Spacetime
