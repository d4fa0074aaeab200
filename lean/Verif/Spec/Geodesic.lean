import Verif.Spec.Christoffel
import Verif.Model.Three1

/-!
# What it is to follow a geodesic, with the coordinate time as parameter
-/

namespace Gyoto.Spacetime

open Gyoto.MetricAlg Gyoto.Three1

/-- Along the curve `c`, parametrised by the date, the position changes at the rate given by the velocity, and the velocity is
transported parallel to itself: `u^t du^α/dt + Γ^α_{μν} u^μ u^ν = 0`. -/
def FollowsGeodesic (Γ : Fin 4 → Tensor) (c : ℝ → Coord) (t : ℝ) : Prop :=
  (c t).vel 0 ≠ 0 ∧ (∀ α, HasDerivAt (fun τ => (c τ).pos α) ((c t).vel α / (c t).vel 0) t) ∧
    ∃ A : Vec, (∀ α, HasDerivAt (fun τ => (c τ).vel α) (A α) t) ∧
      ∀ α, (c t).vel 0 * A α + ∑ μ, ∑ ν, Γ α μ ν * (c t).vel μ * (c t).vel ν = 0

end Gyoto.Spacetime
