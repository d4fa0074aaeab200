import Verif.Spec.Christoffel
import Verif.Lemmas.MetricAlg

/-!
# What a circular orbit is
-/

namespace Gyoto.Spacetime

open Gyoto.MetricAlg

/-- `u` is the velocity of an observer (a unit vector towards the future) that only moves around the axis. -/
structure IsRotating (g : Tensor) (u : Vec) : Prop where
  r : u 1 = 0
  theta : u 2 = 0
  future : 0 < u 0
  unit : sp g u u = -1

/-- In free fall: the acceleration that the connection gives to a constant velocity is zero. -/
def IsFree (g : Vec → Tensor) (pos u : Vec) : Prop :=
  ∃ Γ, IsChristoffel g pos Γ ∧ ∀ α, ∑ μ, ∑ ν, Γ α μ ν * u μ * u ν = 0

/-- `c` is a geodesic: its velocity is transported parallel to itself. -/
def IsGeodesic (g : Vec → Tensor) (c : ℝ → Vec) : Prop :=
  ∃ v : ℝ → Vec, (∀ τ α, HasDerivAt (fun s => c s α) (v τ α) τ) ∧ ∀ τ, ∃ (A : Vec) (Γ : Fin 4 → Tensor), (∀ α, HasDerivAt (fun s => v s α) (A α) τ) ∧
    IsChristoffel g (c τ) Γ ∧ ∀ α, A α + ∑ μ, ∑ ν, Γ α μ ν * v τ μ * v τ ν = 0

/-- The covariant component of a vector. -/
def lower (g : Tensor) (u : Vec) (μ : Fin 4) : ℝ := ∑ ν, g μ ν * u ν

end Gyoto.Spacetime
