import Verif.Spec.Orbits
import Verif.Lemmas.Circular
import Mathlib.Tactic.Ring

/-!
# Free fall without the Christoffel symbols
-/

namespace Gyoto.Spacetime

open Gyoto.MetricAlg Gyoto.KerrBL

/-- Free fall from the equation with the index lowered. -/
theorem isFree_of_lowered {g : Vec → Tensor} {pos u : Vec} {D : Fin 4 → Tensor} {up : Tensor} (hup : g pos * up = 1)
    (hD : IsPartial g pos D) (h : ∀ α, ∑ μ, ∑ ν, (D μ α ν + D ν α μ - D α μ ν) / 2 * u μ * u ν = 0) : IsFree g pos u := by
  refine ⟨fun β μ ν => ∑ γ, up β γ * ((D μ γ ν + D ν γ μ - D γ μ ν) / 2), ⟨D, hD, ?_⟩, ?_⟩
  · intro α μ ν
    have e : ∀ γ, ∑ β, g pos α β * up β γ = if α = γ then 1 else 0 := by
      intro γ
      have := congrFun (congrFun hup α) γ
      rw [Matrix.mul_apply, Matrix.one_apply] at this
      exact this
    simp only [Finset.mul_sum]
    rw [Finset.sum_comm]
    have e2 : ∀ γ, ∑ β, g pos α β * (up β γ * ((D μ γ ν + D ν γ μ - D γ μ ν) / 2)) =
        (if α = γ then 1 else 0) * ((D μ γ ν + D ν γ μ - D γ μ ν) / 2) := by
      intro γ
      rw [← e γ, Finset.sum_mul]
      exact Finset.sum_congr rfl fun β _ => by ring
    simp only [e2]
    simp
  · intro β
    have e : ∑ μ, ∑ ν, (∑ γ, up β γ * ((D μ γ ν + D ν γ μ - D γ μ ν) / 2)) * u μ * u ν =
        ∑ γ, up β γ * ∑ μ, ∑ ν, (D μ γ ν + D ν γ μ - D γ μ ν) / 2 * u μ * u ν := by
      simp only [Fin.sum_univ_four]
      ring
    rw [e]
    simp only [h, mul_zero, Finset.sum_const_zero]

/-- The lowered equation for a velocity around the axis, in a metric that depends on `r` and `θ` only. -/
theorem lowered_rot {tr rr' hr pr xr tθ rθ hθ pθ xθ : ℝ} {u : Vec} (h1 : u 1 = 0) (h2 : u 2 = 0)
    (er : tr * u 0 ^ 2 + 2 * xr * u 0 * u 3 + pr * u 3 ^ 2 = 0) (eθ : tθ * u 0 ^ 2 + 2 * xθ * u 0 * u 3 + pθ * u 3 ^ 2 = 0) (α : Fin 4) :
    let D : Fin 4 → Tensor := ![0, circ tr rr' hr pr xr, circ tθ rθ hθ pθ xθ, 0]
    ∑ μ, ∑ ν, (D μ α ν + D ν α μ - D α μ ν) / 2 * u μ * u ν = 0 := by
  intro D
  have d0 : ∀ i j, D 0 i j = 0 := fun _ _ => rfl
  have d1 : ∀ i j, D 1 i j = circ tr rr' hr pr xr i j := fun _ _ => rfl
  have d2 : ∀ i j, D 2 i j = circ tθ rθ hθ pθ xθ i j := fun _ _ => rfl
  have d3 : ∀ i j, D 3 i j = 0 := fun _ _ => rfl
  simp only [Fin.sum_univ_four, h1, h2]
  match α with
  | 0 => simp [d0, d1, d2, d3]
  | 1 => simp [d0, d1, d2, d3]; linear_combination (-1 / 2) * er
  | 2 => simp [d0, d1, d2, d3]; linear_combination (-1 / 2) * eθ
  | 3 => simp [d0, d1, d2, d3]

end Gyoto.Spacetime
