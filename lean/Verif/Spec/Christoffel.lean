import Verif.Model.MetricAlg
import Mathlib.Analysis.Calculus.Deriv.Basic
import Mathlib.Algebra.BigOperators.Fin

/-!
# What the connection of a metric is

`g` is a metric as a function of the position, `pos` a position.
-/

namespace Gyoto.Spacetime

open Gyoto.MetricAlg

/-- `D μ α β` is the derivative of `g α β` with respect to coordinate `μ`. -/
def IsPartial (g : Vec → Tensor) (pos : Vec) (D : Fin 4 → Tensor) : Prop :=
  ∀ μ α β, HasDerivAt (fun x => g (Function.update pos μ x) α β) (D μ α β) (pos μ)

/-- `Γ α μ ν` are the Christoffel symbols of the metric: lowered with the metric, they are the usual combination of its
derivatives. -/
def IsChristoffel (g : Vec → Tensor) (pos : Vec) (Γ : Fin 4 → Tensor) : Prop :=
  ∃ D, IsPartial g pos D ∧ ∀ α μ ν, ∑ β, g pos α β * Γ β μ ν = (D μ α ν + D ν α μ - D α μ ν) / 2

/-- A metric that has an inverse (from the left) has at most one set of Christoffel symbols. -/
theorem IsChristoffel.unique {g : Vec → Tensor} {pos : Vec} {Γ Γ' : Fin 4 → Tensor} {h : Tensor}
    (hinv : ∀ γ β, ∑ α, h γ α * g pos α β = if γ = β then 1 else 0) (hΓ : IsChristoffel g pos Γ) (hΓ' : IsChristoffel g pos Γ') :
    Γ = Γ' := by
  obtain ⟨D, hD, e⟩ := hΓ
  obtain ⟨D', hD', e'⟩ := hΓ'
  have hDD : D = D' := by
    funext μ α β
    exact (hD μ α β).unique (hD' μ α β)
  subst hDD
  funext γ μ ν
  have key : ∀ G : Fin 4 → Tensor, G γ μ ν = ∑ α, h γ α * ∑ β, g pos α β * G β μ ν := by
    intro G
    have : ∑ α, h γ α * ∑ β, g pos α β * G β μ ν = ∑ β, (∑ α, h γ α * g pos α β) * G β μ ν := by
      simp only [Finset.mul_sum, Finset.sum_mul]
      rw [Finset.sum_comm]
      simp only [mul_assoc]
    rw [this]
    simp [hinv]
  rw [key Γ, key Γ']
  simp only [e, e']

/-- `N` and `β` are the lapse and the shift of the metric `g` (at some position): with the spatial metric `γ i j = g (i+1) (j+1)`,
`g_{0i} = γ_{ij} β^j` and `g_{00} = -N² + γ_{ij} β^i β^j`. -/
def IsLapseShift (g : Tensor) (N : ℝ) (β : Fin 3 → ℝ) : Prop :=
  0 ≤ N ∧ (∀ i : Fin 3, g 0 i.succ = ∑ j : Fin 3, g i.succ j.succ * β j) ∧
    g 0 0 = -N ^ 2 + ∑ i : Fin 3, ∑ j : Fin 3, g i.succ j.succ * β i * β j

end Gyoto.Spacetime
