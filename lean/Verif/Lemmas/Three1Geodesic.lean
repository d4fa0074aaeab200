import Verif.Lemmas.Circular
import Mathlib.Tactic.FieldSimp
import Mathlib.Tactic.LinearCombination

/-!
# Geodesics of a circular metric in 3+1 variables

The metric has lapse `N`, shift `b` along `φ` and spatial metric `diag(g1, g2, g3)`, functions of `r` and `θ`.
-/

namespace Gyoto.Spacetime

open Gyoto.MetricAlg Gyoto.KerrBL

/-- The metric of lapse `N`, shift `b` along the last coordinate and spatial metric `diag(g1, g2, g3)`. -/
def metric31 (N b g1 g2 g3 : ℝ) : Tensor := circ (-N ^ 2 + g3 * b ^ 2) g1 g2 g3 (g3 * b)

/-- Its derivative. -/
def dmetric31 (N b g3 dN db d1 d2 d3 : ℝ) : Tensor :=
  circ (-2 * N * dN + d3 * b ^ 2 + 2 * g3 * b * db) d1 d2 d3 (d3 * b + g3 * db)

/-- The acceleration `k^ν ∇_ν k`, lowered: `∑ g α β A β + ∑ (∂_μ g α ν - ½ ∂_α g μ ν) k μ k ν`. -/
theorem lowered {g : Vec → Tensor} {pos : Vec} {Γ : Fin 4 → Tensor} {D : Fin 4 → Tensor} (hD : IsPartial g pos D)
    (hΓ : IsChristoffel g pos Γ) (A k : Vec) (α : Fin 4) :
    ∑ β, g pos α β * (A β + ∑ μ, ∑ ν, Γ β μ ν * k μ * k ν) =
      ∑ β, g pos α β * A β + ∑ μ, ∑ ν, (D μ α ν + D ν α μ - D α μ ν) / 2 * k μ * k ν := by
  obtain ⟨D', hD', e⟩ := hΓ
  have hDD : D' = D := by
    funext μ a b
    exact (hD' μ a b).unique (hD μ a b)
  subst hDD
  simp only [← e, mul_add, Finset.sum_add_distrib]
  congr 1
  simp only [Finset.mul_sum, Finset.sum_mul]
  rw [Finset.sum_comm]
  apply Finset.sum_congr rfl
  intro μ _
  rw [Finset.sum_comm]
  apply Finset.sum_congr rfl
  intro ν _
  apply Finset.sum_congr rfl
  intro β _
  ring

/-- The right-hand side of the 3+1 equations: the four components of `k` and their derivatives with respect to time satisfy the
lowered geodesic equation. -/
theorem geodesic31 {N Nr Nt b br bt g1 g1r g1t g2 g2r g2t g3 g3r g3t V1 V2 V3 E dE dV1 dV2 dV3 K1 K2 dN db : ℝ} (hN : N ≠ 0)
    (h1 : g1 ≠ 0) (h2 : g2 ≠ 0) (h3 : g3 ≠ 0) (hK1 : K1 = g3 * br / (2 * N)) (hK2 : K2 = g3 * bt / (2 * N))
    (hdN : dN = Nr * (N * V1) + Nt * (N * V2)) (hdb : db = br * (N * V1) + bt * (N * V2))
    (hE : dE = E * N * 2 * (K1 * V1 * V3 + K2 * V2 * V3) - E * (V1 * Nr + V2 * Nt))
    (hV1 : dV1 = N * (V1 * (1 / N * V1 * Nr + 1 / N * V2 * Nt - 2 * K1 * V1 * V3 - 2 * K2 * V2 * V3) + 2 * (1 / g1) * K1 * V3
      - (V1 * V1 * (1 / 2 * (1 / g1) * g1r) + 2 * (1 / 2 * (1 / g1) * g1t) * V1 * V2 + -1 / 2 * (1 / g1) * g2r * V2 * V2
        + -1 / 2 * (1 / g1) * g3r * V3 * V3)) - 1 / g1 * Nr)
    (hV2 : dV2 = N * (V2 * (1 / N * V1 * Nr + 1 / N * V2 * Nt - 2 * K1 * V1 * V3 - 2 * K2 * V2 * V3) + 2 * (1 / g2) * K2 * V3
      - (-1 / 2 * (1 / g2) * g1t * V1 * V1 + 2 * (1 / 2 * (1 / g2) * g2r) * V1 * V2 + 1 / 2 * (1 / g2) * g2t * V2 * V2
        + -1 / 2 * (1 / g2) * g3t * V3 * V3)) - 1 / g2 * Nt)
    (hV3 : dV3 = N * (V3 * (1 / N * V1 * Nr + 1 / N * V2 * Nt - 2 * K1 * V1 * V3 - 2 * K2 * V2 * V3)
      + 2 * (1 / g3) * (K1 * V1 + K2 * V2)
      - (2 * (1 / 2 * (1 / g3) * g3r) * V1 * V3 + 2 * (1 / 2 * (1 / g3) * g3t) * V2 * V3)) - V1 * br - V2 * bt) (α : Fin 4) :
    let T := E / N
    let dT := (dE * N - E * dN) / N ^ 2
    let k : Vec := ![T, T * (N * V1), T * (N * V2), T * (N * V3 - b)]
    let dk : Vec := ![dT, dT * (N * V1) + T * (dN * V1 + N * dV1), dT * (N * V2) + T * (dN * V2 + N * dV2),
      dT * (N * V3 - b) + T * (dN * V3 + N * dV3 - db)]
    let D : Fin 4 → Tensor := ![0, dmetric31 N b g3 Nr br g1r g2r g3r, dmetric31 N b g3 Nt bt g1t g2t g3t, 0]
    ∑ β, metric31 N b g1 g2 g3 α β * (T * dk β) + ∑ μ, ∑ ν, (D μ α ν + D ν α μ - D α μ ν) / 2 * k μ * k ν = 0 := by
  intro T dT k dk D
  have z0 : ∀ i j, D 0 i j = 0 := fun _ _ => rfl
  have z3 : ∀ i j, D 3 i j = 0 := fun _ _ => rfl
  have y1 : D 1 = dmetric31 N b g3 Nr br g1r g2r g3r := rfl
  have y2 : D 2 = dmetric31 N b g3 Nt bt g1t g2t g3t := rfl
  rw [Fin.sum_univ_four]
  simp only [Fin.sum_univ_four, z0, z3, y1, y2, metric31, dmetric31]
  have k0 : k 0 = T := rfl
  have k1 : k 1 = T * (N * V1) := rfl
  have k2 : k 2 = T * (N * V2) := rfl
  have k3 : k 3 = T * (N * V3 - b) := rfl
  have l0 : dk 0 = dT := rfl
  have l1 : dk 1 = dT * (N * V1) + T * (dN * V1 + N * dV1) := rfl
  have l2 : dk 2 = dT * (N * V2) + T * (dN * V2 + N * dV2) := rfl
  have l3 : dk 3 = dT * (N * V3 - b) + T * (dN * V3 + N * dV3 - db) := rfl
  rw [k0, k1, k2, k3, l0, l1, l2, l3]
  have hT : T = E / N := rfl
  have hdT : dT = (dE * N - E * dN) / N ^ 2 := rfl
  clear_value k dk D T dT
  rw [hdT, hT, hV1, hV2, hV3, hE, hdN, hdb, hK1, hK2]
  match α with
  | 0 =>
    simp only [z0, z3, y1, y2, dmetric31, circ00, circ01, circ02, circ03, circ10, circ11, circ12, circ13, circ20, circ21, circ22, circ23, circ30, circ31,
      circ32, circ33]
    field_simp
    ring
  | 1 =>
    simp only [z0, z3, y1, y2, dmetric31, circ00, circ01, circ02, circ03, circ10, circ11, circ12, circ13, circ20, circ21, circ22, circ23, circ30, circ31,
      circ32, circ33]
    field_simp
    ring
  | 2 =>
    simp only [z0, z3, y1, y2, dmetric31, circ00, circ01, circ02, circ03, circ10, circ11, circ12, circ13, circ20, circ21, circ22, circ23, circ30, circ31,
      circ32, circ33]
    field_simp
    ring
  | 3 =>
    simp only [z0, z3, y1, y2, dmetric31, circ00, circ01, circ02, circ03, circ10, circ11, circ12, circ13, circ20, circ21, circ22, circ23, circ30, circ31,
      circ32, circ33]
    field_simp
    ring

end Gyoto.Spacetime
