import Verif.Model.MetricAlg
import Mathlib.LinearAlgebra.Matrix.Symmetric
import Mathlib.Tactic.LinearCombination
import Mathlib.Tactic.FieldSimp

/-! # Helper lemmas on the pointwise algebra of metrics -/

namespace Gyoto.MetricAlg

open Matrix

/-- Scalar product of two vectors, the specification. -/
def sp (g : Tensor) (u v : Vec) : ℝ := u ⬝ᵥ g *ᵥ v

theorem scalarProd_eq (g : Tensor) (u v : Vec) : scalarProd g u v = sp g u v := by
  simp only [scalarProd, sp, dotProduct, mulVec, Finset.mul_sum]
  exact Finset.sum_congr rfl fun i _ => Finset.sum_congr rfl fun j _ => by ring

theorem sp_add_left (g : Tensor) (u u' v : Vec) : sp g (u + u') v = sp g u v + sp g u' v := by
  simp [sp, add_dotProduct]

theorem sp_smul_left (g : Tensor) (a : ℝ) (u v : Vec) : sp g (a • u) v = a * sp g u v := by
  simp [sp, smul_dotProduct]

theorem sp_add_right (g : Tensor) (u v v' : Vec) : sp g u (v + v') = sp g u v + sp g u v' := by
  simp [sp, mulVec_add, dotProduct_add]

theorem sp_smul_right (g : Tensor) (a : ℝ) (u v : Vec) : sp g u (a • v) = a * sp g u v := by
  simp [sp, mulVec_smul, dotProduct_smul]

theorem sp_sub_left (g : Tensor) (u u' v : Vec) : sp g (u - u') v = sp g u v - sp g u' v := by
  simp [sp, sub_dotProduct]

theorem sp_sub_right (g : Tensor) (u v v' : Vec) : sp g u (v - v') = sp g u v - sp g u v' := by
  simp [sp, mulVec_sub, dotProduct_sub]

theorem sp_comm {g : Tensor} (hg : g.IsSymm) (u v : Vec) : sp g u v = sp g v u := by
  simp only [sp]
  rw [dotProduct_mulVec, ← mulVec_transpose, hg.eq, dotProduct_comm]

theorem sgn_pos {x : ℝ} (h : 0 < x) : sgn x = 1 := by simp [sgn, h, not_lt.2 h.le]
theorem sgn_neg {x : ℝ} (h : x < 0) : sgn x = -1 := by simp [sgn, h, not_lt.2 h.le]
theorem sgn_zero : sgn 0 = 0 := by simp [sgn]

theorem norm_zero_iff (g : Tensor) (u : Vec) : norm g u = 0 ↔ sp g u u = 0 := by
  simp only [norm, scalarProd_eq]
  rcases lt_trichotomy (sp g u u) 0 with h | h | h
  · simp [sgn_neg h, h.ne]
  · simp [h, sgn_zero]
  · simp [sgn_pos h, h.ne']

theorem abs_norm (g : Tensor) (u : Vec) : |norm g u| = √|sp g u u| := by
  simp only [norm, scalarProd_eq]
  rcases lt_trichotomy (sp g u u) 0 with h | h | h
  · simp [sgn_neg h, abs_of_nonneg]
  · simp [h, sgn_zero]
  · simp [sgn_pos h, abs_of_nonneg]

theorem sgn_norm (g : Tensor) (u : Vec) : sgn (norm g u) = sgn (sp g u u) := by
  simp only [norm, scalarProd_eq]
  rcases lt_trichotomy (sp g u u) 0 with h | h | h
  · have : 0 < √|sp g u u| := Real.sqrt_pos.2 (abs_pos.2 h.ne)
    rw [sgn_neg h, sgn_neg]; linarith
  · simp [h, sgn_zero]
  · have : 0 < √|sp g u u| := Real.sqrt_pos.2 (abs_pos.2 h.ne')
    rw [sgn_pos h, sgn_pos]; linarith

theorem sgn_div_abs {x : ℝ} (h : x ≠ 0) : sgn x / |x| = 1 / x := by
  rcases lt_or_gt_of_ne h with h | h
  · rw [sgn_neg h, abs_of_neg h, neg_div_neg_eq]
  · rw [sgn_pos h, abs_of_pos h]

theorem project_none {g : Tensor} {u v : Vec} (h : sp g v v = 0) : project g u v = none := by
  simp [project, inv, (norm_zero_iff g v).2 h]

theorem project_eq {g : Tensor} (u : Vec) {v : Vec} (h : sp g v v ≠ 0) :
    project g u v = some (u - (sp g v u / sp g v v) • v) := by
  have hn : norm g v ≠ 0 := fun h' => h ((norm_zero_iff g v).1 h')
  simp only [project, inv, abs_eq_zero, if_neg hn, Option.map_some, Option.some.injEq]
  have hs : √|sp g v v| * √|sp g v v| = |sp g v v| := Real.mul_self_sqrt (abs_nonneg _)
  have hs0 : √|sp g v v| ≠ 0 := (Real.sqrt_pos.2 (abs_pos.2 h)).ne'
  have e : (fun k => v k * (1 / |norm g v|)) = (1 / √|sp g v v|) • v := by
    funext k; rw [abs_norm]; simp [mul_comm]
  rw [e, scalarProd_eq, sp_smul_left, sgn_norm]
  funext k
  simp only [add, multiply, Pi.smul_apply, smul_eq_mul, Pi.sub_apply]
  have h1 : sgn (sp g v v) * (1 / √|sp g v v| * (1 / √|sp g v v|)) = 1 / sp g v v := by
    rw [← sgn_div_abs h]
    generalize √|sp g v v| = s at hs hs0 ⊢
    rw [← hs]; field_simp
  linear_combination -(sp g v u * v k) * h1

theorem unit_none {g : Tensor} {u : Vec} (h : sp g u u = 0) : unit g u = none := by
  simp [unit, inv, (norm_zero_iff g u).2 h]

theorem unit_eq {g : Tensor} {u : Vec} (h : sp g u u ≠ 0) : unit g u = some ((1 / √|sp g u u|) • u) := by
  have hn : norm g u ≠ 0 := fun h' => h ((norm_zero_iff g u).1 h')
  simp only [unit, inv, abs_eq_zero, if_neg hn, Option.map_some, Option.some.injEq]
  funext k
  rw [abs_norm]
  simp [multiply, mul_comm]

theorem sp_unit {g : Tensor} {u : Vec} (h : sp g u u ≠ 0) :
    sp g ((1 / √|sp g u u|) • u) ((1 / √|sp g u u|) • u) = sgn (sp g u u) := by
  rw [sp_smul_left, sp_smul_right]
  have hs : √|sp g u u| * √|sp g u u| = |sp g u u| := Real.mul_self_sqrt (abs_nonneg _)
  have hs0 : √|sp g u u| ≠ 0 := (Real.sqrt_pos.2 (abs_pos.2 h)).ne'
  have : sp g u u / |sp g u u| = sgn (sp g u u) := by
    rcases lt_or_gt_of_ne h with h | h
    · rw [sgn_neg h, abs_of_neg h, div_neg, div_self h.ne]
    · rw [sgn_pos h, abs_of_pos h, div_self h.ne']
  rw [← this]
  generalize √|sp g u u| = s at hs hs0 ⊢
  rw [← hs]
  field_simp

theorem unit_some {g : Tensor} {u w : Vec} (h : unit g u = some w) :
    sp g u u ≠ 0 ∧ w = (1 / √|sp g u u|) • u ∧ sp g w w = sgn (sp g u u) := by
  have h0 : sp g u u ≠ 0 := fun h' => by rw [unit_none h'] at h; exact absurd h (by simp)
  have e := unit_eq h0
  rw [h] at e
  have e := Option.some.inj e
  exact ⟨h0, e, by rw [e]; exact sp_unit h0⟩

theorem project_some {g : Tensor} {u v w : Vec} (h : project g u v = some w) :
    sp g v v ≠ 0 ∧ w = u - (sp g v u / sp g v v) • v := by
  have h0 : sp g v v ≠ 0 := fun h' => by rw [project_none h'] at h; exact absurd h (by simp)
  have e := project_eq u h0
  rw [h] at e
  exact ⟨h0, Option.some.inj e⟩

end Gyoto.MetricAlg
