import Verif.Props.KerrKS
import Verif.Props.KerrConst
import Mathlib.Analysis.SpecialFunctions.Trigonometric.Deriv
import Mathlib.Analysis.SpecialFunctions.Log.Deriv

/-!
# Both Kerr metrics describe the same spacetime
-/

namespace Gyoto.KerrKS

open Gyoto.MetricAlg Gyoto.Spacetime

/-- From Boyer-Lindquist to Kerr-Schild coordinates; `F` and `G` are primitives of `2r/Δ` and `a/Δ`. -/
noncomputable def toKS (a : ℝ) (F G : ℝ → ℝ) (p : Vec) : Vec :=
  ![p 0 + F (p 1),
    Real.sin (p 2) * (p 1 * Real.cos (p 3 + G (p 1)) - a * Real.sin (p 3 + G (p 1))),
    Real.sin (p 2) * (p 1 * Real.sin (p 3 + G (p 1)) + a * Real.cos (p 3 + G (p 1))),
    p 1 * Real.cos (p 2)]

/-- A metric of the form `η + f k k` taken back by a matrix. -/
theorem pull (f : ℝ) (k : Vec) (g : Tensor) (hg : ∀ μ ν, g μ ν = f * k μ * k ν + eta μ ν) (J : Tensor) (α β : Fin 4) :
    (J.transpose * g * J) α β =
      f * (k 0 * J 0 α + k 1 * J 1 α + k 2 * J 2 α + k 3 * J 3 α) * (k 0 * J 0 β + k 1 * J 1 β + k 2 * J 2 β + k 3 * J 3 β) +
      (-(J 0 α * J 0 β) + J 1 α * J 1 β + J 2 α * J 2 β + J 3 α * J 3 β) := by
  simp only [Matrix.mul_apply, Fin.sum_univ_four, Matrix.transpose_apply, hg]
  simp [eta]
  ring

/-- C80. The metric of `KerrKS` is that of `KerrBL` in other coordinates: the change of coordinates has derivatives `J`, and `J` takes
one metric to the other. -/
theorem same_metric {a : ℝ} {F G : ℝ → ℝ} {p : Vec} (hr : 0 < p 1) (hD : p 1 ^ 2 - 2 * p 1 + a ^ 2 ≠ 0)
    (hF : HasDerivAt F (2 * p 1 / (p 1 ^ 2 - 2 * p 1 + a ^ 2)) (p 1)) (hG : HasDerivAt G (a / (p 1 ^ 2 - 2 * p 1 + a ^ 2)) (p 1)) :
    0 < r2Of a (toKS a F G p) ∧ rOf a (toKS a F G p) = p 1 ∧
    ∃ J : Tensor, (∀ μ α, HasDerivAt (fun s => toKS a F G (Function.update p α s) μ) (J μ α) (p α)) ∧
      J.transpose * gmunu a (toKS a F G p) * J = KerrBL.gmunu a p := by
  have hsc := Real.sin_sq_add_cos_sq (p 2)
  have hsp := Real.sin_sq_add_cos_sq (p 3 + G (p 1))
  have hS : 0 < p 1 ^ 2 + a ^ 2 * Real.cos (p 2) ^ 2 := by positivity
  -- the radius
  have hell : ((toKS a F G p) 1 ^ 2 + (toKS a F G p) 2 ^ 2) / (p 1 ^ 2 + a ^ 2) + (toKS a F G p) 3 ^ 2 / p 1 ^ 2 = 1 := by
    show ((Real.sin (p 2) * (p 1 * Real.cos (p 3 + G (p 1)) - a * Real.sin (p 3 + G (p 1)))) ^ 2 +
      (Real.sin (p 2) * (p 1 * Real.sin (p 3 + G (p 1)) + a * Real.cos (p 3 + G (p 1)))) ^ 2) / (p 1 ^ 2 + a ^ 2) +
      (p 1 * Real.cos (p 2)) ^ 2 / p 1 ^ 2 = 1
    have hA : p 1 ^ 2 + a ^ 2 ≠ 0 := by positivity
    field_simp
    grind
  have hreg : 0 < r2Of a (toKS a F G p) := by
    rw [regular_iff]
    by_contra hc
    rw [not_or, not_not, not_lt] at hc
    rw [hc.1] at hell
    have hA : 0 < p 1 ^ 2 + a ^ 2 := by positivity
    have h1 : ((toKS a F G p) 1 ^ 2 + (toKS a F G p) 2 ^ 2) / (p 1 ^ 2 + a ^ 2) < 1 := by
      rw [div_lt_one hA]
      have := pow_pos hr 2
      linarith [hc.2]
    have h2 : (0 : ℝ) ^ 2 / p 1 ^ 2 = 0 := by simp
    rw [h2] at hell
    linarith
  have hrad : rOf a (toKS a F G p) = p 1 := ((radius_spec hreg hr).2 hell).symm
  refine ⟨hreg, hrad, ?_⟩
  have hr2 := (facts hreg).2.1
  rw [hrad] at hr2
  have hf : fOf a (toKS a F G p) = 2 * p 1 / (p 1 ^ 2 + a ^ 2 * Real.cos (p 2) ^ 2) := by
    unfold fOf
    rw [hrad, hr2]
    show 2 * (p 1 ^ 2 * p 1) / (p 1 ^ 2 * p 1 ^ 2 + a * a * (p 1 * Real.cos (p 2) * (p 1 * Real.cos (p 2)))) = _
    rw [show p 1 ^ 2 * p 1 ^ 2 + a * a * (p 1 * Real.cos (p 2) * (p 1 * Real.cos (p 2))) =
      p 1 ^ 2 * (p 1 ^ 2 + a ^ 2 * Real.cos (p 2) ^ 2) by ring]
    field_simp
  have hA : p 1 ^ 2 + a * a ≠ 0 := by rw [← sq a]; positivity
  have hk0 : kOf a (toKS a F G p) 0 = 1 := rfl
  have hk1 : kOf a (toKS a F G p) 1 = Real.sin (p 2) * Real.cos (p 3 + G (p 1)) := by
    show (rOf a (toKS a F G p) * _ + a * _) / (r2Of a (toKS a F G p) + a * a) = _
    rw [hrad, hr2]
    show (p 1 * (Real.sin (p 2) * (p 1 * Real.cos (p 3 + G (p 1)) - a * Real.sin (p 3 + G (p 1)))) +
      a * (Real.sin (p 2) * (p 1 * Real.sin (p 3 + G (p 1)) + a * Real.cos (p 3 + G (p 1))))) / _ = _
    field_simp
    ring
  have hk2 : kOf a (toKS a F G p) 2 = Real.sin (p 2) * Real.sin (p 3 + G (p 1)) := by
    show (rOf a (toKS a F G p) * _ - a * _) / (r2Of a (toKS a F G p) + a * a) = _
    rw [hrad, hr2]
    show (p 1 * (Real.sin (p 2) * (p 1 * Real.sin (p 3 + G (p 1)) + a * Real.cos (p 3 + G (p 1)))) -
      a * (Real.sin (p 2) * (p 1 * Real.cos (p 3 + G (p 1)) - a * Real.sin (p 3 + G (p 1))))) / _ = _
    field_simp
    ring
  have hk3 : kOf a (toKS a F G p) 3 = Real.cos (p 2) := by
    show (p 1 * Real.cos (p 2)) / rOf a (toKS a F G p) = _
    rw [hrad]
    field_simp
  -- the derivatives
  have hP : ∀ m i : Fin 4, HasDerivAt (fun t => Function.update p m t i) (if m = i then 1 else 0) (p m) := by
    intro m i
    by_cases hi : m = i
    · subst hi
      simp only [Function.update_self, if_true]
      exact hasDerivAt_id _
    · rw [if_neg hi]
      simp only [Function.update_of_ne (Ne.symm hi)]
      exact hasDerivAt_const _ _
  have hup : ∀ m, Function.update p m (p m) = p := fun m => Function.update_eq_self _ _
  have hFc : ∀ m : Fin 4, HasDerivAt (fun t => F (Function.update p m t 1))
      (2 * p 1 / (p 1 ^ 2 - 2 * p 1 + a ^ 2) * (if m = 1 then 1 else 0)) (p m) := by
    intro m
    exact HasDerivAt.comp (h₂ := F) (p m) (by rw [hup]; exact hF) (hP m 1)
  have hGc : ∀ m : Fin 4, HasDerivAt (fun t => G (Function.update p m t 1))
      (a / (p 1 ^ 2 - 2 * p 1 + a ^ 2) * (if m = 1 then 1 else 0)) (p m) := by
    intro m
    exact HasDerivAt.comp (h₂ := G) (p m) (by rw [hup]; exact hG) (hP m 1)
  have hs2 : ∀ m, HasDerivAt (fun t => Real.sin (Function.update p m t 2)) (Real.cos (p 2) * if m = 2 then 1 else 0) (p m) := by
    intro m
    have := (hP m 2).sin
    rwa [hup] at this
  have hc2 : ∀ m, HasDerivAt (fun t => Real.cos (Function.update p m t 2)) (-Real.sin (p 2) * if m = 2 then 1 else 0) (p m) := by
    intro m
    have := (hP m 2).cos
    rwa [hup] at this
  have hsP : ∀ m, HasDerivAt (fun t => Real.sin (Function.update p m t 3 + G (Function.update p m t 1)))
      (Real.cos (p 3 + G (p 1)) * ((if m = 3 then 1 else 0) + a / (p 1 ^ 2 - 2 * p 1 + a ^ 2) * (if m = 1 then 1 else 0))) (p m) := by
    intro m
    have := ((hP m 3).add (hGc m)).sin
    simp only [Pi.add_apply, hup] at this
    exact this
  have hcP : ∀ m, HasDerivAt (fun t => Real.cos (Function.update p m t 3 + G (Function.update p m t 1)))
      (-Real.sin (p 3 + G (p 1)) * ((if m = 3 then 1 else 0) + a / (p 1 ^ 2 - 2 * p 1 + a ^ 2) * (if m = 1 then 1 else 0))) (p m) := by
    intro m
    have := ((hP m 3).add (hGc m)).cos
    simp only [Pi.add_apply, hup] at this
    exact this
  have d0 : ∀ m, HasDerivAt (fun s => toKS a F G (Function.update p m s) 0) _ (p m) := fun m => (hP m 0).add (hFc m)
  have d1 : ∀ m, HasDerivAt (fun s => toKS a F G (Function.update p m s) 1) _ (p m) :=
    fun m => (hs2 m).mul (((hP m 1).mul (hcP m)).sub ((hsP m).const_mul a))
  have d2 : ∀ m, HasDerivAt (fun s => toKS a F G (Function.update p m s) 2) _ (p m) :=
    fun m => (hs2 m).mul (((hP m 1).mul (hsP m)).add ((hcP m).const_mul a))
  have d3 : ∀ m, HasDerivAt (fun s => toKS a F G (Function.update p m s) 3) _ (p m) := fun m => (hP m 1).mul (hc2 m)
  simp only [hup, Pi.add_apply, Pi.sub_apply] at d0 d1 d2 d3
  obtain ⟨D, hDD⟩ : ∃ D, D = p 1 ^ 2 - 2 * p 1 + a ^ 2 := ⟨_, rfl⟩
  rw [← hDD] at hD
  simp only [← hDD] at d0 d1 d2 d3
  refine ⟨![![1, 2 * p 1 / D, 0, 0],
    ![0, Real.sin (p 2) * (Real.cos (p 3 + G (p 1)) - p 1 * Real.sin (p 3 + G (p 1)) * (a / D) - a * Real.cos (p 3 + G (p 1)) * (a / D)),
      Real.cos (p 2) * (p 1 * Real.cos (p 3 + G (p 1)) - a * Real.sin (p 3 + G (p 1))),
      Real.sin (p 2) * (-p 1 * Real.sin (p 3 + G (p 1)) - a * Real.cos (p 3 + G (p 1)))],
    ![0, Real.sin (p 2) * (Real.sin (p 3 + G (p 1)) + p 1 * Real.cos (p 3 + G (p 1)) * (a / D) - a * Real.sin (p 3 + G (p 1)) * (a / D)),
      Real.cos (p 2) * (p 1 * Real.sin (p 3 + G (p 1)) + a * Real.cos (p 3 + G (p 1))),
      Real.sin (p 2) * (p 1 * Real.cos (p 3 + G (p 1)) - a * Real.sin (p 3 + G (p 1)))],
    ![0, Real.cos (p 2), -p 1 * Real.sin (p 2), 0]], fun μ α => ?_, ?_⟩
  · match μ with
    | 0 => refine (d0 α).congr_deriv ?_; fin_cases α <;> simp
    | 1 => refine (d1 α).congr_deriv ?_; fin_cases α <;> simp [-mul_eq_mul_left_iff] <;> ring
    | 2 => refine (d2 α).congr_deriv ?_; fin_cases α <;> simp [-mul_eq_mul_left_iff] <;> ring
    | 3 => refine (d3 α).congr_deriv ?_; fin_cases α <;> simp
  · have e := pull (fOf a (toKS a F G p)) (kOf a (toKS a F G p)) (gmunu a (toKS a F G p)) (gmunu_eq a _)
    clear d0 d1 d2 d3 hsP hcP hs2 hc2 hFc hGc hup hP hF hG hell hrad hreg hr2
    ext α β
    refine (e _ α β).trans ?_
    unfold KerrBL.gmunu KerrBL.circ
    rw [hk0, hk1, hk2, hk3, hf]
    clear e hk0 hk1 hk2 hk3 hf
    rw [show p 1 * p 1 + a * a * (Real.cos (p 2) * Real.cos (p 2)) = p 1 ^ 2 + a ^ 2 * Real.cos (p 2) ^ 2 by ring,
      show p 1 * p 1 - 2 * p 1 + a * a = D by rw [hDD]; ring]
    generalize Real.sin (p 3 + G (p 1)) = S at *
    generalize Real.cos (p 3 + G (p 1)) = C at *
    generalize Real.sin (p 2) = s at *
    generalize Real.cos (p 2) = c at *
    generalize p 1 = r at *
    obtain ⟨W, hW⟩ : ∃ W, W = r ^ 2 + a ^ 2 * c ^ 2 := ⟨_, rfl⟩
    rw [← hW] at hS ⊢
    have hWn := hS.ne'
    clear hS
    fin_cases α <;> fin_cases β <;> simp <;> field_simp <;> grind

/-- For the extreme hole (spin 1) at radius 3: `F` and `G` are elementary. -/
example : ∃ J : Tensor, J.transpose * gmunu 1 (toKS 1 (fun r => 2 * Real.log (r - 1) - 2 / (r - 1)) (fun r => -1 / (r - 1)) ![0, 3, 1, 2]) * J =
    KerrBL.gmunu 1 ![0, 3, 1, 2] := by
  have hi : HasDerivAt (fun r : ℝ => (r - 1)⁻¹) (-1 / 4) (3 : ℝ) := by
    have := ((hasDerivAt_id (3 : ℝ)).sub_const 1).inv (by norm_num)
    refine this.congr_deriv ?_
    norm_num
  have hl : HasDerivAt (fun r : ℝ => Real.log (r - 1)) (1 / 2) (3 : ℝ) := by
    have := ((hasDerivAt_id (3 : ℝ)).sub_const 1).log (by norm_num)
    refine this.congr_deriv ?_
    norm_num
  obtain ⟨-, -, J, -, hJ⟩ := same_metric (a := 1) (p := ![0, 3, 1, 2]) (F := fun r => 2 * Real.log (r - 1) - 2 / (r - 1))
    (G := fun r => -1 / (r - 1)) (by simp) (by simp; norm_num)
    (by
      have := (hl.const_mul 2).sub (hi.const_mul 2)
      refine this.congr_deriv ?_
      simp; norm_num)
    (by
      have := hi.const_mul (-1)
      refine this.congr_deriv ?_
      simp; norm_num)
  exact ⟨J, hJ⟩

end Gyoto.KerrKS
