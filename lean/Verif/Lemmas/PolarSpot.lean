import Verif.Model.PolarSpot
import Verif.Spec.PolarSpot
import Verif.Lemmas.HotSpot
import Verif.Props.MetricAlg
import Verif.Props.Evpa
import Verif.Lemmas.Synch
import Mathlib.Analysis.SpecialFunctions.Trigonometric.Inverse

/-! Lemmas on the angle with the magnetic field. -/

namespace Gyoto.HotSpot

open Gyoto.MetricAlg Gyoto.KerrBL Gyoto.Spacetime
open Gyoto.Transfer (Out)

variable {g : Tensor} {u p B : Vec}

theorem restPart_eq (g : Tensor) (u B : Vec) : restPart g u B = B + sp g B u • u := by
  funext i; simp [restPart, scalarProd_eq]

theorem direction_smul {g : Tensor} {u p : Vec} (h : sp g p u ≠ 0) :
    restPart g u p = (-sp g p u) • Spacetime.direction g u p := by
  funext i
  simp only [restPart, Spacetime.direction, scalarProd_eq, Pi.smul_apply, smul_eq_mul]
  field_simp
  ring

theorem project_rest (hg : g.IsSymm) (hu : sp g u u = -1) (B : Vec) : project g B u = some (restPart g u B) := by
  rw [project_eq B (by rw [hu]; norm_num), restPart_eq, hu, sp_comm hg u B]
  congr 1
  rw [div_neg, div_one, neg_smul, sub_neg_eq_add]

theorem rest_u (hu : sp g u u = -1) (B : Vec) : sp g (restPart g u B) u = 0 := by
  rw [restPart_eq, sp_add_left, sp_smul_left, hu]; ring

theorem rest_rest (hg : g.IsSymm) (hu : sp g u u = -1) (B C : Vec) :
    sp g (restPart g u B) (restPart g u C) = sp g B C + sp g B u * sp g C u := by
  rw [restPart_eq, restPart_eq, sp_add_left, sp_add_right, sp_add_right, sp_smul_left, sp_smul_left, sp_smul_right, sp_smul_right, hu,
    sp_comm hg u C]
  ring

theorem rest_smul (g : Tensor) (u B : Vec) (k : ℝ) : restPart g u (k • B) = k • restPart g u B := by
  rw [restPart_eq, restPart_eq, sp_smul_left, smul_add, smul_smul]

theorem rest_along (hu : sp g u u = -1) (B : Vec) (c : ℝ) : restPart g u (B + c • u) = restPart g u B := by
  rw [restPart_eq, restPart_eq, sp_add_left, sp_smul_left, hu, add_smul]
  funext i
  simp only [Pi.add_apply, Pi.smul_apply, smul_eq_mul]
  ring

theorem rest_of_orth (h : sp g B u = 0) : restPart g u B = B := by
  rw [restPart_eq, h, zero_smul, add_zero]

/-- The inequality of Cauchy and Schwarz among the vectors orthogonal to the observer. -/
theorem cauchy (h : LorentzianAlong g u) {a b : Vec} (ha : sp g a u = 0) (hb : sp g b u = 0) :
    sp g a b ^ 2 ≤ sp g a a * sp g b b := by
  obtain ⟨hg, -, hpos⟩ := h
  by_cases h0 : b = 0
  · subst h0
    have : sp g a 0 = 0 := by simpa using sp_smul_right g 0 a 0
    rw [this]
    have : sp g (0 : Vec) 0 = 0 := by simpa using sp_smul_right g 0 0 0
    rw [this]; simp
  have hbb : 0 < sp g b b := hpos b h0 (by rw [sp_comm hg, hb])
  have nn : 0 ≤ sp g (a - (sp g a b / sp g b b) • b) (a - (sp g a b / sp g b b) • b) := by
    by_cases hw : a - (sp g a b / sp g b b) • b = 0
    · rw [hw]
      have : sp g (0 : Vec) 0 = 0 := by simpa using sp_smul_right g 0 0 0
      rw [this]
    · refine (hpos _ hw ?_).le
      rw [sp_comm hg, sp_sub_left, sp_smul_left, ha, hb]; ring
  rw [sp_sub_left, sp_sub_right, sp_sub_right, sp_smul_left, sp_smul_left, sp_smul_right, sp_smul_right, sp_comm hg b a] at nn
  have e : sp g a a - sp g a b / sp g b b * sp g a b - (sp g a b / sp g b b * sp g a b - sp g a b / sp g b b * (sp g a b / sp g b b * sp g b b)) =
      (sp g a a * sp g b b - sp g a b ^ 2) / sp g b b := by
    field_simp
    ring
  rw [e] at nn
  have := (div_nonneg_iff.1 nn)
  rcases this with ⟨h1, -⟩ | ⟨-, h2⟩
  · linarith
  · linarith

/-- The angle, when it is one. -/
theorem thetaMag_eq (h : LorentzianAlong g u) (hu : sp g u u = -1) (hp : sp g p p = 0) (hE : sp g p u < 0) (hB : restPart g u B ≠ 0) :
    thetaMag g B p u = .ok (Real.arccos (sp g (Spacetime.direction g u p) (restPart g u B) /
        √(sp g (restPart g u B) (restPart g u B)))) ∧
      |sp g (Spacetime.direction g u p) (restPart g u B) / √(sp g (restPart g u B) (restPart g u B))| ≤ 1 := by
  obtain ⟨hg, hneg, hpos⟩ := h
  have hbu := rest_u (g := g) hu B
  have hbb : 0 < sp g (restPart g u B) (restPart g u B) := hpos _ hB (by rw [sp_comm hg, hbu])
  have hl : sp g (restPart g u p) (restPart g u p) = sp g p u ^ 2 := by rw [rest_rest hg hu, hp]; ring
  have hlb : sp g (restPart g u p) (restPart g u B) = -sp g p u * sp g (Spacetime.direction g u p) (restPart g u B) := by
    rw [direction_smul hE.ne, sp_smul_left]
  have hl2 : 0 < sp g p u ^ 2 := sq_pos_of_neg hE
  have hsq : √(sp g p u ^ 2) = -sp g p u := by rw [Real.sqrt_sq_eq_abs, abs_of_neg hE]
  have hlu := rest_u (g := g) hu p
  have cs := cauchy ⟨hg, hneg, hpos⟩ hlu hbu
  rw [hl, hlb] at cs
  obtain ⟨b, hb⟩ : ∃ b, b = restPart g u B := ⟨_, rfl⟩
  have hs := Real.sqrt_pos.2 hbb
  have hm := Real.sq_sqrt hbb.le
  have nb : MetricAlg.norm g (restPart g u B) = √(sp g (restPart g u B) (restPart g u B)) := by
    simp only [MetricAlg.norm, scalarProd_eq, sgn_pos hbb, abs_of_pos hbb, one_mul]
  have nl : MetricAlg.norm g (restPart g u p) = -sp g p u := by
    simp only [MetricAlg.norm, scalarProd_eq, hl, sgn_pos hl2, abs_of_pos hl2, one_mul, hsq]
  have hne : -sp g p u * √(sp g (restPart g u B) (restPart g u B)) ≠ 0 := (mul_pos (by linarith) hs).ne'
  have e : -sp g p u * sp g (Spacetime.direction g u p) (restPart g u B) / (-sp g p u * √(sp g (restPart g u B) (restPart g u B))) =
      sp g (Spacetime.direction g u p) (restPart g u B) / √(sp g (restPart g u B) (restPart g u B)) :=
    mul_div_mul_left _ _ (by linarith : -sp g p u ≠ 0)
  have hle : |sp g (Spacetime.direction g u p) (restPart g u B) / √(sp g (restPart g u B) (restPart g u B))| ≤ 1 := by
    rw [abs_div, abs_of_pos hs, div_le_one hs]
    refine abs_le_of_sq_le_sq ?_ hs.le
    rw [hm]
    have : sp g p u ^ 2 * sp g (Spacetime.direction g u p) (restPart g u B) ^ 2 ≤ sp g p u ^ 2 * sp g (restPart g u B) (restPart g u B) := by
      linarith [cs, mul_pow (-sp g p u) (sp g (Spacetime.direction g u p) (restPart g u B)) 2, neg_sq (sp g p u)]
    exact le_of_mul_le_mul_left this hl2
  refine ⟨?_, hle⟩
  unfold thetaMag
  simp only [project_rest hg hu, nb, nl, scalarProd_eq, hlb]
  rw [if_neg hne, e, if_neg]
  rw [not_or, not_lt, not_lt]
  exact abs_le.1 hle

/-- The metric outside a horizon has the signature along an observer. -/
theorem Outside.lorentzian {tt rr hh pp tp : ℝ} (h : Outside g tt rr hh pp tp) (h1 : u 1 = 0) (h2 : u 2 = 0) (hu : scalarProd g u u = -1) :
    LorentzianAlong g u := by
  obtain ⟨rfl, hr, hh0, hd⟩ := h
  refine ⟨?_, by rw [← scalarProd_eq, hu]; norm_num, fun w hw h0 => ?_⟩
  · ext i j
    fin_cases i <;> fin_cases j <;> rfl
  rw [← scalarProd_eq, sp_circ] at h0 ⊢
  rw [sp_circ] at hu
  rw [h1, h2] at h0 hu
  have key : tt * w 0 * w 0 + tp * (w 0 * w 3 + w 3 * w 0) + pp * w 3 * w 3 = (tp ^ 2 - tt * pp) * (u 0 * w 3 - u 3 * w 0) ^ 2 := by
    linear_combination (tt * w 0 * w 0 + tp * (w 0 * w 3 + w 3 * w 0) + pp * w 3 * w 3) * hu -
      (tt * u 0 * w 0 + tp * (u 0 * w 3 + u 3 * w 0) + pp * u 3 * w 3) * h0
  have hD : 0 < tp ^ 2 - tt * pp := by linarith
  rw [key]
  by_cases c : u 0 * w 3 - u 3 * w 0 = 0
  · by_cases c1 : w 1 = 0
    · by_cases c2 : w 2 = 0
      · exfalso
        apply hw
        -- `w` is along `u` and orthogonal to it
        have e0 : w 0 = 0 := by
          linear_combination (w 0) * hu - (u 0) * h0 + (tp * u 0 + pp * u 3) * c
        have e3 : w 3 = 0 := by
          linear_combination (w 3) * hu - (u 3) * h0 - (tt * u 0 + tp * u 3) * c
        funext i
        fin_cases i
        · exact e0
        · exact c1
        · exact c2
        · exact e3
      · have := mul_pos hh0 (sq_pos_of_ne_zero c2)
        have := mul_nonneg hr.le (sq_nonneg (w 1))
        rw [c]; nlinarith
    · have := mul_pos hr (sq_pos_of_ne_zero c1)
      have := mul_nonneg hh0.le (sq_nonneg (w 2))
      rw [c]; nlinarith
  · have := mul_pos hD (sq_pos_of_ne_zero c)
    have := mul_nonneg hh0.le (sq_nonneg (w 2))
    have := mul_nonneg hr.le (sq_nonneg (w 1))
    nlinarith

end Gyoto.HotSpot
