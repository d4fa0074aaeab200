import Verif.Model.KerrTetrad
import Verif.Props.Orbits
import Verif.Props.OrbitRadii

/-!
# The observer's tetrad in the Kerr metric
-/

namespace Gyoto.KerrBL

open Gyoto.MetricAlg Gyoto.Spacetime Gyoto.Orbits

theorem dual_eq (a : ℝ) (x u : Vec) : dualOneForm (gmunu a x) u =
    ![gmunu a x 0 0 * u 0 + gmunu a x 0 3 * u 3, gmunu a x 1 1 * u 1, gmunu a x 2 2 * u 2,
      gmunu a x 0 3 * u 0 + gmunu a x 3 3 * u 3] := by
  funext μ
  rw [← lower_eq]
  unfold dualOneForm
  apply Finset.sum_congr rfl
  intro ν _
  have : gmunu a x ν μ = gmunu a x μ ν := by fin_cases μ <;> fin_cases ν <;> rfl
  rw [this]

/-- C72. For any velocity slower than light, outside the horizon and off the axis, `observerTetrad` normalises the velocity and gives
three unit vectors orthogonal to it and to one another: the second towards the north, the third towards the centre, and the first
against the rotation if the energy is positive. -/
theorem tetrad_orthonormal {a : ℝ} {pos v : Vec} (hr : 0 < pos 1) (hd : 0 < pos 1 * pos 1 - 2 * pos 1 + a * a)
    (hs : Real.sin (pos 2) ≠ 0) (h0 : 0 < v 0) (hv : sp (gmunu a pos) v v < 0) :
    ∃ t, tetrad a pos v = some t ∧ Orthonormal4 (gmunu a pos) t.u t.s1 t.s2 t.s3 ∧ sp (gmunu a pos) t.u t.u = -1 ∧
      sp (gmunu a pos) t.s1 t.s1 = 1 ∧ sp (gmunu a pos) t.s2 t.s2 = 1 ∧ sp (gmunu a pos) t.s3 t.s3 = 1 ∧
      (∃ c : ℝ, 0 < c ∧ t.u = c • v) ∧
      (lower (gmunu a pos) t.u 0 < 0 → t.s1 3 < 0) ∧ t.s2 2 < 0 ∧ t.s3 1 < 0 := by
  obtain ⟨uu, c, hn, hc, huc, hu⟩ : ∃ (uu : Vec) (c : ℝ), normalizeFourVel (gmunu a pos) v = some uu ∧ 0 < c ∧ uu = c • v ∧
      sp (gmunu a pos) uu uu = -1 := by
    obtain ⟨w, h1, h2, h3, c, h4⟩ := normalize_unit (gmunu a pos) v h0.ne' hv
    refine ⟨w, c, h1, ?_, h4, h2⟩
    rw [h4] at h3
    exact pos_of_mul_pos_left h3 h0.le
  have hS : 0 < pos 1 * pos 1 + a * a * (Real.cos (pos 2) * Real.cos (pos 2)) := by
    have := mul_pos hr hr
    have := mul_self_nonneg (a * Real.cos (pos 2))
    nlinarith
  have hdet := det_eq (a := a) (x := pos) hS.ne'
  have hs2 : 0 < Real.sin (pos 2) * Real.sin (pos 2) := mul_self_pos.2 hs
  have hD : 0 < gmunu a pos 0 3 * gmunu a pos 0 3 - gmunu a pos 0 0 * gmunu a pos 3 3 := by rw [hdet]; positivity
  have hgr := grr_pos hr hd
  have hgt : 0 < gmunu a pos 2 2 := by rw [gmunu_22]; exact hS
  unfold tetrad
  dsimp only
  rw [hn, Option.map_some]
  refine ⟨_, rfl, ?_⟩
  dsimp only
  rw [dual_eq, (kerr_lower _ _ _).1]
  simp only [Matrix.cons_val]
  rw [sp_eq] at hu
  clear hdet hn
  unfold Orthonormal4
  simp only [List.mem_cons, List.not_mem_nil, or_false, forall_eq_or_imp, forall_eq]
  simp only [sp_eq, Matrix.cons_val]
  generalize gmunu a pos 0 0 = gtt at *
  generalize gmunu a pos 0 3 = gtp at *
  generalize gmunu a pos 3 3 = gpp at *
  generalize gmunu a pos 1 1 = grr at *
  generalize gmunu a pos 2 2 = ghh at *
  generalize uu 0 = u0 at *
  generalize uu 1 = u1 at *
  generalize uu 2 = u2 at *
  generalize uu 3 = u3 at *
  obtain ⟨A, hA⟩ : ∃ A, A = u0 * (gtt * u0 + gtp * u3) + u3 * (gtp * u0 + gpp * u3) := ⟨_, rfl⟩
  obtain ⟨R, hR⟩ : ∃ R, R = gtp * gtp - gtt * gpp := ⟨_, rfl⟩
  obtain ⟨H, hH⟩ : ∃ H, H = 1 + ghh * u2 * u2 := ⟨_, rfl⟩
  have hH0 : 0 < H := by nlinarith [mul_nonneg hgt.le (sq_nonneg u2)]
  have hA0 : A < 0 := by nlinarith [mul_nonneg hgt.le (sq_nonneg u2), mul_nonneg hgr.le (sq_nonneg u1)]
  have hAu : A + grr * u1 * u1 + H = 0 := by rw [hA, hH]; linear_combination hu
  rw [← hR] at hD ⊢
  have hH' : 1 + u2 * (ghh * u2) = H := by rw [hH]; ring
  simp only [← hA, ← hH, hH']
  have hroot : ∀ x : ℝ, 0 < x → (-1 / √x) ^ 2 * x = 1 ∧ -1 / √x < 0 := by
    intro x hx
    have h := Real.sqrt_pos.2 hx
    refine ⟨?_, div_neg_of_neg_of_pos (by norm_num) h⟩
    rw [div_pow, Real.sq_sqrt hx.le]
    field_simp
  obtain ⟨q1, n1⟩ := hroot (-A * R) (mul_pos (by linarith) hD)
  obtain ⟨q2, n2⟩ := hroot (ghh * H) (mul_pos hgt hH0)
  obtain ⟨q3, n3⟩ := hroot (-grr * H * A) (by nlinarith [mul_pos hgr (mul_pos hH0 (neg_pos.2 hA0))])
  generalize -1 / √(-A * R) = c1 at *
  generalize -1 / √(ghh * H) = c2 at *
  generalize -1 / √(-grr * H * A) = c3 at *
  have k0 : gtt * u0 * u0 + grr * u1 * u1 + ghh * u2 * u2 + gpp * u3 * u3 + gtp * u0 * u3 + gtp * u3 * u0 = -1 := hu
  have k1 : gtt * (c1 * (gtp * u0 + gpp * u3)) * (c1 * (gtp * u0 + gpp * u3)) + grr * 0 * 0 + ghh * 0 * 0 +
      gpp * (-c1 * (gtt * u0 + gtp * u3)) * (-c1 * (gtt * u0 + gtp * u3)) +
      gtp * (c1 * (gtp * u0 + gpp * u3)) * (-c1 * (gtt * u0 + gtp * u3)) +
      gtp * (-c1 * (gtt * u0 + gtp * u3)) * (c1 * (gtp * u0 + gpp * u3)) = 1 := by
    rw [← q1, hA, hR]; ring
  have k2 : gtt * (c2 * u0 * (ghh * u2)) * (c2 * u0 * (ghh * u2)) + grr * (c2 * u1 * (ghh * u2)) * (c2 * u1 * (ghh * u2)) +
      ghh * (c2 * H) * (c2 * H) + gpp * (c2 * u3 * (ghh * u2)) * (c2 * u3 * (ghh * u2)) +
      gtp * (c2 * u0 * (ghh * u2)) * (c2 * u3 * (ghh * u2)) + gtp * (c2 * u3 * (ghh * u2)) * (c2 * u0 * (ghh * u2)) = 1 := by
    rw [← q2]
    grind
  have k3 : gtt * (c3 * u0 * (grr * u1)) * (c3 * u0 * (grr * u1)) + grr * (-c3 * A) * (-c3 * A) + ghh * 0 * 0 +
      gpp * (c3 * u3 * (grr * u1)) * (c3 * u3 * (grr * u1)) + gtp * (c3 * u0 * (grr * u1)) * (c3 * u3 * (grr * u1)) +
      gtp * (c3 * u3 * (grr * u1)) * (c3 * u0 * (grr * u1)) = 1 := by
    rw [← q3]
    grind
  refine ⟨⟨⟨?_, ?_, ?_, ?_, ?_, ?_⟩, Or.inr k0, Or.inl k1, Or.inl k2, Or.inl k3⟩, k0, k1, k2, k3, ⟨c, hc, huc⟩, ?_, ?_, ?_⟩
  · ring
  · grind
  · grind
  · grind
  · grind
  · grind
  · intro h
    exact mul_neg_of_pos_of_neg (by linarith) h
  · exact mul_neg_of_neg_of_pos n2 hH0
  · have := mul_pos_of_neg_of_neg n3 hA0
    linarith

/-- An observer at rest meets the hypotheses. -/
example : sp (gmunu (1 / 2) ![0, 4, Real.pi / 2, 0]) ![1, 0, 0, 0] ![1, 0, 0, 0] = -1 / 2 := by
  rw [sp_eq, gmunu_00, gmunu_11, gmunu_22, gmunu_33, gmunu_03]
  simp only [Matrix.cons_val, Real.sin_pi_div_two, Real.cos_pi_div_two]
  norm_num

end Gyoto.KerrBL
