import Verif.Props.Orbits
import Mathlib.Analysis.SpecialFunctions.Log.Basic
import Mathlib.Analysis.SpecialFunctions.Sqrt

/-!
# Angular momentum, potential and remarkable radii of circular orbits
-/

namespace Gyoto.Orbits

open Gyoto.MetricAlg Gyoto.KerrBL Gyoto.Static Gyoto.Spacetime

/-! ### C70: angular momentum and potential -/

theorem kerr_lower (a : ℝ) (pos u : Vec) :
    lower (gmunu a pos) u 0 = gmunu a pos 0 0 * u 0 + gmunu a pos 0 3 * u 3 ∧
      lower (gmunu a pos) u 3 = gmunu a pos 0 3 * u 0 + gmunu a pos 3 3 * u 3 := by
  unfold lower
  rw [lower_eq, lower_eq]
  exact ⟨rfl, rfl⟩

theorem static_lower {coef : Fin 4 → Fin 4 → ℝ} (h : ∀ i j, i ≠ j → coef i j = 0) (u : Vec) (μ : Fin 4) :
    lower (fill coef) u μ = coef μ μ * u μ := by
  unfold lower
  rw [Finset.sum_eq_single μ]
  · simp [fill]
  · intro ν _ hν
    have : fill coef μ ν = 0 := by
      unfold fill
      split_ifs
      · exact h _ _ (Ne.symm hν)
      · exact h _ _ hν
    rw [this, zero_mul]
  · simp

theorem sh_off (pos : Vec) (i j : Fin 4) (h : i ≠ j) : shForm pos i j = 0 := by
  fin_cases i <;> fin_cases j <;> first | rfl | exact absurd rfl h | simp [shForm]
theorem rn_off (q : ℝ) (pos : Vec) (i j : Fin 4) (h : i ≠ j) : rnForm q pos i j = 0 := by
  fin_cases i <;> fin_cases j <;> first | exact absurd rfl h | simp [rnForm]
theorem rz_off (m : RZ) (pos : Vec) (i j : Fin 4) (h : i ≠ j) : m.form pos i j = 0 := by
  fin_cases i <;> fin_cases j <;> first | exact absurd rfl h | simp [RZ.form]

/-- The component along time of the velocity of the circular orbit: minus the energy. -/
theorem kerr_energy {a dir : ℝ} {pos : Vec} (hr : 0 < pos 1) (hθ : pos 2 = Real.pi / 2) (hdir : dir = 1 ∨ dir = -1)
    (hs : KerrSlow a dir (pos 1)) :
    lower (gmunu a pos) (kerrVel a pos dir) 0 =
      -(√(pos 1) ^ 3 - 2 * √(pos 1) + a * dir) / √(√(pos 1) ^ 3 * (√(pos 1) ^ 3 - 3 * √(pos 1) + 2 * a * dir)) ∧
    lower (gmunu a pos) (kerrVel a pos dir) 3 =
      dir * (√(pos 1) ^ 4 - 2 * a * dir * √(pos 1) + a ^ 2) / √(√(pos 1) ^ 3 * (√(pos 1) ^ 3 - 3 * √(pos 1) + 2 * a * dir)) := by
  have hw : 0 < √(pos 1) := Real.sqrt_pos.2 hr
  have hwr : pos 1 = √(pos 1) ^ 2 := (Real.sq_sqrt hr.le).symm
  have hp := omega_pos hw hdir hs
  have hd2 : dir * dir = 1 := by rcases hdir with rfl | rfl <;> norm_num
  have hd0 : dir ≠ 0 := by rintro rfl; norm_num at hd2
  have e : dir * √(pos 1) ^ 3 + a = dir * (√(pos 1) ^ 3 + a * dir) := by linear_combination (-a) * hd2
  have hi : 1 / (dir * √(pos 1) ^ 3 + a) = dir / (√(pos 1) ^ 3 + a * dir) := by
    rw [e, div_eq_div_iff (mul_ne_zero hd0 hp.ne') hp.ne']
    linear_combination (-(√(pos 1) ^ 3 + a * dir)) * hd2
  rw [kerr_eq hr hθ]
  obtain ⟨k1, k2, k3⟩ := finish_ok (kerr_norm_neg hr hθ hdir hs)
  rw [kerr_norm hr hθ hdir hs] at k3
  unfold KerrSlow at hs
  have k3' : finishVel (gmunu a pos) (1 / (dir * √(pos 1) ^ 3 + a)) 0 =
      (√(pos 1) ^ 3 + a * dir) / √(√(pos 1) ^ 3 * (√(pos 1) ^ 3 - 3 * √(pos 1) + 2 * a * dir)) := by
    rw [k3, neg_div, neg_neg, Real.sqrt_div (by positivity), Real.sqrt_sq hp.le, inv_div]
  rw [(kerr_lower _ _ _).1, (kerr_lower _ _ _).2, k2, k3', hi]
  rw [gmunu_00, gmunu_03, gmunu_33]
  simp only [hθ, Real.sin_pi_div_two, Real.cos_pi_div_two]
  have hq : 0 < √(√(pos 1) ^ 3 * (√(pos 1) ^ 3 - 3 * √(pos 1) + 2 * a * dir)) := Real.sqrt_pos.2 (by positivity)
  generalize √(√(pos 1) ^ 3 * (√(pos 1) ^ 3 - 3 * √(pos 1) + 2 * a * dir)) = Z at *
  generalize √(pos 1) = w at *
  rw [hwr]
  clear k1 k2 k3 k3' hi e
  obtain ⟨P, hP⟩ : ∃ P, P = w ^ 3 + a * dir := ⟨_, rfl⟩
  rw [← hP] at hp ⊢
  have e2 : w ^ 2 * w ^ 2 + a * a * (0 * 0) = w ^ 4 := by ring
  rw [e2]
  constructor
  · field_simp
    subst hP
    rcases hdir with rfl | rfl <;> ring
  · field_simp
    subst hP
    rcases hdir with rfl | rfl <;> ring

/-- C70. `KerrBL::getSpecificAngularMomentum` is `-u_φ/u_t` for the circular orbit in the direction of the rotation. -/
theorem kerr_l {a : ℝ} {pos : Vec} (hr : 0 < pos 1) (hθ : pos 2 = Real.pi / 2) (hs : KerrSlow a 1 (pos 1)) :
    kerrL a (pos 1) = -lower (gmunu a pos) (kerrVel a pos 1) 3 / lower (gmunu a pos) (kerrVel a pos 1) 0 := by
  have hw : 0 < √(pos 1) := Real.sqrt_pos.2 hr
  have hwr : pos 1 = √(pos 1) ^ 2 := (Real.sq_sqrt hr.le).symm
  obtain ⟨e1, e2⟩ := kerr_energy hr hθ (Or.inl rfl) hs
  rw [e1, e2]
  unfold kerrL
  rw [pow_three_half hr.le]
  unfold KerrSlow at hs
  have hq : 0 < √(√(pos 1) ^ 3 * (√(pos 1) ^ 3 - 3 * √(pos 1) + 2 * a * 1)) := Real.sqrt_pos.2 (by positivity)
  generalize √(√(pos 1) ^ 3 * (√(pos 1) ^ 3 - 3 * √(pos 1) + 2 * a * 1)) = Z at *
  generalize √(pos 1) = w at *
  rw [hwr]
  rw [neg_div Z (w ^ 3 - 2 * w + a * 1), neg_div_neg_eq, div_div_div_cancel_right₀ hq.ne']
  congr 1 <;> ring

theorem log_half {y : ℝ} : 0.5 * Real.log (y ^ 2) = Real.log |y| := by
  rw [Real.log_pow, Real.log_abs]
  push_cast
  ring

/-- C70. `KerrBL::getPotential` is `-ln |u_t|` for any observer that turns around the axis with the given angular momentum. -/
theorem kerr_potential {a l : ℝ} {pos u : Vec} (hreg : Regular a pos) (hr : 0 < pos 1) (hu : IsRotating (gmunu a pos) u)
    (hl : lower (gmunu a pos) u 3 = -l * lower (gmunu a pos) u 0) :
    kerrPotential a pos l = -Real.log |lower (gmunu a pos) u 0| := by
  have hdet := det_eq (a := a) (x := pos) hreg.sigma
  obtain ⟨e0, e3⟩ := kerr_lower a pos u
  rw [e0, e3] at hl
  rw [e0]
  have hn := hu.unit
  rw [sp_eq, hu.r, hu.theta] at hn
  have hT := hu.future
  unfold kerrPotential
  rw [coef_eq, coef_eq, coef_eq]
  have hdet0 : gmunu a pos 0 3 * gmunu a pos 0 3 - gmunu a pos 0 0 * gmunu a pos 3 3 ≠ 0 := by
    rw [hdet]
    exact mul_ne_zero hreg.delta (mul_ne_zero hreg.axis hreg.axis)
  generalize gmunu a pos 0 0 = gtt at *
  generalize gmunu a pos 0 3 = gtp at *
  generalize gmunu a pos 3 3 = gpp at *
  generalize u 0 = T at *
  generalize u 3 = F at *
  clear hdet e0 e3
  have hden : gpp + l * gtp ≠ 0 := by
    intro h
    have h1 : T * (gtp + l * gtt) = 0 := by linear_combination hl - F * h
    rcases mul_eq_zero.1 h1 with h2 | h2
    · exact absurd h2 hT.ne'
    · apply hdet0
      linear_combination gtp * h2 - gtt * h
  have hO : -(gtp + l * gtt) / (gpp + l * gtp) = F / T := by
    rw [div_eq_div_iff hden hT.ne']
    linear_combination -hl
  dsimp only
  rw [hO]
  have e1 : gtt + 2 * (F / T) * gtp + F / T * (F / T) * gpp = -(1 / T) ^ 2 := by
    field_simp
    linear_combination hn
  have e2 : gtt + F / T * gtp = (gtt * T + gtp * F) / T := by field_simp
  rw [e1, abs_neg, abs_of_nonneg (sq_nonneg (1 / T)), log_half, e2, abs_div (gtt * T + gtp * F)]
  by_cases hz : gtt * T + gtp * F = 0
  · exfalso
    have h3 : gtp * T + gpp * F = 0 := by rw [hl, hz]; ring
    have : T * (gtt * T + gtp * F) + F * (gtp * T + gpp * F) = -1 := by linear_combination hn
    rw [hz, h3] at this
    norm_num at this
  · rw [Real.log_div (abs_ne_zero.2 hz) (abs_ne_zero.2 hT.ne'), abs_div, abs_one, Real.log_div one_ne_zero (abs_ne_zero.2 hT.ne'),
      Real.log_one]
    ring

/-- C70. `ReissnerNordstrom::getSpecificAngularMomentum`. -/
theorem rn_l {q : ℝ} {pos u : Vec} (hr : 0 < pos 1) (hs : 0 < pos 1 ^ 2 - 3 * pos 1 + 2 * q ^ 2) (hθ : pos 2 = Real.pi / 2)
    (h : rnVel q pos 1 = some u) :
    rnL q (pos 1) = some (-lower (fill (rnForm q pos)) u 3 / lower (fill (rnForm q pos)) u 0) := by
  have hsin : Real.sin (pos 2) = 1 := by rw [hθ, Real.sin_pi_div_two]
  have k1 := (rn_circular hr hs hθ (Or.inl rfl) h).1
  have hw : 0 < √(pos 1) := Real.sqrt_pos.2 hr
  have hwr : pos 1 = √(pos 1) ^ 2 := (Real.sq_sqrt hr.le).symm
  unfold rnVel at h
  simp only [hsin, mul_one] at h
  by_cases hq : q * q > pos 1
  · rw [if_pos hq] at h; cases h
  rw [if_neg hq, Option.some.injEq, pow_three_half hr.le] at h
  push Not at hq
  have k2 : u 3 = 1 / (1 * √(pos 1) ^ 3) * √(1 - q * q / pos 1) * u 0 := by rw [← h]; rfl
  have hf : 0 < pos 1 * pos 1 - 2 * pos 1 + q * q := by nlinarith
  have ef : 1 - 2 / pos 1 + q * q / (pos 1 * pos 1) = (pos 1 * pos 1 - 2 * pos 1 + q * q) / (pos 1 * pos 1) := by
    field_simp
  have hf' : 1 - 2 / pos 1 + q * q / (pos 1 * pos 1) ≠ 0 := by
    rw [ef]; positivity
  rw [static_lower (rn_off q pos), static_lower (rn_off q pos), k2]
  unfold rnL
  dsimp only
  rw [if_neg (by rintro (h | h); exacts [absurd h (not_lt.2 hq), hf' h])]
  have es : √(1 - q * q / pos 1) = √(pos 1 - q * q) / √(pos 1) := by
    rw [← Real.sqrt_div (by linarith)]
    congr 1
    field_simp
  rw [es]
  have e0 : rnForm q pos 0 0 = -(1 - 2 / pos 1 + q * q / (pos 1 * pos 1)) := by
    unfold rnForm; exact if_pos ⟨rfl, rfl⟩
  have e3 : rnForm q pos 3 3 = pos 1 * pos 1 := by simp [rnForm, hsin]
  rw [e0, e3]
  have hT := k1.future
  generalize 1 - 2 / pos 1 + q * q / (pos 1 * pos 1) = f at *
  have e4 : pos 1 * pos 1 = √(pos 1) ^ 4 := by
    calc pos 1 * pos 1 = √(pos 1) ^ 2 * √(pos 1) ^ 2 := by rw [← hwr]
      _ = _ := by ring
  rw [e4]
  congr 1
  field_simp

/-- C70. `ReissnerNordstrom::getPotential`. -/
theorem rn_potential {q l : ℝ} {pos u : Vec} (hr : 0 < pos 1) (hsin : Real.sin (pos 2) ≠ 0) (hu : IsRotating (fill (rnForm q pos)) u)
    (hl : lower (fill (rnForm q pos)) u 3 = -l * lower (fill (rnForm q pos)) u 0) :
    rnPotential q pos l = some (-Real.log |lower (fill (rnForm q pos)) u 0|) := by
  have hT := hu.future
  have hn := hu.unit
  rw [static_lower (rn_off q pos), static_lower (rn_off q pos)] at hl
  rw [static_lower (rn_off q pos)]
  have hsp : sp (fill (rnForm q pos)) u u = rnForm q pos 0 0 * u 0 ^ 2 + rnForm q pos 3 3 * u 3 ^ 2 := by
    rw [← scalarProd_eq]
    simp [scalarProd, fill, Fin.sum_univ_four, rn_off, hu.r, hu.theta]
    ring
  rw [hsp] at hn
  unfold rnPotential
  dsimp only
  have ef : rnForm q pos 0 0 = -((pos 1 * pos 1 - 2 * pos 1 + q * q) / (pos 1 * pos 1)) := by
    simp [rnForm]; field_simp; ring
  have ep : rnForm q pos 3 3 = pos 1 * pos 1 * (Real.sin (pos 2) * Real.sin (pos 2)) := by simp [rnForm]
  rw [ef, ep] at hn hl
  rw [ef]
  generalize Real.sin (pos 2) = s at *
  generalize pos 1 * pos 1 - 2 * pos 1 + q * q = D at *
  generalize pos 1 = r at *
  generalize u 0 = T at *
  generalize u 3 = F at *
  clear hsp ef ep hu
  have hr' := hr.ne'
  have hs2 : 0 < s * s := mul_self_pos.2 hsin
  -- `F = l D T / (r⁴ s²)`
  have hF : F = l * D * T / (r ^ 4 * (s * s)) := by
    rw [eq_div_iff (by positivity)]
    field_simp at hl
    linear_combination hl
  have hn2 : T ^ 2 * (D / (r * r)) * (r * r * (s * s) - D * l * l / (r * r)) = r * r * (s * s) := by
    rw [hF] at hn
    field_simp at hn ⊢
    linear_combination -hn
  have hpos : 0 < T ^ 2 * (D / (r * r)) * (r * r * (s * s) - D * l * l / (r * r)) := by rw [hn2]; positivity
  have hDpos : 0 < D := by
    have : D / (r * r) * T ^ 2 = 1 + r * r * (s * s) * F ^ 2 := by linear_combination -hn
    have h1 : 0 < D / (r * r) * T ^ 2 := by rw [this]; positivity
    have h2 : 0 < D / (r * r) := pos_of_mul_pos_left h1 (sq_nonneg T)
    exact (div_pos_iff_of_pos_right (by positivity)).1 h2
  have hX : 0 < r * r * (s * s) - D * l * l / (r * r) := by
    have : 0 < T ^ 2 * (D / (r * r)) := by positivity
    exact pos_of_mul_pos_right hpos this.le
  rw [if_neg hX.ne']
  have hA : D * (s * s) / (r * r * (s * s) - D * l * l / (r * r)) = (D / (r * r) * T) ^ 2 := by
    rw [div_eq_iff hX.ne']
    have : D / (r * r) * (T ^ 2 * (D / (r * r)) * (r * r * (s * s) - D * l * l / (r * r))) = D * (s * s) := by
      rw [hn2]; field_simp
    linear_combination -this
  rw [hA, if_neg (not_lt.2 (sq_nonneg _))]
  congr 1
  have := log_half (y := D / (r * r) * T)
  rw [show -(D / (r * r)) * T = -(D / (r * r) * T) by ring, abs_neg, ← this]
  norm_num

/-- C70. `RezzollaZhidenko::getSpecificAngularMomentum`. -/
theorem rz_l {m : RZ} {pos : Vec} {dir : ℝ} (hr0 : 0 < pos 1) (hN : 0 < m.N2 (pos 1)) (hN' : 0 ≤ m.Nprime (pos 1))
    (hs : pos 1 * m.Nprime (pos 1) < √(m.N2 (pos 1))) (hθ : pos 2 = Real.pi / 2) :
    rzL m (pos 1) = -lower (fill (m.form pos)) (rzVel m pos dir) 3 / lower (fill (m.form pos)) (rzVel m pos dir) 0 := by
  have hsin : Real.sin (pos 2) = 1 := by rw [hθ, Real.sin_pi_div_two]
  have hNN : 0 < √(m.N2 (pos 1)) := Real.sqrt_pos.2 hN
  have hN2 : √(m.N2 (pos 1)) ^ 2 = m.N2 (pos 1) := Real.sq_sqrt hN.le
  have hk : 0 ≤ m.Nprime (pos 1) * √(m.N2 (pos 1)) / pos 1 := by positivity
  have hw2 := Real.sq_sqrt hk
  have hp : (![pos 0, pos 1, Real.pi * 0.5, pos 3] : Vec) = pos := by
    funext i
    fin_cases i <;> simp [hθ]
    norm_num
    ring
  have ev : rzVel m pos dir = finishVel (fill (m.form pos)) √(m.Nprime (pos 1) * √(m.N2 (pos 1)) / pos 1) := by
    unfold rzVel
    simp only [hsin, mul_one, hp]
  have hw0 := Real.sqrt_nonneg (m.Nprime (pos 1) * √(m.N2 (pos 1)) / pos 1)
  rw [ev]
  generalize √(m.Nprime (pos 1) * √(m.N2 (pos 1)) / pos 1) = w at *
  have hn : sp (fill (m.form pos)) ![1, 0, 0, w] ![1, 0, 0, w] < 0 := by
    rw [sp_rot (by simp [RZ.form]), hw2]
    have e : m.form pos 0 0 + m.form pos 3 3 * (m.Nprime (pos 1) * √(m.N2 (pos 1)) / pos 1) =
        -√(m.N2 (pos 1)) * (√(m.N2 (pos 1)) - pos 1 * m.Nprime (pos 1)) := by
      simp [RZ.form, hsin]
      field_simp
      linear_combination hN2
    rw [e]
    nlinarith
  obtain ⟨k1, k2, -⟩ := finish_ok hn
  rw [static_lower (rz_off m pos), static_lower (rz_off m pos), k2]
  have hT := k1.future
  generalize finishVel (fill (m.form pos)) w 0 = T at *
  have e0 : m.form pos 0 0 = -m.N2 (pos 1) := by simp [RZ.form]
  have e3 : m.form pos 3 3 = pos 1 * pos 1 := by simp [RZ.form, hsin]
  rw [e0, e3]
  have e : -(pos 1 * pos 1 * (w * T)) / (-m.N2 (pos 1) * T) = pos 1 * pos 1 * w / m.N2 (pos 1) := by field_simp
  rw [e]
  unfold rzL
  dsimp only
  have hY : 0 ≤ pos 1 * pos 1 * w / m.N2 (pos 1) := by positivity
  have hX : pos 1 * pos 1 * pos 1 * m.Nprime (pos 1) / (√(m.N2 (pos 1)) * √(m.N2 (pos 1)) * √(m.N2 (pos 1))) =
      (pos 1 * pos 1 * w / m.N2 (pos 1)) ^ 2 := by
    rw [div_pow, mul_pow, hw2]
    generalize √(m.N2 (pos 1)) = N at *
    rw [← hN2]
    field_simp
  rw [hX, Real.sqrt_sq hY]

/-- C70. `RezzollaZhidenko::getPotential`. -/
theorem rz_potential {m : RZ} {l : ℝ} {pos u : Vec} (hr : 0 < pos 1) (hsin : Real.sin (pos 2) ≠ 0)
    (hu : IsRotating (fill (m.form pos)) u)
    (hl : lower (fill (m.form pos)) u 3 = -l * lower (fill (m.form pos)) u 0) :
    rzPotential m pos l = some (-Real.log |lower (fill (m.form pos)) u 0|) := by
  have hT := hu.future
  have hn := hu.unit
  rw [static_lower (rz_off m pos), static_lower (rz_off m pos)] at hl
  rw [static_lower (rz_off m pos)]
  have hsp : sp (fill (m.form pos)) u u = m.form pos 0 0 * u 0 ^ 2 + m.form pos 3 3 * u 3 ^ 2 := by
    rw [← scalarProd_eq]
    simp [scalarProd, fill, Fin.sum_univ_four, rz_off, hu.r, hu.theta]
    ring
  rw [hsp] at hn
  unfold rzPotential
  dsimp only
  have e0 : m.form pos 0 0 = -m.N2 (pos 1) := by simp [RZ.form]
  have e3 : m.form pos 3 3 = pos 1 * pos 1 * (Real.sin (pos 2) * Real.sin (pos 2)) := by simp [RZ.form]
  have hs2 : 0 < Real.sin (pos 2) * Real.sin (pos 2) := mul_self_pos.2 hsin
  have hg : 0 < m.form pos 3 3 := by rw [e3]; positivity
  rw [if_neg hg.ne']
  rw [e0] at hn hl ⊢
  generalize m.form pos 3 3 = gpp at *
  have hNpos : 0 < m.N2 (pos 1) := by
    have h1 : 0 < m.N2 (pos 1) * u 0 ^ 2 := by nlinarith [mul_nonneg hg.le (sq_nonneg (u 3))]
    exact pos_of_mul_pos_left h1 (sq_nonneg _)
  generalize m.N2 (pos 1) = N at *
  generalize u 0 = T at *
  generalize u 3 = F at *
  have hO : -l * -N / gpp = F / T := by
    rw [div_eq_div_iff hg.ne' hT.ne']
    linear_combination -hl
  rw [hO]
  have e1 : -N + gpp * (F / T) * (F / T) = -(1 / T) ^ 2 := by
    field_simp
    linear_combination hn
  rw [e1, abs_neg, abs_of_nonneg (sq_nonneg (1 / T)), log_half]
  congr 1
  rw [abs_of_pos (Real.sqrt_pos.2 hNpos), Real.log_sqrt hNpos.le, abs_of_pos (by positivity), Real.log_div one_ne_zero hT.ne',
    Real.log_one, show -N * T = -(N * T) by ring, abs_neg, abs_of_pos (by positivity), Real.log_mul hNpos.ne' hT.ne']
  ring

/-- C70. `KerrBL::zamoVelocity`: an observer that turns around the axis and has no angular momentum. -/
theorem kerr_zamo {a : ℝ} {pos : Vec} (hr : 0 < pos 1) (hd : 0 < pos 1 * pos 1 - 2 * pos 1 + a * a) (hs : Real.sin (pos 2) ≠ 0) :
    IsRotating (gmunu a pos) (kerrZamo a pos) ∧ lower (gmunu a pos) (kerrZamo a pos) 3 = 0 := by
  have hS : 0 < pos 1 * pos 1 + a * a * (Real.cos (pos 2) * Real.cos (pos 2)) := by
    have := mul_pos hr hr
    have := mul_self_nonneg (a * Real.cos (pos 2))
    nlinarith
  have hdet := det_eq (a := a) (x := pos) hS.ne'
  have hs2 : 0 < Real.sin (pos 2) * Real.sin (pos 2) := mul_self_pos.2 hs
  have hg : 0 < gmunu a pos 3 3 := by
    rw [gmunu_33]
    have ha := mul_self_nonneg a
    have h1 := mul_pos hr hr
    have h2 : 0 ≤ 2 * pos 1 * (a * a) * (Real.sin (pos 2) * Real.sin (pos 2)) /
        (pos 1 * pos 1 + a * a * (Real.cos (pos 2) * Real.cos (pos 2))) :=
      div_nonneg (mul_nonneg (mul_nonneg (by linarith) ha) hs2.le) hS.le
    exact mul_pos (by linarith) hs2
  have hD : 0 < gmunu a pos 0 3 * gmunu a pos 0 3 - gmunu a pos 0 0 * gmunu a pos 3 3 := by rw [hdet]; positivity
  have hut : 0 < -gmunu a pos 3 3 / (gmunu a pos 0 0 * gmunu a pos 3 3 - gmunu a pos 0 3 * gmunu a pos 0 3) :=
    div_pos_of_neg_of_neg (by linarith) (by linarith)
  have hq := Real.sq_sqrt hut.le
  refine ⟨⟨rfl, rfl, Real.sqrt_pos.2 hut, ?_⟩, ?_⟩
  · rw [sp_eq]
    simp only [kerrZamo, Matrix.cons_val]
    generalize √(-gmunu a pos 3 3 / (gmunu a pos 0 0 * gmunu a pos 3 3 - gmunu a pos 0 3 * gmunu a pos 0 3)) = U at *
    generalize gmunu a pos 0 0 = gtt at *
    generalize gmunu a pos 0 3 = gtp at *
    generalize gmunu a pos 3 3 = gpp at *
    have h2 : gtt * gpp - gtp * gtp ≠ 0 := by intro h; linarith
    rw [eq_div_iff h2] at hq
    field_simp
    linear_combination hq
  · rw [(kerr_lower _ _ _).2]
    simp only [kerrZamo, Matrix.cons_val]
    field_simp
    ring

/-! ### C71: remarkable radii -/

/-- What `getRms` solves. -/
theorem rms_spec {a : ℝ} (h1 : -1 ≤ a) (h2 : a ≤ 1) :
    0 < kerrRms a ∧ √(kerrRms a) ^ 4 - 6 * √(kerrRms a) ^ 2 + 8 * |a| * √(kerrRms a) - 3 * a ^ 2 = 0 := by
  have hc : ∀ x : ℝ, 0 ≤ x → (x ^ (1 / 3 : ℝ)) ^ 3 = x := by
    intro x hx
    rw [← Real.rpow_natCast, ← Real.rpow_mul hx]
    norm_num
  have hp := hc (1 + a) (by linarith)
  have hq := hc (1 - a) (by linarith)
  have hp0 : 0 ≤ (1 + a) ^ (1 / 3 : ℝ) := Real.rpow_nonneg (by linarith) _
  have hq0 : 0 ≤ (1 - a) ^ (1 / 3 : ℝ) := Real.rpow_nonneg (by linarith) _
  have hm : (1 - a * a) ^ (1 / 3 : ℝ) = (1 + a) ^ (1 / 3 : ℝ) * (1 - a) ^ (1 / 3 : ℝ) := by
    rw [← Real.mul_rpow (by linarith) (by linarith)]
    congr 1
    ring
  unfold kerrRms
  dsimp only
  rw [hm]
  generalize (1 + a) ^ (1 / 3 : ℝ) = p at *
  generalize (1 - a) ^ (1 / 3 : ℝ) = q at *
  simp only [← Real.sqrt_eq_rpow]
  obtain ⟨y, hy⟩ : ∃ y, y = p * q * (p + q) := ⟨_, rfl⟩
  have hy3 : y ^ 3 = (1 - a ^ 2) * (2 + 3 * y) := by
    have e1 : (1 - a ^ 2) = p ^ 3 * q ^ 3 := by rw [hp, hq]; ring
    have e2 : (2 : ℝ) = p ^ 3 + q ^ 3 := by rw [hp, hq]; ring
    rw [e1, hy, show (2 + 3 * (p * q * (p + q)) : ℝ) = (p ^ 3 + q ^ 3) + 3 * (p * q * (p + q)) by rw [← e2]]
    ring
  have hy0 : 0 ≤ y := by rw [hy]; positivity
  have hy2 : y ≤ 2 := by
    by_contra h
    push Not at h
    have : y ^ 3 ≤ 2 + 3 * y := by rw [hy3]; nlinarith [sq_nonneg a]
    nlinarith [mul_pos (sub_pos.2 h) (by positivity : 0 < (y + 1) ^ 2)]
  rw [← hy]
  clear hy hp hq hm
  obtain ⟨z1, hz1⟩ : ∃ z, z = 1 + y := ⟨_, rfl⟩
  rw [← hz1]
  have hz3 : a ^ 2 - 3 * a ^ 2 * z1 + 3 * z1 ^ 2 - z1 ^ 3 = 0 := by
    rw [hz1]; linear_combination -hy3
  have hz0 : 1 ≤ z1 := by linarith
  have hz3' : z1 ≤ 3 := by linarith
  clear hy3 hy0 hy2 hz1
  have hk : 0 ≤ 3 * (a * a) + z1 * z1 := by nlinarith [mul_self_nonneg a]
  have hz2 := Real.sq_sqrt hk
  have hz20 : 0 < √(3 * (a * a) + z1 * z1) := Real.sqrt_pos.2 (by nlinarith [mul_self_nonneg a])
  generalize √(3 * (a * a) + z1 * z1) = z2 at *
  have hk2 : 0 ≤ (3 - z1) * (3 + z1 + 2 * z2) := mul_nonneg (by linarith) (by linarith)
  have hW := Real.sq_sqrt hk2
  have hW0 := Real.sqrt_nonneg ((3 - z1) * (3 + z1 + 2 * z2))
  generalize √((3 - z1) * (3 + z1 + 2 * z2)) = W at *
  obtain ⟨r, hr⟩ : ∃ r, r = 3 + z2 - W := ⟨_, rfl⟩
  rw [← hr]
  have hrpos : 0 < r := by
    have : W < 3 + z2 := by
      apply lt_of_pow_lt_pow_left₀ 2 (by linarith)
      have : 0 < (z1 + z2) ^ 2 := by positivity
      linarith
    linarith
  refine ⟨hrpos, ?_⟩
  have hWr : W = 3 + z2 - r := by linarith
  have k1 : r ^ 2 - 6 * r - 3 * a ^ 2 = 2 * z2 * (r - z1 - z2) := by
    rw [hWr] at hW
    linear_combination hW + hz2
  have k2 : (r - z1 - z2) ^ 2 = 2 * r * (3 - z1) := by
    rw [hWr] at hW
    linear_combination hW
  have k3 : z2 ^ 2 * (3 - z1) = 8 * a ^ 2 := by
    linear_combination (3 - z1) * hz2 + hz3
  have k4 : (r ^ 2 - 6 * r - 3 * a ^ 2) ^ 2 = (8 * |a| * √r) ^ 2 := by
    rw [k1, mul_pow _ √r, Real.sq_sqrt hrpos.le, mul_pow 8, sq_abs]
    linear_combination 4 * z2 ^ 2 * k2 + 8 * r * k3
  have k5 : r ^ 2 - 6 * r - 3 * a ^ 2 ≤ 0 := by
    rw [k1]
    have : 3 - z1 ≤ W := by
      apply (sq_le_sq₀ (by linarith) hW0).1
      have := mul_nonneg (sub_nonneg.2 hz3') (by linarith : 0 ≤ 2 * z1 + 2 * z2)
      linarith
    have h5 : r - z1 - z2 ≤ 0 := by linarith
    exact mul_nonpos_of_nonneg_of_nonpos (by linarith) h5
  have k6 : 0 ≤ 8 * |a| * √r := by positivity
  have k7 : r ^ 2 - 6 * r - 3 * a ^ 2 = -(8 * |a| * √r) := by
    rcases sq_eq_sq_iff_eq_or_eq_neg.1 k4 with h | h
    · have : 8 * |a| * √r = 0 := by linarith
      rw [h, this]; norm_num
    · exact h
  have e2 : √r ^ 2 = r := Real.sq_sqrt hrpos.le
  have e4 : √r ^ 4 = r ^ 2 := by rw [show √r ^ 4 = (√r ^ 2) ^ 2 by ring, e2]
  rw [e4, e2]
  linarith

/-- The energy per unit mass of the circular orbit of radius `r` in the equatorial plane. -/
noncomputable def orbitEnergy (a dir r : ℝ) : ℝ :=
  -lower (gmunu a ![0, r, Real.pi / 2, 0]) (kerrVel a ![0, r, Real.pi / 2, 0] dir) 0

/-- The energy as a function of the square root of the radius. -/
noncomputable def energyW (b w : ℝ) : ℝ := (w ^ 3 - 2 * w + b) / √(w ^ 3 * (w ^ 3 - 3 * w + 2 * b))

theorem orbitEnergy_eq {a dir r : ℝ} (hr : 0 < r) (hdir : dir = 1 ∨ dir = -1) (hs : KerrSlow a dir r) :
    orbitEnergy a dir r = energyW (a * dir) (√r) := by
  unfold orbitEnergy energyW
  rw [(kerr_energy (pos := ![0, r, Real.pi / 2, 0]) hr rfl hdir hs).1]
  simp only [Matrix.cons_val]
  rw [neg_div, neg_neg, ← mul_assoc]

theorem energyW_deriv {b w : ℝ} (hw : 0 < w) (hs : 0 < w ^ 3 - 3 * w + 2 * b)
    (h : w ^ 4 - 6 * w ^ 2 + 8 * b * w - 3 * b ^ 2 = 0) : HasDerivAt (energyW b) 0 w := by
  have hk : 0 < w ^ 3 * (w ^ 3 - 3 * w + 2 * b) := by positivity
  have d1 : HasDerivAt (fun w : ℝ => w ^ 3) (3 * w ^ 2) w := by simpa using hasDerivAt_pow 3 w
  have d0 := hasDerivAt_id w
  have dn := (d1.sub (d0.const_mul 2)).add_const b
  have dd := (d1.mul ((d1.sub (d0.const_mul 3)).add_const (2 * b))).sqrt hk.ne'
  have := dn.div dd (Real.sqrt_pos.2 hk).ne'
  refine this.congr_deriv ?_
  have hq := Real.sq_sqrt hk.le
  have hq0 := Real.sqrt_pos.2 hk
  simp only [Pi.mul_apply, Pi.sub_apply, id]
  generalize √(w ^ 3 * (w ^ 3 - 3 * w + 2 * b)) = Z at *
  rw [div_eq_zero_iff]
  left
  have e : ∀ A B C : ℝ, A * Z ^ 2 * 2 = B * C → A * Z - B * (C / (2 * Z)) = 0 := by
    intro A B C hABC
    field_simp
    linear_combination hABC
  apply e
  rw [hq]
  linear_combination (2 * w ^ 2) * h

/-- C71. `getRms` is, for a black hole that is not extreme, the radius where the energy of the circular orbits that turn with the
black hole is stationary (an orbit is stable where it increases with the radius). -/
theorem rms_stationary {a dir : ℝ} (h1 : -1 < a) (h2 : a < 1) (hdir : dir = 1 ∨ dir = -1) (hpro : 0 ≤ a * dir) :
    KerrSlow a dir (kerrRms a) ∧ HasDerivAt (orbitEnergy a dir) 0 (kerrRms a) := by
  obtain ⟨hr, h⟩ := rms_spec h1.le h2.le
  have habs : |a| = a * dir := by
    rcases hdir with rfl | rfl
    · rw [mul_one] at hpro ⊢; exact abs_of_nonneg hpro
    · rw [abs_of_nonpos (by linarith)]; ring
  have ha2 : a ^ 2 = (a * dir) ^ 2 := by rw [← habs, sq_abs]
  have hb1 : a * dir < 1 := by rw [← habs, abs_lt]; exact ⟨h1, h2⟩
  rw [habs, ha2] at h
  have hw : 0 < √(kerrRms a) := Real.sqrt_pos.2 hr
  have hs : KerrSlow a dir (kerrRms a) := by
    unfold KerrSlow
    generalize √(kerrRms a) = w at *
    rw [mul_assoc]
    generalize a * dir = b at *
    have e : w * (w ^ 3 - 3 * w + 2 * b) = 3 * (w - b) ^ 2 := by linear_combination h
    have hne : w ≠ b := by
      rintro rfl
      have : w ^ 2 * (w ^ 2 - 1) = 0 := by linear_combination h
      rcases mul_eq_zero.1 this with h' | h'
      · exact hw.ne' (pow_eq_zero_iff (by norm_num) |>.1 h')
      · nlinarith
    have : 0 < 3 * (w - b) ^ 2 := by
      have := sub_ne_zero.2 hne
      positivity
    rw [← e] at this
    exact pos_of_mul_pos_right this hw.le
  refine ⟨hs, ?_⟩
  have hW := energyW_deriv (b := a * dir) hw (by have := hs; unfold KerrSlow at this; linarith) h
  have hsq : HasDerivAt (fun r => √r) (1 / (2 * √(kerrRms a))) (kerrRms a) := Real.hasDerivAt_sqrt hr.ne'
  have hcomp := hW.comp (kerrRms a) hsq
  rw [zero_mul] at hcomp
  apply hcomp.congr_of_eventuallyEq
  have c1 : ∀ᶠ r in nhds (kerrRms a), 0 < r := lt_mem_nhds hr
  have c2 : ∀ᶠ r in nhds (kerrRms a), KerrSlow a dir r := by
    have hcont : Continuous fun r : ℝ => √r ^ 3 - 3 * √r + 2 * a * dir := by fun_prop
    exact hcont.continuousAt.eventually (lt_mem_nhds hs)
  filter_upwards [c1, c2] with r hr' hs'
  exact orbitEnergy_eq hr' hdir hs'

/-- C71. At `getRmb`, the circular orbit in the positive direction has the energy of a particle at rest far away. -/
theorem rmb_energy {a : ℝ} (h : a < 1) : 0 < kerrRmb a ∧ KerrSlow a 1 (kerrRmb a) ∧ orbitEnergy a 1 (kerrRmb a) = 1 := by
  have hk : 0 < 1 - a := by linarith
  have hx := Real.sq_sqrt hk.le
  have hx0 := Real.sqrt_pos.2 hk
  obtain ⟨x, hxd⟩ : ∃ x, x = √(1 - a) := ⟨_, rfl⟩
  have ha : a = 1 - x ^ 2 := by rw [hxd]; linarith
  have hR : kerrRmb a = (1 + x) ^ 2 := by
    unfold kerrRmb
    rw [← hxd]
    rw [ha]
    ring
  have hx0' : 0 < x := by rw [hxd]; exact hx0
  have hw : √(kerrRmb a) = 1 + x := by rw [hR]; exact Real.sqrt_sq (by linarith)
  have hr : 0 < kerrRmb a := by rw [hR]; positivity
  have hd : √(kerrRmb a) ^ 3 - 3 * √(kerrRmb a) + 2 * a * 1 = (1 + x) * x ^ 2 := by
    rw [hw, ha]; ring
  have hs : KerrSlow a 1 (kerrRmb a) := by
    unfold KerrSlow
    rw [hd]
    positivity
  refine ⟨hr, hs, ?_⟩
  rw [orbitEnergy_eq hr (Or.inl rfl) hs]
  unfold energyW
  rw [hw]
  have e1 : (1 + x) ^ 3 * ((1 + x) ^ 3 - 3 * (1 + x) + 2 * (a * 1)) = ((1 + x) ^ 2 * x) ^ 2 := by rw [ha]; ring
  have e2 : (1 + x) ^ 3 - 2 * (1 + x) + a * 1 = (1 + x) ^ 2 * x := by rw [ha]; ring
  have : 0 < (1 + x) ^ 2 * x := by positivity
  rw [e1, e2, Real.sqrt_sq this.le, div_self this.ne']

/-- `getRms` does not depend on the sign of the spin. -/
theorem rms_even (a : ℝ) : kerrRms (-a) = kerrRms a := by
  unfold kerrRms
  simp only [neg_mul_neg, ← sub_eq_add_neg, sub_neg_eq_add]
  rw [add_comm ((1 - a) ^ (1 / 3 : ℝ))]

/-- Finding: both are said to be for the prograde orbits, but with a negative spin `getRmb` is the radius for the orbits that turn
against the black hole, whereas `getRms` is that for the orbits that turn with it. -/
theorem rmb_negative_wrong : ¬∀ a dir : ℝ, -1 < a → a < 1 → (dir = 1 ∨ dir = -1) → 0 ≤ a * dir →
    KerrSlow a dir (kerrRmb a) → orbitEnergy a dir (kerrRmb a) = 1 := by
  intro h
  have hx : √(1 - -(11 / 25) : ℝ) = 6 / 5 := by
    rw [show (1 - -(11 / 25) : ℝ) = (6 / 5) ^ 2 by norm_num]
    exact Real.sqrt_sq (by norm_num)
  have hR : kerrRmb (-(11 / 25)) = (11 / 5) ^ 2 := by
    unfold kerrRmb
    rw [hx]
    norm_num
  have hw : √(kerrRmb (-(11 / 25))) = 11 / 5 := by rw [hR]; exact Real.sqrt_sq (by norm_num)
  have hs : KerrSlow (-(11 / 25)) (-1) (kerrRmb (-(11 / 25))) := by
    unfold KerrSlow
    rw [hw]
    norm_num
  have e := h (-(11 / 25)) (-1) (by norm_num) (by norm_num) (Or.inr rfl) (by norm_num) hs
  rw [orbitEnergy_eq (by rw [hR]; norm_num) (Or.inr rfl) hs] at e
  unfold energyW at e
  rw [hw] at e
  have hk : (0 : ℝ) < (11 / 5) ^ 3 * ((11 / 5) ^ 3 - 3 * (11 / 5) + 2 * (-(11 / 25) * -1)) := by norm_num
  have hq := Real.sq_sqrt hk.le
  rw [div_eq_one_iff_eq (Real.sqrt_pos.2 hk).ne'] at e
  rw [← e] at hq
  norm_num at hq

/-! ### Examples -/

/-- Without rotation: the last stable orbit is at 6, the marginally bound one at 4. -/
example : kerrRms 0 = 6 ∧ kerrRmb 0 = 4 := by
  constructor
  · unfold kerrRms
    norm_num [← Real.sqrt_eq_rpow]
  · unfold kerrRmb
    norm_num

/-- The orbit of radius 9 around a black hole of spin 1/2, in both directions. -/
example : KerrSlow (1 / 2) 1 9 ∧ KerrSlow (1 / 2) (-1) 9 := by
  have : √(9 : ℝ) = 3 := by rw [show (9 : ℝ) = 3 ^ 2 by norm_num]; exact Real.sqrt_sq (by norm_num)
  unfold KerrSlow
  rw [this]
  norm_num

example : IsFree (gmunu (1 / 2)) ![0, 9, Real.pi / 2, 0] (kerrVel (1 / 2) ![0, 9, Real.pi / 2, 0] 1) := by
  have : √(9 : ℝ) = 3 := by rw [show (9 : ℝ) = 3 ^ 2 by norm_num]; exact Real.sqrt_sq (by norm_num)
  refine (kerr_circular ?_ ?_ ?_ (Or.inl rfl) ?_).2.1
  · simp
  · simp; norm_num
  · simp
  · unfold KerrSlow; simp only [Matrix.cons_val, this]; norm_num

example : kerrL (1 / 2) 9 = (81 - 3 + 1 / 4) / (27 - 6 + 1 / 2) := by
  have : √(9 : ℝ) = 3 := by rw [show (9 : ℝ) = 3 ^ 2 by norm_num]; exact Real.sqrt_sq (by norm_num)
  unfold kerrL
  rw [pow_three_half (by norm_num), this]
  norm_num

/-- With a charge, an orbit too close to the centre does not exist. -/
example : rnVel 1 ![0, 1 / 2, Real.pi / 2, 0] 1 = none := by
  rw [rn_throw]
  simp
  norm_num

/-- At rest: no angular momentum. -/
example : rnPotential (1 / 2) ![0, 4, Real.pi / 2, 0] 0 = some (-1 / 2 * Real.log (33 / 64)) := by
  unfold rnPotential
  simp only [Matrix.cons_val, Real.sin_pi_div_two]
  norm_num

end Gyoto.Orbits
