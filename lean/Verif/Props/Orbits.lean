import Verif.Model.Orbits
import Verif.Spec.Orbits
import Verif.Props.KerrConst
import Verif.Props.Static
import Verif.Props.MetricAlg

/-!
# Circular orbits
-/

namespace Gyoto.Orbits

open Gyoto.MetricAlg Gyoto.KerrBL Gyoto.Static Gyoto.Spacetime

/-- What the end of `circularVelocity` gives, when the motion is slower than light. -/
theorem finish_ok {g : Tensor} {w : ℝ} (h : sp g ![1, 0, 0, w] ![1, 0, 0, w] < 0) :
    IsRotating g (finishVel g w) ∧ finishVel g w 3 = w * finishVel g w 0 ∧
      finishVel g w 0 = (√(-sp g ![1, 0, 0, w] ![1, 0, 0, w]))⁻¹ := by
  have e : (Fin.cons 1 ![0, 0, w] : Vec) = ![1, 0, 0, w] := rfl
  have h' := sysPrime_unit (g := g) (v := ![0, 0, w]) (by rw [e]; exact h)
  rw [e] at h'
  have hv : sysPrimeToTdot g ![0, 0, w] • ![1, 0, 0, w] = finishVel g w := by
    funext i
    fin_cases i <;> simp [finishVel, mul_comm]
  refine ⟨⟨rfl, rfl, h'.1, ?_⟩, rfl, ?_⟩
  · rw [← hv]; exact h'.2
  · show sysPrimeToTdot g ![0, 0, w] = _
    have es : (∑ i, ∑ j, g i j * (![1, 0, 0, w] : Vec) i * (![1, 0, 0, w] : Vec) j) = sp g ![1, 0, 0, w] ![1, 0, 0, w] := by
      rw [← scalarProd_eq]; rfl
    simp only [sysPrimeToTdot, e, es]
    rw [if_neg (not_le.2 h)]

/-- A power of three halves. -/
theorem pow_three_half {r : ℝ} (hr : 0 ≤ r) : r ^ (1.5 : ℝ) = √r ^ 3 := by
  rw [Real.sqrt_eq_rpow, ← Real.rpow_natCast, ← Real.rpow_mul hr]
  norm_num

/-! ### C69: the velocity returned is that of a circular orbit -/

/-- The orbit of radius `r` in the equatorial plane of Kerr is slower than light. -/
def KerrSlow (a dir r : ℝ) : Prop := 0 < √r ^ 3 - 3 * √r + 2 * a * dir

theorem omega_pos {a dir w : ℝ} (hw : 0 < w) (hdir : dir = 1 ∨ dir = -1) (h : 0 < w ^ 3 - 3 * w + 2 * a * dir) :
    0 < w ^ 3 + a * dir := by
  rcases le_or_gt 0 (a * dir) with h1 | h1
  · positivity
  · nlinarith

theorem kerr_eq {a dir : ℝ} {pos : Vec} (hr : 0 < pos 1) (hθ : pos 2 = Real.pi / 2) :
    kerrVel a pos dir = finishVel (gmunu a pos) (1 / (dir * √(pos 1) ^ 3 + a)) := by
  unfold kerrVel
  simp only [hθ, Real.sin_pi_div_two, mul_one]
  rw [pow_three_half hr.le]

/-- The norm of the velocity before normalisation. -/
theorem kerr_norm {a dir : ℝ} {pos : Vec} (hr : 0 < pos 1) (hθ : pos 2 = Real.pi / 2) (hdir : dir = 1 ∨ dir = -1)
    (hs : KerrSlow a dir (pos 1)) :
    sp (gmunu a pos) ![1, 0, 0, 1 / (dir * √(pos 1) ^ 3 + a)] ![1, 0, 0, 1 / (dir * √(pos 1) ^ 3 + a)] =
      -(√(pos 1) ^ 3 * (√(pos 1) ^ 3 - 3 * √(pos 1) + 2 * a * dir)) / (√(pos 1) ^ 3 + a * dir) ^ 2 := by
  have hw : 0 < √(pos 1) := Real.sqrt_pos.2 hr
  have hwr : pos 1 = √(pos 1) ^ 2 := (Real.sq_sqrt hr.le).symm
  unfold KerrSlow at hs
  have hp := omega_pos hw hdir hs
  rw [sp_eq, gmunu_00, gmunu_11, gmunu_22, gmunu_33, gmunu_03]
  simp only [Matrix.cons_val, hθ, Real.sin_pi_div_two, Real.cos_pi_div_two]
  generalize √(pos 1) = w at *
  rw [hwr]
  have hd2 : dir * dir = 1 := by rcases hdir with rfl | rfl <;> norm_num
  have e : dir * w ^ 3 + a = dir * (w ^ 3 + a * dir) := by linear_combination (-a) * hd2
  have hd0 : dir ≠ 0 := by rintro rfl; norm_num at hd2
  have e2 : w ^ 2 * w ^ 2 + a * a * (0 * 0) = w ^ 4 := by ring
  rw [e, e2]
  clear hwr hs hr
  obtain ⟨P, hP⟩ : ∃ P, P = w ^ 3 + a * dir := ⟨_, rfl⟩
  rw [← hP] at hp ⊢
  have hp' := hp.ne'
  have hw' := hw.ne'
  have hi : 1 / (dir * P) = dir / P := by
    rw [div_eq_div_iff (mul_ne_zero hd0 hp') hp']
    linear_combination (-P) * hd2
  rw [hi]
  field_simp
  subst hP
  rcases hdir with rfl | rfl <;> ring

theorem kerr_norm_neg {a dir : ℝ} {pos : Vec} (hr : 0 < pos 1) (hθ : pos 2 = Real.pi / 2) (hdir : dir = 1 ∨ dir = -1)
    (hs : KerrSlow a dir (pos 1)) :
    sp (gmunu a pos) ![1, 0, 0, 1 / (dir * √(pos 1) ^ 3 + a)] ![1, 0, 0, 1 / (dir * √(pos 1) ^ 3 + a)] < 0 := by
  have hw : 0 < √(pos 1) := Real.sqrt_pos.2 hr
  rw [kerr_norm hr hθ hdir hs]
  have hp := omega_pos hw hdir hs
  unfold KerrSlow at hs
  rw [neg_div, neg_lt_zero]
  positivity

theorem rot_sum {Γ : Fin 4 → Tensor} {u : Vec} (h1 : u 1 = 0) (h2 : u 2 = 0) (α : Fin 4) :
    ∑ μ, ∑ ν, Γ α μ ν * u μ * u ν = Γ α 0 0 * (u 0 * u 0) + (Γ α 0 3 + Γ α 3 0) * (u 0 * u 3) + Γ α 3 3 * (u 3 * u 3) := by
  rw [Fin.sum_univ_four]
  simp only [Fin.sum_univ_four, h1, h2]
  ring

/-- A rotating velocity in the equatorial plane of Kerr is free if its angular velocity is Kepler's. -/
theorem kerr_free {a w : ℝ} {pos u : Vec} (hr : pos 1 ≠ 0) (hd : pos 1 * pos 1 - 2 * pos 1 + a * a ≠ 0)
    (hθ : pos 2 = Real.pi / 2) (h1 : u 1 = 0) (h2 : u 2 = 0) (h3 : u 3 = w * u 0)
    (hw : (1 - a * w) ^ 2 = pos 1 ^ 3 * w ^ 2) : IsFree (gmunu a) pos u := by
  refine ⟨KerrBL.christoffel a pos, christoffel_ok ?_ hd ?_, ?_⟩
  · simp [hθ, hr]
  · simp [hθ]
  · intro α
    rw [rot_sum h1 h2, h3]
    have hc : Real.cos (pos 2) = 0 := by rw [hθ, Real.cos_pi_div_two]
    have hs : Real.sin (pos 2) = 1 := by rw [hθ, Real.sin_pi_div_two]
    match α with
    | 0 => show 0 * (u 0 * u 0) + (0 + 0) * (u 0 * (w * u 0)) + 0 * (w * u 0 * (w * u 0)) = 0; ring
    | 1 =>
      have e0 : KerrBL.christoffel a pos 1 0 0 = (pos 1 * pos 1 - 2 * pos 1 + a * a) / pos 1 ^ 4 := by
        show -(pos 1 * pos 1 - 2 * pos 1 + a * a) * (-2 * (pos 1 * pos 1) + (pos 1 * pos 1 + a * a * (Real.cos (pos 2) * Real.cos (pos 2)))) * (1 / (pos 1 * pos 1 + a * a * (Real.cos (pos 2) * Real.cos (pos 2))) * (1 / (pos 1 * pos 1 + a * a * (Real.cos (pos 2) * Real.cos (pos 2)))) * (1 / (pos 1 * pos 1 + a * a * (Real.cos (pos 2) * Real.cos (pos 2))))) = _
        rw [hc]
        simp
        field_simp
        ring
      have e1 : KerrBL.christoffel a pos 1 0 3 = -a * (pos 1 * pos 1 - 2 * pos 1 + a * a) / pos 1 ^ 4 := by
        show a * (pos 1 * pos 1 - 2 * pos 1 + a * a) * (-2 * (pos 1 * pos 1) + (pos 1 * pos 1 + a * a * (Real.cos (pos 2) * Real.cos (pos 2)))) * (Real.sin (pos 2) * Real.sin (pos 2)) * (1 / (pos 1 * pos 1 + a * a * (Real.cos (pos 2) * Real.cos (pos 2))) * (1 / (pos 1 * pos 1 + a * a * (Real.cos (pos 2) * Real.cos (pos 2)))) * (1 / (pos 1 * pos 1 + a * a * (Real.cos (pos 2) * Real.cos (pos 2))))) = _
        rw [hc, hs]
        simp
        field_simp
        ring
      have e2 : KerrBL.christoffel a pos 1 3 3 = -(pos 1 * pos 1 - 2 * pos 1 + a * a) * (pos 1 ^ 3 - a ^ 2) / pos 1 ^ 4 := by
        show -(pos 1 * pos 1 - 2 * pos 1 + a * a) * (Real.sin (pos 2) * Real.sin (pos 2)) * (pos 1 + (a * a * (-2 * (pos 1 * pos 1) + (pos 1 * pos 1 + a * a * (Real.cos (pos 2) * Real.cos (pos 2)))) * (Real.sin (pos 2) * Real.sin (pos 2))) / ((pos 1 * pos 1 + a * a * (Real.cos (pos 2) * Real.cos (pos 2))) * (pos 1 * pos 1 + a * a * (Real.cos (pos 2) * Real.cos (pos 2))))) / (pos 1 * pos 1 + a * a * (Real.cos (pos 2) * Real.cos (pos 2))) = _
        rw [hc, hs]
        simp
        field_simp
        ring
      rw [show KerrBL.christoffel a pos 1 3 0 = KerrBL.christoffel a pos 1 0 3 from rfl, e0, e1, e2]
      field_simp
      linear_combination (u 0 ^ 2 * (pos 1 * pos 1 - 2 * pos 1 + a * a)) * hw
    | 2 =>
      have e0 : KerrBL.christoffel a pos 2 0 0 = 0 := by
        show -2 * (a * a * Real.cos (pos 2) * Real.sin (pos 2)) * pos 1 * (1 / (pos 1 * pos 1 + a * a * (Real.cos (pos 2) * Real.cos (pos 2))) * (1 / (pos 1 * pos 1 + a * a * (Real.cos (pos 2) * Real.cos (pos 2)))) * (1 / (pos 1 * pos 1 + a * a * (Real.cos (pos 2) * Real.cos (pos 2))))) = 0
        rw [hc]; ring
      have e1 : KerrBL.christoffel a pos 2 0 3 = 0 := by
        show a * pos 1 * (pos 1 * pos 1 + a * a) * (2 * Real.sin (pos 2) * Real.cos (pos 2)) * (1 / (pos 1 * pos 1 + a * a * (Real.cos (pos 2) * Real.cos (pos 2))) * (1 / (pos 1 * pos 1 + a * a * (Real.cos (pos 2) * Real.cos (pos 2)))) * (1 / (pos 1 * pos 1 + a * a * (Real.cos (pos 2) * Real.cos (pos 2))))) = 0
        rw [hc]; ring
      have e2 : KerrBL.christoffel a pos 2 3 3 = 0 := by
        show -Real.sin (pos 2) * Real.cos (pos 2) * (1 / (pos 1 * pos 1 + a * a * (Real.cos (pos 2) * Real.cos (pos 2))) * (1 / (pos 1 * pos 1 + a * a * (Real.cos (pos 2) * Real.cos (pos 2)))) * (1 / (pos 1 * pos 1 + a * a * (Real.cos (pos 2) * Real.cos (pos 2))))) * _ = 0
        rw [hc]; ring
      rw [show KerrBL.christoffel a pos 2 3 0 = KerrBL.christoffel a pos 2 0 3 from rfl, e0, e1, e2]
      ring
    | 3 => show 0 * (u 0 * u 0) + (0 + 0) * (u 0 * (w * u 0)) + 0 * (w * u 0 * (w * u 0)) = 0; ring

/-- C69. `KerrBL::circularVelocity` gives, in the equatorial plane, the velocity of an observer in free fall on a circular orbit. -/
theorem kerr_circular {a dir : ℝ} {pos : Vec} (hr : 0 < pos 1) (hd : pos 1 * pos 1 - 2 * pos 1 + a * a ≠ 0)
    (hθ : pos 2 = Real.pi / 2) (hdir : dir = 1 ∨ dir = -1) (hs : KerrSlow a dir (pos 1)) :
    IsRotating (gmunu a pos) (kerrVel a pos dir) ∧ IsFree (gmunu a) pos (kerrVel a pos dir) ∧ 0 < dir * kerrVel a pos dir 3 := by
  have hw : 0 < √(pos 1) := Real.sqrt_pos.2 hr
  have hwr : pos 1 = √(pos 1) ^ 2 := (Real.sq_sqrt hr.le).symm
  have hp := omega_pos hw hdir hs
  have hd2 : dir * dir = 1 := by rcases hdir with rfl | rfl <;> norm_num
  have e : dir * √(pos 1) ^ 3 + a = dir * (√(pos 1) ^ 3 + a * dir) := by linear_combination (-a) * hd2
  rw [kerr_eq hr hθ]
  obtain ⟨k1, k2, -⟩ := finish_ok (kerr_norm_neg hr hθ hdir hs)
  have h0 : dir * √(pos 1) ^ 3 + a ≠ 0 := by
    rw [e]
    exact mul_ne_zero (by rintro rfl; norm_num at hd2) hp.ne'
  refine ⟨k1, kerr_free hr.ne' hd hθ k1.r k1.theta k2 ?_, ?_⟩
  · generalize √(pos 1) = w at *
    rw [hwr]
    field_simp
    linear_combination w ^ 6 * hd2
  · rw [k2, e]
    have := k1.future
    have hd0 : dir ≠ 0 := by rintro rfl; norm_num at hd2
    have e3 : dir * (1 / (dir * (√(pos 1) ^ 3 + a * dir)) * finishVel (gmunu a pos) (1 / (dir * (√(pos 1) ^ 3 + a * dir))) 0) =
        finishVel (gmunu a pos) (1 / (dir * (√(pos 1) ^ 3 + a * dir))) 0 / (√(pos 1) ^ 3 + a * dir) := by
      have := hp.ne'
      field_simp
    rw [e3]
    rw [e] at this
    positivity

/-- C69. Out of the equatorial plane it is still the velocity of an observer that turns around the axis, if slower than light. -/
theorem kerr_rotating {a dir : ℝ} {pos : Vec}
    (h : sp (gmunu a pos) ![1, 0, 0, 1 / (dir * (pos 1 * Real.sin (pos 2)) ^ (1.5 : ℝ) + a)]
      ![1, 0, 0, 1 / (dir * (pos 1 * Real.sin (pos 2)) ^ (1.5 : ℝ) + a)] < 0) :
    IsRotating (gmunu a pos) (kerrVel a pos dir) ∧
      kerrVel a pos dir 3 = 1 / (dir * (pos 1 * Real.sin (pos 2)) ^ (1.5 : ℝ) + a) * kerrVel a pos dir 0 :=
  ⟨(finish_ok h).1, (finish_ok h).2.1⟩

/-! The metrics without rotation. -/

theorem sp_rot {coef : Fin 4 → Fin 4 → ℝ} (h : coef 0 3 = 0) (w : ℝ) :
    sp (fill coef) ![1, 0, 0, w] ![1, 0, 0, w] = coef 0 0 + coef 3 3 * w ^ 2 := by
  rw [← scalarProd_eq]
  simp [scalarProd, fill, Fin.sum_univ_four, h]
  ring

theorem static_rot {d001 d100 d111 d122 d133 d212 d233 d313 d323 : ℝ} {u : Vec} (h1 : u 1 = 0) (h2 : u 2 = 0) (α : Fin 4) :
    ∑ μ, ∑ ν, diagΓ d001 d100 d111 d122 d133 d212 d233 d313 d323 α μ ν * u μ * u ν =
      ![0, d100 * (u 0 * u 0) + d133 * (u 3 * u 3), d233 * (u 3 * u 3), 0] α := by
  rw [rot_sum h1 h2]
  match α with
  | 0 => show 0 * _ + (0 + 0) * _ + 0 * _ = (0 : ℝ); ring
  | 1 => show d100 * _ + (0 + 0) * _ + d133 * _ = d100 * (u 0 * u 0) + d133 * (u 3 * u 3); ring
  | 2 => show 0 * _ + (0 + 0) * _ + d233 * _ = d233 * (u 3 * u 3); ring
  | 3 => show 0 * _ + (0 + 0) * _ + 0 * _ = (0 : ℝ); ring

/-- C69. `SchwarzschildHarmonic::circularVelocity`, in the equatorial plane, outside the circular orbit of light. -/
theorem sh_circular {dir : ℝ} {pos : Vec} (hr : 2 < pos 1) (hθ : pos 2 = Real.pi / 2) (hdir : dir = 1 ∨ dir = -1) :
    IsRotating (fill (shForm pos)) (shVel pos dir) ∧ IsFree (fun p => fill (shForm p)) pos (shVel pos dir) ∧
      0 < dir * shVel pos dir 3 := by
  have hr0 : 0 < pos 1 + 1 := by linarith
  have hw : 0 < √(pos 1 + 1) := Real.sqrt_pos.2 hr0
  have hwr : pos 1 + 1 = √(pos 1 + 1) ^ 2 := (Real.sq_sqrt hr0.le).symm
  have hd2 : dir * dir = 1 := by rcases hdir with rfl | rfl <;> norm_num
  have hd0 : dir ≠ 0 := by rintro rfl; norm_num at hd2
  have ev : shVel pos dir = finishVel (fill (shForm pos)) (dir / √(pos 1 + 1) ^ 3) := by
    unfold shVel
    simp only [hθ, Real.sin_pi_div_two, mul_one]
    rw [pow_three_half hr0.le]
    congr 1
    field_simp
    linear_combination -hd2
  have hn : sp (fill (shForm pos)) ![1, 0, 0, dir / √(pos 1 + 1) ^ 3] ![1, 0, 0, dir / √(pos 1 + 1) ^ 3] < 0 := by
    rw [sp_rot (by simp [shForm])]
    simp only [shForm, hθ, Real.sin_pi_div_two]
    simp
    have e : 1 - pos 1 = 2 - √(pos 1 + 1) ^ 2 := by linarith
    rw [e, hwr]
    have : 3 < √(pos 1 + 1) ^ 2 := by linarith
    rw [Real.sqrt_sq hw.le]
    generalize √(pos 1 + 1) = w at *
    have e2 : (2 - w ^ 2) / w ^ 2 + w ^ 2 * w ^ 2 * (dir / w ^ 3) ^ 2 = (3 - w ^ 2) / w ^ 2 := by
      field_simp
      linear_combination hd2
    have e3 : (2 - w ^ 2) / w ^ 2 = -(w ^ 2 - 2) / w ^ 2 := by ring
    first
      | (rw [e2]; exact div_neg_of_neg_of_pos (by linarith) (by positivity))
      | (rw [e3] at e2; rw [e2]; exact div_neg_of_neg_of_pos (by linarith) (by positivity))
  rw [ev]
  obtain ⟨k1, k2, -⟩ := finish_ok hn
  generalize finishVel (fill (shForm pos)) (dir / √(pos 1 + 1) ^ 3) = u at *
  refine ⟨k1, ?_, ?_⟩
  · have hc : ¬(pos 1 = 0 ∨ Real.sin (pos 2) = 0) := by rw [hθ, Real.sin_pi_div_two]; intro h; rcases h with h | h <;> linarith
    refine ⟨_, sh_christoffel_ok (by linarith) (by linarith) (by unfold shChristoffel; exact if_neg hc), ?_⟩
    intro α
    rw [static_rot k1.r k1.theta, k2, hθ, Real.sin_pi_div_two, Real.cos_pi_div_two]
    match α with
    | 0 => rfl
    | 1 =>
      show (pos 1 - 1) / (pos 1 * pos 1 * pos 1 + 3 * (pos 1 * pos 1) + 3 * pos 1 + 1) * (u 0 * u 0) +
        -(pos 1 - 1) * 1 * 1 * (dir / √(pos 1 + 1) ^ 3 * u 0 * (dir / √(pos 1 + 1) ^ 3 * u 0)) = 0
      have e : pos 1 * pos 1 * pos 1 + 3 * (pos 1 * pos 1) + 3 * pos 1 + 1 = √(pos 1 + 1) ^ 6 := by
        calc _ = (pos 1 + 1) ^ 3 := by ring
          _ = _ := by rw [show √(pos 1 + 1) ^ 6 = (√(pos 1 + 1) ^ 2) ^ 3 by ring, ← hwr]
      rw [e]
      generalize √(pos 1 + 1) = w at *
      field_simp
      linear_combination (-(pos 1 - 1) * u 0 ^ 2) * hd2
    | 2 => show -0 * 1 * _ = (0 : ℝ); ring
    | 3 => rfl
  · rw [k2]
    have : 0 < u 0 := k1.future
    have e : dir * (dir / √(pos 1 + 1) ^ 3 * u 0) = u 0 / √(pos 1 + 1) ^ 3 := by
      field_simp
      linear_combination hd2
    rw [e]
    positivity

/-- C69. `ReissnerNordstrom::circularVelocity`, in the equatorial plane, when the orbit is slower than light; it throws exactly when
there is no such orbit because the charge repels. -/
theorem rn_circular {q dir : ℝ} {pos u : Vec} (hr : 0 < pos 1) (hs : 0 < pos 1 ^ 2 - 3 * pos 1 + 2 * q ^ 2)
    (hθ : pos 2 = Real.pi / 2) (hdir : dir = 1 ∨ dir = -1) (h : rnVel q pos dir = some u) :
    IsRotating (fill (rnForm q pos)) u ∧ IsFree (fun p => fill (rnForm q p)) pos u ∧ 0 ≤ dir * u 3 := by
  have hw : 0 < √(pos 1) := Real.sqrt_pos.2 hr
  have hwr : pos 1 = √(pos 1) ^ 2 := (Real.sq_sqrt hr.le).symm
  have hd2 : dir * dir = 1 := by rcases hdir with rfl | rfl <;> norm_num
  have hd0 : dir ≠ 0 := by rintro rfl; norm_num at hd2
  have hsin : Real.sin (pos 2) = 1 := by rw [hθ, Real.sin_pi_div_two]
  unfold rnVel at h
  simp only [hsin, mul_one] at h
  by_cases hq : q * q > pos 1
  · rw [if_pos hq] at h; cases h
  rw [if_neg hq, Option.some.injEq, pow_three_half hr.le] at h
  push Not at hq
  have hk : 0 ≤ 1 - q * q / pos 1 := by rw [sub_nonneg, div_le_one hr]; exact hq
  have hk2 := Real.sq_sqrt hk
  have hk0 := Real.sqrt_nonneg (1 - q * q / pos 1)
  obtain ⟨w, hwdef⟩ : ∃ w, w = 1 / (dir * √(pos 1) ^ 3) * √(1 - q * q / pos 1) := ⟨_, rfl⟩
  have hw2 : w ^ 2 = (pos 1 - q ^ 2) / pos 1 ^ 4 := by
    rw [hwdef, mul_pow, hk2]
    have e : (dir * √(pos 1) ^ 3) ^ 2 = pos 1 ^ 3 := by
      calc _ = (dir * dir) * (√(pos 1) ^ 2) ^ 3 := by ring
        _ = _ := by rw [hd2, ← hwr, one_mul]
    rw [div_pow, e]
    field_simp
  have hdw : 0 ≤ dir * w := by
    have e : dir * w = 1 / √(pos 1) ^ 3 * √(1 - q * q / pos 1) := by
      rw [hwdef]; field_simp
    rw [e]; positivity
  rw [← hwdef] at h
  have hf : 0 < pos 1 * pos 1 - 2 * pos 1 + q * q := by nlinarith
  have hn : sp (fill (rnForm q pos)) ![1, 0, 0, w] ![1, 0, 0, w] < 0 := by
    rw [sp_rot (by simp [rnForm]), hw2]
    have e : rnForm q pos 0 0 + rnForm q pos 3 3 * ((pos 1 - q ^ 2) / pos 1 ^ 4) =
        -(pos 1 ^ 2 - 3 * pos 1 + 2 * q ^ 2) / pos 1 ^ 2 := by
      simp [rnForm, hsin]
      field_simp
      ring
    rw [e]
    exact div_neg_of_neg_of_pos (by linarith) (by positivity)
  obtain ⟨k1, k2, -⟩ := finish_ok hn
  rw [h] at k1 k2
  refine ⟨k1, ?_, ?_⟩
  · have hc : ¬(pos 1 = 0 ∨ Real.sin (pos 2) = 0) := by rw [hsin]; intro h; rcases h with h | h <;> linarith
    refine ⟨_, rn_christoffel_ok hr hf.ne' (by unfold rnChristoffel; exact if_neg hc), ?_⟩
    intro α
    rw [static_rot k1.r k1.theta, k2, hsin, hθ, Real.cos_pi_div_two]
    match α with
    | 0 => rfl
    | 1 =>
      show -(q * q * (q * q) - 3 * (q * q) * pos 1 - pos 1 * (pos 1 * pos 1) + (2 + q * q) * (pos 1 * pos 1)) /
        (pos 1 * (pos 1 * pos 1) * (pos 1 * pos 1)) * (u 0 * u 0) +
        -(q * q - 2 * pos 1 + pos 1 * pos 1) / pos 1 * 1 * 1 * (w * u 0 * (w * u 0)) = 0
      rw [show w * u 0 * (w * u 0) = w ^ 2 * u 0 ^ 2 by ring, hw2]
      field_simp
      ring
    | 2 => show -0 * 1 * _ = (0 : ℝ); ring
    | 3 => rfl
  · rw [k2, ← mul_assoc]
    exact mul_nonneg hdw k1.future.le

theorem rn_throw {q dir : ℝ} {pos : Vec} : rnVel q pos dir = none ↔ pos 1 * Real.sin (pos 2) < q * q := by
  unfold rnVel
  dsimp only
  by_cases h : q * q > pos 1 * Real.sin (pos 2)
  · simp [h]
  · simp [h]

/-- C69, partial: `RezzollaZhidenko::circularVelocity` in the equatorial plane, for orbits with the direction of the rotation. -/
theorem rz_circular_partial {m : RZ} {va vb : List ℝ} {pos : Vec} {dir : ℝ} (ha : RZ.setParam va = some m.a)
    (hb : RZ.setParam vb = some m.b) (hε : 0 < 1 + m.epsilon) (hr : 2 / (1 + m.epsilon) ≤ pos 1) (hN : 0 < m.N2 (pos 1))
    (hN' : 0 ≤ m.Nprime (pos 1)) (hs : pos 1 * m.Nprime (pos 1) < √(m.N2 (pos 1))) (hθ : pos 2 = Real.pi / 2) :
    IsRotating (fill (m.form pos)) (rzVel m pos dir) ∧ IsFree (fun p => fill (m.form p)) pos (rzVel m pos dir) ∧
      0 ≤ rzVel m pos dir 3 := by
  have hr0 : 0 < pos 1 := lt_of_lt_of_le (by positivity) hr
  have hsin : Real.sin (pos 2) = 1 := by rw [hθ, Real.sin_pi_div_two]
  have hNN : 0 < √(m.N2 (pos 1)) := Real.sqrt_pos.2 hN
  have hN2 : √(m.N2 (pos 1)) ^ 2 = m.N2 (pos 1) := Real.sq_sqrt hN.le
  have hk : 0 ≤ m.Nprime (pos 1) * √(m.N2 (pos 1)) / pos 1 := by positivity
  have hw2 := Real.sq_sqrt hk
  have hp : (![pos 0, pos 1, Real.pi * 0.5, pos 3] : Vec) = pos := by
    funext i
    fin_cases i <;> simp [hθ]
    norm_num
    ring
  have ev : rzVel m pos dir = finishVel (fill (m.form pos)) √(m.Nprime (pos 1) * √(m.N2 (pos 1)) / pos 1) := by
    unfold rzVel
    simp only [hsin, mul_one, hp]
  have hw0 := Real.sqrt_nonneg (m.Nprime (pos 1) * √(m.N2 (pos 1)) / pos 1)
  rw [ev]
  generalize √(m.Nprime (pos 1) * √(m.N2 (pos 1)) / pos 1) = w at *
  have hn : sp (fill (m.form pos)) ![1, 0, 0, w] ![1, 0, 0, w] < 0 := by
    rw [sp_rot (by simp [RZ.form]), hw2]
    have e : m.form pos 0 0 + m.form pos 3 3 * (m.Nprime (pos 1) * √(m.N2 (pos 1)) / pos 1) =
        -√(m.N2 (pos 1)) * (√(m.N2 (pos 1)) - pos 1 * m.Nprime (pos 1)) := by
      simp [RZ.form, hsin]
      field_simp
      linear_combination hN2
    rw [e]
    nlinarith
  obtain ⟨k1, k2, -⟩ := finish_ok hn
  generalize finishVel (fill (m.form pos)) w = u at *
  refine ⟨k1, ?_, ?_⟩
  · have hc : ¬(pos 1 = 0 ∨ Real.sin (pos 2) = 0) := by rw [hsin]; intro h; rcases h with h | h <;> linarith
    refine ⟨_, RZ.christoffel_ok ha hb hε hr hN (by unfold RZ.christoffel; exact if_neg hc), ?_⟩
    intro α
    rw [static_rot k1.r k1.theta, k2, hsin, hθ, Real.cos_pi_div_two]
    match α with
    | 0 => rfl
    | 1 =>
      show √(m.N2 (pos 1)) * m.N2 (pos 1) / m.B2 (pos 1) * m.Nprime (pos 1) * (u 0 * u 0) +
        -pos 1 * 1 * 1 * m.N2 (pos 1) / m.B2 (pos 1) * (w * u 0 * (w * u 0)) = 0
      rw [show w * u 0 * (w * u 0) = w ^ 2 * u 0 ^ 2 by ring, hw2]
      field_simp
      ring
    | 2 => show -0 * 1 * _ = (0 : ℝ); ring
    | 3 => rfl
  · rw [k2]
    exact mul_nonneg hw0 k1.future.le

/-- Finding: the direction asked for is not taken into account. -/
theorem rz_dir_wrong (m : RZ) (pos : Vec) (d d' : ℝ) : rzVel m pos d = rzVel m pos d' := rfl

/-- The metric of a black hole without rotation, as a Rezzolla-Zhidenko metric. -/
def rzSchw : RZ := ⟨0, 6, 4, fun _ => 0, fun _ => 0⟩

theorem rzSchw_N2 {r : ℝ} : rzSchw.N2 r = 1 - 2 / r := by
  simp [RZ.N2, rzSchw]

theorem rzSchw_Nprime {r : ℝ} : rzSchw.Nprime r = 1 / (r * r * √(1 - 2 / r)) := by
  have h := rzSchw_N2 (r := r)
  unfold RZ.Nprime
  rw [h]
  simp [rzSchw]
  ring

/-- Finding: out of the equatorial plane the velocity is normalised at another point, so that it is not a unit vector. -/
theorem rz_off_plane_wrong : ¬∀ (m : RZ) (pos : Vec), 0 < m.N2 (pos 1) → 0 < m.N2 (pos 1 * Real.sin (pos 2)) →
    0 < rzVel m pos 1 0 → IsRotating (fill (m.form pos)) (rzVel m pos 1) := by
  intro h
  have hs : Real.sin (Real.pi / 6) = 1 / 2 := Real.sin_pi_div_six
  have h45 : (0 : ℝ) < 4 / 5 := by norm_num
  have hq : (0 : ℝ) < √(4 / 5) := Real.sqrt_pos.2 h45
  have hN : rzSchw.N2 10 = 4 / 5 := by rw [rzSchw_N2]; norm_num
  have hNp : rzSchw.Nprime 10 * √(4 / 5) / 10 = 1 / 1000 := by
    rw [rzSchw_Nprime, show (1 : ℝ) - 2 / 10 = 4 / 5 by norm_num]
    field_simp
    norm_num
  have ev : rzVel rzSchw ![0, 20, Real.pi / 6, 0] 1 =
      finishVel (fill (rzSchw.form ![0, 10, Real.pi * 0.5, 0])) √(1 / 1000) := by
    unfold rzVel
    simp only [Matrix.cons_val, hs]
    rw [show (20 : ℝ) * (1 / 2) = 10 by norm_num, hN, hNp]
  have hw2 : √(1 / 1000 : ℝ) ^ 2 = 1 / 1000 := Real.sq_sqrt (by norm_num)
  have hn : sp (fill (rzSchw.form ![0, 10, Real.pi * 0.5, 0])) ![1, 0, 0, √(1 / 1000)] ![1, 0, 0, √(1 / 1000)] = -(7 / 10) := by
    rw [sp_rot (by simp [RZ.form]), hw2]
    have hp : Real.sin (Real.pi * 0.5) = 1 := by
      rw [show Real.pi * 0.5 = Real.pi / 2 by norm_num; ring]; exact Real.sin_pi_div_two
    simp [RZ.form, hp, hN]
    norm_num
  obtain ⟨k1, k2, -⟩ := finish_ok (by rw [hn]; norm_num :
    sp (fill (rzSchw.form ![0, 10, Real.pi * 0.5, 0])) ![1, 0, 0, √(1 / 1000)] ![1, 0, 0, √(1 / 1000)] < 0)
  have hx := h rzSchw ![0, 20, Real.pi / 6, 0] (by rw [rzSchw_N2]; simp; norm_num)
    (by rw [rzSchw_N2]; simp only [Matrix.cons_val, hs]; norm_num) (by rw [ev]; exact k1.future)
  rw [ev] at hx
  have e1 := k1.unit
  have e2 := hx.unit
  have r1 := k1.r
  have r2 := k1.theta
  generalize finishVel (fill (rzSchw.form ![0, 10, Real.pi * 0.5, 0])) √(1 / 1000) = u at *
  have hsp : ∀ (f : Fin 4 → Fin 4 → ℝ), f 0 3 = 0 → sp (fill f) u u = f 0 0 * u 0 ^ 2 + f 3 3 * u 3 ^ 2 := by
    intro f hf
    rw [← scalarProd_eq]
    simp [scalarProd, fill, Fin.sum_univ_four, hf, r1, r2]
    ring
  rw [hsp _ (by simp [RZ.form]), k2, mul_pow, hw2] at e1 e2
  have hp : Real.sin (Real.pi * 0.5) = 1 := by
    rw [show Real.pi * 0.5 = Real.pi / 2 by norm_num; ring]; exact Real.sin_pi_div_two
  have hN20 : rzSchw.N2 20 = 9 / 10 := by rw [rzSchw_N2]; norm_num
  simp [RZ.form, hp, hN, hN20] at e1 e2
  nlinarith

end Gyoto.Orbits
