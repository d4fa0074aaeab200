import Verif.Lemmas.Synch
import Mathlib.Analysis.Complex.ExponentialBounds
import Mathlib.Tactic.LinearCombination

/-! # C110: the bremsstrahlung of a thermal plasma (`lib/ThermalBremsstrahlungSpectrum.C`) -/

namespace Gyoto.Synch

open Gyoto.Transfer (Out)
open Gyoto.Plasma Gyoto.Spec

/-- What the setters keep: the black body and the inverse of the temperature follow the temperature. -/
structure Brems.InStep (s : Brems) : Prop where
  bb : s.bb = ⟨s.T, 2 * planckOverC2, 1 / s.T, 1, 1⟩
  inv : s.Tm1 = 1 / s.T

/-- They do so in a new object and after each setter. -/
theorem brems_in_step : Brems.new.InStep ∧ (∀ s : Brems, s.InStep → ∀ T, (s.temperature T).InStep) ∧
    ∀ s : Brems, s.InStep → ∀ n, (s.numberdensityCGS n).InStep := by
  refine ⟨⟨by simp [Brems.new, Gyoto.SpectrumKinds.BlackBody.new], by simp [Brems.new]⟩, fun s h T => ⟨?_, rfl⟩, fun s h n => ⟨h.bb, h.inv⟩⟩
  simp [Brems.temperature, Gyoto.SpectrumKinds.BlackBody.call, h.bb]

theorem exp_euler : Real.exp eulerMascheroni < 2.7182818286 := by
  refine lt_of_le_of_lt (Real.exp_le_exp.2 ?_) Real.exp_one_lt_d9
  unfold eulerMascheroni; norm_num

theorem Brems.Fei_pos {s : Brems} (hT : 0 < s.T) (hn : s.n ≠ 0) : 0 < s.Fei := by
  have pi0 := Real.pi_pos
  have th : 0 < s.T * boltzmannCGS / (electronMassCGS * c2CGS) := by
    unfold boltzmannCGS electronMassCGS c2CGS; positivity
  have F : 0 < s.n * s.n * thomsonCGS * cCGS * alphaF * electronMassCGS * c2CGS := by
    have := mul_self_pos.2 hn
    unfold thomsonCGS cCGS alphaF electronMassCGS c2CGS; positivity
  unfold Brems.Fei
  simp only
  split_ifs with h
  · positivity
  · push Not at h
    have : 0 < Real.log (1.123 * (s.T * boltzmannCGS / (electronMassCGS * c2CGS)) + 0.42) := Real.log_pos (by linarith)
    positivity

theorem Brems.gaunt_pos {s : Brems} (hT : 0 < s.T) {nu : ℝ} (hn : 0 < nu) : 0 < s.gaunt nu := by
  have pi0 := Real.pi_pos
  have f : 0 < s.T * boltzmannCGS / (planckCGS * nu) := by unfold boltzmannCGS planckCGS; positivity
  unfold Brems.gaunt
  simp only
  split_ifs with h
  · exact Real.sqrt_pos.2 (by positivity)
  · push Not at h
    have e := exp_euler
    have p := Real.exp_pos eulerMascheroni
    have r : 1 < 4 / Real.exp eulerMascheroni := by rw [one_lt_div p]; linarith
    have : 0 < Real.log (4 / Real.exp eulerMascheroni * (s.T * boltzmannCGS / (planckCGS * nu))) := Real.log_pos (by nlinarith)
    positivity

/-- What is emitted is positive, and Kirchhoff's law gives what is absorbed. -/
theorem brems_kirchhoff {s : Brems} (h : s.InStep) (hT : 0 < s.T) (hn : s.n ≠ 0) {nu : ℝ} (hnu : 0 < nu) :
    ∃ j a, s.pass nu = .ok (j, a) ∧ 0 < j ∧ 0 < a ∧ a * planck (2 * planckOverC2) planckOverBoltzmann s.T nu = j := by
  obtain ⟨e, p⟩ := bb_eval h.bb hT hnu
  have F := Brems.Fei_pos hT hn
  have g := Brems.gaunt_pos hT hnu
  have jp : 0 < s.j nu * jnuToSI := by
    have := Real.pi_pos
    unfold Brems.j jnuToSI inuToSI
    rw [h.inv]
    unfold planckOverBoltzmann
    positivity
  refine ⟨_, s.j nu * jnuToSI / planck (2 * planckOverC2) planckOverBoltzmann s.T nu, ?_, jp, by positivity, ?_⟩
  · unfold Brems.pass
    rw [e]
    simp only
    rw [if_neg p.ne']
  · field_simp

/-- Example: a million kelvins, one particle per cubic centimetre, an X-ray. -/
example : ∃ j a, ((Brems.new.temperature 1e6).numberdensityCGS 1).pass 1e17 = .ok (j, a) ∧ 0 < j ∧ 0 < a ∧
    a * planck (2 * planckOverC2) planckOverBoltzmann 1e6 1e17 = j :=
  brems_kirchhoff (s := (Brems.new.temperature 1e6).numberdensityCGS 1) (brems_in_step.2.2 _ (brems_in_step.2.1 _ brems_in_step.1 _) _)
    (by norm_num [Brems.temperature, Brems.numberdensityCGS]) (by norm_num [Brems.temperature, Brems.numberdensityCGS]) (by norm_num)

/-- Two bodies must meet: the emission goes as the square of the density. -/
theorem brems_square (s : Brems) (c nu : ℝ) : (s.numberdensityCGS (c * s.n)).j nu = c ^ 2 * s.j nu := by
  unfold Brems.j Brems.Fei Brems.gaunt Brems.numberdensityCGS
  simp only
  by_cases h : s.T * boltzmannCGS / (electronMassCGS * c2CGS) < 1
  · simp only [if_pos h]; ring
  · simp only [if_neg h]; ring

/-- Example: a density three times larger. -/
example : ((Brems.new.numberdensityCGS 1).numberdensityCGS (3 * 1)).j 1e14 = 3 ^ 2 * (Brems.new.numberdensityCGS 1).j 1e14 :=
  brems_square (Brems.new.numberdensityCGS 1) 3 1e14

/-- At the frequency where the Gaunt factor changes its form the emission more than doubles at once. -/
theorem gaunt_wrong {s : Brems} (h : s.InStep) (hT : 0 < s.T) (hn : s.n ≠ 0) : ∃ nu1, 0 < nu1 ∧ ∀ nu, 0.99 * nu1 < nu → nu < nu1 →
    2 * s.j nu < s.j nu1 := by
  have kb : 0 < boltzmannCGS := by unfold boltzmannCGS; norm_num
  have pc : 0 < planckCGS := by unfold planckCGS; norm_num
  have n1 : 0 < s.T * boltzmannCGS / planckCGS := by positivity
  refine ⟨s.T * boltzmannCGS / planckCGS, n1, fun nu h1 h2 => ?_⟩
  set nu1 := s.T * boltzmannCGS / planckCGS with hnu1
  have hnu : 0 < nu := by nlinarith
  have F := Brems.Fei_pos hT hn
  have pi0 := Real.pi_pos
  have pi1 := Real.pi_gt_d2
  have pi2 := Real.pi_lt_d2
  have f1 : s.T * boltzmannCGS / (planckCGS * nu1) = 1 := by rw [hnu1]; field_simp
  have f2 : s.T * boltzmannCGS / (planckCGS * nu) = nu1 / nu := by rw [hnu1]; field_simp
  have r1 : 1 < nu1 / nu := by rw [one_lt_div hnu]; exact h2
  have r2 : nu1 / nu < 1 / 0.99 := by rw [div_lt_div_iff₀ hnu (by norm_num)]; linarith
  have g1 : (0.97 : ℝ) < s.gaunt nu1 := by
    unfold Brems.gaunt
    simp only [f1]
    rw [if_pos le_rfl, Real.lt_sqrt (by norm_num), mul_one, lt_div_iff₀ pi0]
    nlinarith
  have g2 : s.gaunt nu < 0.46 := by
    unfold Brems.gaunt
    simp only [f2]
    rw [if_neg (not_le.2 r1)]
    have lg : Real.log (4 / Real.exp eulerMascheroni * (nu1 / nu)) < 0.82 := by
      rw [Real.log_mul (by positivity) (by positivity), Real.log_div (by norm_num) (Real.exp_pos _).ne', Real.log_exp]
      have l4 : Real.log 4 = 2 * Real.log 2 := by
        rw [show (4 : ℝ) = 2 ^ 2 by norm_num, Real.log_pow]; norm_num
      have l2 := Real.log_two_lt_d9
      have l3 := Real.log_le_sub_one_of_pos (show 0 < nu1 / nu by positivity)
      rw [l4]
      unfold eulerMascheroni
      norm_num at r2 ⊢
      linarith
    have s3 : √3 < 1.74 := by rw [Real.sqrt_lt (by norm_num) (by norm_num)]; norm_num
    have q : √3 / Real.pi < 0.56 := by rw [div_lt_iff₀ pi0]; nlinarith
    have q0 : 0 ≤ √3 / Real.pi := by positivity
    nlinarith
  have ex : Real.exp (-planckOverBoltzmann * nu * s.Tm1) < 1.05 * Real.exp (-planckOverBoltzmann * nu1 * s.Tm1) := by
    have : -planckOverBoltzmann * nu * s.Tm1 = planckOverBoltzmann * (nu1 - nu) * s.Tm1 + -planckOverBoltzmann * nu1 * s.Tm1 := by ring
    rw [this, Real.exp_add]
    refine mul_lt_mul_of_pos_right ?_ (Real.exp_pos _)
    have small : planckOverBoltzmann * (nu1 - nu) * s.Tm1 < 0.02 := by
      rw [h.inv]
      have : planckOverBoltzmann * (nu1 - nu) * (1 / s.T) < planckOverBoltzmann * (0.01 * nu1) * (1 / s.T) := by
        have a : 0 < planckOverBoltzmann := by unfold planckOverBoltzmann; norm_num
        have b : 0 < 1 / s.T := by positivity
        have c : nu1 - nu < 0.01 * nu1 := by linarith
        exact mul_lt_mul_of_pos_right (mul_lt_mul_of_pos_left c a) b
      have e : planckOverBoltzmann * (0.01 * nu1) * (1 / s.T) = 0.01 * (planckOverBoltzmann * boltzmannCGS / planckCGS) := by
        rw [hnu1]; field_simp
      rw [e] at this
      refine lt_trans this ?_
      unfold planckOverBoltzmann boltzmannCGS planckCGS
      norm_num
    have h3 := Real.exp_lt_exp.2 small
    have h4 : Real.exp 0.02 ≤ 1 / (1 - 0.02) := by
      have := Real.add_one_le_exp (-(0.02 : ℝ))
      rw [Real.exp_neg] at this
      have p := Real.exp_pos (0.02 : ℝ)
      rw [le_div_iff₀ (by norm_num)]
      have h5 : (-0.02 + 1) * Real.exp 0.02 ≤ 1 := by
        have := mul_le_mul_of_nonneg_right this p.le
        rwa [inv_mul_cancel₀ p.ne'] at this
      linarith
    norm_num at h4 ⊢
    linarith
  have C : 0 < 1 / (4 * Real.pi) * planckOverBoltzmann * s.Tm1 := by
    rw [h.inv]; unfold planckOverBoltzmann; positivity
  have ep := Real.exp_pos (-planckOverBoltzmann * nu * s.Tm1)
  have ep1 := Real.exp_pos (-planckOverBoltzmann * nu1 * s.Tm1)
  have gp := Brems.gaunt_pos hT hnu
  unfold Brems.j
  have key : 2 * (Real.exp (-planckOverBoltzmann * nu * s.Tm1) * s.gaunt nu) < Real.exp (-planckOverBoltzmann * nu1 * s.Tm1) * s.gaunt nu1 := by
    have a := mul_lt_mul'' ex g2 ep.le gp.le
    have b := mul_lt_mul_of_pos_left g1 ep1
    nlinarith
  have := mul_lt_mul_of_pos_left key (mul_pos C F)
  linarith

/-- Example: the hypotheses are met. -/
example : (Brems.new.numberdensityCGS 1).InStep ∧ 0 < (Brems.new.numberdensityCGS 1).T ∧ (Brems.new.numberdensityCGS 1).n ≠ 0 :=
  ⟨brems_in_step.2.2 _ brems_in_step.1 _, by norm_num [Brems.new, Brems.numberdensityCGS], by norm_num [Brems.numberdensityCGS]⟩

/-- And where the plasma becomes relativistic the energy that it radiates drops: a hotter plasma radiates less. -/
theorem relativistic_wrong (n : ℝ) (hn : n ≠ 0) : ∃ T1, 0 < T1 ∧ ∀ T, 0.999 * T1 < T → T < T1 →
    ((Brems.new.temperature T1).numberdensityCGS n).Fei < ((Brems.new.temperature T).numberdensityCGS n).Fei := by
  have c0 : 0 < electronMassCGS * c2CGS / boltzmannCGS := by unfold electronMassCGS c2CGS boltzmannCGS; norm_num
  refine ⟨electronMassCGS * c2CGS / boltzmannCGS, c0, fun T h1 h2 => ?_⟩
  have t1 : electronMassCGS * c2CGS / boltzmannCGS * boltzmannCGS / (electronMassCGS * c2CGS) = 1 := by
    unfold electronMassCGS c2CGS boltzmannCGS; norm_num
  obtain ⟨th, hth⟩ : ∃ th, th = T * boltzmannCGS / (electronMassCGS * c2CGS) := ⟨_, rfl⟩
  have kb : 0 < boltzmannCGS := by unfold boltzmannCGS; norm_num
  have mc : 0 < electronMassCGS * c2CGS := by unfold electronMassCGS c2CGS; norm_num
  have tl : th < 1 := by
    rw [hth, div_lt_one mc]
    rwa [lt_div_iff₀ kb] at h2
  have tg : 0.999 < th := by
    rw [hth, lt_div_iff₀ mc]
    rw [← mul_div_assoc, div_lt_iff₀ kb] at h1
    exact h1
  have F : 0 < n * n * thomsonCGS * cCGS * alphaF * electronMassCGS * c2CGS := by
    have := mul_self_pos.2 hn
    unfold thomsonCGS cCGS alphaF electronMassCGS c2CGS; positivity
  unfold Brems.Fei
  simp only [Brems.temperature, Brems.numberdensityCGS, t1, ← hth]
  rw [if_neg (lt_irrefl _), if_pos tl]
  refine mul_lt_mul_of_pos_left ?_ F
  have pi0 := Real.pi_pos
  have pi1 := Real.pi_gt_d4
  have pi2 := Real.pi_lt_d4
  have hi : 9 * 1 / (2 * Real.pi) * (Real.log (1.123 * 1 + 0.42) + 1.5) < 2.8150 := by
    have lg : Real.log (1.123 * 1 + 0.42) < 0.46465 := by
      have e : (1.123 * 1 + 0.42 : ℝ) = 2 * 0.7715 := by norm_num
      rw [e, Real.log_mul (by norm_num) (by norm_num)]
      have := Real.log_two_lt_d9
      have := Real.log_le_sub_one_of_pos (show (0 : ℝ) < 0.7715 by norm_num)
      linarith
    have q : 9 * 1 / (2 * Real.pi) < 1.4326 := by rw [div_lt_iff₀ (by positivity)]; linarith
    have q0 : 0 < 9 * 1 / (2 * Real.pi) := by positivity
    have l0 : 0 < Real.log (1.123 * 1 + 0.42) := Real.log_pos (by norm_num)
    have := mul_lt_mul'' q (add_lt_add_left lg 1.5) q0.le (by linarith)
    norm_num at this ⊢
    linarith
  have lo : 2.8150 < 4 * √(2 * th / (Real.pi * Real.pi * Real.pi)) * (1 + 1.781 * th ^ (1.34 : ℝ)) := by
    have pw : 0.998 < th ^ (1.34 : ℝ) := by
      have a : th ^ (2 : ℝ) ≤ th ^ (1.34 : ℝ) := Real.rpow_le_rpow_of_exponent_ge (by linarith) tl.le (by norm_num)
      rw [Real.rpow_two] at a
      nlinarith
    have sq : 0.2538 < √(2 * th / (Real.pi * Real.pi * Real.pi)) := by
      rw [Real.lt_sqrt (by norm_num), lt_div_iff₀ (by positivity)]
      have b : Real.pi * Real.pi < 3.1416 * 3.1416 := mul_lt_mul'' pi2 pi2 pi0.le pi0.le
      have c : Real.pi * Real.pi * Real.pi < 3.1416 * 3.1416 * 3.1416 := mul_lt_mul'' b pi2 (by positivity) pi0.le
      norm_num at c ⊢
      linarith
    have := mul_lt_mul'' (mul_lt_mul_of_pos_left sq (show (0 : ℝ) < 4 by norm_num))
      (show 1 + 1.781 * 0.998 < 1 + 1.781 * th ^ (1.34 : ℝ) by linarith) (by norm_num) (by norm_num)
    norm_num at this ⊢
    linarith
  linarith

/-- Example: one particle per cubic centimetre. -/
example : ∃ T1, 0 < T1 ∧ ∀ T, 0.999 * T1 < T → T < T1 →
    ((Brems.new.temperature T1).numberdensityCGS 1).Fei < ((Brems.new.temperature T).numberdensityCGS 1).Fei := relativistic_wrong 1 one_ne_zero

end Gyoto.Synch
