import Verif.Lemmas.Synch
import Mathlib.Analysis.SpecialFunctions.Pow.Continuity
import Mathlib.Analysis.SpecialFunctions.Exp

/-! # C108: what a thermal plasma emits and absorbs (`lib/ThermalSynchrotronSpectrum.C`) -/

namespace Gyoto.Synch

open Gyoto.Transfer (Out)
open Gyoto.Plasma Gyoto.Spec Filter Topology

/-- Whatever the order of the setters, the black body that gives the absorption has the temperature of the object. -/
theorem black_body_in_step (l : List ThermalCall) : (Thermal.new.run l).InStep := by
  have key : ∀ l s, Thermal.InStep s → Thermal.InStep (Thermal.run s l) := by
    intro l
    induction l with
    | nil => exact fun s h => h
    | cons c cs ih =>
      intro s h
      refine ih _ ?_
      unfold Thermal.InStep at *
      cases c <;> simp [Thermal.call, h, Gyoto.SpectrumKinds.BlackBody.call]
  refine key l _ ?_
  simp [Thermal.InStep, Thermal.new, Gyoto.SpectrumKinds.BlackBody.new]

/-- Example: the setters in some order, and a temperature given twice. -/
example : (Thermal.new.run [.temperature 5, .numberdensityCGS 3, .temperature 7]).InStep ∧
    (Thermal.new.run [.temperature 5, .numberdensityCGS 3, .temperature 7]).bb.T = 7 :=
  ⟨black_body_in_step _, by simp [Thermal.run, Thermal.call, Thermal.new, Gyoto.SpectrumKinds.BlackBody.call]⟩

/-- Seen across the field the plasma emits a positive intensity, some of it linearly polarised, and never all of it. -/
theorem emission_positive {s : Thermal} {nu : ℝ} (h : s.Lit nu) (hn : 0 < s.n) :
    ∃ i q, s.j nu = .ok i ∧ s.jQ nu = .ok q ∧ 0 < q ∧ q < i := by
  refine ⟨_, _, h.j, h.jQ, ?_, ?_⟩
  all_goals
    have hy := h.ypos
    obtain ⟨w0, w1⟩ := Thermal.w_mem h.theta
    have hl : 0 < s.lin := by
      unfold Thermal.lin Thermal.front chargeCGS cCGS
      have := h.sin; have := h.nu0; have := Real.pi_pos
      positivity
    have h2 : 0 < (2 : ℝ) ^ (11 / 12 : ℝ) := by positivity
  · unfold Thermal.jQVal; positivity
  · unfold Thermal.jQVal Thermal.jVal
    refine mul_lt_mul_of_pos_left (mul_lt_mul_of_pos_left (mul_lt_mul_of_pos_left ?_ hy) (Real.exp_pos _)) hl
    exact pow_lt_pow_left₀ (by nlinarith) (by positivity) (by norm_num)

/-- The calls that prepare the examples below. -/
noncomputable def someCalls : List ThermalCall := [.temperature 1e10, .numberdensityCGS 1e5, .cyclotronFreq 1e8, .angle 1]

theorem some_lit {nu : ℝ} (h : 0 < nu) : (Thermal.new.run someCalls).Lit nu := by
  refine ⟨?_, ?_, ?_, ?_, h⟩
  · norm_num [Thermal.run, someCalls, Thermal.call, Thermal.theta, boltzmannCGS, electronMassCGS, c2CGS]
  · norm_num [Thermal.run, someCalls, Thermal.call]
  · norm_num [Thermal.run, someCalls, Thermal.call]
  · have := Real.pi_gt_three
    simp [Thermal.run, someCalls, Thermal.call]; linarith

theorem some_ready : (Thermal.new.run someCalls).Ready := by
  refine ⟨black_body_in_step _, ?_, ?_, fun _ => ⟨(some_lit one_pos).low, (some_lit one_pos).high⟩⟩
  · norm_num [Thermal.run, someCalls, Thermal.call, Thermal.theta, boltzmannCGS, electronMassCGS, c2CGS]
  · norm_num [Thermal.run, someCalls, Thermal.call]

/-- Example: ten billion kelvins, 230 GHz. -/
example : ∃ i q, (Thermal.new.run someCalls).j 2.3e11 = .ok i ∧ (Thermal.new.run someCalls).jQ 2.3e11 = .ok q ∧ 0 < q ∧ q < i :=
  emission_positive (some_lit (by norm_num)) (by norm_num [Thermal.run, someCalls, Thermal.call])

/-- What the polarised `radiativeQ` gives, the object it leaves, and that each frequency has its own result. -/
theorem polarised_results {b : Bessel} {s : Thermal} (h : s.Ready) (hb : b.k2 (1 / s.theta) ≠ 0) {nus : List ℝ} (hn : ∀ nu ∈ nus, 0 < nu) :
    ∃ s', (s' = s ∨ (s.averaged = true ∧ s' = s.at (Real.pi - 0.01))) ∧ s.radiativeQP b nus = .ok (s', nus.map (s.outs b)) := by
  unfold Thermal.radiativeQP
  rw [if_neg (not_lt.2 h.hot)]
  refine each_eq (A := fun nu => 0 < nu) (P := fun s' => s' = s ∨ (s.averaged = true ∧ s' = s.at (Real.pi - 0.01))) ?_ s (.inl rfl) nus hn
  rintro t (rfl | ⟨ha, rfl⟩) nu hnu
  · refine ⟨_, ?_, h.passP hb hnu⟩
    by_cases ha : t.averaged = false
    · simp [ha]
    · exact .inr ⟨by simpa using ha, by simp [ha]⟩
  · have h' : (s.at (Real.pi - 0.01)).Ready := ⟨h.step, h.hot, h.nu0, fun e => by simp [Thermal.at, ha] at e⟩
    refine ⟨s.at (Real.pi - 0.01), .inr ⟨ha, rfl⟩, ?_⟩
    rw [h'.passP (by exact hb) hnu]
    simp [Thermal.at, ha, Thermal.outs]

/-- The same without the polarisation: the intensities are those of the polarised function. -/
theorem same_intensity (b : Bessel) {s : Thermal} (h : s.Ready) (hb : b.k2 (1 / s.theta) ≠ 0) {nus : List ℝ} (hn : ∀ nu ∈ nus, 0 < nu) :
    ∃ s' outs, s.radiativeQP b nus = .ok (s', outs) ∧ ∃ s'', s.radiativeQ nus = .ok (s'', outs.map fun v => (v 0, v 4)) := by
  obtain ⟨s', _, e⟩ := polarised_results h hb hn
  refine ⟨s', _, e, ?_⟩
  unfold Thermal.radiativeQ
  rw [if_neg (not_lt.2 h.hot)]
  obtain ⟨s'', _, e2⟩ := each_eq (f := Thermal.pass) (g := fun nu => (s.outs b nu 0, s.outs b nu 4)) (A := fun nu => 0 < nu)
    (P := fun s' => s' = s ∨ (s.averaged = true ∧ s' = s.at (Real.pi - 0.01))) (by
      rintro t (rfl | ⟨ha, rfl⟩) nu hnu
      · refine ⟨_, ?_, h.pass b hnu⟩
        by_cases ha : t.averaged = false
        · simp [ha]
        · exact .inr ⟨by simpa using ha, by simp [ha]⟩
      · have h' : (s.at (Real.pi - 0.01)).Ready := ⟨h.step, h.hot, h.nu0, fun e => by simp [Thermal.at, ha] at e⟩
        refine ⟨s.at (Real.pi - 0.01), .inr ⟨ha, rfl⟩, ?_⟩
        rw [h'.pass b hnu]
        simp [Thermal.at, ha, Thermal.outs]) s (.inl rfl) nus hn
  refine ⟨s'', ?_⟩
  rw [e2, List.map_map]
  rfl

/-- Kirchhoff's law, for each Stokes parameter, averaged or not: the plasma absorbs what it would emit as a black body. -/
theorem kirchhoff {b : Bessel} {s : Thermal} (h : s.Ready) (hb : b.k2 (1 / s.theta) ≠ 0) {nus : List ℝ} (hn : ∀ nu ∈ nus, 0 < nu) :
    ∃ s' g, s.radiativeQP b nus = .ok (s', nus.map g) ∧ ∀ nu ∈ nus, ∀ i : Fin 11, ∀ hi : i.1 < 4,
      g nu ⟨i.1 + 4, by omega⟩ * planck (2 * planckOverC2) planckOverBoltzmann s.T nu = g nu i := by
  obtain ⟨s', _, e⟩ := polarised_results h hb hn
  refine ⟨s', _, e, fun nu hnu i hi => ?_⟩
  obtain ⟨_, p⟩ := bb_eval h.step (temp_pos h.theta_pos) (hn nu hnu)
  have v : ∀ t : Thermal, t.T = s.T → t.vals b nu ⟨i.1 + 4, by omega⟩ =
      inuToSI / planck (2 * planckOverC2) planckOverBoltzmann s.T nu * t.vals b nu i := by
    intro t ht
    unfold inuToSI
    obtain ⟨k, hk⟩ := i
    simp only at hi
    interval_cases k
    · change t.jVal nu / (planck (2 * planckOverC2) planckOverBoltzmann t.T nu / inuToSI) = _ * t.jVal nu
      rw [ht]; unfold inuToSI; field_simp
    · change t.jQVal nu / (planck (2 * planckOverC2) planckOverBoltzmann t.T nu / inuToSI) = _ * t.jQVal nu
      rw [ht]; unfold inuToSI; field_simp
    · change (0 : ℝ) = _ * 0
      ring
    · change t.jVVal nu / (planck (2 * planckOverC2) planckOverBoltzmann t.T nu / inuToSI) = _ * t.jVVal nu
      rw [ht]; unfold inuToSI; field_simp
  have fin : ∀ x : ℝ, inuToSI / planck (2 * planckOverC2) planckOverBoltzmann s.T nu * x * anuToSI *
      planck (2 * planckOverC2) planckOverBoltzmann s.T nu = x * jnuToSI := by
    intro x
    unfold inuToSI anuToSI jnuToSI inuToSI
    field_simp
  unfold Thermal.outs
  by_cases ha : s.averaged = false
  · simp only [if_pos ha]
    rw [toSI_j _ hi, toSI_a _ (by simp), v s rfl, fin]
  · simp only [if_neg ha]
    rw [toSI_j _ hi, toSI_a _ (by simp)]
    have : mean 100 (fun θ => (s.at θ).vals b nu ⟨i.1 + 4, by omega⟩) =
        inuToSI / planck (2 * planckOverC2) planckOverBoltzmann s.T nu * mean 100 (fun θ => (s.at θ).vals b nu i) := by
      rw [← mean_mul]
      exact mean_congr (by norm_num) fun θ _ _ => v (s.at θ) rfl
    rw [this, fin]

/-- Example of the three theorems above: two frequencies, and Bessel functions that are not zero. -/
example : ∃ s' g, (Thermal.new.run someCalls).radiativeQP ⟨fun _ => 1, fun _ => 1, fun _ => 1⟩ [1e11, 2e11] = .ok (s', ([1e11, 2e11] : List ℝ).map g) ∧
    g 2e11 5 * planck (2 * planckOverC2) planckOverBoltzmann 1e10 2e11 = g 2e11 1 := by
  obtain ⟨s', g, e, k⟩ := kirchhoff (b := ⟨fun _ => 1, fun _ => 1, fun _ => 1⟩) some_ready one_ne_zero (nus := [1e11, 2e11])
    (by intro nu h; simp at h; rcases h with rfl | rfl <;> norm_num)
  refine ⟨s', g, e, ?_⟩
  have := k 2e11 (by simp) 1 (by decide)
  simpa [Thermal.run, someCalls, Thermal.call] using this

/-- The averaged results are the means, over the directions, of what the object gives at each of them. -/
theorem averaged_is_mean {b : Bessel} {s : Thermal} (h : s.Ready) (ha : s.averaged = true) (hb : b.k2 (1 / s.theta) ≠ 0) {nu : ℝ} (hn : 0 < nu) :
    ∃ s' v, s.radiativeQP b [nu] = .ok (s', [v]) ∧ ∃ g : ℝ → Fin 11 → ℝ,
      (∀ θ, 0 < θ → θ < Real.pi → ∃ t, ({ s with angle := θ, averaged := false } : Thermal).radiativeQP b [nu] = .ok (t, [g θ])) ∧
      ∀ i, v i = mean 100 fun θ => g θ i := by
  obtain ⟨s', _, e⟩ := polarised_results h hb (nus := [nu]) (by simpa using hn)
  refine ⟨s', _, e, fun θ => ({ s with angle := θ, averaged := false } : Thermal).outs b nu, ?_, ?_⟩
  · intro θ h1 h2
    obtain ⟨t, _, e⟩ := polarised_results (b := b) (s := { s with angle := θ, averaged := false }) ⟨h.step, h.hot, h.nu0, fun _ => ⟨h1, h2⟩⟩ hb
      (nus := [nu]) (by simpa using hn)
    exact ⟨t, e⟩
  · intro i
    have : ∀ θ, ({ s with angle := θ, averaged := false } : Thermal).outs b nu i = toSI ((s.at θ).vals b nu) i := fun θ => by
      simp only [Thermal.outs, if_true]; rfl
    simp only [this]
    unfold Thermal.outs
    simp only [ha, Bool.true_eq_false, if_false]
    by_cases hi : i.1 < 4
    · simp only [toSI_j _ hi]
      rw [mul_comm, ← mean_mul]
      exact mean_congr (by norm_num) fun θ _ _ => by ring
    · simp only [toSI_a _ hi]
      rw [mul_comm, ← mean_mul]
      exact mean_congr (by norm_num) fun θ _ _ => by ring

/-- In the mean the circular polarisation and the rotation of the plane cancel out, and the result does not depend on the angle that was set. -/
theorem averaged_no_circular {b : Bessel} {s : Thermal} (h : s.Ready) (ha : s.averaged = true) (hb : b.k2 (1 / s.theta) ≠ 0) {nu : ℝ} (hn : 0 < nu) :
    ∃ v : Fin 11 → ℝ, v 3 = 0 ∧ v 7 = 0 ∧ v 10 = 0 ∧ ∀ θ, ∃ s', (s.call (.angle θ)).radiativeQP b [nu] = .ok (s', [v]) := by
  refine ⟨s.outs b nu, ?_, ?_, ?_, ?_⟩
  · unfold Thermal.outs
    simp only [ha, Bool.true_eq_false, if_false]
    rw [toSI_j _ (by decide)]
    have : mean 100 (fun θ => (s.at θ).vals b nu 3) = 0 := by
      refine mean_odd (by norm_num) fun θ => ?_
      change (s.at (Real.pi - θ)).jVVal nu = -(s.at θ).jVVal nu
      unfold Thermal.jVVal Thermal.y Thermal.at
      simp only [Real.sin_pi_sub, Real.cos_pi_sub, Thermal.theta, Thermal.front]
      ring
    simp only [this, zero_mul]
  · unfold Thermal.outs
    simp only [ha, Bool.true_eq_false, if_false]
    rw [toSI_a _ (by decide)]
    have : mean 100 (fun θ => (s.at θ).vals b nu 7) = 0 := by
      refine mean_odd (by norm_num) fun θ => ?_
      change (s.at (Real.pi - θ)).jVVal nu / _ = -((s.at θ).jVVal nu / _)
      unfold Thermal.jVVal Thermal.y Thermal.at
      simp only [Real.sin_pi_sub, Real.cos_pi_sub, Thermal.theta, Thermal.front]
      ring
    simp only [this, zero_mul]
  · unfold Thermal.outs
    simp only [ha, Bool.true_eq_false, if_false]
    rw [toSI_a _ (by decide)]
    have : mean 100 (fun θ => (s.at θ).vals b nu 10) = 0 := by
      refine mean_odd (by norm_num) fun θ => ?_
      change (s.at (Real.pi - θ)).rVVal b nu = -((s.at θ).rVVal b nu)
      unfold Thermal.rVVal Thermal.at
      simp only [Real.sin_pi_sub, Real.cos_pi_sub, Thermal.theta]
      ring
    simp only [this, zero_mul]
  · intro θ
    obtain ⟨s', _, e⟩ := polarised_results (b := b) (s := s.call (.angle θ)) ⟨h.step, h.hot, h.nu0, fun e => by simp [Thermal.call, ha] at e⟩ hb
      (nus := [nu]) (by simpa using hn)
    refine ⟨s', ?_⟩
    rw [e]
    simp [Thermal.outs, Thermal.call, ha, Thermal.at]

theorem averaged_ready : ((Thermal.new.run someCalls).call (.averaged true)).Ready :=
  ⟨some_ready.step, some_ready.hot, some_ready.nu0, fun e => by simp [Thermal.call] at e⟩

/-- Example of the two theorems above. -/
example : ∃ v : Fin 11 → ℝ, v 3 = 0 ∧ v 7 = 0 ∧ v 10 = 0 ∧ ∀ θ, ∃ s', (((Thermal.new.run someCalls).call (.averaged true)).call (.angle θ)).radiativeQP
    ⟨fun _ => 1, fun _ => 1, fun _ => 1⟩ [2.3e11] = .ok (s', [v]) :=
  averaged_no_circular averaged_ready rfl one_ne_zero (by norm_num)

/-- A plasma that is too cold neither emits nor absorbs, whatever its density, field and angle. -/
theorem cold_is_dark {s : Thermal} (h : s.theta < 0.01) (b : Bessel) (nus : List ℝ) :
    s.radiativeQ nus = .ok (s, nus.map fun _ => (0, 0)) ∧ s.radiativeQP b nus = .ok (s, nus.map fun _ _ => 0) := by
  unfold Thermal.radiativeQ Thermal.radiativeQP
  rw [if_pos h, if_pos h]
  exact ⟨rfl, rfl⟩

/-- Example: a new object, at ten thousand kelvins. -/
example : Thermal.new.theta < 0.01 := by
  norm_num [Thermal.new, Thermal.theta, boltzmannCGS, electronMassCGS, c2CGS]

/-- At low frequencies the emission goes as the cube root of the frequency, as for a single electron. -/
theorem low_frequency {s : Thermal} (h : s.Lit 1) (hn : 0 < s.n) : ∃ c, 0 < c ∧ ∃ f : ℝ → ℝ, (∀ nu, 0 < nu → s.j nu = .ok (f nu)) ∧
    Tendsto (fun nu => f nu / nu ^ (1 / 3 : ℝ)) (𝓝[>] 0) (𝓝 c) := by
  have hl : ∀ nu, 0 < nu → s.Lit nu := fun nu hnu => ⟨h.theta, h.nu0, h.low, h.high, hnu⟩
  set d := 2 / 9 * s.nu0 * s.theta * s.theta * Real.sin s.angle with hd
  have dpos : 0 < d := h.nus
  have hL : 0 < s.lin := by
    unfold Thermal.lin Thermal.front chargeCGS cCGS
    have := h.sin; have := h.nu0; have := Real.pi_pos
    positivity
  refine ⟨s.lin * (1 * ((0 + (2 : ℝ) ^ (11 / 12 : ℝ)) ^ 2 / d ^ (1 / 3 : ℝ))), by positivity, s.jVal, fun nu hnu => (hl nu hnu).j, ?_⟩
  have ty : Tendsto s.y (𝓝[>] 0) (𝓝 0) := by
    have c : ContinuousAt (fun nu : ℝ => (nu / d) ^ (1 / 3 : ℝ)) 0 := by
      apply ContinuousAt.rpow_const
      · exact continuousAt_id.div_const d
      · right; norm_num
    have := c.tendsto
    simp only [zero_div] at this
    rw [Real.zero_rpow (by norm_num)] at this
    exact this.mono_left nhdsWithin_le_nhds
  have te : Tendsto (fun nu => Real.exp (-s.y nu)) (𝓝[>] 0) (𝓝 1) := by
    have := (Real.continuous_exp.tendsto (-0)).comp ty.neg
    simpa [Function.comp_def] using this
  have main : Tendsto (fun nu => s.lin * (Real.exp (-s.y nu) * ((s.y nu + (2 : ℝ) ^ (11 / 12 : ℝ)) ^ 2 / d ^ (1 / 3 : ℝ)))) (𝓝[>] 0)
      (𝓝 (s.lin * (1 * ((0 + (2 : ℝ) ^ (11 / 12 : ℝ)) ^ 2 / d ^ (1 / 3 : ℝ))))) :=
    (te.mul (((ty.add_const _).pow 2).div_const _)).const_mul _
  refine main.congr' ?_
  filter_upwards [self_mem_nhdsWithin] with nu hnu
  have hnu : 0 < nu := hnu
  have e : s.y nu = nu ^ (1 / 3 : ℝ) / d ^ (1 / 3 : ℝ) := by
    unfold Thermal.y; rw [← hd, Real.div_rpow hnu.le dpos.le]
  have p1 : 0 < nu ^ (1 / 3 : ℝ) := Real.rpow_pos_of_pos hnu _
  have p2 : 0 < d ^ (1 / 3 : ℝ) := Real.rpow_pos_of_pos dpos _
  have key : s.y nu / nu ^ (1 / 3 : ℝ) = 1 / d ^ (1 / 3 : ℝ) := by rw [e]; field_simp
  have : s.jVal nu / nu ^ (1 / 3 : ℝ) = s.lin * (Real.exp (-s.y nu) * ((s.y nu / nu ^ (1 / 3 : ℝ)) * (s.y nu + (2 : ℝ) ^ (11 / 12 : ℝ)) ^ 2)) := by
    unfold Thermal.jVal; ring
  rw [this, key]
  ring

/-- Example: the plasma above. -/
example : ∃ c, 0 < c ∧ ∃ f : ℝ → ℝ, (∀ nu, 0 < nu → (Thermal.new.run someCalls).j nu = .ok (f nu)) ∧
    Tendsto (fun nu => f nu / nu ^ (1 / 3 : ℝ)) (𝓝[>] 0) (𝓝 c) :=
  low_frequency (some_lit one_pos) (by norm_num [Thermal.run, someCalls, Thermal.call])

/-- What is emitted is not always light: below some frequency there is more circular polarisation than intensity, except exactly across the
field. -/
theorem circular_wrong {s : Thermal} (h : s.Lit 1) (hn : 0 < s.n) (hc : Real.cos s.angle ≠ 0) : ∃ nu1, 0 < nu1 ∧ ∀ nu, 0 < nu → nu < nu1 →
    ∃ i q v, s.j nu = .ok i ∧ s.jQ nu = .ok q ∧ s.jV nu = .ok v ∧ i < |v| ∧ ¬IsBeam i q 0 v := by
  have hl : ∀ nu, 0 < nu → s.Lit nu := fun nu hnu => ⟨h.theta, h.nu0, h.low, h.high, hnu⟩
  set d := 2 / 9 * s.nu0 * s.theta * s.theta * Real.sin s.angle with hd
  have dpos : 0 < d := h.nus
  have cpos : 0 < |Real.cos s.angle| := abs_pos.2 hc
  set m := min 1 (|Real.cos s.angle| / (2 * s.theta)) with hm
  have mpos : 0 < m := lt_min one_pos (div_pos cpos (by linarith [h.theta]))
  refine ⟨m ^ 3 * d, by positivity, fun nu hnu hlt => ⟨_, _, _, (hl nu hnu).j, (hl nu hnu).jQ, (hl nu hnu).jV, ?_⟩⟩
  have hy := (hl nu hnu).ypos
  have ym : s.y nu < m := by
    have : nu / d < m ^ 3 := by rw [div_lt_iff₀ dpos]; exact hlt
    have h3 : (nu / d) ^ (1 / 3 : ℝ) < (m ^ 3) ^ (1 / 3 : ℝ) := Real.rpow_lt_rpow (div_pos hnu dpos).le this (by norm_num)
    have e : (m ^ 3) ^ (1 / 3 : ℝ) = m := by
      rw [← Real.rpow_natCast, ← Real.rpow_mul mpos.le]; norm_num
    rw [e] at h3
    exact h3
  have y1 : s.y nu < 1 := lt_of_lt_of_le ym (min_le_left _ _)
  have y2 : s.y nu < |Real.cos s.angle| / (2 * s.theta) := lt_of_lt_of_le ym (min_le_right _ _)
  have fpos : 0 < s.front := by
    unfold Thermal.front chargeCGS cCGS
    have := h.nu0
    positivity
  have two : (2 : ℝ) ^ (11 / 12 : ℝ) ≤ 2 := by
    conv_rhs => rw [← Real.rpow_one 2]
    exact Real.rpow_le_rpow_of_exponent_le (by norm_num) (by norm_num)
  have tpos : 0 < (2 : ℝ) ^ (11 / 12 : ℝ) := by positivity
  have root : √2 ≤ 1.5 := by rw [Real.sqrt_le_left (by norm_num)]; norm_num
  have spos := h.sin
  have sle := Real.sin_le_one s.angle
  have main : s.jVal nu < |s.jVVal nu| := by
    unfold Thermal.jVal Thermal.jVVal Thermal.lin
    simp only
    rw [← hd]
    have xpos : 0 < nu / d := div_pos hnu dpos
    have p1 : 0 < (nu / d) ^ (2 / 3 : ℝ) := Real.rpow_pos_of_pos xpos _
    have pi3 := Real.pi_pos
    set P := Real.pi / 3 + Real.pi / 3 * s.y nu + 2 / 300 * √(nu / d) + 2 * Real.pi / 19 * (nu / d) ^ (2 / 3 : ℝ) with hP
    have Pge : Real.pi / 3 ≤ P := by rw [hP]; have := Real.sqrt_nonneg (nu / d); have := mul_pos pi3 hy; have := mul_pos pi3 p1; linarith
    have eabs : |s.front * (Real.exp (-s.y nu) * Real.cos s.angle / s.theta * P)| =
        s.front * (Real.exp (-s.y nu) * (|Real.cos s.angle| / s.theta * P)) := by
      rw [abs_mul, abs_of_pos fpos, abs_mul, abs_div, abs_mul, abs_of_pos (Real.exp_pos _), abs_of_pos h.theta, abs_of_pos (lt_of_lt_of_le (by positivity) Pge)]
      ring
    rw [eabs]
    have el : s.front * (√2 * Real.pi / 27 * Real.sin s.angle) * (Real.exp (-s.y nu) * (s.y nu * (s.y nu + (2 : ℝ) ^ (11 / 12 : ℝ)) ^ 2)) =
      s.front * (Real.exp (-s.y nu) * (√2 * Real.pi / 27 * Real.sin s.angle * (s.y nu * (s.y nu + (2 : ℝ) ^ (11 / 12 : ℝ)) ^ 2))) := by ring
    rw [el]
    refine mul_lt_mul_of_pos_left (mul_lt_mul_of_pos_left ?_ (Real.exp_pos _)) fpos
    have sq : (s.y nu + (2 : ℝ) ^ (11 / 12 : ℝ)) ^ 2 ≤ 9 := by nlinarith
    have a1 : s.y nu * (s.y nu + (2 : ℝ) ^ (11 / 12 : ℝ)) ^ 2 ≤ s.y nu * 9 := mul_le_mul_of_nonneg_left sq hy.le
    have a2 : √2 * Real.pi / 27 * Real.sin s.angle ≤ 1.5 * Real.pi / 27 := by
      have : √2 * Real.sin s.angle ≤ 1.5 * 1 := mul_le_mul root sle spos.le (by norm_num)
      nlinarith
    have a3 : √2 * Real.pi / 27 * Real.sin s.angle * (s.y nu * (s.y nu + (2 : ℝ) ^ (11 / 12 : ℝ)) ^ 2) ≤ 1.5 * Real.pi / 27 * (s.y nu * 9) :=
      mul_le_mul a2 a1 (by positivity) (by positivity)
    have a4 : 2 * s.y nu < |Real.cos s.angle| / s.theta := by
      rw [lt_div_iff₀ h.theta]
      rw [lt_div_iff₀ (by linarith [h.theta])] at y2
      linarith
    have a5 : |Real.cos s.angle| / s.theta * (Real.pi / 3) ≤ |Real.cos s.angle| / s.theta * P :=
      mul_le_mul_of_nonneg_left Pge (div_pos cpos h.theta).le
    have a6 : 2 * s.y nu * (Real.pi / 3) < |Real.cos s.angle| / s.theta * (Real.pi / 3) := mul_lt_mul_of_pos_right a4 (by linarith)
    nlinarith [mul_pos hy pi3]
  refine ⟨main, fun hb => ?_⟩
  have := hb.2
  have : s.jVal nu ^ 2 < s.jVVal nu ^ 2 := by
    rw [← sq_abs (s.jVVal nu)]
    exact pow_lt_pow_left₀ main hb.1 (by norm_num)
  nlinarith [sq_nonneg (s.jQVal nu)]

/-- Example: the plasma above, which is not seen exactly across the field. -/
example : ∃ nu1, 0 < nu1 ∧ ∀ nu, 0 < nu → nu < nu1 → ∃ i q v, (Thermal.new.run someCalls).j nu = .ok i ∧
    (Thermal.new.run someCalls).jQ nu = .ok q ∧ (Thermal.new.run someCalls).jV nu = .ok v ∧ i < |v| ∧ ¬IsBeam i q 0 v :=
  circular_wrong (some_lit one_pos) (by norm_num [Thermal.run, someCalls, Thermal.call])
    (by simp [Thermal.run, someCalls, Thermal.call]; exact Real.cos_one_pos.ne')

/-- An average leaves its last angle in the object. So the angle that was set is lost, and `jnuCGS` is then that of another direction. -/
theorem angle_lost_wrong {s : Thermal} (h : s.Ready) (ha : s.averaged = true) (hn : 0 < s.n) (hc : s.angle = Real.pi / 2) {nu : ℝ} (hnu : 0 < nu) :
    ∃ s' out, s.radiativeQ [nu] = .ok (s', out) ∧ s'.angle = Real.pi - 0.01 ∧ s'.angle ≠ s.angle ∧
      ∃ i i', s.jV nu = .ok i ∧ s'.jV nu = .ok i' ∧ i = 0 ∧ i' < 0 := by
  have e : s.radiativeQ [nu] = .ok (s.at (Real.pi - 0.01), [(s.outs ⟨fun _ => 1, fun _ => 1, fun _ => 1⟩ nu 0, s.outs ⟨fun _ => 1, fun _ => 1, fun _ => 1⟩ nu 4)]) := by
    unfold Thermal.radiativeQ
    rw [if_neg (not_lt.2 h.hot)]
    simp [each, h.pass ⟨fun _ => 1, fun _ => 1, fun _ => 1⟩ hnu, ha]
  have pi3 := Real.pi_gt_three
  have l1 : s.Lit nu := ⟨h.theta_pos, h.nu0, by rw [hc]; linarith, by rw [hc]; linarith, hnu⟩
  have l2 : (s.at (Real.pi - 0.01)).Lit nu := h.at_lit (by linarith) (by linarith) hnu
  refine ⟨_, _, e, rfl, ?_, _, _, l1.jV, l2.jV, ?_, ?_⟩
  · rw [hc]
    change Real.pi - 0.01 ≠ Real.pi / 2
    intro e; linarith
  · unfold Thermal.jVVal
    rw [hc, Real.cos_pi_div_two]
    simp
  · unfold Thermal.jVVal
    simp only
    have hx := l2.xpos
    have hy := l2.ypos
    have p1 : 0 < (nu / (2 / 9 * (s.at (Real.pi - 0.01)).nu0 * (s.at (Real.pi - 0.01)).theta * (s.at (Real.pi - 0.01)).theta *
        Real.sin (s.at (Real.pi - 0.01)).angle)) ^ (2 / 3 : ℝ) := Real.rpow_pos_of_pos hx _
    have fpos : 0 < (s.at (Real.pi - 0.01)).front := by
      unfold Thermal.front chargeCGS cCGS Thermal.at
      have := h.nu0
      simp only
      positivity
    have c : Real.cos (s.at (Real.pi - 0.01)).angle < 0 := by
      change Real.cos (Real.pi - 0.01) < 0
      rw [Real.cos_pi_sub]
      have : 0 < Real.cos 0.01 := Real.cos_pos_of_mem_Ioo ⟨by linarith, by linarith⟩
      linarith
    have P : 0 < Real.pi / 3 + Real.pi / 3 * (s.at (Real.pi - 0.01)).y nu + 2 / 300 * √(nu / (2 / 9 * (s.at (Real.pi - 0.01)).nu0 *
        (s.at (Real.pi - 0.01)).theta * (s.at (Real.pi - 0.01)).theta * Real.sin (s.at (Real.pi - 0.01)).angle)) +
        2 * Real.pi / 19 * (nu / (2 / 9 * (s.at (Real.pi - 0.01)).nu0 * (s.at (Real.pi - 0.01)).theta * (s.at (Real.pi - 0.01)).theta *
        Real.sin (s.at (Real.pi - 0.01)).angle)) ^ (2 / 3 : ℝ) := by
      have := Real.pi_pos
      positivity
    refine mul_neg_of_pos_of_neg fpos (mul_neg_of_neg_of_pos ?_ P)
    exact div_neg_of_neg_of_pos (mul_neg_of_pos_of_neg (Real.exp_pos _) c) l2.theta

/-- Example: the hypotheses are met. -/
example : ∃ s : Thermal, s.Ready ∧ s.averaged = true ∧ 0 < s.n ∧ s.angle = Real.pi / 2 :=
  ⟨((Thermal.new.run someCalls).call (.averaged true)).call (.angle (Real.pi / 2)),
    ⟨some_ready.step, some_ready.hot, some_ready.nu0, fun e => by simp [Thermal.call] at e⟩, rfl,
    by norm_num [Thermal.run, someCalls, Thermal.call], rfl⟩

/-- The increment of intensity is positive and never more than what leaves a slab of that depth. -/
theorem increment_partial {s : Thermal} {nu : ℝ} (h : s.Lit nu) (hs : s.InStep) (hn : 0 < s.n) {ds : ℝ} (hd : 0 < ds) :
    ∃ j a v, s.j nu = .ok j ∧ s.alpha nu j = .ok a ∧ s.increment nu ds = .ok v ∧ 0 < v ∧ v ≤ slab (j * jnuToSI) (a * anuToSI) ds := by
  obtain ⟨i, q, hi, _, hq, hqi⟩ := emission_positive h hn
  have ipos : 0 < i := by linarith
  obtain ⟨_, p⟩ := bb_eval hs (temp_pos h.theta) h.nu
  have ea := alpha_eq hs h.theta h.nu i
  set a := i / (planck (2 * planckOverC2) planckOverBoltzmann s.T nu / inuToSI) with hadef
  have apos : 0 < a := by
    rw [hadef]; unfold inuToSI; positivity
  refine ⟨i, a, i * (ds * 100) * Real.exp (-a * (ds * 100)) * inuToSI, hi, ea, ?_, ?_, ?_⟩
  · unfold Thermal.increment
    rw [hi, bind_ok, ea, bind_ok]
  · unfold inuToSI; positivity
  · unfold slab jnuToSI anuToSI inuToSI
    have key : a * (ds * 100) * Real.exp (-(a * (ds * 100))) ≤ 1 - Real.exp (-(a * (ds * 100))) := by
      have h1 := Real.add_one_le_exp (a * (ds * 100))
      have h2 : Real.exp (a * (ds * 100)) * Real.exp (-(a * (ds * 100))) = 1 := by rw [← Real.exp_add]; simp
      nlinarith [Real.exp_pos (-(a * (ds * 100)))]
    have e1 : -(a * 100) * ds = -(a * (ds * 100)) := by ring
    have e2 : -a * (ds * 100) = -(a * (ds * 100)) := by ring
    rw [e1, e2]
    have : i * (ds * 100) * Real.exp (-(a * (ds * 100))) * 0.001 = i * 0.001 / a * (a * (ds * 100) * Real.exp (-(a * (ds * 100)))) := by
      field_simp
    rw [this]
    have e3 : i * (0.001 * 100) / (a * 100) = i * 0.001 / a := by field_simp
    rw [e3]
    exact mul_le_mul_of_nonneg_left key (by positivity)

/-- But it vanishes for deep slabs, from which the intensity of a black body leaves. -/
theorem increment_wrong {s : Thermal} {nu : ℝ} (h : s.Lit nu) (hs : s.InStep) (hn : 0 < s.n) : ∃ (f : ℝ → ℝ) (j a : ℝ), s.j nu = .ok j ∧
    s.alpha nu j = .ok a ∧ (∀ ds, 0 < ds → s.increment nu ds = .ok (f ds)) ∧ Tendsto f atTop (𝓝 0) ∧
    Tendsto (slab (j * jnuToSI) (a * anuToSI)) atTop (𝓝 (planck (2 * planckOverC2) planckOverBoltzmann s.T nu)) := by
  obtain ⟨i, q, hi, _, hq, hqi⟩ := emission_positive h hn
  have ipos : 0 < i := by linarith
  obtain ⟨_, p⟩ := bb_eval hs (temp_pos h.theta) h.nu
  have ea := alpha_eq hs h.theta h.nu i
  set a := i / (planck (2 * planckOverC2) planckOverBoltzmann s.T nu / inuToSI) with hadef
  have apos : 0 < a := by
    rw [hadef]; unfold inuToSI; positivity
  have lim : Tendsto (fun ds : ℝ => a * (ds * 100)) atTop atTop :=
    (tendsto_id.atTop_mul_const (by norm_num : (0 : ℝ) < 100)).const_mul_atTop apos
  refine ⟨fun ds => i * (ds * 100) * Real.exp (-a * (ds * 100)) * inuToSI, i, a, hi, ea, fun ds _ => ?_, ?_, ?_⟩
  · unfold Thermal.increment
    rw [hi, bind_ok, ea, bind_ok]
  · have t := (Real.tendsto_pow_mul_exp_neg_atTop_nhds_zero 1).comp lim
    have t2 := t.const_mul (i * inuToSI / a)
    rw [mul_zero] at t2
    refine t2.congr fun ds => ?_
    simp only [Function.comp, pow_one]
    have e2 : -a * (ds * 100) = -(a * (ds * 100)) := by ring
    rw [e2]
    field_simp
  · have t := (Real.tendsto_exp_neg_atTop_nhds_zero).comp lim
    have t2 := (t.const_sub 1).const_mul (i * jnuToSI / (a * anuToSI))
    have e : i * jnuToSI / (a * anuToSI) * (1 - 0) = planck (2 * planckOverC2) planckOverBoltzmann s.T nu := by
      rw [hadef]
      unfold jnuToSI anuToSI inuToSI
      field_simp
      ring
    rw [e] at t2
    refine t2.congr fun ds => ?_
    unfold slab anuToSI
    simp only [Function.comp]
    have e1 : -(a * 100) * ds = -(a * (ds * 100)) := by ring
    rw [e1]

/-- Example of the two theorems above. -/
example : ∃ j a v, (Thermal.new.run someCalls).j 2.3e11 = .ok j ∧ (Thermal.new.run someCalls).alpha 2.3e11 j = .ok a ∧
    (Thermal.new.run someCalls).increment 2.3e11 1e12 = .ok v ∧ 0 < v ∧ v ≤ slab (j * jnuToSI) (a * anuToSI) 1e12 :=
  increment_partial (some_lit (by norm_num)) (black_body_in_step _) (by norm_num [Thermal.run, someCalls, Thermal.call]) (by norm_num)

/-- Along the field, as in a new object whose angle was not set, nothing is defined, even for an empty plasma. -/
theorem along_field_wrong {s : Thermal} (h : s.angle = 0) (nu : ℝ) : s.j nu = .ub := by
  unfold Thermal.j Thermal.xx
  simp [h, bind]

/-- Example: a new object. -/
example : Thermal.new.j 1e11 = .ub := along_field_wrong rfl _

end Gyoto.Synch
