import Verif.Lemmas.PLSynch

/-! # C109: what electrons with a power law of energies emit and absorb (`lib/PowerLawSynchrotronSpectrum.C`) -/

namespace Gyoto.Synch

open Gyoto.Transfer (Out)
open Gyoto.Plasma Gyoto.Spec

theorem Js_pos {s : PL} {nu : ℝ} (h : s.Lit nu) : 0 < s.Js nu := by
  have hp := h.p
  have n := h.toFair.norm
  have g1 : 0 < Real.Gamma ((3 * s.p - 1) / 12) := Real.Gamma_pos_of_pos (by linarith)
  have g2 : 0 < Real.Gamma ((3 * s.p + 19) / 12) := Real.Gamma_pos_of_pos (by linarith)
  have x := Real.rpow_pos_of_pos h.xpos ((1 - s.p) / 2)
  have t : (0 : ℝ) < 3 ^ (s.p / 2) := Real.rpow_pos_of_pos (by norm_num) _
  have := h.sin
  have p1 : 0 < s.p - 1 := by linarith
  have p2 : 0 < s.p + 1 := by linarith
  unfold PL.Js
  positivity

theorem As_pos {s : PL} {nu : ℝ} (h : s.Lit nu) : 0 < s.As nu := by
  have hp := h.p
  have n := h.toFair.norm
  have g1 : 0 < Real.Gamma ((3 * s.p + 2) / 12) := Real.Gamma_pos_of_pos (by linarith)
  have g2 : 0 < Real.Gamma ((3 * s.p + 22) / 12) := Real.Gamma_pos_of_pos (by linarith)
  have x := Real.rpow_pos_of_pos h.xpos (-(s.p + 2) / 2)
  have t : (0 : ℝ) < 3 ^ ((s.p + 1) / 2) := Real.rpow_pos_of_pos (by norm_num) _
  have p1 : 0 < s.p - 1 := by linarith
  unfold PL.As
  positivity

/-- The plasma emits and absorbs, and the part that is linearly polarised is that of the theory, `(p+1)/(p+7/3)` of the emission. -/
theorem pl_positive {s : PL} {nu : ℝ} (h : s.Lit nu) (hn : 0 < s.n) :
    ∃ i q a, s.j nu = .ok i ∧ s.jQ nu = .ok q ∧ s.a nu = .ok a ∧ 0 < i ∧ 0 < a ∧ q = (s.p + 1) / (s.p + 7 / 3) * i ∧ 0 < q ∧ q < i := by
  have hj := Js_pos h
  have ha := As_pos h
  have := h.nu0
  have := h.nu
  have hp := h.p
  have ipos : 0 < s.front * s.Js nu := by unfold PL.front chargeCGS cCGS; positivity
  have e : s.front * (s.Js nu * (s.p + 1) / (s.p + 7 / 3)) = (s.p + 1) / (s.p + 7 / 3) * (s.front * s.Js nu) := by ring
  have r0 : 0 < (s.p + 1) / (s.p + 7 / 3) := div_pos (by linarith) (by linarith)
  have r1 : (s.p + 1) / (s.p + 7 / 3) < 1 := by rw [div_lt_one (by linarith)]; linarith
  refine ⟨_, _, _, h.j, h.jQ, h.a, ipos, ?_, e, ?_, ?_⟩
  · unfold PL.frontA chargeCGS electronMassCGS cCGS; positivity
  · rw [e]; positivity
  · rw [e]; nlinarith

/-- A plasma for the examples: the usual index, at half a right angle or so. -/
noncomputable def somePL : PL := ⟨1e5, 1, 1e8, 3, false, 1, 1e4⟩

theorem somePL_lit : somePL.Lit 2.3e11 := by
  have := Real.pi_gt_three
  refine ⟨⟨?_, ?_, ?_, ?_, ?_, ?_⟩, ?_, ?_⟩ <;> norm_num [somePL]
  linarith

/-- Example. -/
example : ∃ i q a, somePL.j 2.3e11 = .ok i ∧ somePL.jQ 2.3e11 = .ok q ∧ somePL.a 2.3e11 = .ok a ∧ 0 < i ∧ 0 < a ∧
    q = (somePL.p + 1) / (somePL.p + 7 / 3) * i ∧ 0 < q ∧ q < i := pl_positive somePL_lit (by norm_num [somePL])

/-- The slopes of the theory: the emission goes as `nu^((1-p)/2)`, the absorption as `nu^(-(p+4)/2)`. -/
theorem pl_slopes {s : PL} {nu c : ℝ} (h : s.Lit nu) (hc : 0 < c) (h' : s.Lit (c * nu)) :
    ∃ i i' a a', s.j nu = .ok i ∧ s.j (c * nu) = .ok i' ∧ s.a nu = .ok a ∧ s.a (c * nu) = .ok a' ∧
      i' = c ^ ((1 - s.p) / 2) * i ∧ a' = c ^ (-(s.p + 4) / 2) * a := by
  refine ⟨_, _, _, _, h.j, h'.j, h.a, h'.a, ?_, ?_⟩
  · unfold PL.Js
    rw [mul_div_assoc c nu, Real.mul_rpow hc.le h.xpos.le]
    ring
  · unfold PL.As PL.frontA
    rw [mul_div_assoc c nu, Real.mul_rpow hc.le h.xpos.le]
    have e : c ^ (-(s.p + 4) / 2) = c ^ (-(s.p + 2) / 2) * c⁻¹ := by
      rw [← Real.rpow_neg_one, ← Real.rpow_add hc]; congr 1; ring
    rw [e]
    have := h.nu.ne'
    unfold electronMassCGS cCGS
    field_simp

/-- So what an opaque plasma emits goes as `nu^(5/2)`, whatever the index. -/
theorem pl_source {s : PL} {nu c : ℝ} (h : s.Lit nu) (hn : 0 < s.n) (hc : 0 < c) (h' : s.Lit (c * nu)) :
    ∃ i i' a a', s.j nu = .ok i ∧ s.j (c * nu) = .ok i' ∧ s.a nu = .ok a ∧ s.a (c * nu) = .ok a' ∧ i' / a' = c ^ (5 / 2 : ℝ) * (i / a) := by
  obtain ⟨i, i', a, a', h1, h2, h3, h4, e1, e2⟩ := pl_slopes h hc h'
  refine ⟨i, i', a, a', h1, h2, h3, h4, ?_⟩
  obtain ⟨_, _, a0, _, _, h3', _, apos, _⟩ := pl_positive h hn
  rw [h3] at h3'
  cases h3'
  have e : c ^ ((1 - s.p) / 2) = c ^ (5 / 2 : ℝ) * c ^ (-(s.p + 4) / 2) := by rw [← Real.rpow_add hc]; congr 1; ring
  have := (Real.rpow_pos_of_pos hc (-(s.p + 4) / 2)).ne'
  rw [e1, e2, e]
  field_simp

/-- And with the field: the emission goes as `B^((p+1)/2)`, the absorption as `B^((p+2)/2)`. -/
theorem pl_field {s : PL} {nu c : ℝ} (h : s.Lit nu) (hc : 0 < c) (h' : ({ s with nu0 := c * s.nu0 } : PL).Lit nu) :
    ∃ i i' a a', s.j nu = .ok i ∧ ({ s with nu0 := c * s.nu0 } : PL).j nu = .ok i' ∧ s.a nu = .ok a ∧
      ({ s with nu0 := c * s.nu0 } : PL).a nu = .ok a' ∧ i' = c ^ ((s.p + 1) / 2) * i ∧ a' = c ^ ((s.p + 2) / 2) * a := by
  refine ⟨_, _, _, _, h.j, h'.j, h.a, h'.a, ?_, ?_⟩
  all_goals
    have x : nu / (c * s.nu0 * Real.sin s.angle) = c⁻¹ * (nu / (s.nu0 * Real.sin s.angle)) := by
      have := h.nu0.ne'; have := h.sin.ne'
      field_simp
  · unfold PL.Js PL.front
    simp only
    rw [x, Real.mul_rpow (inv_pos.2 hc).le h.xpos.le, Real.inv_rpow hc.le, ← Real.rpow_neg hc.le]
    have e : c ^ ((s.p + 1) / 2) = c * c ^ (-((1 - s.p) / 2)) := by
      conv_rhs => rw [← Real.rpow_one_add' hc.le (by intro e; linarith [h.p])]
      congr 1; ring
    rw [e]
    ring
  · unfold PL.As PL.frontA
    simp only
    rw [x, Real.mul_rpow (inv_pos.2 hc).le h.xpos.le, Real.inv_rpow hc.le, ← Real.rpow_neg hc.le]
    have e : -(-(s.p + 2) / 2) = (s.p + 2) / 2 := by ring
    rw [e]
    ring

/-- Example of the three theorems above: twice the frequency, and twice the field. -/
example : somePL.Lit (2 * 2.3e11) ∧ ({ somePL with nu0 := 2 * somePL.nu0 } : PL).Lit 2.3e11 := by
  have := Real.pi_gt_three
  constructor
  · refine ⟨⟨?_, ?_, ?_, ?_, ?_, ?_⟩, ?_, ?_⟩ <;> norm_num [somePL]
    linarith
  · refine ⟨⟨?_, ?_, ?_, ?_, ?_, ?_⟩, ?_, ?_⟩ <;> norm_num [somePL]
    linarith

/-- What both versions of `radiativeQ` give, when the index and the least energy allow it: the same intensities, and the same for each
frequency whatever the others; the object afterwards. -/
theorem pl_results {s : PL} {nus : List ℝ} (hv : s.averaged = false → 0 < s.angle ∧ s.angle < Real.pi) (hn : ∀ nu ∈ nus, s.Fair nu)
    (hp : 43 / 1250 ≤ 17 / 500 * s.p) (hg : s.gmin ≤ 1e2) :
    ∃ s' s'', s.radiativeQP nus = .ok (s', nus.map s.outs) ∧ s.radiativeQ nus = .ok (s'', nus.map fun nu => (s.outs nu 0, s.outs nu 4)) ∧
      (s.averaged = false → s' = s ∧ s'' = s) ∧ (s.averaged = true → nus ≠ [] → s'.angle = Real.pi - 0.01 ∧ s''.angle = Real.pi - 0.01) := by
  have key : ∀ {β : Type} (f : PL → ℝ → Out (PL × β)) (g : ℝ → β),
      (∀ t nu, t = s ∨ (s.averaged = true ∧ t = s.at (Real.pi - 0.01)) → s.Fair nu →
        f t nu = .ok (if s.averaged = false then t else s.at (Real.pi - 0.01), g nu)) →
      ∃ s', each f s nus = .ok (s', nus.map g) ∧ (s.averaged = false → s' = s) ∧ (s.averaged = true → nus ≠ [] → s'.angle = Real.pi - 0.01) := by
    intro β f g hf
    have : ∀ (l : List ℝ) (t : PL), (∀ nu ∈ l, s.Fair nu) → (t = s ∨ (s.averaged = true ∧ t = s.at (Real.pi - 0.01))) →
        ∃ s', each f t l = .ok (s', l.map g) ∧ (s.averaged = false → s' = t) ∧
          (s.averaged = true → (l ≠ [] ∨ t = s.at (Real.pi - 0.01)) → s' = s.at (Real.pi - 0.01)) := by
      intro l
      induction l with
      | nil =>
        intro t _ ht
        exact ⟨t, rfl, fun _ => rfl, fun _ h => by simpa using h⟩
      | cons nu l ih =>
        intro t hl ht
        have e := hf t nu ht (hl nu (by simp))
        by_cases ha : s.averaged = false
        · rw [if_pos ha] at e
          obtain ⟨s', e', k1, _⟩ := ih t (fun x hx => hl x (by simp [hx])) ht
          exact ⟨s', by simp [each, e, e'], k1, fun h => by simp [ha] at h⟩
        · rw [if_neg ha] at e
          have ha' : s.averaged = true := by simpa using ha
          obtain ⟨s', e', _, k2⟩ := ih (s.at (Real.pi - 0.01)) (fun x hx => hl x (by simp [hx])) (.inr ⟨ha', rfl⟩)
          exact ⟨s', by simp [each, e, e'], fun h => absurd h ha, fun _ _ => k2 ha' (.inr rfl)⟩
    obtain ⟨s', e, k1, k2⟩ := this nus s hn (.inl rfl)
    exact ⟨s', e, k1, fun ha hne => by rw [k2 ha (.inl hne)]; rfl⟩
  obtain ⟨s', e1, a1, b1⟩ := key PL.passP s.outs (by
    rintro t nu (rfl | ⟨ha, rfl⟩) hf
    · exact PL.passP_eq hf hv hp hg
    · rw [PL.passP_eq (s := s.at (Real.pi - 0.01)) ⟨hf.p, hf.gmin, hf.gmax, hf.nu0, hf.top, hf.nu⟩ (fun e => by simp [PL.at, ha] at e) hp hg]
      simp [PL.at, ha, PL.outs])
  obtain ⟨s'', e2, a2, b2⟩ := key PL.pass (fun nu => (s.outs nu 0, s.outs nu 4)) (by
    rintro t nu (rfl | ⟨ha, rfl⟩) hf
    · exact PL.pass_eq hf hv
    · rw [PL.pass_eq (s := s.at (Real.pi - 0.01)) ⟨hf.p, hf.gmin, hf.gmax, hf.nu0, hf.top, hf.nu⟩ (fun e => by simp [PL.at, ha] at e)]
      simp [PL.at, ha, PL.outs])
  exact ⟨s', s'', e1, e2, fun h => ⟨a1 h, a2 h⟩, fun h1 h2 => ⟨b1 h1 h2, b2 h1 h2⟩⟩

/-- Example: two frequencies, averaged. -/
example : ∃ s' s'', ({ somePL with averaged := true } : PL).radiativeQP [2.3e11, 2.3e11] = .ok (s', [2.3e11, 2.3e11].map ({ somePL with averaged := true } : PL).outs) ∧
    ({ somePL with averaged := true } : PL).radiativeQ [2.3e11, 2.3e11] = .ok (s'', [2.3e11, 2.3e11].map fun nu =>
      (({ somePL with averaged := true } : PL).outs nu 0, ({ somePL with averaged := true } : PL).outs nu 4)) ∧ s'.angle = Real.pi - 0.01 := by
  obtain ⟨s', s'', e1, e2, _, k⟩ := pl_results (s := { somePL with averaged := true }) (nus := [2.3e11, 2.3e11]) (fun e => by simp at e)
    (by
      intro nu h
      simp at h
      subst h
      refine ⟨?_, ?_, ?_, ?_, ?_, ?_⟩ <;> norm_num [somePL]) (by norm_num [somePL]) (by norm_num [somePL])
  exact ⟨s', s'', e1, e2, (k rfl (by simp)).1⟩

/-- In the mean over the directions, which is that of what the object gives at each, circular polarisation and rotation cancel out. -/
theorem pl_averaged {s : PL} {nu : ℝ} (ha : s.averaged = true) (h : s.Fair nu) (hp : 43 / 1250 ≤ 17 / 500 * s.p) (hg : s.gmin ≤ 1e2) :
    ∃ s' v, s.radiativeQP [nu] = .ok (s', [v]) ∧ v 3 = 0 ∧ v 7 = 0 ∧ v 10 = 0 ∧ ∃ g : ℝ → Fin 11 → ℝ,
      (∀ θ, 0 < θ → θ < Real.pi → ∃ t, ({ s with angle := θ, averaged := false } : PL).radiativeQP [nu] = .ok (t, [g θ])) ∧
      ∀ i, v i = mean 10 fun θ => g θ i := by
  obtain ⟨s', _, e, _⟩ := pl_results (s := s) (nus := [nu]) (fun e => by simp [ha] at e) (by simpa using h) hp hg
  refine ⟨s', _, e, ?_, ?_, ?_, fun θ => ({ s with angle := θ, averaged := false } : PL).outs nu, ?_, ?_⟩
  · unfold PL.outs
    simp only [ha, Bool.true_eq_false, if_false]
    rw [toSI_j _ (by decide)]
    have : mean 10 (fun θ => (s.at θ).vals nu 3) = 0 := by
      refine mean_odd (by norm_num) fun θ => ?_
      change (s.at (Real.pi - θ)).jVVal nu = -(s.at θ).jVVal nu
      unfold PL.jVVal PL.at
      simp only [Real.sin_pi_sub, Real.tan_pi_sub, PL.Js, PL.front]
      ring
    simp only [this, zero_mul]
  · unfold PL.outs
    simp only [ha, Bool.true_eq_false, if_false]
    rw [toSI_a _ (by decide)]
    have : mean 10 (fun θ => (s.at θ).vals nu 7) = 0 := by
      refine mean_odd (by norm_num) fun θ => ?_
      change (s.at (Real.pi - θ)).aVVal nu = -(s.at θ).aVVal nu
      unfold PL.aVVal PL.at
      simp only [Real.sin_pi_sub, Real.cos_pi_sub, abs_neg, PL.As, PL.frontA]
      ring
    simp only [this, zero_mul]
  · unfold PL.outs
    simp only [ha, Bool.true_eq_false, if_false]
    rw [toSI_a _ (by decide)]
    have : mean 10 (fun θ => (s.at θ).vals nu 10) = 0 := by
      refine mean_odd (by norm_num) fun θ => ?_
      change (s.at (Real.pi - θ)).rVVal nu = -(s.at θ).rVVal nu
      unfold PL.rVVal PL.rhoPer PL.at
      simp only [Real.sin_pi_sub, Real.tan_pi_sub]
      ring
    simp only [this, zero_mul]
  · intro θ h1 h2
    obtain ⟨t, _, e, _⟩ := pl_results (s := { s with angle := θ, averaged := false }) (nus := [nu]) (fun _ => ⟨h1, h2⟩)
      (by simpa using ⟨h.p, h.gmin, h.gmax, h.nu0, h.top, h.nu⟩) hp hg
    exact ⟨t, e⟩
  · intro i
    have : ∀ θ, ({ s with angle := θ, averaged := false } : PL).outs nu i = toSI ((s.at θ).vals nu) i := fun θ => by
      simp only [PL.outs, if_true]; rfl
    simp only [this]
    unfold PL.outs
    simp only [ha, Bool.true_eq_false, if_false]
    by_cases hi : i.1 < 4
    · simp only [toSI_j _ hi]
      rw [mul_comm, ← mean_mul]
      exact mean_congr (by norm_num) fun θ _ _ => by ring
    · simp only [toSI_a _ hi]
      rw [mul_comm, ← mean_mul]
      exact mean_congr (by norm_num) fun θ _ _ => by ring

/-- Linear polarisation is absorbed less than intensity, for the indices of the fits. -/
theorem pl_absorption {s : PL} {nu : ℝ} (h : s.Lit nu) (hn : 0 < s.n) (hp : 43 / 1250 < 17 / 500 * s.p) (hp' : s.p < 30) :
    ∃ a q, s.a nu = .ok a ∧ s.aQ nu = .ok q ∧ 0 < q ∧ q < a := by
  have ha := As_pos h
  have := h.nu
  have f : 0 < s.frontA nu := by unfold PL.frontA chargeCGS electronMassCGS cCGS; positivity
  have b0 : 0 < 17 / 500 * s.p - 43 / 1250 := by linarith
  have r0 : 0 < (17 / 500 * s.p - 43 / 1250) ^ (43 / 500 : ℝ) := Real.rpow_pos_of_pos b0 _
  have r1 : (17 / 500 * s.p - 43 / 1250) ^ (43 / 500 : ℝ) < 1 := Real.rpow_lt_one b0.le (by linarith) (by norm_num)
  refine ⟨_, _, h.a, h.aQ hp.le, by positivity, mul_lt_mul_of_pos_left ?_ f⟩
  nlinarith

/-- Example. -/
example : ∃ a q, somePL.a 2.3e11 = .ok a ∧ somePL.aQ 2.3e11 = .ok q ∧ 0 < q ∧ q < a :=
  pl_absorption somePL_lit (by norm_num [somePL]) (by norm_num [somePL]) (by norm_num [somePL])

/-- Frequencies above `gamma_max^2 nu_0` are refused, as the comment says. -/
theorem above_max_refused {s : PL} {nu : ℝ} (h0 : 0 < s.nu0) (hg : 0 ≤ s.gmax) (hn : 0 < nu) (h : s.gmax ^ 2 * s.nu0 < nu) :
    s.j nu = .throws ∧ s.jQ nu = .throws ∧ s.jV nu = .throws ∧ s.a nu = .throws ∧ s.aQ nu = .throws ∧ s.aV nu = .throws := by
  have g : s.guard nu = .throws := by
    unfold PL.guard
    rw [if_neg, if_pos]
    · rw [Real.lt_sqrt hg, lt_div_iff₀ h0]; exact h
    · rintro (e | e)
      · exact h0.ne' e
      · exact absurd (div_pos hn h0) (not_lt.2 e.le)
  simp [PL.j, PL.jQ, PL.jV, PL.a, PL.aQ, PL.aV, g, bind]

/-- Example. -/
example : somePL.j 1e17 = .throws := (above_max_refused (by norm_num [somePL]) (by norm_num [somePL]) (by norm_num) (by norm_num [somePL])).1

/-- Frequencies below `gamma_min^2 nu_0` are not, though the comment says so: the power law is continued to where there are no electrons. -/
theorem below_min_wrong : ∃ s : PL, ∃ nu, s.Lit nu ∧ 0 < s.n ∧ nu < s.gmin ^ 2 * s.nu0 ∧ ∃ i, s.j nu = .ok i ∧ 0 < i ∧
    ∀ s' : PL, s' = { s with gmin := 1 } → ∃ i', s'.j nu = .ok i' ∧ i' < i := by
  have l : (⟨1, 1, 1, 3, false, 50, 100⟩ : PL).Lit 2 := by
    have := Real.pi_gt_three
    refine ⟨⟨?_, ?_, ?_, ?_, ?_, ?_⟩, ?_, ?_⟩ <;> norm_num
    linarith
  have l' : (⟨1, 1, 1, 3, false, 1, 100⟩ : PL).Lit 2 := by
    have := Real.pi_gt_three
    refine ⟨⟨?_, ?_, ?_, ?_, ?_, ?_⟩, ?_, ?_⟩ <;> norm_num
    linarith
  obtain ⟨i, _, _, e, _, _, ipos, _⟩ := pl_positive l one_pos
  refine ⟨⟨1, 1, 1, 3, false, 50, 100⟩, 2, l, one_pos, by norm_num, i, e, ipos, ?_⟩
  rintro s' rfl
  refine ⟨_, l'.j, ?_⟩
  have e' := l.j
  rw [e] at e'
  cases e'
  have jp := Js_pos l'
  have fp : 0 < (⟨1, 1, 1, 3, false, 1, 100⟩ : PL).front := by unfold PL.front chargeCGS cCGS; norm_num
  have d1 : ((50 : ℝ) ^ (1 - 3 : ℝ) - 100 ^ (1 - 3 : ℝ)) = 3 / 10000 := by
    have e2 : (1 - 3 : ℝ) = ((-2 : ℤ) : ℝ) := by norm_num
    rw [e2, Real.rpow_intCast, Real.rpow_intCast]; norm_num
  have d2 : ((1 : ℝ) ^ (1 - 3 : ℝ) - 100 ^ (1 - 3 : ℝ)) = 9999 / 10000 := by
    have e2 : (1 - 3 : ℝ) = ((-2 : ℤ) : ℝ) := by norm_num
    rw [e2, Real.rpow_intCast, Real.rpow_intCast]; norm_num
  have key : (⟨1, 1, 1, 3, false, 50, 100⟩ : PL).Js 2 = 3333 * (⟨1, 1, 1, 3, false, 1, 100⟩ : PL).Js 2 := by
    unfold PL.Js
    simp only [d1, d2]
    ring
  have fe : (⟨1, 1, 1, 3, false, 50, 100⟩ : PL).front = (⟨1, 1, 1, 3, false, 1, 100⟩ : PL).front := rfl
  rw [fe, key]
  nlinarith [mul_pos fp jp]

/-- For some indices above one only the absorption of linear polarisation is not defined. -/
theorem flat_index_wrong {s : PL} {nu : ℝ} (h : s.Lit nu) (hp : 17 / 500 * s.p < 43 / 1250) : s.aQ nu = .ub ∧ (∃ i, s.j nu = .ok i) ∧ ∃ a, s.a nu = .ok a := by
  refine ⟨?_, ⟨_, h.j⟩, ⟨_, h.a⟩⟩
  unfold PL.aQ
  rw [h.guard, bind_ok, if_pos (by linarith)]

/-- Example. -/
example : ({ somePL with p := 1.01 } : PL).aQ 2.3e11 = .ub := by
  refine (flat_index_wrong ?_ (by norm_num)).1
  have := Real.pi_gt_three
  refine ⟨⟨?_, ?_, ?_, ?_, ?_, ?_⟩, ?_, ?_⟩ <;> norm_num [somePL]
  linarith

/-- Electrons of more than a hundred times their mass are refused when light is polarised, and only then. -/
theorem high_energy_wrong {s : PL} {nu : ℝ} (h : s.Lit nu) (hv : s.averaged = false) (hp : 43 / 1250 ≤ 17 / 500 * s.p) (hg : 1e2 < s.gmin) :
    s.radiativeQP [nu] = .throws ∧ ∃ s' out, s.radiativeQ [nu] = .ok (s', out) := by
  constructor
  · have r : s.rQ nu = .throws := by
      unfold PL.rQ
      rw [h.guard, bind_ok, if_pos hg]
    unfold PL.radiativeQP
    simp only [each, PL.passP, if_pos hv, PL.coefs, h.j, h.jQ, h.jV, h.a, h.aQ hp, h.aV, r, bind_ok]
    rfl
  · unfold PL.radiativeQ
    exact ⟨s, _, by simp [each, PL.pass_eq h.toFair (fun _ => ⟨h.low, h.high⟩), hv]; rfl⟩

/-- Example: the hypotheses are met. -/
example : ({ somePL with gmin := 200 } : PL).Lit 2.3e11 ∧ (1e2 : ℝ) < ({ somePL with gmin := 200 } : PL).gmin := by
  have := Real.pi_gt_three
  refine ⟨⟨⟨?_, ?_, ?_, ?_, ?_, ?_⟩, ?_, ?_⟩, ?_⟩ <;> norm_num [somePL]
  linarith

/-- With the index of a new object, zero, the emission is negative. -/
theorem default_index_wrong {s : PL} {nu : ℝ} (hp : s.p = 0) (hg : 0 < s.gmin) (hgm : s.gmin < s.gmax) (h0 : 0 < s.nu0) (hn : 0 < nu)
    (ht : nu ≤ s.gmax ^ 2 * s.nu0) (hl : 0 < s.angle) (hh : s.angle < Real.pi) (hd : 0 < s.n) : ∃ i, s.j nu = .ok i ∧ i < 0 := by
  have sp := Real.sin_pos_of_pos_of_lt_pi hl hh
  have m := mul_pos h0 sp
  have x : 0 < nu / (s.nu0 * Real.sin s.angle) := div_pos hn m
  have root : √(nu / s.nu0) ≤ s.gmax := by
    rw [Real.sqrt_le_left (hg.trans hgm).le, div_le_iff₀ h0]; exact ht
  have g : s.guard nu = .ok () := by
    unfold PL.guard
    rw [if_neg, if_neg (not_lt.2 root), if_neg, if_neg]
    · rintro (e | e)
      · exact m.ne' e
      · exact absurd x (not_lt.2 e)
    · rw [hp]
      simp only [sub_zero, Real.rpow_one]
      rintro (e | e | e) <;> linarith
    · rintro (e | e)
      · exact h0.ne' e
      · exact absurd (div_pos hn h0) (not_lt.2 e.le)
  refine ⟨_, by unfold PL.j; rw [g, bind_ok, if_neg (by rw [hp]; norm_num)], ?_⟩
  have fp : 0 < s.front := by unfold PL.front chargeCGS cCGS; positivity
  have G1 : Real.Gamma ((3 * s.p - 1) / 12) < 0 := by
    rw [hp]
    have := Real.Gamma_add_one (s := (3 * 0 - 1) / 12) (by norm_num)
    have p : 0 < Real.Gamma ((3 * 0 - 1) / 12 + 1) := Real.Gamma_pos_of_pos (by norm_num)
    rw [this] at p
    by_contra hc
    push Not at hc
    nlinarith
  have G2 : 0 < Real.Gamma ((3 * s.p + 19) / 12) := Real.Gamma_pos_of_pos (by rw [hp]; norm_num)
  have xp := Real.rpow_pos_of_pos x ((1 - s.p) / 2)
  refine mul_neg_of_pos_of_neg fp ?_
  unfold PL.Js
  refine mul_neg_of_neg_of_pos (mul_neg_of_neg_of_pos (mul_neg_of_pos_of_neg ?_ G1) G2) xp
  rw [hp]
  simp only [zero_div, Real.rpow_zero, sub_zero, Real.rpow_one]
  exact div_pos_of_neg_of_neg (by nlinarith) (by nlinarith)

/-- Example. -/
example : ∃ i, ({ somePL with p := 0 } : PL).j 2.3e11 = .ok i ∧ i < 0 := by
  have := Real.pi_gt_three
  refine default_index_wrong rfl ?_ ?_ ?_ ?_ ?_ ?_ ?_ ?_ <;> norm_num [somePL]
  linarith

/-- Within the range of frequencies that the comment gives, there can be more circular polarisation than intensity. -/
theorem pl_circular_wrong : ∃ s : PL, ∃ nu, s.Lit nu ∧ 0 < s.n ∧ s.gmin ^ 2 * s.nu0 ≤ nu ∧ nu < s.gmax ^ 2 * s.nu0 ∧
    ∃ i q v, s.j nu = .ok i ∧ s.jQ nu = .ok q ∧ s.jV nu = .ok v ∧ i < v ∧ ¬IsBeam i q 0 v := by
  have pi3 := Real.pi_gt_three
  have l : (⟨1, Real.pi / 6, 1, 3, false, 1, 100⟩ : PL).Lit 1 := by
    refine ⟨⟨?_, ?_, ?_, ?_, ?_, ?_⟩, ?_, ?_⟩ <;> norm_num
    all_goals linarith
  obtain ⟨i, q, _, e, eq, _, ipos, _⟩ := pl_positive l one_pos
  refine ⟨⟨1, Real.pi / 6, 1, 3, false, 1, 100⟩, 1, l, one_pos, by norm_num, by norm_num, i, q, _, e, eq, l.jV, ?_⟩
  have e' := l.j
  rw [e] at e'
  cases e'
  have key : (1 : ℝ) < 171 / 250 * (3 : ℝ) ^ (49 / 100 : ℝ) / Real.tan (Real.pi / 6) * (1 / (3 * 1 * Real.sin (Real.pi / 6))) ^ (-0.5 : ℝ) := by
    rw [Real.sin_pi_div_six, Real.tan_pi_div_six]
    have t3 : (1 : ℝ) ≤ 3 ^ (49 / 100 : ℝ) := Real.one_le_rpow (by norm_num) (by norm_num)
    have t4 : (1 / (3 * 1 * (1 / 2)) : ℝ) ^ (-0.5 : ℝ) ≥ 1 := Real.one_le_rpow_of_pos_of_le_one_of_nonpos (by norm_num) (by norm_num) (by norm_num)
    have s3 : (1.7 : ℝ) < √3 := by rw [Real.lt_sqrt (by norm_num)]; norm_num
    have e5 : 171 / 250 * (3 : ℝ) ^ (49 / 100 : ℝ) / (1 / √3) = 171 / 250 * (3 : ℝ) ^ (49 / 100 : ℝ) * √3 := by
      have : √3 ≠ 0 := by positivity
      field_simp
    rw [e5]
    have h1 : (1 : ℝ) < 171 / 250 * (3 : ℝ) ^ (49 / 100 : ℝ) * √3 := by nlinarith
    nlinarith
  have lt : (⟨1, Real.pi / 6, 1, 3, false, 1, 100⟩ : PL).front * (⟨1, Real.pi / 6, 1, 3, false, 1, 100⟩ : PL).Js 1 <
      (⟨1, Real.pi / 6, 1, 3, false, 1, 100⟩ : PL).jVVal 1 := by
    unfold PL.jVVal
    rw [← mul_assoc]
    exact lt_mul_of_one_lt_right ipos key
  refine ⟨lt, fun hb => ?_⟩
  have := hb.2
  nlinarith [sq_nonneg q]

end Gyoto.Synch
