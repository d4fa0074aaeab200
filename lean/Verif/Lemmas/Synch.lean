import Verif.Model.Synch
import Verif.Spec.Synch
import Verif.Lemmas.Trapezoid
import Mathlib.Analysis.Real.Pi.Bounds
import Mathlib.Tactic.FieldSimp
import Mathlib.Tactic.Linarith
import Mathlib.Tactic.Positivity

/-! # Lemmas for the spectra of hot plasmas -/

namespace Gyoto.Synch

open Gyoto.Transfer (Out)
open Gyoto.SpectrumKinds (BlackBody)
open Gyoto.Plasma Gyoto.Spec

@[simp] theorem bind_ok {α β : Type} (a : α) (f : α → Out β) : bind (.ok a) f = f a := rfl

theorem angleAt_eq (N j : ℕ) : angleAt N j = point 0.01 (Real.pi - 0.01) N j := by
  unfold angleAt point; ring

theorem angle_mem {N j : ℕ} (hN : 0 < N) (h : j ≤ N) : 0 < angleAt N j ∧ angleAt N j < Real.pi := by
  rw [angleAt_eq]
  have := point_mem (a := 0.01) (b := Real.pi - 0.01) (by linarith [Real.pi_gt_three]) hN h
  constructor
  · linarith [this.1]
  · linarith [this.2]

theorem angleAt_last {N : ℕ} (hN : 0 < N) : angleAt N N = Real.pi - 0.01 := by
  rw [angleAt_eq, point_last _ _ hN]

/-- The loop over the angles is the rule of the trapezoids. -/
theorem sweep_eq {ι : Type} {N : ℕ} (hN : 0 < N) {f : ℝ → Out (ι → ℝ)} {g : ℝ → ι → ℝ}
    (h : ∀ θ, 0 < θ → θ < Real.pi → f θ = .ok (g θ)) : sweep N f = .ok fun i => mean N fun θ => g θ i := by
  have key : ∀ M, M ≤ N → (List.range M).foldl (fun acc jj => bind acc fun (cur, prev) => bind (f (angleAt N (jj + 1))) fun v =>
      .ok ((fun i => cur i + 0.5 * 0.5 * ((Real.pi - 0.01 - 0.01) / (N : ℝ)) * (prev i + v i * Real.sin (angleAt N (jj + 1)))),
        fun i => v i * Real.sin (angleAt N (jj + 1))))
      (bind (f (angleAt N 0)) fun v => .ok ((fun _ => 0 : ι → ℝ), fun i => v i * Real.sin (angleAt N 0))) =
      .ok ((fun i => ∑ j ∈ Finset.range M, 0.5 * 0.5 * ((Real.pi - 0.01 - 0.01) / (N : ℝ)) *
        (g (angleAt N j) i * Real.sin (angleAt N j) + g (angleAt N (j + 1)) i * Real.sin (angleAt N (j + 1)))),
        fun i => g (angleAt N M) i * Real.sin (angleAt N M)) := by
    intro M
    induction M with
    | zero =>
      intro _
      obtain ⟨h1, h2⟩ := angle_mem (N := N) (j := 0) hN (by omega)
      simp [h _ h1 h2]
    | succ M ih =>
      intro hM
      obtain ⟨h1, h2⟩ := angle_mem (N := N) (j := M + 1) hN hM
      rw [List.range_succ, List.foldl_append, ih (by omega)]
      simp only [List.foldl_cons, List.foldl_nil, bind_ok, h _ h1 h2, Finset.sum_range_succ]
  unfold sweep
  simp only
  rw [key N le_rfl]
  simp only [bind_ok]
  congr 1
  funext i
  unfold mean trapezoids
  rw [Finset.mul_sum]
  refine Finset.sum_congr rfl fun j _ => ?_
  rw [angleAt_eq, angleAt_eq]
  ring

theorem mean_congr {N : ℕ} (hN : 0 < N) {g g' : ℝ → ℝ} (h : ∀ θ, 0 < θ → θ < Real.pi → g θ = g' θ) : mean N g = mean N g' := by
  unfold mean trapezoids
  congr 1
  refine Finset.sum_congr rfl fun j hj => ?_
  have hj := Finset.mem_range.1 hj
  obtain ⟨a1, a2⟩ := angle_mem (N := N) (j := j) hN hj.le
  obtain ⟨b1, b2⟩ := angle_mem (N := N) (j := j + 1) hN hj
  rw [angleAt_eq] at a1 a2 b1 b2
  simp only [h _ a1 a2, h _ b1 b2]

theorem mean_mul (N : ℕ) (g : ℝ → ℝ) (c : ℝ) : mean N (fun θ => c * g θ) = c * mean N g := by
  unfold mean trapezoids
  simp only [Finset.mul_sum]
  exact Finset.sum_congr rfl fun j _ => by ring

theorem mean_zero (N : ℕ) : mean N (fun _ => 0) = 0 := by
  unfold mean trapezoids; simp

theorem mean_le {N : ℕ} (hN : 0 < N) {g g' : ℝ → ℝ} (h : ∀ θ, 0 < θ → θ < Real.pi → g θ ≤ g' θ) : mean N g ≤ mean N g' := by
  unfold mean trapezoids
  refine mul_le_mul_of_nonneg_left (Finset.sum_le_sum fun j hj => ?_) (by norm_num)
  have hj := Finset.mem_range.1 hj
  obtain ⟨a1, a2⟩ := angle_mem (N := N) (j := j) hN hj.le
  obtain ⟨b1, b2⟩ := angle_mem (N := N) (j := j + 1) hN hj
  rw [angleAt_eq] at a1 a2 b1 b2
  have s1 := (Real.sin_pos_of_pos_of_lt_pi a1 a2).le
  have s2 := (Real.sin_pos_of_pos_of_lt_pi b1 b2).le
  have p : (0 : ℝ) ≤ (Real.pi - 0.01 - 0.01) / N := div_nonneg (by linarith [Real.pi_gt_three]) (by positivity)
  have t1 := mul_le_mul_of_nonneg_right (h _ a1 a2) s1
  have t2 := mul_le_mul_of_nonneg_right (h _ b1 b2) s2
  exact mul_le_mul_of_nonneg_right (by linarith) p

/-- A coefficient that changes its sign with the direction has no mean. -/
theorem mean_odd {N : ℕ} (hN : 0 < N) {g : ℝ → ℝ} (h : ∀ θ, g (Real.pi - θ) = -g θ) : mean N g = 0 := by
  have pt : ∀ j, j ≤ N → point 0.01 (Real.pi - 0.01) N (N - j) = Real.pi - point 0.01 (Real.pi - 0.01) N j := by
    intro j hj
    unfold point
    have : (N : ℝ) ≠ 0 := by positivity
    push_cast [Nat.cast_sub hj]
    field_simp
    ring
  have val : ∀ j, j ≤ N → g (point 0.01 (Real.pi - 0.01) N (N - j)) * Real.sin (point 0.01 (Real.pi - 0.01) N (N - j)) =
      -(g (point 0.01 (Real.pi - 0.01) N j) * Real.sin (point 0.01 (Real.pi - 0.01) N j)) := by
    intro j hj
    rw [pt j hj, h, Real.sin_pi_sub]; ring
  have e : trapezoids (fun θ => g θ * Real.sin θ) 0.01 (Real.pi - 0.01) N = -trapezoids (fun θ => g θ * Real.sin θ) 0.01 (Real.pi - 0.01) N := by
    conv_lhs => unfold trapezoids
    rw [← Finset.sum_range_reflect, ← trapezoids_neg]
    unfold trapezoids
    refine Finset.sum_congr rfl fun j hj => ?_
    have hj := Finset.mem_range.1 hj
    have a := val j hj.le
    have b := val (j + 1) hj
    have e1 : N - 1 - j = N - (j + 1) := by omega
    have e2 : N - 1 - j + 1 = N - j := by omega
    simp only
    rw [e2, e1, a, b]
    ring
  unfold mean
  linarith

/-- Turns that give the same whatever the state. -/
theorem each_eq {σ β : Type} {f : σ → ℝ → Out (σ × β)} {P : σ → Prop} {g : ℝ → β} {A : ℝ → Prop}
    (h : ∀ s, P s → ∀ nu, A nu → ∃ s', P s' ∧ f s nu = .ok (s', g nu)) (s : σ) (hs : P s) (nus : List ℝ) (hn : ∀ nu ∈ nus, A nu) :
    ∃ s', P s' ∧ each f s nus = .ok (s', nus.map g) := by
  induction nus generalizing s with
  | nil => exact ⟨s, hs, rfl⟩
  | cons nu l ih =>
    obtain ⟨s1, h1, e1⟩ := h s hs nu (hn nu (by simp))
    obtain ⟨s2, h2, e2⟩ := ih s1 h1 fun x hx => hn x (by simp [hx])
    exact ⟨s2, h2, by simp [each, e1, e2]⟩

end Gyoto.Synch

namespace Gyoto.Synch

open Gyoto.Transfer (Out)
open Gyoto.SpectrumKinds (BlackBody)
open Gyoto.Plasma Gyoto.Spec

/-! ## Thermal synchrotron -/

/-- The black body follows the temperature. -/
def Thermal.InStep (s : Thermal) : Prop := s.bb = ⟨s.T, 2 * planckOverC2, 1 / s.T, 1, 1⟩

/-- The cube root of `xx`. -/
noncomputable def Thermal.y (s : Thermal) (nu : ℝ) : ℝ := (nu / (2 / 9 * s.nu0 * s.theta * s.theta * Real.sin s.angle)) ^ (1 / 3 : ℝ)

theorem halves {x : ℝ} (hx : 0 < x) (b : ℝ) :
    (x ^ (1 / 2 : ℝ) + b * x ^ (1 / 6 : ℝ)) ^ (2 : ℝ) = x ^ (1 / 3 : ℝ) * (x ^ (1 / 3 : ℝ) + b) ^ 2 := by
  have e1 : x ^ (1 / 2 : ℝ) = x ^ (1 / 6 : ℝ) * x ^ (1 / 3 : ℝ) := by rw [← Real.rpow_add hx]; norm_num
  have e2 : x ^ (1 / 3 : ℝ) = x ^ (1 / 6 : ℝ) * x ^ (1 / 6 : ℝ) := by rw [← Real.rpow_add hx]; norm_num
  rw [Real.rpow_two, e1]
  conv_rhs => rw [e2]
  conv_lhs => rw [e2]
  ring

/-- The values of the emission coefficients, from the cube root of `xx`. -/
noncomputable def jI (C y : ℝ) : ℝ := C * (Real.exp (-y) * (y * (y + (2 : ℝ) ^ (11 / 12 : ℝ)) ^ 2))

noncomputable def Thermal.lin (s : Thermal) : ℝ := s.front * (√2 * Real.pi / 27 * Real.sin s.angle)

/-- What the linear polarisation puts before the second term. -/
noncomputable def Thermal.w (s : Thermal) : ℝ := (7 * s.theta ^ (24 / 25 : ℝ) + 35) / (10 * s.theta ^ (24 / 25 : ℝ) + 75)

noncomputable def Thermal.jVal (s : Thermal) (nu : ℝ) : ℝ :=
  s.lin * (Real.exp (-s.y nu) * (s.y nu * (s.y nu + (2 : ℝ) ^ (11 / 12 : ℝ)) ^ 2))

noncomputable def Thermal.jQVal (s : Thermal) (nu : ℝ) : ℝ :=
  s.lin * (Real.exp (-s.y nu) * (s.y nu * (s.y nu + s.w * (2 : ℝ) ^ (11 / 12 : ℝ)) ^ 2))

noncomputable def Thermal.jVVal (s : Thermal) (nu : ℝ) : ℝ :=
  let x := nu / (2 / 9 * s.nu0 * s.theta * s.theta * Real.sin s.angle)
  s.front * (Real.exp (-s.y nu) * Real.cos s.angle / s.theta *
    (Real.pi / 3 + Real.pi / 3 * s.y nu + 2 / 300 * √x + 2 * Real.pi / 19 * x ^ (2 / 3 : ℝ)))

/-- Where the coefficients are defined. -/
structure Thermal.Lit (s : Thermal) (nu : ℝ) : Prop where
  theta : 0 < s.theta
  nu0 : 0 < s.nu0
  low : 0 < s.angle
  high : s.angle < Real.pi
  nu : 0 < nu

theorem Thermal.Lit.sin {s : Thermal} {nu : ℝ} (h : s.Lit nu) : 0 < Real.sin s.angle := Real.sin_pos_of_pos_of_lt_pi h.low h.high

theorem Thermal.Lit.nus {s : Thermal} {nu : ℝ} (h : s.Lit nu) : 0 < 2 / 9 * s.nu0 * s.theta * s.theta * Real.sin s.angle := by
  have := h.sin; have := h.theta; have := h.nu0; positivity

theorem Thermal.Lit.xpos {s : Thermal} {nu : ℝ} (h : s.Lit nu) : 0 < nu / (2 / 9 * s.nu0 * s.theta * s.theta * Real.sin s.angle) :=
  div_pos h.nu h.nus

theorem Thermal.Lit.ypos {s : Thermal} {nu : ℝ} (h : s.Lit nu) : 0 < s.y nu := Real.rpow_pos_of_pos h.xpos _

theorem Thermal.Lit.xx {s : Thermal} {nu : ℝ} (h : s.Lit nu) :
    s.xx nu = .ok (nu / (2 / 9 * s.nu0 * s.theta * s.theta * Real.sin s.angle)) := by
  unfold Thermal.xx
  rw [if_neg h.nus.ne', if_neg (not_lt.2 h.xpos.le)]

theorem Thermal.Lit.j {s : Thermal} {nu : ℝ} (h : s.Lit nu) : s.j nu = .ok (s.jVal nu) := by
  unfold Thermal.j Thermal.jVal Thermal.lin Thermal.y
  rw [h.xx, bind_ok, halves h.xpos]
  congr 1
  ring

theorem Thermal.Lit.jQ {s : Thermal} {nu : ℝ} (h : s.Lit nu) : s.jQ nu = .ok (s.jQVal nu) := by
  unfold Thermal.jQ Thermal.jQVal Thermal.lin Thermal.y Thermal.w
  rw [h.xx, bind_ok, halves h.xpos]
  congr 1
  ring

theorem Thermal.Lit.jV {s : Thermal} {nu : ℝ} (h : s.Lit nu) : s.jV nu = .ok (s.jVVal nu) := by
  unfold Thermal.jV Thermal.jVVal Thermal.y
  rw [h.xx, bind_ok]

theorem Thermal.w_mem {s : Thermal} (h : 0 < s.theta) : 0 < s.w ∧ s.w < 1 := by
  have : 0 < s.theta ^ (24 / 25 : ℝ) := Real.rpow_pos_of_pos h _
  unfold Thermal.w
  constructor
  · positivity
  · rw [div_lt_one (by positivity)]; linarith

theorem theta_eq (T : ℝ) (s : Thermal) (h : 0 < s.theta) : 0 < s.T := by
  unfold Thermal.theta boltzmannCGS electronMassCGS c2CGS at h
  by_contra hT
  push Not at hT
  have : s.T * 1.3806504e-16 / (9.10938188e-28 * 8.98755178736817668096e20) ≤ 0 :=
    div_nonpos_of_nonpos_of_nonneg (by nlinarith) (by norm_num)
  linarith

theorem temp_pos {s : Thermal} (h : 0 < s.theta) : 0 < s.T := theta_eq 0 s h

/-- The black body of the object is Planck's law at its temperature. -/
theorem bb_eval {b : BlackBody} {T : ℝ} (hb : b = ⟨T, 2 * planckOverC2, 1 / T, 1, 1⟩) (hT : 0 < T) {nu : ℝ} (hn : 0 < nu) :
    b.eval planckOverBoltzmann nu = some (planck (2 * planckOverC2) planckOverBoltzmann T nu) ∧
      0 < planck (2 * planckOverC2) planckOverBoltzmann T nu := by
  have h0 : 0 < planckOverBoltzmann * nu / T := by unfold planckOverBoltzmann; positivity
  have h1 : 1 < Real.exp (planckOverBoltzmann * nu / T) := Real.one_lt_exp_iff.2 h0
  have e : planckOverBoltzmann * nu * (1 / T) = planckOverBoltzmann * nu / T := by ring
  constructor
  · subst hb
    unfold BlackBody.eval planck
    simp only [e]
    rw [if_neg (by linarith)]
    congr 1
    ring
  · unfold planck
    have : 0 < planckOverC2 := by unfold planckOverC2; norm_num
    have : 0 < Real.exp (planckOverBoltzmann * nu / T) - 1 := by linarith
    positivity

/-- The absorption coefficient for an emission coefficient. -/
theorem alpha_eq {s : Thermal} (hs : s.InStep) (h : 0 < s.theta) {nu : ℝ} (hn : 0 < nu) (j : ℝ) :
    s.alpha nu j = .ok (j / (planck (2 * planckOverC2) planckOverBoltzmann s.T nu / inuToSI)) := by
  obtain ⟨e, p⟩ := bb_eval hs (temp_pos h) hn
  have : planck (2 * planckOverC2) planckOverBoltzmann s.T nu / inuToSI ≠ 0 := by
    unfold inuToSI; exact div_ne_zero p.ne' (by norm_num)
  unfold Thermal.alpha
  rw [e]
  simp only
  rw [if_neg this]

/-- The values of the rotation coefficients. -/
noncomputable def Thermal.rQVal (b : Bessel) (s : Thermal) (nu : ℝ) : ℝ := match s.rQ b nu with | .ok v => v | _ => 0

noncomputable def Thermal.rVVal (b : Bessel) (s : Thermal) (nu : ℝ) : ℝ :=
  let x := nu / (2 / 9 * s.nu0 * s.theta * s.theta * Real.sin s.angle)
  2 * s.n * chargeCGS ^ (2 : ℝ) * s.nu0 / (electronMassCGS * cCGS * nu ^ (2 : ℝ)) *
        (b.k0 (1 / s.theta) - 0.4379 * Real.log (1 + 1.3414 * x ^ (-0.7515 : ℝ))) / b.k2 (1 / s.theta) * Real.cos s.angle

theorem Thermal.Lit.rQ {s : Thermal} {nu : ℝ} (h : s.Lit nu) {b : Bessel} (hb : b.k2 (1 / s.theta) ≠ 0) : s.rQ b nu = .ok (s.rQVal b nu) := by
  have : ∃ v, s.rQ b nu = .ok v := by
    unfold Thermal.rQ
    rw [h.xx, bind_ok, if_neg h.xpos.ne', if_neg hb]
    exact ⟨_, rfl⟩
  obtain ⟨v, e⟩ := this
  unfold Thermal.rQVal
  rw [e]

theorem Thermal.Lit.rV {s : Thermal} {nu : ℝ} (h : s.Lit nu) {b : Bessel} (hb : b.k2 (1 / s.theta) ≠ 0) : s.rV b nu = .ok (s.rVVal b nu) := by
  unfold Thermal.rV Thermal.rVVal
  rw [h.xx, bind_ok, if_neg h.xpos.ne', if_neg hb]

/-- The eleven values. -/
noncomputable def Thermal.vals (b : Bessel) (s : Thermal) (nu : ℝ) : Fin 11 → ℝ :=
  let B := planck (2 * planckOverC2) planckOverBoltzmann s.T nu / inuToSI
  ![s.jVal nu, s.jQVal nu, 0, s.jVVal nu, s.jVal nu / B, s.jQVal nu / B, 0, s.jVVal nu / B, s.rQVal b nu, 0, s.rVVal b nu]

theorem Thermal.Lit.coefs {s : Thermal} {nu : ℝ} (h : s.Lit nu) (hs : s.InStep) {b : Bessel} (hb : b.k2 (1 / s.theta) ≠ 0) :
    s.coefs b nu = .ok (s.vals b nu) := by
  unfold Thermal.coefs Thermal.vals
  simp only [h.j, h.jQ, h.jV, h.rQ hb, h.rV hb, alpha_eq hs h.theta h.nu, bind_ok, zero_div]

theorem vals_zero (b : Bessel) (s : Thermal) (nu : ℝ) : s.vals b nu 0 = s.jVal nu := rfl

theorem vals_four (b : Bessel) (s : Thermal) (nu : ℝ) :
    s.vals b nu 4 = s.jVal nu / (planck (2 * planckOverC2) planckOverBoltzmann s.T nu / inuToSI) := rfl

theorem toSI_j (v : Fin 11 → ℝ) {i : Fin 11} (h : i.1 < 4) : toSI v i = v i * jnuToSI := if_pos h

theorem toSI_a (v : Fin 11 → ℝ) {i : Fin 11} (h : ¬i.1 < 4) : toSI v i = v i * anuToSI := if_neg h

/-- The same object at another angle. -/
def Thermal.at (s : Thermal) (θ : ℝ) : Thermal := { s with angle := θ }

/-- Where the object can be asked: hot, in a field, and looked at across it unless it averages. -/
structure Thermal.Ready (s : Thermal) : Prop where
  step : s.InStep
  hot : 0.01 ≤ s.theta
  nu0 : 0 < s.nu0
  view : s.averaged = false → 0 < s.angle ∧ s.angle < Real.pi

theorem Thermal.Ready.theta_pos {s : Thermal} (h : s.Ready) : 0 < s.theta := lt_of_lt_of_le (by norm_num) h.hot

theorem Thermal.Ready.at_lit {s : Thermal} (h : s.Ready) {θ nu : ℝ} (h1 : 0 < θ) (h2 : θ < Real.pi) (hn : 0 < nu) : (s.at θ).Lit nu :=
  ⟨h.theta_pos, h.nu0, h1, h2, hn⟩

theorem Thermal.Ready.lit {s : Thermal} (h : s.Ready) (ha : s.averaged = false) {nu : ℝ} (hn : 0 < nu) : s.Lit nu :=
  ⟨h.theta_pos, h.nu0, (h.view ha).1, (h.view ha).2, hn⟩

/-- What one turn gives. -/
noncomputable def Thermal.outs (b : Bessel) (s : Thermal) (nu : ℝ) : Fin 11 → ℝ :=
  if s.averaged = false then toSI (s.vals b nu) else toSI fun i => mean 100 fun θ => (s.at θ).vals b nu i

theorem Thermal.Ready.passP {s : Thermal} (h : s.Ready) {b : Bessel} (hb : b.k2 (1 / s.theta) ≠ 0) {nu : ℝ} (hn : 0 < nu) :
    s.passP b nu = .ok (if s.averaged = false then s else s.at (Real.pi - 0.01), s.outs b nu) := by
  unfold Thermal.passP Thermal.outs
  by_cases ha : s.averaged = false
  · simp only [if_pos ha, (h.lit ha hn).coefs h.step hb, bind_ok]
  · simp only [if_neg ha]
    have hsw : sweep 100 (fun th => ({ s with angle := th } : Thermal).coefs b nu) = .ok fun i => mean 100 fun θ => (s.at θ).vals b nu i :=
      sweep_eq (by norm_num) (fun θ h1 h2 => (h.at_lit h1 h2 hn).coefs (by exact h.step) (by exact hb))
    rw [hsw]
    simp only [bind_ok, angleAt_last (show 0 < 100 by norm_num)]
    rfl

theorem Thermal.Ready.pass {s : Thermal} (h : s.Ready) (b : Bessel) {nu : ℝ} (hn : 0 < nu) :
    s.pass nu = .ok (if s.averaged = false then s else s.at (Real.pi - 0.01), s.outs b nu 0, s.outs b nu 4) := by
  obtain ⟨e, p⟩ := bb_eval h.step (temp_pos h.theta_pos) hn
  have p' := p.ne'
  unfold Thermal.pass Thermal.outs
  rw [e]
  simp only
  by_cases ha : s.averaged = false
  · simp only [if_pos ha, (h.lit ha hn).j, bind_ok]
    rw [if_neg p']
    rw [toSI_j _ (by decide), toSI_a _ (by decide), vals_zero, vals_four]
    congr 3
    unfold jnuToSI anuToSI inuToSI
    field_simp
  · simp only [if_neg ha]
    rw [sweep_eq (g := fun θ => ![(s.at θ).jVal nu]) (by norm_num) (fun θ h1 h2 => by
      have := (h.at_lit h1 h2 hn).j
      unfold Thermal.at at this ⊢
      rw [this, bind_ok])]
    simp only [bind_ok, angleAt_last (show 0 < 100 by norm_num)]
    rw [if_neg p']
    have m : mean 100 (fun θ => (s.at θ).vals b nu 4) =
        inuToSI / planck (2 * planckOverC2) planckOverBoltzmann s.T nu * mean 100 (fun θ => (s.at θ).vals b nu 0) := by
      rw [← mean_mul]
      apply mean_congr (by norm_num)
      intro θ h1 h2
      simp only [vals_zero, vals_four]
      have : (s.at θ).T = s.T := rfl
      rw [this]
      unfold inuToSI
      field_simp
    rw [toSI_j _ (by decide), toSI_a _ (by decide), m]
    simp only [vals_zero]
    have : ∀ θ, ![(s.at θ).jVal nu] (0 : Fin 1) = (s.at θ).jVal nu := fun _ => rfl
    simp only [this]
    unfold Thermal.at
    congr 3
    unfold jnuToSI anuToSI
    field_simp

end Gyoto.Synch
