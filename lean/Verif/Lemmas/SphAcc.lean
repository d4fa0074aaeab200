import Verif.Lemmas.Synch
import Verif.Model.SphAcc
import Verif.Lemmas.Circular
import Verif.Spec.Plunge
import Mathlib.Analysis.SpecialFunctions.Sqrt
import Mathlib.Analysis.Calculus.Deriv.Pi
import Mathlib.Topology.Instances.Real.Lemmas
import Mathlib.Tactic.FieldSimp
import Mathlib.Tactic.Positivity
import Mathlib.Tactic.Linarith

/-! # Lemmas on radial infall in circular metrics -/

namespace Gyoto.SphAcc

open Gyoto.MetricAlg Gyoto.KerrBL Gyoto.Spacetime
open Gyoto.Transfer (Out)
open Filter Topology

/-- The velocity of the flow. -/
noncomputable def flow (up : Tensor) : Vec := ![-up 0 0, -√((-1 - up 0 0) * up 1 1), 0, -up 0 3]

theorem sp_circ (tt rr hh pp tp : ℝ) (u : Vec) : sp (circ tt rr hh pp tp) u u =
    tt * u 0 ^ 2 + rr * u 1 ^ 2 + hh * u 2 ^ 2 + pp * u 3 ^ 2 + 2 * tp * u 0 * u 3 := by
  rw [← scalarProd_eq]
  unfold scalarProd
  simp only [Fin.sum_univ_four, circ00, circ01, circ02, circ03, circ10, circ11, circ12, circ13, circ20, circ21, circ22, circ23, circ30, circ31,
    circ32, circ33]
  ring

theorem lower_circ (tt rr hh pp tp : ℝ) (u : Vec) : lower (circ tt rr hh pp tp) u 0 = tt * u 0 + tp * u 3 ∧
    lower (circ tt rr hh pp tp) u 1 = rr * u 1 ∧ lower (circ tt rr hh pp tp) u 2 = hh * u 2 ∧
    lower (circ tt rr hh pp tp) u 3 = tp * u 0 + pp * u 3 := by
  unfold lower
  simp only [Fin.sum_univ_four, circ00, circ01, circ02, circ03, circ10, circ11, circ12, circ13, circ20, circ21, circ22, circ23, circ30, circ31,
    circ32, circ33]
  refine ⟨?_, ?_, ?_, ?_⟩ <;> ring

/-- What is used of the inverse. -/
structure Inv (tt rr pp tp : ℝ) (up : Tensor) : Prop where
  t : up 0 0 * tt + up 0 3 * tp = 1
  p : up 0 0 * tp + up 0 3 * pp = 0
  r : up 1 1 * rr = 1

theorem inv_of_mul {tt rr hh pp tp : ℝ} {up : Tensor} (h : up * circ tt rr hh pp tp = 1) :
    Inv tt rr pp tp up ∧ tt * pp - tp ^ 2 ≠ 0 := by
  have e : ∀ i j, ∑ k, up i k * circ tt rr hh pp tp k j = if i = j then 1 else 0 := fun i j => by
    have := congrFun (congrFun h i) j
    rw [Matrix.mul_apply, Matrix.one_apply] at this
    exact this
  have e00 := e 0 0
  have e03 := e 0 3
  have e11 := e 1 1
  have e30 := e 3 0
  have e33 := e 3 3
  simp [Fin.sum_univ_four] at e00 e03 e11 e30 e33
  refine ⟨⟨e00, e03, e11⟩, fun h0 => ?_⟩
  have : (up 0 0 * up 3 3 - up 0 3 * up 3 0) * (tt * pp - tp ^ 2) = 1 := by
    linear_combination (up 3 0 * tp + up 3 3 * pp) * e00 - (up 3 0 * tt + up 3 3 * tp) * e03 + e33
  rw [h0, mul_zero] at this
  exact zero_ne_one this

theorem flow_unit {tt rr hh pp tp : ℝ} {up : Tensor} (h : Inv tt rr pp tp up) (hq : 0 ≤ (-1 - up 0 0) * up 1 1) :
    getVelocity (circ tt rr hh pp tp) up = .ok (flow up) ∧ sp (circ tt rr hh pp tp) (flow up) (flow up) = -1 ∧
      lower (circ tt rr hh pp tp) (flow up) 0 = -1 ∧ lower (circ tt rr hh pp tp) (flow up) 3 = 0 := by
  have v0 : flow up 0 = -up 0 0 := rfl
  have v1 : flow up 1 = -√((-1 - up 0 0) * up 1 1) := rfl
  have v2 : flow up 2 = 0 := rfl
  have v3 : flow up 3 = -up 0 3 := rfl
  have hunit : sp (circ tt rr hh pp tp) (flow up) (flow up) = -1 := by
    rw [sp_circ, v0, v1, v2, v3, neg_sq, neg_sq, neg_sq, Real.sq_sqrt hq]
    linear_combination up 0 0 * h.t + up 0 3 * h.p + (-1 - up 0 0) * h.r
  obtain ⟨l0, -, -, l3⟩ := lower_circ tt rr hh pp tp (flow up)
  refine ⟨?_, hunit, ?_, ?_⟩
  · unfold getVelocity
    simp only
    rw [if_neg (not_lt.2 hq), if_neg]
    · rfl
    · have : scalarProd (circ tt rr hh pp tp) (flow up) (flow up) = -1 := by rw [scalarProd_eq, hunit]
      unfold flow at this
      rw [this]
      norm_num
  · rw [l0, v0, v3]; linear_combination -h.t
  · rw [l3, v0, v3]; linear_combination -h.p

theorem flow_facts {tt rr hh pp tp : ℝ} {up : Tensor} (h : Inv tt rr pp tp up) (hr : 0 < rr) (hw : 0 ≤ (-1 - up 0 0) * rr) :
    getVelocity (circ tt rr hh pp tp) up = .ok (flow up) ∧ IsObserver (circ tt rr hh pp tp) (flow up) ∧
      lower (circ tt rr hh pp tp) (flow up) 0 = -1 ∧ lower (circ tt rr hh pp tp) (flow up) 1 = -√((-1 - up 0 0) * rr) ∧
      lower (circ tt rr hh pp tp) (flow up) 2 = 0 ∧ lower (circ tt rr hh pp tp) (flow up) 3 = 0 := by
  have hu : up 1 1 = 1 / rr := by field_simp; linear_combination h.r
  have ha : 0 ≤ -1 - up 0 0 := by
    by_contra hc
    push Not at hc
    nlinarith
  have hq : 0 ≤ (-1 - up 0 0) * up 1 1 := by rw [hu]; positivity
  obtain ⟨a1, a2, a3, a4⟩ := flow_unit (hh := hh) h hq
  have v0 : flow up 0 = -up 0 0 := rfl
  have v1 : flow up 1 = -√((-1 - up 0 0) * up 1 1) := rfl
  obtain ⟨-, l1, l2, -⟩ := lower_circ tt rr hh pp tp (flow up)
  refine ⟨a1, ⟨?_, a2⟩, a3, ?_, ?_, a4⟩
  · rw [v0]; linarith
  · rw [l1, v1]
    have e : (-1 - up 0 0) * rr = ((-1 - up 0 0) * up 1 1) * rr ^ 2 := by
      linear_combination (-(-1 - up 0 0) * rr) * h.r
    rw [e, Real.sqrt_mul hq, Real.sqrt_sq hr.le]
    ring
  · rw [l2]; exact mul_zero _

theorem update_tendsto (pos : Vec) (μ : Fin 4) : Tendsto (fun x => Function.update pos μ x) (𝓝 (pos μ)) (𝓝 pos) := by
  have h : Continuous fun x : ℝ => Function.update pos μ x := continuous_const.update μ continuous_id
  have := h.tendsto (pos μ)
  rwa [Function.update_eq_self] at this

theorem line_tendsto (pos v : Vec) : Tendsto (fun s : ℝ => pos + s • v) (𝓝 0) (𝓝 pos) := by
  have h : Continuous fun s : ℝ => pos + s • v := continuous_const.add (continuous_id.smul continuous_const)
  have := h.tendsto 0
  simpa using this

/-- The gas falls freely when the radial momentum depends on the radius only. -/
theorem falls_of_radial {g up : Vec → Tensor} {tt rr hh pp tp : Vec → ℝ} {W : ℝ → ℝ} {D : Fin 4 → Tensor} {pos : Vec}
    (hg : ∀ q, g q = circ (tt q) (rr q) (hh q) (pp q) (tp q)) (hD : IsPartial g pos D)
    (near : ∀ᶠ q in 𝓝 pos, up q * g q = 1 ∧ 0 < rr q ∧ (-1 - up q 0 0) * rr q = W (q 1)) (hW : 0 < W (pos 1)) :
    FallsFreely g (fun q => flow (up q)) pos := by
  refine ⟨D, hD, ?_⟩
  obtain ⟨u0, hr0, w0⟩ := near.self_of_nhds
  rw [hg] at u0
  obtain ⟨i0, d0⟩ := inv_of_mul u0
  -- components of the metric
  have dt : ∀ μ, HasDerivAt (fun x => tt (Function.update pos μ x)) (D μ 0 0) (pos μ) := fun μ => by
    have := hD μ 0 0; simp only [hg, circ00] at this; exact this
  have dr : ∀ μ, HasDerivAt (fun x => rr (Function.update pos μ x)) (D μ 1 1) (pos μ) := fun μ => by
    have := hD μ 1 1; simp only [hg, circ11] at this; exact this
  have dp : ∀ μ, HasDerivAt (fun x => pp (Function.update pos μ x)) (D μ 3 3) (pos μ) := fun μ => by
    have := hD μ 3 3; simp only [hg, circ33] at this; exact this
  have dx : ∀ μ, HasDerivAt (fun x => tp (Function.update pos μ x)) (D μ 0 3) (pos μ) := fun μ => by
    have := hD μ 0 3; simp only [hg, circ03] at this; exact this
  have zero : ∀ μ α β, (∀ q, g q α β = 0) → D μ α β = 0 := fun μ α β h => by
    have := hD μ α β
    simp only [h] at this
    exact this.unique (hasDerivAt_const _ _)
  have sym : ∀ μ, D μ 3 0 = D μ 0 3 := fun μ => by
    have := hD μ 3 0
    simp only [hg, circ30] at this
    exact this.unique (dx μ)
  -- the inverse
  have hA : ∀ q, up q * g q = 1 → up q 0 0 = pp q / (tt q * pp q - tp q ^ 2) := fun q h => by
    rw [hg] at h
    obtain ⟨i, d⟩ := inv_of_mul h
    rw [eq_div_iff d]
    linear_combination pp q * i.t - tp q * i.p
  have hA0 := hA pos (by rw [hg]; exact u0)
  have hB0 : up pos 0 3 = -tp pos / (tt pos * pp pos - tp pos ^ 2) := by
    rw [eq_div_iff d0]
    linear_combination -tp pos * i0.t + tt pos * i0.p
  -- the product
  have hprod : ∀ μ, HasDerivAt (fun x => W (Function.update pos μ x 1))
      ((D μ 0 0 * up pos 0 0 ^ 2 + 2 * D μ 0 3 * up pos 0 0 * up pos 0 3 + D μ 3 3 * up pos 0 3 ^ 2) * rr pos + (-1 - up pos 0 0) * D μ 1 1)
      (pos μ) := fun μ => by
    have e0 : ∀ f : Vec → ℝ, f (Function.update pos μ (pos μ)) = f pos := fun f => by rw [Function.update_eq_self]
    have hdet := ((dt μ).mul (dp μ)).sub ((dx μ).pow 2)
    have hdiv := (dp μ).div hdet (by simp only [Pi.mul_apply, Pi.pow_apply, Pi.sub_apply]; rw [e0 tt, e0 pp, e0 tp]; exact d0)
    have hfin := (hdiv.const_sub (-1)).mul (dr μ)
    refine (hfin.congr_of_eventuallyEq ?_).congr_deriv ?_
    · filter_upwards [(update_tendsto pos μ).eventually near] with x hx
      rw [← hx.2.2, hA _ hx.1]
      rfl
    · simp only [Pi.mul_apply, Pi.pow_apply, Pi.sub_apply, Pi.div_apply]
      rw [e0 tt, e0 pp, e0 tp, e0 rr, hA0, hB0]
      generalize tt pos = T at *
      generalize pp pos = P at *
      generalize tp pos = X at *
      generalize rr pos = R at *
      field_simp
      ring
  have V0 : flow (up pos) 0 = -up pos 0 0 := rfl
  have V1 : flow (up pos) 1 = -√((-1 - up pos 0 0) * up pos 1 1) := rfl
  have V2 : flow (up pos) 2 = 0 := rfl
  have V3 : flow (up pos) 3 = -up pos 0 3 := rfl
  have hu : up pos 1 1 = 1 / rr pos := by field_simp; linear_combination i0.r
  have hq0 : (-1 - up pos 0 0) * up pos 1 1 = W (pos 1) / rr pos ^ 2 := by
    rw [← w0, hu]; field_simp
  have hq : 0 ≤ (-1 - up pos 0 0) * up pos 1 1 := by rw [hq0]; positivity
  have hsum : ∀ α, ∑ μ, ∑ ν, D α μ ν * flow (up pos) μ * flow (up pos) ν =
      ((D α 0 0 * up pos 0 0 ^ 2 + 2 * D α 0 3 * up pos 0 0 * up pos 0 3 + D α 3 3 * up pos 0 3 ^ 2) * rr pos + (-1 - up pos 0 0) * D α 1 1) / rr pos := by
    intro α
    have z : ∀ i j, (∀ q, g q i j = 0) → D α i j = 0 := zero α
    simp only [Fin.sum_univ_four, V0, V2, V3, sym α]
    rw [z 0 1 (fun q => by rw [hg]; rfl), z 1 0 (fun q => by rw [hg]; rfl), z 1 3 (fun q => by rw [hg]; rfl), z 3 1 (fun q => by rw [hg]; rfl)]
    have hs : flow (up pos) 1 * flow (up pos) 1 = (-1 - up pos 0 0) / rr pos := by
      rw [V1, neg_mul_neg, Real.mul_self_sqrt hq, hu]; ring
    rw [mul_assoc (D α 1 1), hs]
    field_simp
    ring
  -- the derivative of the radial momentum
  have hW1 : HasDerivAt W ((∑ μ, ∑ ν, D 1 μ ν * flow (up pos) μ * flow (up pos) ν) * rr pos) (pos 1) := by
    have := hprod 1
    simp only [Function.update_self] at this
    refine this.congr_deriv ?_
    rw [hsum 1]
    field_simp
  have hother : ∀ μ, μ ≠ 1 → ∑ ν, ∑ κ, D μ ν κ * flow (up pos) ν * flow (up pos) κ = 0 := fun μ hμ => by
    have := hprod μ
    have e : (fun x => W (Function.update pos μ x 1)) = fun _ => W (pos 1) := by
      funext x
      rw [Function.update_of_ne (Ne.symm hμ)]
    rw [e] at this
    have hz := this.unique (hasDerivAt_const _ _)
    rw [hsum μ, hz, zero_div]
  -- the momentum along the flow
  have along : ∀ᶠ s in 𝓝 (0 : ℝ), lower (g (pos + s • flow (up pos))) (flow (up (pos + s • flow (up pos)))) 0 = -1 ∧
      lower (g (pos + s • flow (up pos))) (flow (up (pos + s • flow (up pos)))) 1 = -√(W (pos 1 + s * flow (up pos) 1)) ∧
      lower (g (pos + s • flow (up pos))) (flow (up (pos + s • flow (up pos)))) 2 = 0 ∧
      lower (g (pos + s • flow (up pos))) (flow (up (pos + s • flow (up pos)))) 3 = 0 := by
    have hWpos : ∀ᶠ s in 𝓝 (0 : ℝ), 0 < W (pos 1 + s * flow (up pos) 1) := by
      have hc : ContinuousAt W (pos 1) := hW1.continuousAt
      have hl : Tendsto (fun s : ℝ => pos 1 + s * flow (up pos) 1) (𝓝 0) (𝓝 (pos 1)) := by
        have : Continuous fun s : ℝ => pos 1 + s * flow (up pos) 1 := by fun_prop
        simpa using this.tendsto 0
      exact (hc.tendsto.comp hl).eventually (lt_mem_nhds hW)
    filter_upwards [(line_tendsto pos (flow (up pos))).eventually near, hWpos] with s hs hp
    obtain ⟨a1, a2, a3⟩ := hs
    have e1 : (pos + s • flow (up pos)) 1 = pos 1 + s * flow (up pos) 1 := rfl
    rw [e1] at a3
    rw [hg] at a1
    obtain ⟨i, -⟩ := inv_of_mul a1
    rw [hg]
    obtain ⟨-, -, b0, b1, b2, b3⟩ := flow_facts (hh := hh (pos + s • flow (up pos))) i a2 (by rw [a3]; exact hp.le)
    exact ⟨b0, by rw [b1, a3], b2, b3⟩
  intro α
  match α with
  | 0 =>
    rw [hother 0 (by decide), zero_div]
    refine (hasDerivAt_const (0 : ℝ) (-1 : ℝ)).congr_of_eventuallyEq ?_
    filter_upwards [along] with s hs using hs.1
  | 2 =>
    rw [hother 2 (by decide), zero_div]
    refine (hasDerivAt_const (0 : ℝ) (0 : ℝ)).congr_of_eventuallyEq ?_
    filter_upwards [along] with s hs using hs.2.2.1
  | 3 =>
    rw [hother 3 (by decide), zero_div]
    refine (hasDerivAt_const (0 : ℝ) (0 : ℝ)).congr_of_eventuallyEq ?_
    filter_upwards [along] with s hs using hs.2.2.2
  | 1 =>
    obtain ⟨S, hS⟩ : ∃ S, S = ∑ μ, ∑ ν, D 1 μ ν * flow (up pos) μ * flow (up pos) ν := ⟨_, rfl⟩
    rw [← hS] at hW1 ⊢
    have hl : HasDerivAt (fun s : ℝ => pos 1 + s * flow (up pos) 1) (flow (up pos) 1) 0 := by
      simpa using ((hasDerivAt_id (0 : ℝ)).mul_const (flow (up pos) 1)).const_add (pos 1)
    have hc : HasDerivAt (fun s : ℝ => W (pos 1 + s * flow (up pos) 1)) (S * rr pos * flow (up pos) 1) 0 := by
      refine HasDerivAt.comp (h₂ := W) (0 : ℝ) ?_ hl
      simpa using hW1
    have hs := (hc.sqrt (by simpa using hW.ne')).neg
    refine (hs.congr_of_eventuallyEq ?_).congr_deriv ?_
    · filter_upwards [along] with s hs using hs.2.1
    · have hsq : √(W (pos 1)) ≠ 0 := (Real.sqrt_pos.2 hW).ne'
      rw [V1, hq0, Real.sqrt_div hW.le, Real.sqrt_sq hr0.le]
      simp only [zero_mul, add_zero]
      field_simp

/-! ## The spectrum -/

open Gyoto.Plasma Gyoto.Synch

theorem planck_pos {T nu : ℝ} (hT : 0 < T) (hn : 0 < nu) : 0 < planck (2 * planckOverC2) planckOverBoltzmann T nu :=
  (bb_eval (b := ⟨T, 2 * planckOverC2, 1 / T, 1, 1⟩) rfl hT hn).2

theorem bind_inv {α β : Type} {x : Out α} {f : α → Out β} {b : β} (e : Synch.bind x f = .ok b) : ∃ a, x = .ok a ∧ f a = .ok b := by
  rcases x with a | _ | _
  · exact ⟨a, rfl, e⟩
  · cases e
  · cases e

theorem run_inStep {u : Thermal} (h : u.InStep) (l : List ThermalCall) : (u.run l).InStep := by
  induction l generalizing u with
  | nil => exact h
  | cons c cs ih =>
    refine ih ?_
    unfold Thermal.InStep at *
    cases c <;> simp [Thermal.call, h, Gyoto.SpectrumKinds.BlackBody.call]

theorem pass_inStep {u t : Thermal} {nu j a : ℝ} (h : u.InStep) (e : u.pass nu = .ok (t, j, a)) : t.InStep := by
  unfold Thermal.pass at e
  rcases e1 : u.bb.eval planckOverBoltzmann nu with _ | B
  · rw [e1] at e; cases e
  · rw [e1] at e
    simp only at e
    have fin : ∀ {v : Thermal} {x : ℝ}, v.InStep → (if B = 0 then if x = 0 then Out.ok (v, x * jnuToSI, (0 : ℝ)) else .throws
        else .ok (v, x * jnuToSI, x * jnuToSI / B)) = .ok (t, j, a) → t.InStep := by
      intro v x hv e
      split_ifs at e
      · simp only [Out.ok.injEq, Prod.mk.injEq] at e; rw [← e.1]; exact hv
      · simp only [Out.ok.injEq, Prod.mk.injEq] at e; rw [← e.1]; exact hv
    by_cases ha : u.averaged = false
    · rw [if_pos ha] at e
      rcases e2 : u.j nu with x | _ | _
      · rw [e2] at e; exact fin h e
      · rw [e2] at e; cases e
      · rw [e2] at e; cases e
    · rw [if_neg ha] at e
      rcases e2 : (sweep (ι := Fin 1) 100 fun th => Synch.bind (({ u with angle := th } : Thermal).j nu) fun j => .ok ![j]) with x | _ | _
      · rw [e2] at e; exact fin (v := { u with angle := angleAt 100 100 }) h e
      · rw [e2] at e; cases e
      · rw [e2] at e; cases e

theorem radiativeQ_inStep {u t : Thermal} {nus : List ℝ} {l : List (ℝ × ℝ)} (h : u.InStep) (e : u.radiativeQ nus = .ok (t, l)) : t.InStep := by
  unfold Thermal.radiativeQ at e
  split_ifs at e with hc
  · simp only [Out.ok.injEq, Prod.mk.injEq] at e
    rw [← e.1]; exact h
  · clear hc
    induction nus generalizing u l with
    | nil => simp only [each, Out.ok.injEq, Prod.mk.injEq] at e; rw [← e.1]; exact h
    | cons nu nus ih =>
      rcases e1 : u.pass nu with ⟨v, j, a⟩ | _ | _
      · rw [each, e1] at e
        simp only [bind_ok] at e
        rcases e2 : each Thermal.pass v nus with ⟨w, k⟩ | _ | _
        · have : w = t := by rw [e2] at e; simp only [bind_ok, Out.ok.injEq, Prod.mk.injEq] at e; exact e.1
          subst this
          exact ih (pass_inStep h e1) e2
        · rw [e2] at e; cases e
        · rw [e2] at e; cases e
      · rw [each, e1] at e; cases e
      · rw [each, e1] at e; cases e

theorem mean_pos {N : ℕ} (hN : 0 < N) {g : ℝ → ℝ} (h : ∀ θ, 0 < θ → θ < Real.pi → 0 < g θ) : 0 < mean N g := by
  unfold mean Gyoto.Spec.trapezoids
  refine mul_pos (by norm_num) (Finset.sum_pos (fun j hj => ?_) ⟨0, by simpa using hN⟩)
  have hj := Finset.mem_range.1 hj
  obtain ⟨a1, a2⟩ := angle_mem (N := N) (j := j) hN hj.le
  obtain ⟨b1, b2⟩ := angle_mem (N := N) (j := j + 1) hN hj
  rw [angleAt_eq] at a1 a2 b1 b2
  have s1 := mul_pos (h _ a1 a2) (Real.sin_pos_of_pos_of_lt_pi a1 a2)
  have s2 := mul_pos (h _ b1 b2) (Real.sin_pos_of_pos_of_lt_pi b1 b2)
  have p : (0 : ℝ) < (Real.pi - 0.01 - 0.01) / N := div_pos (by linarith [Real.pi_gt_three]) (by positivity)
  exact mul_pos (by linarith) p

theorem outs_kirchhoff {u : Thermal} (h : u.Ready) {nu : ℝ} (hn : 0 < nu) (b : Bessel) :
    u.outs b nu 4 * planck (2 * planckOverC2) planckOverBoltzmann u.T nu = u.outs b nu 0 := by
  have p := planck_pos (temp_pos h.theta_pos) hn
  have fin : ∀ x : ℝ, inuToSI / planck (2 * planckOverC2) planckOverBoltzmann u.T nu * x * anuToSI *
      planck (2 * planckOverC2) planckOverBoltzmann u.T nu = x * jnuToSI := by
    intro x
    unfold inuToSI anuToSI jnuToSI inuToSI
    field_simp
  have v : ∀ t : Thermal, t.T = u.T → t.vals b nu 4 = inuToSI / planck (2 * planckOverC2) planckOverBoltzmann u.T nu * t.vals b nu 0 := by
    intro t ht
    rw [vals_four, vals_zero, ht]
    unfold inuToSI
    field_simp
  unfold Thermal.outs
  by_cases ha : u.averaged = false
  · simp only [if_pos ha]
    rw [toSI_a _ (i := 4) (by decide), toSI_j _ (i := 0) (by decide), v u rfl, fin]
  · simp only [if_neg ha]
    rw [toSI_a _ (i := 4) (by decide), toSI_j _ (i := 0) (by decide)]
    have : mean 100 (fun θ => (u.at θ).vals b nu 4) =
        inuToSI / planck (2 * planckOverC2) planckOverBoltzmann u.T nu * mean 100 (fun θ => (u.at θ).vals b nu 0) := by
      rw [← mean_mul]
      exact mean_congr (by norm_num) fun θ _ _ => v (u.at θ) rfl
    rw [this, fin]

theorem jVal_pos {u : Thermal} {nu : ℝ} (h : u.Lit nu) (hn : 0 < u.n) : 0 < u.jVal nu := by
  have := h.ypos; have := h.sin; have := h.nu0; have := Real.pi_pos
  unfold Thermal.jVal Thermal.lin Thermal.front chargeCGS cCGS
  positivity

theorem outs_pos {u : Thermal} (h : u.Ready) (ha : u.averaged = true) (hn0 : 0 < u.n) {nu : ℝ} (hn : 0 < nu) (b : Bessel) : 0 < u.outs b nu 4 := by
  unfold Thermal.outs
  rw [if_neg (by simp [ha]), toSI_a _ (by decide)]
  refine mul_pos (mean_pos (by norm_num) fun θ h1 h2 => ?_) (by norm_num [anuToSI])
  rw [vals_four]
  have p : 0 < planck (2 * planckOverC2) planckOverBoltzmann u.T nu := planck_pos (temp_pos h.theta_pos) hn
  refine div_pos (jVal_pos (h.at_lit h1 h2 hn) hn0) (div_pos p (by norm_num [inuToSI]))

theorem fold_ub {α β : Type} (f : α → β → Out α) (l : List β) : l.foldl (fun acc x => Synch.bind acc fun a => f a x) (.ub : Out α) = .ub := by
  induction l with
  | nil => rfl
  | cons x l ih => exact ih

theorem sweep_ub {ι : Type} {N : ℕ} {f : ℝ → Out (ι → ℝ)} (h : f (angleAt N 0) = .ub) : sweep N f = .ub := by
  unfold sweep
  simp only [h]
  have := fold_ub (α := (ι → ℝ) × (ι → ℝ)) (β := ℕ) (fun p jj => Synch.bind (f (angleAt N (jj + 1))) fun v =>
      .ok ((fun i => p.1 i + 0.5 * 0.5 * ((Real.pi - 0.01 - 0.01) / (N : ℝ)) * (p.2 i + v i * Real.sin (angleAt N (jj + 1)))),
        fun i => v i * Real.sin (angleAt N (jj + 1)))) (List.range N)
  exact congrArg (fun x => Synch.bind x _) this

theorem no_field {u : Thermal} (h0 : u.nu0 = 0) (ha : u.averaged = true) (hth : 0.01 ≤ u.theta) (hs : u.InStep) {nu : ℝ} (hn : 0 < nu)
    (nus : List ℝ) : u.radiativeQ (nu :: nus) = .ub := by
  have hp : 0 < u.theta := lt_of_lt_of_le (by norm_num) hth
  obtain ⟨e, -⟩ := bb_eval hs (temp_pos hp) hn
  unfold Thermal.radiativeQ
  rw [if_neg (not_lt.2 hth), each]
  have : u.pass nu = .ub := by
    unfold Thermal.pass
    rw [e]
    simp only
    rw [if_neg (by simp [ha]), sweep_ub]
    · rfl
    · have : ({ u with angle := angleAt 100 0 } : Thermal).xx nu = .ub := by
        unfold Thermal.xx
        simp only [h0]
        rw [if_pos (by ring)]
      unfold Thermal.j
      rw [this]
      rfl
  rw [this]
  rfl

end Gyoto.SphAcc
