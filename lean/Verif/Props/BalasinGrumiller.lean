import Verif.Model.BalasinGrumiller
import Mathlib.Analysis.SpecialFunctions.Trigonometric.Deriv
import Mathlib.Analysis.SpecialFunctions.Sqrt
import Mathlib.Tactic.FieldSimp

/-!
# The Balasin-Grumiller metric: its connection

Property C62 for `BalasinGrumiller`.  The expressions of the symbols are right, but the derivative of `W` with respect to `θ` that they
are given is not: the connection is that of the metric in the equatorial plane only.
-/

namespace Gyoto.BalasinGrumiller

open Gyoto.MetricAlg Gyoto.KerrBL Gyoto.Spacetime

/-- The expressions, given the derivatives of `W`, are the Christoffel symbols. -/
theorem symbols_ok {m : Params} {pos : Vec} {wr wt : ℝ} (hr : pos 1 ≠ 0) (hs : Real.sin (pos 2) ≠ 0)
    (hwr : HasDerivAt (fun r => W m r (pos 2)) wr (pos 1)) (hwt : HasDerivAt (fun θ => W m (pos 1) θ) wt (pos 2)) :
    IsChristoffel (gmunu m) pos (symbols (pos 1) (Real.sin (pos 2)) (Real.cos (pos 2)) (W m (pos 1) (pos 2)) wr wt) := by
  have h1 := Real.sin_sq_add_cos_sq (pos 2)
  have d0 := hasDerivAt_id (pos 1)
  have hs' := Real.hasDerivAt_sin (pos 2)
  have hpr := (((d0.mul d0).mul_const (Real.sin (pos 2))).mul_const (Real.sin (pos 2))).sub (hwr.mul hwr)
  have hpθ := ((hs'.const_mul (pos 1 * pos 1)).mul hs').sub (hwt.mul hwt)
  refine isChristoffel_circ (tt := fun _ _ => -1) (rr := fun _ _ => 1) (hh := fun r _ => r * r)
    (pp := fun r θ => r * r * Real.sin θ * Real.sin θ - W m r θ * W m r θ) (tp := fun r θ => W m r θ)
    (hasDerivAt_const _ _) (hasDerivAt_const _ _) (d0.mul d0) hpr hwr (hasDerivAt_const _ _) (hasDerivAt_const _ _)
    (hasDerivAt_const _ _) hpθ hwt ?_ ?_ ?_ ?_ ?_ ?_ ?_ ?_ ?_ ?_ ?_ ?_ ?_ ?_ ?_ ?_ ?_ ?_ ?_ ?_
  all_goals
    clear d0 hs' hpr hpθ hwr hwt
    try simp only [id]
    generalize W m (pos 1) (pos 2) = w at *
    generalize pos 1 = r at *
    generalize Real.sin (pos 2) = s at *
    generalize Real.cos (pos 2) = c at *
    field_simp
    try ring

theorem sqrt_deriv {f : ℝ → ℝ} {f' x : ℝ} (h : HasDerivAt f f' x) (hx : 0 < f x) : HasDerivAt (fun y => √(f y)) (f' / (2 * √(f x))) x :=
  h.sqrt hx.ne'

/-- The four square roots are not zero. -/
def Regular (m : Params) (r θ : ℝ) : Prop :=
  0 < m.R * m.R + r * r - 2 * m.R * r * Real.cos θ ∧ 0 < m.R * m.R + r * r + 2 * m.R * r * Real.cos θ ∧
    0 < m.r0 * m.r0 + r * r - 2 * m.r0 * r * Real.cos θ ∧ 0 < m.r0 * m.r0 + r * r + 2 * m.r0 * r * Real.cos θ

/-- Outside the axis, and outside the origin, they are not. -/
theorem regular {m : Params} {r θ : ℝ} (hr : r ≠ 0) (hs : Real.sin θ ≠ 0) : Regular m r θ := by
  have key : ∀ a, 0 < a * a + r * r + 2 * a * r * Real.cos θ := by
    intro a
    have h1 := Real.sin_sq_add_cos_sq θ
    have h2 : a * a + r * r + 2 * a * r * Real.cos θ = (a + r * Real.cos θ) ^ 2 + (r * Real.sin θ) ^ 2 := by
      linear_combination (-r ^ 2) * h1
    rw [h2]
    have := sq_nonneg (a + r * Real.cos θ)
    have : 0 < (r * Real.sin θ) ^ 2 := by positivity
    linarith
  refine ⟨?_, key _, ?_, key _⟩
  · have := key (-m.R)
    linarith
  · have := key (-m.r0)
    linarith

/-- `DWDr` is the derivative of `W` with respect to `r`. -/
theorem DWDr_ok {m : Params} {r θ : ℝ} (h : Regular m r θ) : HasDerivAt (fun x => W m x θ) (DWDr m r θ) r := by
  obtain ⟨h1, h2, h3, h4⟩ := h
  have d : ∀ a b : ℝ, HasDerivAt (fun x => a * a + x * x + b * x * Real.cos θ) (2 * r + b * Real.cos θ) r := by
    intro a b
    have d0 := hasDerivAt_id r
    refine (((d0.mul d0).const_add (a * a)).add ((d0.const_mul b).mul_const (Real.cos θ))).congr_deriv ?_
    simp only [id]
    ring
  have dm : ∀ a b : ℝ, HasDerivAt (fun x => a * a + x * x - b * x * Real.cos θ) (2 * r - b * Real.cos θ) r := by
    intro a b
    have d0 := hasDerivAt_id r
    refine (((d0.mul d0).const_add (a * a)).sub ((d0.const_mul b).mul_const (Real.cos θ))).congr_deriv ?_
    simp only [id]
    ring
  have s1 := sqrt_deriv (dm m.R (2 * m.R)) h1
  have s2 := sqrt_deriv (d m.R (2 * m.R)) h2
  have s3 := sqrt_deriv (dm m.r0 (2 * m.r0)) h3
  have s4 := sqrt_deriv (d m.r0 (2 * m.r0)) h4
  have := (((((s1.neg.sub s2).add s3).add s4).const_mul m.V0).div_const 2).const_add ((m.R - m.r0) * m.V0)
  refine this.congr_deriv ?_
  unfold DWDr
  have p1 := (Real.sqrt_pos.mpr h1).ne'
  have p2 := (Real.sqrt_pos.mpr h2).ne'
  have p3 := (Real.sqrt_pos.mpr h3).ne'
  have p4 := (Real.sqrt_pos.mpr h4).ne'
  clear this s1 s2 s3 s4 d dm
  generalize √(m.R * m.R + r * r - 2 * m.R * r * Real.cos θ) = S1 at *
  generalize √(m.R * m.R + r * r + 2 * m.R * r * Real.cos θ) = S2 at *
  generalize √(m.r0 * m.r0 + r * r - 2 * m.r0 * r * Real.cos θ) = S3 at *
  generalize √(m.r0 * m.r0 + r * r + 2 * m.r0 * r * Real.cos θ) = S4 at *
  field_simp

/-- The derivative of `W` with respect to `θ`. -/
noncomputable def trueDth (m : Params) (r θ : ℝ) : ℝ :=
  m.V0 * r * Real.sin θ * (-(m.R / √(m.R * m.R + r * r - 2 * m.R * r * Real.cos θ))
    + m.R / √(m.R * m.R + r * r + 2 * m.R * r * Real.cos θ)
    + m.r0 / √(m.r0 * m.r0 + r * r - 2 * m.r0 * r * Real.cos θ)
    - m.r0 / √(m.r0 * m.r0 + r * r + 2 * m.r0 * r * Real.cos θ)) / 2

theorem trueDth_ok {m : Params} {r θ : ℝ} (h : Regular m r θ) : HasDerivAt (fun x => W m r x) (trueDth m r θ) θ := by
  obtain ⟨h1, h2, h3, h4⟩ := h
  have d : ∀ a b : ℝ, HasDerivAt (fun x => a * a + r * r + b * r * Real.cos x) (-(b * r * Real.sin θ)) θ := by
    intro a b
    refine (((Real.hasDerivAt_cos θ).const_mul (b * r)).const_add (a * a + r * r)).congr_deriv ?_
    ring
  have dm : ∀ a b : ℝ, HasDerivAt (fun x => a * a + r * r - b * r * Real.cos x) (b * r * Real.sin θ) θ := by
    intro a b
    refine (((Real.hasDerivAt_cos θ).const_mul (b * r)).const_sub (a * a + r * r)).congr_deriv ?_
    ring
  have s1 := sqrt_deriv (dm m.R (2 * m.R)) h1
  have s2 := sqrt_deriv (d m.R (2 * m.R)) h2
  have s3 := sqrt_deriv (dm m.r0 (2 * m.r0)) h3
  have s4 := sqrt_deriv (d m.r0 (2 * m.r0)) h4
  have := (((((s1.neg.sub s2).add s3).add s4).const_mul m.V0).div_const 2).const_add ((m.R - m.r0) * m.V0)
  refine this.congr_deriv ?_
  unfold trueDth
  have p1 := (Real.sqrt_pos.mpr h1).ne'
  have p2 := (Real.sqrt_pos.mpr h2).ne'
  have p3 := (Real.sqrt_pos.mpr h3).ne'
  have p4 := (Real.sqrt_pos.mpr h4).ne'
  clear this s1 s2 s3 s4 d dm
  generalize √(m.R * m.R + r * r - 2 * m.R * r * Real.cos θ) = S1 at *
  generalize √(m.R * m.R + r * r + 2 * m.R * r * Real.cos θ) = S2 at *
  generalize √(m.r0 * m.r0 + r * r - 2 * m.r0 * r * Real.cos θ) = S3 at *
  generalize √(m.r0 * m.r0 + r * r + 2 * m.r0 * r * Real.cos θ) = S4 at *
  field_simp
  ring

/-- C62. The symbols are those of the metric exactly where `DWDth` is the derivative of `W`. -/
theorem christoffel_iff {m : Params} {pos : Vec} (hr : pos 1 ≠ 0) (hs : Real.sin (pos 2) ≠ 0) :
    IsChristoffel (gmunu m) pos (christoffel m pos) ↔ DWDth m (pos 1) (pos 2) = trueDth m (pos 1) (pos 2) := by
  have hreg := regular (m := m) hr hs
  constructor
  · rintro ⟨D, hD, h⟩
    have h203 := h 2 0 3
    rw [Fin.sum_univ_four] at h203
    have e0 : D 0 2 3 = 0 := (hD 0 2 3).unique (hasDerivAt_const _ _)
    have e3 : D 3 2 0 = 0 := (hD 3 2 0).unique (hasDerivAt_const _ _)
    have e2 : D 2 0 3 = trueDth m (pos 1) (pos 2) := by
      refine (hD 2 0 3).unique ?_
      have f1 : ∀ x, (Function.update pos 2 x) 1 = pos 1 := fun x => Function.update_of_ne (by decide) _ _
      have f2 : ∀ x, (Function.update pos 2 x) 2 = x := fun x => Function.update_self _ _ _
      have : (fun x => gmunu m (Function.update pos 2 x) 0 3) = fun x => W m (pos 1) x := by
        funext x
        show W m ((Function.update pos 2 x) 1) ((Function.update pos 2 x) 2) = _
        rw [f1, f2]
      rw [this]
      exact trueDth_ok hreg
    rw [e0, e3, e2] at h203
    change (0 : ℝ) * 0 + 0 * (-0.5 * DWDr m (pos 1) (pos 2)) + pos 1 * pos 1 * (-0.5 * DWDth m (pos 1) (pos 2) / (pos 1 * pos 1)) +
      0 * 0 = _ at h203
    have hc : pos 1 * pos 1 * (-0.5 * DWDth m (pos 1) (pos 2) / (pos 1 * pos 1)) = -0.5 * DWDth m (pos 1) (pos 2) := by field_simp
    rw [hc] at h203
    linarith
  · intro h
    have := symbols_ok hr hs (DWDr_ok hreg) (trueDth_ok hreg)
    rw [← h] at this
    exact this

/-- C62, what holds: in the equatorial plane the symbols are those of the metric. -/
theorem christoffel_partial {m : Params} {pos : Vec} (hr : pos 1 ≠ 0) (hc : Real.cos (pos 2) = 0) :
    IsChristoffel (gmunu m) pos (christoffel m pos) := by
  have h1 := Real.sin_sq_add_cos_sq (pos 2)
  have hs : Real.sin (pos 2) ≠ 0 := by
    intro h
    rw [h, hc] at h1
    norm_num at h1
  rw [christoffel_iff hr hs]
  unfold DWDth trueDth
  rw [hc]
  simp

example : IsChristoffel (gmunu ⟨1, 15, 3⟩) ![0, 8, Real.pi / 2, 0] (christoffel ⟨1, 15, 3⟩ ![0, 8, Real.pi / 2, 0]) :=
  christoffel_partial (by simp) (by simp)

/-- C62 does not hold outside the equatorial plane: with `V0 = 1`, `R = 15`, `r0 = 3`, at `r = 8`, `θ = π/3` the symbols are not those
of the metric. -/
theorem christoffel_wrong :
    ¬IsChristoffel (gmunu ⟨1, 15, 3⟩) ![0, 8, Real.pi / 3, 0] (christoffel ⟨1, 15, 3⟩ ![0, 8, Real.pi / 3, 0]) := by
  rw [christoffel_iff (by simp) (by simp)]
  show DWDth ⟨1, 15, 3⟩ 8 (Real.pi / 3) ≠ trueDth ⟨1, 15, 3⟩ 8 (Real.pi / 3)
  unfold DWDth trueDth
  rw [Real.cos_pi_div_three, Real.sin_pi_div_three]
  have q1 : √(15 * 15 + 8 * 8 - 2 * 15 * 8 * (1 / 2)) = (13 : ℝ) := by
    rw [show (15 * 15 + 8 * 8 - 2 * 15 * 8 * (1 / 2) : ℝ) = 13 * 13 by norm_num]
    exact Real.sqrt_mul_self (by norm_num)
  have q3 : √(3 * 3 + 8 * 8 - 2 * 3 * 8 * (1 / 2)) = (7 : ℝ) := by
    rw [show (3 * 3 + 8 * 8 - 2 * 3 * 8 * (1 / 2) : ℝ) = 7 * 7 by norm_num]
    exact Real.sqrt_mul_self (by norm_num)
  have q2 : (20 : ℝ) ≤ √(15 * 15 + 8 * 8 + 2 * 15 * 8 * (1 / 2)) := Real.le_sqrt_of_sq_le (by norm_num)
  have q4 : √(3 * 3 + 8 * 8 + 2 * 3 * 8 * (1 / 2)) ≤ (9.9 : ℝ) := Real.sqrt_le_iff.mpr ⟨by norm_num, by norm_num⟩
  have q4' : 0 < √(3 * 3 + 8 * 8 + 2 * 3 * 8 * (1 / 2) : ℝ) := Real.sqrt_pos.mpr (by norm_num)
  have q5 : 0 < √(3 : ℝ) := Real.sqrt_pos.mpr (by norm_num)
  rw [q1, q3]
  generalize √(15 * 15 + 8 * 8 + 2 * 15 * 8 * (1 / 2) : ℝ) = S2 at *
  generalize √(3 * 3 + 8 * 8 + 2 * 3 * 8 * (1 / 2) : ℝ) = S4 at *
  generalize √(3 : ℝ) = w at *
  have i2 : 1 / S2 ≤ 1 / 20 := one_div_le_one_div_of_le (by norm_num) q2
  have i4 : 1 / 9.9 ≤ 1 / S4 := one_div_le_one_div_of_le q4' q4
  intro h
  have h' : w * (15 * (1 / 13 - 1 / S2 - 1 / 7 + 1 / S4) - (-(15 / 13) + 15 * (1 / S2) + 3 / 7 - 3 * (1 / S4))) = 0 := by
    rw [mul_one_div, mul_one_div]
    linear_combination (1 / 2) * h
  rcases mul_eq_zero.mp h' with h' | h'
  · linarith
  · norm_num at i4 h'
    norm_num at i2
    linarith

end Gyoto.BalasinGrumiller
