import Verif.Model.PageThorne
import Verif.Spec.PageThorne
import Verif.Props.OrbitRadii
import Mathlib.Analysis.SpecialFunctions.Log.Deriv
import Mathlib.Analysis.SpecialFunctions.Sqrt
import Mathlib.Tactic.LinearCombination

/-!
# Lemmas about the disk of Page and Thorne
-/

namespace Gyoto.PageThorne

open Gyoto.MetricAlg Gyoto.KerrBL Gyoto.Orbits Gyoto.Spacetime

/-- The polynomial whose roots are `x1_`, `x2_`, `x3_`. -/
def P (b w : ℝ) : ℝ := w ^ 3 - 3 * w + 2 * b
/-- The polynomial that is zero at the marginally stable orbit. -/
def Q (b w : ℝ) : ℝ := w ^ 4 - 6 * w ^ 2 + 8 * b * w - 3 * b ^ 2

/-- The angular momentum as a function of the square root of the radius. -/
noncomputable def lamb (b w : ℝ) : ℝ := (w ^ 4 - 2 * b * w + b ^ 2) / √(w ^ 3 * P b w)

theorem lamb_deriv {b w : ℝ} (hw : 0 < w) (hP : 0 < P b w) :
    HasDerivAt (lamb b) (Q b w * (w ^ 3 + b) / (w * P b w * √(w ^ 3 * P b w))) w := by
  have hK : 0 < w ^ 3 * P b w := by positivity
  have hN : HasDerivAt (fun w : ℝ => w ^ 4 - 2 * b * w + b ^ 2) (4 * w ^ 3 - 2 * b) w := by
    have := (((hasDerivAt_pow 4 w).sub ((hasDerivAt_id w).const_mul (2 * b))).add_const (b ^ 2))
    exact this.congr_deriv (by push_cast; ring)
  have hKd : HasDerivAt (fun w : ℝ => w ^ 3 * P b w) (3 * w ^ 2 * P b w + w ^ 3 * (3 * w ^ 2 - 3)) w := by
    have h1 : HasDerivAt (P b) (3 * w ^ 2 - 3) w := by
      have := (((hasDerivAt_pow 3 w).sub ((hasDerivAt_id w).const_mul 3)).add_const (2 * b))
      exact this.congr_deriv (by push_cast; ring)
    exact ((hasDerivAt_pow 3 w).mul h1).congr_deriv (by push_cast; ring)
  have hS := hKd.sqrt hK.ne'
  have h := hN.div hS (Real.sqrt_pos.2 hK).ne'
  refine h.congr_deriv ?_
  have hz : 0 < √(w ^ 3 * P b w) := Real.sqrt_pos.2 hK
  have hz2 : √(w ^ 3 * P b w) ^ 2 = w ^ 3 * P b w := Real.sq_sqrt hK.le
  generalize √(w ^ 3 * P b w) = z at *
  have hp := hP.ne'
  have hQ : Q b w = w ^ 4 - 6 * w ^ 2 + 8 * b * w - 3 * b ^ 2 := rfl
  have hPe : P b w = w ^ 3 - 3 * w + 2 * b := rfl
  rw [div_eq_div_iff (by positivity) (by positivity)]
  have e : ((4 * w ^ 3 - 2 * b) * z - (w ^ 4 - 2 * b * w + b ^ 2) * ((3 * w ^ 2 * P b w + w ^ 3 * (3 * w ^ 2 - 3)) / (2 * z))) =
      (w ^ 2 * Q b w * (w ^ 3 + b)) / z := by
    rw [eq_div_iff hz.ne', hQ]
    field_simp
    rw [hz2, hPe]
    ring
  rw [e, hz2]
  field_simp

/-- Equality of the model's inner radius with the one of the Kerr metric. -/
theorem inner_eq (a : ℝ) : innerRadius a = kerrRms a := by
  unfold innerRadius kerrRms
  have : (0.5 : ℝ) = 1 / 2 := by norm_num
  simp only [this, Real.sqrt_eq_rpow]

theorem x0_eq (a : ℝ) : (coefs a).x0 = √(kerrRms a) := by
  unfold coefs kerrRms
  have : (0.5 : ℝ) = 1 / 2 := by norm_num
  simp only [this]

/-! ### The roots -/

theorem sums {a : ℝ} (h1 : -1 < a) (h2 : a < 1) :
    (coefs a).x1 + (coefs a).x2 + (coefs a).x3 = 0 ∧
    (coefs a).x1 * (coefs a).x2 + (coefs a).x3 * ((coefs a).x1 + (coefs a).x2) = -3 ∧
    (coefs a).x1 * (coefs a).x2 * (coefs a).x3 = -2 * a := by
  have h3 : Real.cos (3 * (Real.arccos a / 3)) = a := by
    rw [mul_div_cancel₀ _ (by norm_num : (3 : ℝ) ≠ 0), Real.cos_arccos h1.le h2.le]
  rw [Real.cos_three_mul] at h3
  have hs : √3 ^ 2 = (3 : ℝ) := Real.sq_sqrt (by norm_num)
  have hc := Real.sin_sq_add_cos_sq (Real.arccos a / 3)
  simp only [coefs, Real.cos_add, Real.cos_sub, Real.cos_pi_div_three, Real.sin_pi_div_three]
  generalize Real.cos (Real.arccos a / 3) = c at *
  generalize Real.sin (Real.arccos a / 3) = s at *
  generalize √3 = q at *
  refine ⟨by ring, ?_, ?_⟩
  · linear_combination (-s ^ 2) * hs - 3 * hc
  · linear_combination (2 * c * s ^ 2) * hs + 6 * c * hc - 2 * h3

theorem places {a : ℝ} (h1 : -1 < a) (h2 : a < 1) :
    (coefs a).x3 < -1 ∧ -1 < (coefs a).x2 ∧ (coefs a).x2 < 1 ∧ 1 < (coefs a).x1 := by
  have hp := Real.pi_pos
  have hc1 : 0 < Real.arccos a := Real.arccos_pos.2 h2
  have hc2 : Real.arccos a < Real.pi := Real.arccos_lt_pi.2 h1
  have hhalf : Real.cos (Real.pi / 3) = 1 / 2 := Real.cos_pi_div_three
  have hmhalf : Real.cos (2 * Real.pi / 3) = -(1 / 2) := by
    rw [show 2 * Real.pi / 3 = Real.pi - Real.pi / 3 by ring, Real.cos_pi_sub, hhalf]
  simp only [coefs]
  have e1 := Real.cos_lt_cos_of_nonneg_of_le_pi (x := Real.arccos a / 3) (y := Real.pi / 3) (by linarith) (by linarith) (by linarith)
  have e2 := Real.cos_lt_cos_of_nonneg_of_le_pi (x := Real.arccos a / 3 + Real.pi / 3) (y := 2 * Real.pi / 3) (by linarith)
    (by linarith) (by linarith)
  have e3 := Real.cos_lt_cos_of_nonneg_of_le_pi (x := Real.pi / 3) (y := Real.arccos a / 3 + Real.pi / 3) (by linarith)
    (by linarith) (by linarith)
  have e4 := Real.cos_lt_cos_of_nonneg_of_le_pi (x := Real.pi / 3 - Real.arccos a / 3) (y := Real.pi / 3) (by linarith)
    (by linarith) (by linarith)
  rw [← Real.cos_neg (Real.pi / 3 - Real.arccos a / 3), neg_sub, hhalf] at e4
  rw [hhalf] at e1 e3
  rw [hmhalf] at e2
  refine ⟨by linarith, by linarith, by linarith, by linarith⟩

theorem P_factor {a : ℝ} (h1 : -1 < a) (h2 : a < 1) (x : ℝ) :
    P a x = (x - (coefs a).x1) * (x - (coefs a).x2) * (x - (coefs a).x3) := by
  obtain ⟨e1, e2, e3⟩ := sums h1 h2
  unfold P
  linear_combination x ^ 2 * e1 - x * e2 + e3

/-- Below one, `Q` is negative. -/
theorem Q_neg {b x : ℝ} (hb : b < 1) (hx : 0 < x) (hx1 : x ≤ 1) : Q b x < 0 := by
  unfold Q
  rcases le_or_gt x (3 / 4) with h | h
  · have hm : 0 ≤ 3 * (b - 4 / 3 * x) ^ 2 := by positivity
    have h2 : x ^ 2 * x ^ 2 < x ^ 2 * (2 / 3) := mul_lt_mul_of_pos_left (by nlinarith) (by positivity)
    nlinarith
  · have h4 : (x - 1) ^ 3 * (x + 3) ≤ 0 := by
      have : (x - 1) ^ 3 ≤ 0 := by
        have := mul_nonneg (sub_nonneg.2 hx1) (sq_nonneg (x - 1)); nlinarith
      exact mul_nonpos_of_nonpos_of_nonneg this (by linarith)
    have h5 : 0 < (1 - b) * (8 * x - 3 * b - 3) := mul_pos (by linarith) (by linarith)
    nlinarith

theorem x0_spec {a : ℝ} (h1 : -1 < a) (h2 : a < 1) : 1 < (coefs a).x0 ∧ Q |a| (coefs a).x0 = 0 := by
  obtain ⟨hr, h⟩ := rms_spec h1.le h2.le
  rw [x0_eq]
  have hq : Q |a| √(kerrRms a) = 0 := by
    unfold Q
    rw [sq_abs]
    exact h
  refine ⟨?_, hq⟩
  by_contra hle
  have := Q_neg (abs_lt.2 ⟨h1, h2⟩) (Real.sqrt_pos.2 hr) (not_lt.1 hle)
  linarith

/-- Beyond one, where `P` is positive is beyond `x1_`. -/
theorem beyond {a x : ℝ} (h1 : -1 < a) (h2 : a < 1) (hx : 1 < x) : 0 < P a x ↔ (coefs a).x1 < x := by
  obtain ⟨h3, h4, h5, h6⟩ := places h1 h2
  rw [P_factor h1 h2, mul_assoc]
  have : 0 < (x - (coefs a).x2) * (x - (coefs a).x3) := mul_pos (by linarith) (by linarith)
  rw [mul_pos_iff_of_pos_right this, sub_pos]

/-- For a positive spin, `P` is positive at the marginally stable orbit. -/
theorem P_x0 {a : ℝ} (h1 : 0 ≤ a) (h2 : a < 1) : 0 < P a (coefs a).x0 := by
  have h := (rms_stationary (dir := 1) (by linarith : -1 < a) h2 (Or.inl rfl) (by linarith)).1
  rw [x0_eq]
  unfold P
  unfold KerrSlow at h
  linarith

theorem Q_mono {b x y : ℝ} (hP : ∀ z, x ≤ z → 0 < P b z) (hxy : x < y) : Q b x < Q b y := by
  have hd : ∀ z, HasDerivAt (Q b) (4 * P b z) z := by
    intro z
    have := ((((hasDerivAt_pow 4 z).sub ((hasDerivAt_pow 2 z).const_mul 6)).add ((hasDerivAt_id z).const_mul (8 * b))).sub_const
      (3 * b ^ 2))
    exact this.congr_deriv (by unfold P; push_cast; ring)
  have hm : StrictMonoOn (Q b) (Set.Ici x) := by
    refine strictMonoOn_of_deriv_pos (convex_Ici x) (fun z _ => (hd z).continuousAt.continuousWithinAt) ?_
    intro z hz
    rw [interior_Ici] at hz
    rw [(hd z).deriv]
    have := hP z hz.le
    linarith
  exact hm Set.self_mem_Ici hxy.le hxy

/-! ### The bracket -/

/-- What is between the brackets in `ff`. -/
noncomputable def bracket (c : Coefs) (xx : ℝ) : ℝ :=
  xx - c.x0 - 3 / 2 * c.aa * Real.log (xx / c.x0)
      - 3 * (c.x1 - c.aa) * (c.x1 - c.aa) / (c.x1 * (c.x1 - c.x2) * (c.x1 - c.x3)) * Real.log ((xx - c.x1) / (c.x0 - c.x1))
      - 3 * (c.x2 - c.aa) * (c.x2 - c.aa) / (c.x2 * (c.x2 - c.x1) * (c.x2 - c.x3)) * Real.log ((xx - c.x2) / (c.x0 - c.x2))
      - 3 * (c.x3 - c.aa) * (c.x3 - c.aa) / (c.x3 * (c.x3 - c.x1) * (c.x3 - c.x2)) * Real.log ((xx - c.x3) / (c.x0 - c.x3))

/-- Partial fractions, for any polynomial of degree four. -/
theorem fractions (q3 q2 q1 q0 : ℝ) {x y1 y2 y3 : ℝ} (h : x ≠ 0) (n1 : y1 ≠ 0) (n2 : y2 ≠ 0) (n3 : y3 ≠ 0) (d12 : y1 - y2 ≠ 0)
    (d13 : y1 - y3 ≠ 0) (d23 : y2 - y3 ≠ 0) (e1 : x - y1 ≠ 0) (e2 : x - y2 ≠ 0) (e3 : x - y3 ≠ 0) :
    (x ^ 4 + q3 * x ^ 3 + q2 * x ^ 2 + q1 * x + q0) / (x * ((x - y1) * (x - y2) * (x - y3))) =
      1 - q0 / (y1 * y2 * y3) / x
        + (y1 ^ 4 + q3 * y1 ^ 3 + q2 * y1 ^ 2 + q1 * y1 + q0) / (y1 * (y1 - y2) * (y1 - y3)) / (x - y1)
        - (y2 ^ 4 + q3 * y2 ^ 3 + q2 * y2 ^ 2 + q1 * y2 + q0) / (y2 * (y1 - y2) * (y2 - y3)) / (x - y2)
        + (y3 ^ 4 + q3 * y3 ^ 3 + q2 * y3 ^ 2 + q1 * y3 + q0) / (y3 * (y1 - y3) * (y2 - y3)) / (x - y3) := by
  field_simp
  ring

theorem log_deriv {x c x0 : ℝ} (hx : c < x) (h0 : c < x0) : HasDerivAt (fun x => Real.log ((x - c) / (x0 - c))) (1 / (x - c)) x := by
  have h1 : HasDerivAt (fun x => (x - c) / (x0 - c)) (1 / (x0 - c)) x := ((hasDerivAt_id x).sub_const c).div_const _
  have hn : 0 < (x - c) / (x0 - c) := div_pos (by linarith) (by linarith)
  refine (h1.log hn.ne').congr_deriv ?_
  have := sub_pos.2 hx
  have := sub_pos.2 h0
  field_simp

theorem bracket_deriv {a x : ℝ} (h1 : -1 < a) (h2 : a < 1) (h0 : (coefs a).x1 < (coefs a).x0) (hx : (coefs a).x1 < x) :
    HasDerivAt (bracket (coefs a)) (Q a x / (x * P a x)) x := by
  obtain ⟨h3, h4, h5, h6⟩ := places h1 h2
  obtain ⟨s1, s2, s3⟩ := sums h1 h2
  have hl := log_deriv (c := 0) (x := x) (x0 := (coefs a).x0) (by linarith) (by linarith)
  simp only [sub_zero] at hl
  have hl1 := log_deriv hx h0
  have hl2 := log_deriv (c := (coefs a).x2) (x := x) (x0 := (coefs a).x0) (by linarith) (by linarith)
  have hl3 := log_deriv (c := (coefs a).x3) (x := x) (x0 := (coefs a).x0) (by linarith) (by linarith)
  unfold bracket
  have ha : (coefs a).aa = a := rfl
  rw [P_factor h1 h2, ha]
  have hb := fun k1 k2 k3 : ℝ => ((((((hasDerivAt_id x).sub_const (coefs a).x0).sub (hl.const_mul (3 / 2 * a))).sub (hl1.const_mul k1)).sub
    (hl2.const_mul k2)).sub (hl3.const_mul k3))
  refine ((hb _ _ _).congr_deriv ?_)
  clear hb hl hl1 hl2 hl3
  have r : ∀ y, y ^ 3 - 3 * y + 2 * a = 0 → 3 * (y - a) * (y - a) = -(y ^ 4 + 0 * y ^ 3 + (-6) * y ^ 2 + 8 * a * y + (-3 * a ^ 2)) := by
    intro y hy
    linear_combination y * hy
  have r1 := r (coefs a).x1 (by
    have := P_factor h1 h2 (coefs a).x1; unfold P at this; rw [this]; ring)
  have r2 := r (coefs a).x2 (by
    have := P_factor h1 h2 (coefs a).x2; unfold P at this; rw [this]; ring)
  have r3 := r (coefs a).x3 (by
    have := P_factor h1 h2 (coefs a).x3; unfold P at this; rw [this]; ring)
  generalize (coefs a).x1 = y1 at *
  generalize (coefs a).x2 = y2 at *
  generalize (coefs a).x3 = y3 at *
  by_cases hy : y2 = 0
  · subst hy
    have ha0 : a = 0 := by linarith
    subst ha0
    have hy3 : y3 = -y1 := by linarith
    subst hy3
    have hq : y1 ^ 2 = 3 := by linarith
    have n1 : y1 ≠ 0 := by linarith
    have n2 : x - y1 ≠ 0 := by linarith
    have n3 : x + y1 ≠ 0 := by linarith
    have n4 : x ≠ 0 := by linarith
    unfold Q
    simp only [sub_zero, zero_mul, mul_zero, zero_div, sub_neg_eq_add]
    field_simp
    ring_nf
    linear_combination 4 * x ^ 2 * y1 * hq
  · have n0 : x ≠ 0 := by linarith
    have n1 : y1 ≠ 0 := by linarith
    have n3 : y3 ≠ 0 := by linarith
    have d12 : y1 - y2 ≠ 0 := by linarith
    have d13 : y1 - y3 ≠ 0 := by linarith
    have d23 : y2 - y3 ≠ 0 := by linarith
    have f := fractions 0 (-6) (8 * a) (-3 * a ^ 2) n0 n1 hy n3 d12 d13 d23 (by linarith : x - y1 ≠ 0)
      (by linarith : x - y2 ≠ 0) (by linarith : x - y3 ≠ 0)
    have hQ : Q a x = x ^ 4 + 0 * x ^ 3 + (-6) * x ^ 2 + 8 * a * x + (-3 * a ^ 2) := by unfold Q; ring
    have ha0 : a ≠ 0 := by
      intro h
      rw [h, mul_zero] at s3
      exact mul_ne_zero (mul_ne_zero n1 hy) n3 s3
    rw [hQ, f, r1, r2, r3, s3]
    generalize y1 ^ 4 + 0 * y1 ^ 3 + (-6) * y1 ^ 2 + 8 * a * y1 + (-3 * a ^ 2) = A
    generalize y2 ^ 4 + 0 * y2 ^ 3 + (-6) * y2 ^ 2 + 8 * a * y2 + (-3 * a ^ 2) = B
    generalize y3 ^ 4 + 0 * y3 ^ 3 + (-6) * y3 ^ 2 + 8 * a * y3 + (-3 * a ^ 2) = C
    have c1 : 3 / 2 * a * (1 / x) = -3 * a ^ 2 / (-2 * a) / x := by field_simp
    have c2 : y2 * (y2 - y1) * (y2 - y3) = -(y2 * (y1 - y2) * (y2 - y3)) := by ring
    have c3 : y3 * (y3 - y1) * (y3 - y2) = y3 * (y1 - y3) * (y2 - y3) := by ring
    rw [c1, c2, c3]
    generalize y1 * (y1 - y2) * (y1 - y3) = D1
    generalize y2 * (y1 - y2) * (y2 - y3) = D2
    generalize y3 * (y1 - y3) * (y2 - y3) = D3
    rw [div_neg]
    ring

theorem bracket_zero {a : ℝ} (h1 : -1 < a) (h2 : a < 1) (h0 : (coefs a).x1 < (coefs a).x0) : bracket (coefs a) (coefs a).x0 = 0 := by
  obtain ⟨h3, h4, h5, h6⟩ := places h1 h2
  unfold bracket
  rw [div_self (by linarith), div_self (by linarith), div_self (by linarith), div_self (by linarith), Real.log_one]
  ring

/-- `ff` when all the logarithms are defined. -/
theorem ff_eq {a x : ℝ} (h1 : -1 < a) (h2 : a < 1) (h0 : (coefs a).x1 < (coefs a).x0) (hx : (coefs a).x1 < x) :
    ff (coefs a) x = some (3 / 2 / (x ^ 2 * P a x) * bracket (coefs a) x) := by
  obtain ⟨h3, h4, h5, h6⟩ := places h1 h2
  have hl : ∀ y, y < x → y < (coefs a).x0 → 0 < (x - y) / ((coefs a).x0 - y) := fun y u v => div_pos (by linarith) (by linarith)
  have hl0 := hl 0 (by linarith) (by linarith)
  simp only [sub_zero] at hl0
  unfold ff logOf
  rw [if_pos hl0, if_pos (hl _ hx h0), if_pos (hl _ (by linarith) (by linarith)), if_pos (hl _ (by linarith) (by linarith))]
  have ha : (coefs a).aa = a := rfl
  simp only [Option.bind_eq_bind, Option.bind_some, Option.pure_def, Option.some.injEq]
  unfold bracket P
  rw [ha]
  congr 1
  rw [mul_one]
  congr 1
  ring

end Gyoto.PageThorne
