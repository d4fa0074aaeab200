import Verif.Model.ChernSimons
import Verif.Lemmas.Order2
import Verif.Lemmas.FreeFall
import Verif.Props.Orbits
import Verif.Props.Matrix4
import Mathlib.Analysis.Calculus.Deriv.Inv
import Mathlib.Analysis.Calculus.Deriv.Pow

/-!
# The Chern-Simons metric
-/

namespace Gyoto.ChernSimons

open Gyoto.MetricAlg Gyoto.Spacetime Gyoto.KerrBL Gyoto.Orbits Gyoto.Order2 Asymptotics Topology

/-- The five components, as functions of the coordinates. -/
noncomputable def tt (a r θ : ℝ) : ℝ := -(1 - 2 / r) - 2 * (a * a) / (r * r * r) * (Real.cos θ * Real.cos θ)
noncomputable def rr (a r θ : ℝ) : ℝ :=
  1 / (1 - 2 / r) + a * a / ((1 - 2 / r) * (r * r)) * (Real.cos θ * Real.cos θ - 1 / (1 - 2 / r))
noncomputable def hh (a r θ : ℝ) : ℝ := r * r + a * a * (Real.cos θ * Real.cos θ)
noncomputable def pp (a r θ : ℝ) : ℝ :=
  r * r * (Real.sin θ * Real.sin θ) + a * a * (Real.sin θ * Real.sin θ) * (1 + 2 / r * (Real.sin θ * Real.sin θ))
noncomputable def tp (a z r θ : ℝ) : ℝ :=
  -2 * a / r * (Real.sin θ * Real.sin θ) + 5 / 8 * z * a / (r * r * (r * r)) * (1 + 12 / 7 * 1 / r + 27 / 10 * 1 / (r * r)) *
    (Real.sin θ * Real.sin θ)

theorem gmunu_eq (a z : ℝ) (p : Vec) : gmunu a z p = circ (tt a (p 1) (p 2)) (rr a (p 1) (p 2)) (hh a (p 1) (p 2)) (pp a (p 1) (p 2))
    (tp a z (p 1) (p 2)) := by
  ext i j
  fin_cases i <;> fin_cases j <;> rfl

/-- C83. The metric asked by component is that of the matrix. -/
theorem coef_eq (a z : ℝ) (p : Vec) (i j : Fin 4) : gmunuCoef a z p i j = gmunu a z p i j := by
  fin_cases i <;> fin_cases j <;> rfl

theorem ff_ne {r : ℝ} (h0 : r ≠ 0) (h2 : r ≠ 2) : 1 - 2 / r ≠ 0 := by
  rw [show 1 - 2 / r = (r - 2) / r by field_simp]
  exact div_ne_zero (sub_ne_zero.2 h2) h0

/-! The components to the second order in the spin. -/

theorem rep_tt (r θ : ℝ) : Rep (fun a => tt a r θ) (-(1 - 2 / r)) 0 (-2 / (r * r * r) * (Real.cos θ * Real.cos θ)) :=
  (rep_poly _ 0 _).congr fun a => by unfold tt; ring

theorem rep_rr (r θ : ℝ) : Rep (fun a => rr a r θ) (1 / (1 - 2 / r)) 0
    (1 / ((1 - 2 / r) * (r * r)) * (Real.cos θ * Real.cos θ - 1 / (1 - 2 / r))) :=
  (rep_poly _ 0 _).congr fun a => by unfold rr; ring

theorem rep_hh (r θ : ℝ) : Rep (fun a => hh a r θ) (r * r) 0 (Real.cos θ * Real.cos θ) :=
  (rep_poly _ 0 _).congr fun a => by unfold hh; ring

theorem rep_pp (r θ : ℝ) : Rep (fun a => pp a r θ) (r * r * (Real.sin θ * Real.sin θ)) 0
    (Real.sin θ * Real.sin θ * (1 + 2 / r * (Real.sin θ * Real.sin θ))) :=
  (rep_poly _ 0 _).congr fun a => by unfold pp; ring

theorem rep_tp (z r θ : ℝ) : Rep (fun a => tp a z r θ) 0 (tp 1 z r θ) 0 :=
  (rep_poly 0 (tp 1 z r θ) 0).congr fun a => by unfold tp; ring

/-- C83. Without coupling the metric is that of Kerr to the second order in the spin. -/
theorem metric_order {pos : Vec} (h0 : pos 1 ≠ 0) (h2 : pos 1 ≠ 2) (μ ν : Fin 4) :
    (fun a => gmunu a 0 pos μ ν - KerrBL.gmunu a pos μ ν) =O[𝓝 0] fun a => a ^ 3 := by
  have hS : Real.sin (pos 2) * Real.sin (pos 2) = 1 - Real.cos (pos 2) * Real.cos (pos 2) := by
    linear_combination Real.sin_sq_add_cos_sq (pos 2)
  have hf := ff_ne h0 h2
  have hd : pos 1 * pos 1 - 2 * pos 1 ≠ 0 := by
    rw [← sub_mul]; exact mul_ne_zero (sub_ne_zero.2 h2) h0
  have hsig := rep_hh (pos 1) (pos 2)
  have hdel : Rep (fun a => pos 1 * pos 1 - 2 * pos 1 + a * a) (pos 1 * pos 1 - 2 * pos 1) 0 1 :=
    (rep_poly _ 0 1).congr fun a => by ring
  have hr2 : pos 1 * pos 1 ≠ 0 := mul_ne_zero h0 h0
  have z : (fun _ : ℝ => (0 : ℝ) - 0) =O[𝓝 0] fun a : ℝ => a ^ 3 := by
    simp only [sub_self]; exact isBigO_zero _ _
  have k00 : (fun a => tt a (pos 1) (pos 2) - KerrBL.gmunu a pos 0 0) =O[𝓝 0] fun a => a ^ 3 := by
    refine (rep_tt (pos 1) (pos 2)).agree (((rep_const (-1)).add ((rep_const (2 * pos 1)).div hsig hr2)).of_eq ?_ ?_ ?_)
    · field_simp; ring
    · ring
    · field_simp; ring
  have k11 : (fun a => rr a (pos 1) (pos 2) - KerrBL.gmunu a pos 1 1) =O[𝓝 0] fun a => a ^ 3 := by
    refine (rep_rr (pos 1) (pos 2)).agree ((hsig.div hdel hd).of_eq ?_ ?_ ?_)
    · field_simp
    · ring
    · have e : 1 - 2 / pos 1 = (pos 1 - 2) / pos 1 := by field_simp
      have h2' : pos 1 - 2 ≠ 0 := sub_ne_zero.2 h2
      rw [e, ← sub_mul]
      field_simp
      ring
  have k22 : (fun a => hh a (pos 1) (pos 2) - KerrBL.gmunu a pos 2 2) =O[𝓝 0] fun a => a ^ 3 := hsig.agree hsig
  have k33 : (fun a => pp a (pos 1) (pos 2) - KerrBL.gmunu a pos 3 3) =O[𝓝 0] fun a => a ^ 3 := by
    refine (rep_pp (pos 1) (pos 2)).agree (((((rep_const (pos 1 * pos 1)).add rep_sq).add ((((rep_const (2 * pos 1)).mul rep_sq).mul
      (rep_const (Real.sin (pos 2) * Real.sin (pos 2)))).div hsig hr2)).mul (rep_const (Real.sin (pos 2) * Real.sin (pos 2)))).of_eq ?_ ?_ ?_)
    · field_simp; ring
    · ring
    · field_simp; ring
  have k03 : (fun a => tp a 0 (pos 1) (pos 2) - KerrBL.gmunu a pos 0 3) =O[𝓝 0] fun a => a ^ 3 := by
    refine (rep_tp 0 (pos 1) (pos 2)).agree ((((((rep_const (-2)).mul rep_id).mul (rep_const (pos 1))).mul
      (rep_const (Real.sin (pos 2) * Real.sin (pos 2)))).div hsig hr2).of_eq ?_ ?_ ?_)
    · ring
    · unfold tp; field_simp; ring
    · ring
  simp only [gmunu_eq]
  match μ, ν with
  | 0, 0 => exact k00
  | 0, 1 => exact z
  | 0, 2 => exact z
  | 0, 3 => exact k03
  | 1, 0 => exact z
  | 1, 1 => exact k11
  | 1, 2 => exact z
  | 1, 3 => exact z
  | 2, 0 => exact z
  | 2, 1 => exact z
  | 2, 2 => exact k22
  | 2, 3 => exact z
  | 3, 0 => exact k03
  | 3, 1 => exact z
  | 3, 2 => exact z
  | 3, 3 => exact k33

/-- C83. `gmunu_up` is the inverse, off the surface where `g_tt` vanishes. -/
theorem up_ok {a z : ℝ} {pos : Vec} (h0 : gmunu a z pos 0 0 ≠ 0) (hdet : (gmunu a z pos).det ≠ 0) :
    ∃ R, gmunuUp a z pos = some R ∧ gmunu a z pos * R = 1 ∧ R * gmunu a z pos = 1 :=
  Matrix4.circular_invert (gmunu a z pos) rfl ⟨rfl, rfl, rfl, rfl, rfl, rfl, rfl, rfl, rfl, rfl⟩ h0 hdet

/-! The derivatives of the components. -/

noncomputable def tt_r (a r θ : ℝ) : ℝ := -2 / r ^ 2 + 6 * a ^ 2 * Real.cos θ ^ 2 / r ^ 4
noncomputable def tt_θ (a r θ : ℝ) : ℝ := 4 * a ^ 2 * Real.cos θ * Real.sin θ / r ^ 3
noncomputable def rr_r (a r θ : ℝ) : ℝ :=
  -2 / (r - 2) ^ 2 - a ^ 2 * Real.cos θ ^ 2 * (2 * r - 2) / (r ^ 2 * (r - 2) ^ 2) + 2 * a ^ 2 / (r - 2) ^ 3
noncomputable def rr_θ (a r θ : ℝ) : ℝ := -2 * a ^ 2 * Real.cos θ * Real.sin θ / (r * (r - 2))
noncomputable def hh_r (_a r _θ : ℝ) : ℝ := 2 * r
noncomputable def hh_θ (a _r θ : ℝ) : ℝ := -2 * a ^ 2 * Real.cos θ * Real.sin θ
noncomputable def pp_r (a r θ : ℝ) : ℝ := 2 * r * Real.sin θ ^ 2 - 2 * a ^ 2 * Real.sin θ ^ 4 / r ^ 2
noncomputable def pp_θ (a r θ : ℝ) : ℝ := 2 * Real.sin θ * Real.cos θ * (r ^ 2 + a ^ 2) + 8 * a ^ 2 * Real.sin θ ^ 3 * Real.cos θ / r
noncomputable def tp_r (a z r θ : ℝ) : ℝ :=
  a * (2 / r ^ 2 - z * (5 / 2 / r ^ 5 + 75 / 14 / r ^ 6 + 81 / 8 / r ^ 7)) * Real.sin θ ^ 2
noncomputable def tp_θ (a z r θ : ℝ) : ℝ :=
  2 * a * (-2 / r + z * (5 / 8 / r ^ 4 + 15 / 14 / r ^ 5 + 27 / 16 / r ^ 6)) * Real.sin θ * Real.cos θ

theorem partials {a z : ℝ} {pos : Vec} (h0 : pos 1 ≠ 0) (h2 : pos 1 ≠ 2) : IsPartial (gmunu a z) pos
    ![0, circ (tt_r a (pos 1) (pos 2)) (rr_r a (pos 1) (pos 2)) (hh_r a (pos 1) (pos 2)) (pp_r a (pos 1) (pos 2)) (tp_r a z (pos 1) (pos 2)),
      circ (tt_θ a (pos 1) (pos 2)) (rr_θ a (pos 1) (pos 2)) (hh_θ a (pos 1) (pos 2)) (pp_θ a (pos 1) (pos 2)) (tp_θ a z (pos 1) (pos 2)), 0] := by
  have h2' : pos 1 - 2 ≠ 0 := sub_ne_zero.2 h2
  have hf := ff_ne h0 h2
  have e : 1 - 2 / pos 1 = (pos 1 - 2) / pos 1 := by field_simp
  have hs := (Real.hasDerivAt_sin (pos 2)).mul (Real.hasDerivAt_sin (pos 2))
  have hc := (Real.hasDerivAt_cos (pos 2)).mul (Real.hasDerivAt_cos (pos 2))
  have hid := hasDerivAt_id (pos 1)
  have hi := hasDerivAt_inv h0
  have hq := ((hi.const_mul 2).const_sub 1)
  have hq' : HasDerivAt (fun x : ℝ => 1 - 2 / x) (2 / pos 1 ^ 2) (pos 1) := by
    refine (hq.congr_deriv ?_).congr_of_eventuallyEq (Filter.Eventually.of_forall fun x => ?_)
    · ring
    · simp only [div_eq_mul_inv]
  have hqi := hq'.inv hf
  have dtr : HasDerivAt (fun x => tt a x (pos 2)) (tt_r a (pos 1) (pos 2)) (pos 1) := by
    refine ((hq'.neg.sub ((((hi.mul hi).mul hi).const_mul (2 * (a * a))).mul_const (Real.cos (pos 2) * Real.cos (pos 2)))).congr_deriv
      ?_).congr_of_eventuallyEq (Filter.Eventually.of_forall fun x => ?_)
    · simp only [tt_r, Pi.mul_apply]; field_simp; ring
    · simp only [tt, div_eq_mul_inv, mul_inv, Pi.mul_apply, Pi.sub_apply, Pi.neg_apply]
  have drr : HasDerivAt (fun x => rr a x (pos 2)) (rr_r a (pos 1) (pos 2)) (pos 1) := by
    refine ((hqi.add (((hqi.mul (hi.mul hi)).const_mul (a * a)).mul (hqi.const_sub (Real.cos (pos 2) * Real.cos (pos 2))))).congr_deriv
      ?_).congr_of_eventuallyEq (Filter.Eventually.of_forall fun x => ?_)
    · simp only [Pi.mul_apply, Pi.inv_apply, rr_r, e]; field_simp; ring
    · simp only [rr, div_eq_mul_inv, mul_inv, one_mul, Pi.mul_apply, Pi.add_apply, Pi.inv_apply]
  have dhr : HasDerivAt (fun x => hh a x (pos 2)) (hh_r a (pos 1) (pos 2)) (pos 1) := by
    refine ((hid.mul hid).add_const (a * a * (Real.cos (pos 2) * Real.cos (pos 2)))).congr_deriv ?_
    unfold hh_r; simp only [id]; ring
  have dpr : HasDerivAt (fun x => pp a x (pos 2)) (pp_r a (pos 1) (pos 2)) (pos 1) := by
    refine ((((hid.mul hid).mul_const (Real.sin (pos 2) * Real.sin (pos 2))).add
      ((((hi.const_mul 2).mul_const (Real.sin (pos 2) * Real.sin (pos 2))).const_add 1).const_mul
        (a * a * (Real.sin (pos 2) * Real.sin (pos 2))))).congr_deriv ?_).congr_of_eventuallyEq (Filter.Eventually.of_forall fun x => ?_)
    · simp only [pp_r, id]; field_simp; ring
    · simp only [pp, div_eq_mul_inv, id, Pi.mul_apply, Pi.add_apply]
  have dxr : HasDerivAt (fun x => tp a z x (pos 2)) (tp_r a z (pos 1) (pos 2)) (pos 1) := by
    refine ((((hi.const_mul (-2 * a)).mul_const (Real.sin (pos 2) * Real.sin (pos 2))).add
      (((((hi.mul hi).mul (hi.mul hi)).const_mul (5 / 8 * z * a)).mul
        (((hi.const_mul (12 / 7)).const_add 1).add ((hi.mul hi).const_mul (27 / 10)))).mul_const
        (Real.sin (pos 2) * Real.sin (pos 2)))).congr_deriv ?_).congr_of_eventuallyEq (Filter.Eventually.of_forall fun x => ?_)
    · simp only [tp_r, Pi.mul_apply, Pi.add_apply]; field_simp; ring
    · simp only [tp, div_eq_mul_inv, mul_inv, mul_one, Pi.mul_apply, Pi.add_apply]
  have dtθ : HasDerivAt (fun x => tt a (pos 1) x) (tt_θ a (pos 1) (pos 2)) (pos 2) := by
    refine ((hc.const_mul (2 * (a * a) / (pos 1 * pos 1 * pos 1))).const_sub (-(1 - 2 / pos 1))).congr_deriv ?_
    unfold tt_θ; field_simp; ring
  have drθ : HasDerivAt (fun x => rr a (pos 1) x) (rr_θ a (pos 1) (pos 2)) (pos 2) := by
    refine (((hc.sub_const (1 / (1 - 2 / pos 1))).const_mul (a * a / ((1 - 2 / pos 1) * (pos 1 * pos 1)))).const_add
      (1 / (1 - 2 / pos 1))).congr_deriv ?_
    unfold rr_θ; rw [e]; field_simp; ring
  have dhθ : HasDerivAt (fun x => hh a (pos 1) x) (hh_θ a (pos 1) (pos 2)) (pos 2) := by
    refine ((hc.const_mul (a * a)).const_add (pos 1 * pos 1)).congr_deriv ?_
    unfold hh_θ; ring
  have dpθ : HasDerivAt (fun x => pp a (pos 1) x) (pp_θ a (pos 1) (pos 2)) (pos 2) := by
    refine ((hs.const_mul (pos 1 * pos 1)).add ((hs.const_mul (a * a)).mul ((hs.const_mul (2 / pos 1)).const_add 1))).congr_deriv ?_
    simp only [pp_θ, Pi.mul_apply]; field_simp; ring
  have dxθ : HasDerivAt (fun x => tp a z (pos 1) x) (tp_θ a z (pos 1) (pos 2)) (pos 2) := by
    refine ((hs.const_mul (-2 * a / pos 1)).add (hs.const_mul (5 / 8 * z * a / (pos 1 * pos 1 * (pos 1 * pos 1)) *
      (1 + 12 / 7 * 1 / pos 1 + 27 / 10 * 1 / (pos 1 * pos 1))))).congr_deriv ?_
    unfold tp_θ; field_simp; ring
  rw [show gmunu a z = _ from funext (gmunu_eq a z)]
  exact isPartial_circ (tt := tt a) (rr := rr a) (hh := hh a) (pp := pp a) (tp := tp a z) dtr drr dhr dpr dxr dtθ drθ dhθ dpθ dxθ

/-! The circular orbit of the equatorial plane. -/

/-- The angular velocity computed, in the equatorial plane. -/
noncomputable def omega (a z r : ℝ) : ℝ :=
  let fact := -112 * (r * r * r * r * r) + 567 * z + 300 * r * z + 140 * (r * r) * z
  (a * fact + 56 * (r * r * r * r * r) * (r * r) * √(4 * (r * r * r - a * a) / (r * r * r * r) +
    a * a * fact * fact / (3136 * (r * r * r * r * r) * (r * r * r * r * r) * (r * r * r * r)))) /
    (112 * (r * r * r * r * r) * (r * r * r - a * a))

/-- It is the positive root of the equation of free fall. -/
theorem omega_ok {a z r : ℝ} (hr : 0 < r) (h3 : a ^ 2 < r ^ 3) : 0 < omega a z r ∧
    omega a z r ^ 2 * (r ^ 3 - a ^ 2) + omega a z r * a * (2 - z * (5 / 2 / r ^ 3 + 75 / 14 / r ^ 4 + 81 / 8 / r ^ 5)) - 1 = 0 := by
  have hA : 0 < r ^ 3 - a ^ 2 := sub_pos.2 h3
  have hA' : 0 < r * r * r - a * a := by linear_combination hA
  obtain ⟨B, hB⟩ : ∃ B, B = a * (-2 + z * (5 / 2 / r ^ 3 + 75 / 14 / r ^ 4 + 81 / 8 / r ^ 5)) := ⟨_, rfl⟩
  have hX : 0 < B ^ 2 + 4 * (r ^ 3 - a ^ 2) := by positivity
  have ef : a * (-112 * (r * r * r * r * r) + 567 * z + 300 * r * z + 140 * (r * r) * z) = 56 * r ^ 5 * B := by
    rw [hB]; field_simp; ring
  have es : √(4 * (r * r * r - a * a) / (r * r * r * r) +
      a * a * (-112 * (r * r * r * r * r) + 567 * z + 300 * r * z + 140 * (r * r) * z) *
        (-112 * (r * r * r * r * r) + 567 * z + 300 * r * z + 140 * (r * r) * z) /
        (3136 * (r * r * r * r * r) * (r * r * r * r * r) * (r * r * r * r))) = √(B ^ 2 + 4 * (r ^ 3 - a ^ 2)) / r ^ 2 := by
    rw [show r ^ 2 = √((r ^ 2) ^ 2) from (Real.sqrt_sq (by positivity)).symm, ← Real.sqrt_div hX.le]
    congr 1
    rw [show ∀ f : ℝ, a * a * f * f = (a * f) ^ 2 from fun f => by ring, ef]
    field_simp
    ring
  have ew : omega a z r = (B + √(B ^ 2 + 4 * (r ^ 3 - a ^ 2))) / (2 * (r ^ 3 - a ^ 2)) := by
    simp only [omega]
    rw [es, ef, show r * r * r - a * a = r ^ 3 - a ^ 2 by ring]
    field_simp
    ring
  have hq := Real.sq_sqrt hX.le
  have hB' : -B < √(B ^ 2 + 4 * (r ^ 3 - a ^ 2)) := Real.lt_sqrt_of_sq_lt (by nlinarith)
  constructor
  · rw [ew]; exact div_pos (by linarith) (by positivity)
  · have e2 : omega a z r * a * (2 - z * (5 / 2 / r ^ 3 + 75 / 14 / r ^ 4 + 81 / 8 / r ^ 5)) = -(omega a z r * B) := by
      rw [hB]; ring
    rw [e2, ew]
    field_simp
    linear_combination hq

/-- The metric of the equatorial plane is not degenerate where something can rotate slower than light. -/
theorem det_ne {a z w : ℝ} {pos : Vec} (h2 : pos 1 ≠ 2) (hr : 0 < pos 1) (hθ : pos 2 = Real.pi / 2)
    (hD : pos 1 ^ 2 - 2 * pos 1 - a ^ 2 ≠ 0) (hv : sp (gmunu a z pos) ![1, 0, 0, w] ![1, 0, 0, w] < 0) : (gmunu a z pos).det ≠ 0 := by
  have hr0 := hr.ne'
  have h2' : pos 1 - 2 ≠ 0 := sub_ne_zero.2 h2
  have e1 : rr a (pos 1) (pos 2) ≠ 0 := by
    have : rr a (pos 1) (pos 2) = (pos 1 ^ 2 - 2 * pos 1 - a ^ 2) / (pos 1 - 2) ^ 2 := by
      have e : 1 - 2 / pos 1 = (pos 1 - 2) / pos 1 := by field_simp
      simp only [rr, hθ, Real.cos_pi_div_two, e]; field_simp; ring
    rw [this]; exact div_ne_zero hD (pow_ne_zero 2 h2')
  have e2 : hh a (pos 1) (pos 2) ≠ 0 := by simp [hh, hθ, hr0]
  have e3 : 0 < pp a (pos 1) (pos 2) := by
    have := mul_self_nonneg a
    simp only [pp, hθ, Real.sin_pi_div_two]; positivity
  have ev : sp (gmunu a z pos) ![1, 0, 0, w] ![1, 0, 0, w] =
      tt a (pos 1) (pos 2) + 2 * tp a z (pos 1) (pos 2) * w + pp a (pos 1) (pos 2) * w ^ 2 := by
    rw [gmunu_eq, ← scalarProd_eq]; simp [scalarProd, Fin.sum_univ_four]; ring
  have ed : (gmunu a z pos).det = rr a (pos 1) (pos 2) * hh a (pos 1) (pos 2) *
      (tt a (pos 1) (pos 2) * pp a (pos 1) (pos 2) - tp a z (pos 1) (pos 2) ^ 2) := by
    rw [gmunu_eq]; simp [Matrix.det_succ_row_zero, Fin.sum_univ_succ, Fin.succAbove]; ring
  rw [ev] at hv
  rw [ed]
  refine mul_ne_zero (mul_ne_zero e1 e2) (ne_of_lt ?_)
  nlinarith [sq_nonneg (pp a (pos 1) (pos 2) * w + tp a z (pos 1) (pos 2)), mul_neg_of_pos_of_neg e3 hv]

/-- C83. In the equatorial plane the velocity is that of an observer in free fall rotating with the hole. -/
theorem circular_ok {a z dir : ℝ} {pos : Vec} (h2 : pos 1 ≠ 2) (hr : 0 < pos 1) (hθ : pos 2 = Real.pi / 2) (h3 : a ^ 2 < pos 1 ^ 3)
    (hD : pos 1 ^ 2 - 2 * pos 1 - a ^ 2 ≠ 0)
    (hv : sp (gmunu a z pos) ![1, 0, 0, omega a z (pos 1)] ![1, 0, 0, omega a z (pos 1)] < 0) :
    let u := circularVelocity a z pos dir
    IsRotating (gmunu a z pos) u ∧ IsFree (gmunu a z) pos u ∧ 0 < u 3 := by
  intro u
  have hu : u = finishVel (gmunu a z pos) (omega a z (pos 1)) := by
    simp only [u, circularVelocity, omega, hθ, Real.sin_pi_div_two, mul_one]
  obtain ⟨hR, h30, -⟩ := finish_ok hv
  obtain ⟨w0, hw⟩ := omega_ok (z := z) hr h3
  rw [hu]
  refine ⟨hR, ?_, ?_⟩
  · have hr0 := hr.ne'
    refine isFree_of_lowered (Matrix.mul_nonsing_inv _ (isUnit_iff_ne_zero.2 (det_ne h2 hr hθ hD hv))) (partials hr0 h2)
      (lowered_rot hR.r hR.theta ?_ ?_)
    · rw [h30]
      simp only [tt_r, tp_r, pp_r, hθ, Real.sin_pi_div_two, Real.cos_pi_div_two]
      generalize finishVel (gmunu a z pos) (omega a z (pos 1)) 0 = v
      have k := congrArg (fun x => 2 / pos 1 ^ 2 * v ^ 2 * x) hw
      simp only [mul_zero] at k
      refine Eq.trans ?_ k
      field_simp
      ring
    · simp only [tt_θ, tp_θ, pp_θ, hθ, Real.cos_pi_div_two]
      ring
  · rw [h30]; exact mul_pos w0 hR.future

/-- C83. The direction asked is ignored. -/
theorem dir_ignored (a z : ℝ) (pos : Vec) (dir dir' : ℝ) : circularVelocity a z pos dir = circularVelocity a z pos dir' := rfl

/-- C83. A particle asked to rotate against the hole rotates with it. -/
theorem dir_wrong : ∃ (a z : ℝ) (pos : Vec), IsRotating (gmunu a z pos) (circularVelocity a z pos (-1)) ∧
    IsFree (gmunu a z) pos (circularVelocity a z pos (-1)) ∧ 0 < circularVelocity a z pos (-1) 3 := by
  have w : omega 0 0 4 = 1 / 8 := by
    have : (4 * (4 * 4 * 4 - 0 * 0) / (4 * 4 * 4 * 4) : ℝ) = 1 ^ 2 := by norm_num
    simp only [omega]
    norm_num
  refine ⟨0, 0, ![0, 4, Real.pi / 2, 0], circular_ok ?_ ?_ rfl ?_ ?_ ?_⟩
  · norm_num
  · norm_num
  · norm_num
  · norm_num
  · rw [← scalarProd_eq, gmunu_eq]
    simp only [Matrix.cons_val, w]
    simp [scalarProd, Fin.sum_univ_four, tt, pp, tp]
    norm_num

/-- C83. The inverse at a point of the equatorial plane, with spin and coupling. -/
example : ∃ R, gmunuUp (1 / 2) 1 ![0, 4, Real.pi / 2, 0] = some R ∧ gmunu (1 / 2) 1 ![0, 4, Real.pi / 2, 0] * R = 1 ∧
    R * gmunu (1 / 2) 1 ![0, 4, Real.pi / 2, 0] = 1 := by
  refine up_ok ?_ (det_ne (w := 0) (by norm_num) (by norm_num) rfl (by norm_num) ?_)
  · rw [gmunu_eq]
    simp [tt]
    norm_num
  · rw [← scalarProd_eq, gmunu_eq]
    simp [scalarProd, Fin.sum_univ_four, tt, pp, tp]
    norm_num

end Gyoto.ChernSimons
