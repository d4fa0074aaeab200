import Verif.Spec.Lorene
import Verif.Lemmas.Circular
import Mathlib.Analysis.Calculus.Deriv.Mul
import Mathlib.Analysis.Calculus.Deriv.Inv
import Mathlib.Analysis.Calculus.Deriv.Pow
import Mathlib.Analysis.SpecialFunctions.Trigonometric.Deriv
import Mathlib.Analysis.Real.Pi.Bounds
import Mathlib.Tactic.FieldSimp
import Mathlib.Tactic.LinearCombination
import Mathlib.Tactic.Positivity

/-!
# C137: one slice of a numerical metric
-/

namespace Gyoto.Lorene

open Gyoto.MetricAlg Gyoto.Spacetime Gyoto.KerrBL

/-- A field as a function of two variables. -/
def flat (f : Scal) : ℝ → ℝ → ℝ := fun r th => f.val r th 0

theorem flat_eq {f : Scal} (h : Axisymmetric f) (r th ph : ℝ) : f.val r th ph = flat f r th := h _ _ _ _

theorem flat_dr {f : Scal} {p : Vec} (h : Axisymmetric f) (hf : IsField f p) : HasDerivAt (fun x => flat f x (p 2)) (f.dr (p 1) (p 2) (p 3)) (p 1) :=
  hf.1.congr_of_eventuallyEq (Filter.Eventually.of_forall fun _ => h _ _ _ _)

theorem flat_dt {f : Scal} {p : Vec} (h : Axisymmetric f) (hf : IsField f p) : HasDerivAt (fun x => flat f (p 1) x) (f.dt (p 1) (p 2) (p 3)) (p 2) :=
  hf.2.1.congr_of_eventuallyEq (Filter.Eventually.of_forall fun _ => h _ _ _ _)

/-- The metric of a circular slice, in the shape for which the twenty equations are known. -/
theorem gmunu_circ {s : Slice} {p : Vec} (h : Circular s p) (q : Vec) : s.gmunu q = circ
    (-(flat s.lapse (q 1) (q 2)) ^ 2 + flat (s.gcov 2 2) (q 1) (q 2) * flat (s.shift 2) (q 1) (q 2) ^ 2)
    (flat (s.gcov 0 0) (q 1) (q 2)) (q 1 ^ 2 * flat (s.gcov 1 1) (q 1) (q 2))
    ((q 1 * Real.sin (q 2)) ^ 2 * flat (s.gcov 2 2) (q 1) (q 2))
    (q 1 * Real.sin (q 2) * flat (s.gcov 2 2) (q 1) (q 2) * flat (s.shift 2) (q 1) (q 2)) := by
  funext α β
  simp only [Slice.gmunu, (h.noShift _ _ _).1, (h.noShift _ _ _).2, flat_eq h.axiLapse, flat_eq h.axiShift, flat_eq (h.axiGcov _)]
  fin_cases α <;> fin_cases β <;> simp [circ] <;> first | ring1 | (left; ring1)

/-- The twelve partial derivatives that matter. -/
theorem gmunu_partials {s : Slice} {p : Vec} (h : Circular s p) :
    HasDerivAt (fun x => -(flat s.lapse x (p 2)) ^ 2 + flat (s.gcov 2 2) x (p 2) * flat (s.shift 2) x (p 2) ^ 2)
      (-(2 * flat s.lapse (p 1) (p 2) * s.lapse.dr (p 1) (p 2) (p 3)) + ((s.gcov 2 2).dr (p 1) (p 2) (p 3) * flat (s.shift 2) (p 1) (p 2) ^ 2 +
        flat (s.gcov 2 2) (p 1) (p 2) * (2 * flat (s.shift 2) (p 1) (p 2) * (s.shift 2).dr (p 1) (p 2) (p 3)))) (p 1) ∧
    HasDerivAt (fun x => -(flat s.lapse (p 1) x) ^ 2 + flat (s.gcov 2 2) (p 1) x * flat (s.shift 2) (p 1) x ^ 2)
      (-(2 * flat s.lapse (p 1) (p 2) * s.lapse.dt (p 1) (p 2) (p 3)) + ((s.gcov 2 2).dt (p 1) (p 2) (p 3) * flat (s.shift 2) (p 1) (p 2) ^ 2 +
        flat (s.gcov 2 2) (p 1) (p 2) * (2 * flat (s.shift 2) (p 1) (p 2) * (s.shift 2).dt (p 1) (p 2) (p 3)))) (p 2) ∧
    HasDerivAt (fun x => x ^ 2 * flat (s.gcov 1 1) x (p 2)) (2 * p 1 * flat (s.gcov 1 1) (p 1) (p 2) + p 1 ^ 2 * (s.gcov 1 1).dr (p 1) (p 2) (p 3)) (p 1) ∧
    HasDerivAt (fun x => p 1 ^ 2 * flat (s.gcov 1 1) (p 1) x) (p 1 ^ 2 * (s.gcov 1 1).dt (p 1) (p 2) (p 3)) (p 2) ∧
    HasDerivAt (fun x => (x * Real.sin (p 2)) ^ 2 * flat (s.gcov 2 2) x (p 2))
      (2 * p 1 * Real.sin (p 2) ^ 2 * flat (s.gcov 2 2) (p 1) (p 2) + (p 1 * Real.sin (p 2)) ^ 2 * (s.gcov 2 2).dr (p 1) (p 2) (p 3)) (p 1) ∧
    HasDerivAt (fun x => (p 1 * Real.sin x) ^ 2 * flat (s.gcov 2 2) (p 1) x)
      (2 * p 1 ^ 2 * Real.sin (p 2) * Real.cos (p 2) * flat (s.gcov 2 2) (p 1) (p 2) + (p 1 * Real.sin (p 2)) ^ 2 * (s.gcov 2 2).dt (p 1) (p 2) (p 3)) (p 2) ∧
    HasDerivAt (fun x => x * Real.sin (p 2) * flat (s.gcov 2 2) x (p 2) * flat (s.shift 2) x (p 2))
      ((Real.sin (p 2) * flat (s.gcov 2 2) (p 1) (p 2) + p 1 * Real.sin (p 2) * (s.gcov 2 2).dr (p 1) (p 2) (p 3)) * flat (s.shift 2) (p 1) (p 2) +
        p 1 * Real.sin (p 2) * flat (s.gcov 2 2) (p 1) (p 2) * (s.shift 2).dr (p 1) (p 2) (p 3)) (p 1) ∧
    HasDerivAt (fun x => p 1 * Real.sin x * flat (s.gcov 2 2) (p 1) x * flat (s.shift 2) (p 1) x)
      ((p 1 * Real.cos (p 2) * flat (s.gcov 2 2) (p 1) (p 2) + p 1 * Real.sin (p 2) * (s.gcov 2 2).dt (p 1) (p 2) (p 3)) * flat (s.shift 2) (p 1) (p 2) +
        p 1 * Real.sin (p 2) * flat (s.gcov 2 2) (p 1) (p 2) * (s.shift 2).dt (p 1) (p 2) (p 3)) (p 2) := by
  have hN := flat_dr h.axiLapse h.lapse
  have hN' := flat_dt h.axiLapse h.lapse
  have hb := flat_dr h.axiShift h.shift
  have hb' := flat_dt h.axiShift h.shift
  have h1 := flat_dr (h.axiGcov 1) (h.gcov 1)
  have h1' := flat_dt (h.axiGcov 1) (h.gcov 1)
  have h2 := flat_dr (h.axiGcov 2) (h.gcov 2)
  have h2' := flat_dt (h.axiGcov 2) (h.gcov 2)
  have hi := hasDerivAt_id (p 1)
  have hs := Real.hasDerivAt_sin (p 2)
  refine ⟨?_, ?_, ?_, ?_, ?_, ?_, ?_, ?_⟩
  · exact ((hN.pow 2).neg.add (h2.mul (hb.pow 2))).congr_deriv (by simp only [Pi.pow_apply]; push_cast; ring)
  · exact ((hN'.pow 2).neg.add (h2'.mul (hb'.pow 2))).congr_deriv (by simp only [Pi.pow_apply]; push_cast; ring)
  · exact ((hi.pow 2).mul h1).congr_deriv (by simp only [Pi.pow_apply, id]; push_cast; ring)
  · exact h1'.const_mul _
  · exact (((hi.mul_const _).pow 2).mul h2).congr_deriv (by simp only [Pi.pow_apply, id]; push_cast; ring)
  · exact (((hs.const_mul _).pow 2).mul h2').congr_deriv (by simp only [Pi.pow_apply]; push_cast; ring)
  · exact (((hi.mul_const _).mul h2).mul hb).congr_deriv (by simp only [Pi.mul_apply, id]; ring)
  · exact (((hs.const_mul _).mul h2').mul hb').congr_deriv (by simp only [Pi.mul_apply])

/-- The extrinsic curvature, in terms of the derivatives of the component in the basis of Lorene. -/
theorem extrinsic {s : Slice} {p : Vec} (h : Circular s p) (hK : IsExtrinsic s p) :
    2 * s.lapse.val (p 1) (p 2) (p 3) * (s.kij 0 2).val (p 1) (p 2) (p 3) * p 1 = (s.gcov 2 2).val (p 1) (p 2) (p 3) *
        (p 1 * (s.shift 2).dr (p 1) (p 2) (p 3) - (s.shift 2).val (p 1) (p 2) (p 3)) ∧
      2 * s.lapse.val (p 1) (p 2) (p 3) * (s.kij 1 2).val (p 1) (p 2) (p 3) * p 1 * Real.sin (p 2) = (s.gcov 2 2).val (p 1) (p 2) (p 3) *
        (Real.sin (p 2) * (s.shift 2).dt (p 1) (p 2) (p 3) - Real.cos (p 2) * (s.shift 2).val (p 1) (p 2) (p 3)) := by
  obtain ⟨Dr, Dt, hr, ht, e1, e2⟩ := hK
  obtain ⟨r0, s0⟩ := h.offAxis
  have n0 := h.lapse0
  have hr' := (h.shift.1.div ((hasDerivAt_id (p 1)).mul_const (Real.sin (p 2))) (mul_ne_zero r0 s0)).unique hr
  have ht' := (h.shift.2.1.div ((Real.hasDerivAt_sin (p 2)).const_mul (p 1)) (mul_ne_zero r0 s0)).unique ht
  simp only [id] at hr'
  subst hr' ht'
  generalize s.lapse.val (p 1) (p 2) (p 3) = N at *
  generalize (s.kij 0 2).val (p 1) (p 2) (p 3) = k1 at *
  generalize (s.kij 1 2).val (p 1) (p 2) (p 3) = k2 at *
  generalize (s.gcov 2 2).val (p 1) (p 2) (p 3) = g at *
  generalize (s.shift 2).val (p 1) (p 2) (p 3) = b at *
  generalize (s.shift 2).dr (p 1) (p 2) (p 3) = br at *
  generalize (s.shift 2).dt (p 1) (p 2) (p 3) = bt at *
  generalize p 1 = r at *
  generalize Real.sin (p 2) = S at *
  generalize Real.cos (p 2) = C at *
  field_simp at e1 e2
  constructor
  · linear_combination e1
  · linear_combination e2

set_option maxHeartbeats 1000000 in
/-- **C137.** `christoffel(dst, coord)` gives the Christoffel symbols of `gmunu`, for every circular slice whose extrinsic curvature is that of the
slice. -/
theorem christoffel_is_connection (s : Slice) (p : Vec) (h : Circular s p) (hK : IsExtrinsic s p) : IsChristoffel s.gmunu p (s.christoffel p) := by
  obtain ⟨htr, htt, hhr, hht, hpr, hpt, hxr, hxt⟩ := gmunu_partials h
  obtain ⟨k1, k2⟩ := extrinsic h hK
  obtain ⟨r0, s0⟩ := h.offAxis
  have n0 := h.lapse0
  have i0 := h.inverse 0
  have i1 := h.inverse 1
  have i2 := h.inverse 2
  have em : s.gmunu = fun q => circ
      (-(flat s.lapse (q 1) (q 2)) ^ 2 + flat (s.gcov 2 2) (q 1) (q 2) * flat (s.shift 2) (q 1) (q 2) ^ 2)
      (flat (s.gcov 0 0) (q 1) (q 2)) (q 1 ^ 2 * flat (s.gcov 1 1) (q 1) (q 2))
      ((q 1 * Real.sin (q 2)) ^ 2 * flat (s.gcov 2 2) (q 1) (q 2))
      (q 1 * Real.sin (q 2) * flat (s.gcov 2 2) (q 1) (q 2) * flat (s.shift 2) (q 1) (q 2)) := funext (gmunu_circ h)
  rw [em]
  refine isChristoffel_circ (tt := fun r t => -(flat s.lapse r t) ^ 2 + flat (s.gcov 2 2) r t * flat (s.shift 2) r t ^ 2) (rr := flat (s.gcov 0 0))
    (hh := fun r t => r ^ 2 * flat (s.gcov 1 1) r t) (pp := fun r t => (r * Real.sin t) ^ 2 * flat (s.gcov 2 2) r t)
    (tp := fun r t => r * Real.sin t * flat (s.gcov 2 2) r t * flat (s.shift 2) r t)
    htr (flat_dr (h.axiGcov 0) (h.gcov 0)) hhr hpr hxr htt (flat_dt (h.axiGcov 0) (h.gcov 0)) hht hpt hxt
    ?_ ?_ ?_ ?_ ?_ ?_ ?_ ?_ ?_ ?_ ?_ ?_ ?_ ?_ ?_ ?_ ?_ ?_ ?_ ?_
  all_goals
    clear htr htt hhr hht hpr hpt hxr hxt em
    simp only [flat_eq h.axiLapse, flat_eq h.axiShift, flat_eq (h.axiGcov _)] at *
    generalize flat s.lapse (p 1) (p 2) = N at *
    generalize s.lapse.dr (p 1) (p 2) (p 3) = Nr at *
    generalize s.lapse.dt (p 1) (p 2) (p 3) = Nt at *
    generalize (s.kij 0 2).val (p 1) (p 2) (p 3) = K1 at *
    generalize (s.kij 1 2).val (p 1) (p 2) (p 3) = K2 at *
    generalize flat (s.gcov 0 0) (p 1) (p 2) = g0 at *
    generalize flat (s.gcov 1 1) (p 1) (p 2) = g1 at *
    generalize flat (s.gcov 2 2) (p 1) (p 2) = g2 at *
    generalize (s.gcov 0 0).dr (p 1) (p 2) (p 3) = g0r at *
    generalize (s.gcov 1 1).dr (p 1) (p 2) (p 3) = g1r at *
    generalize (s.gcov 2 2).dr (p 1) (p 2) (p 3) = g2r at *
    generalize (s.gcov 0 0).dt (p 1) (p 2) (p 3) = g0t at *
    generalize (s.gcov 1 1).dt (p 1) (p 2) (p 3) = g1t at *
    generalize (s.gcov 2 2).dt (p 1) (p 2) (p 3) = g2t at *
    generalize (s.gcon 0 0).val (p 1) (p 2) (p 3) = u0 at *
    generalize (s.gcon 1 1).val (p 1) (p 2) (p 3) = u1 at *
    generalize (s.gcon 2 2).val (p 1) (p 2) (p 3) = u2 at *
    generalize flat (s.shift 2) (p 1) (p 2) = b at *
    generalize (s.shift 2).dr (p 1) (p 2) (p 3) = br at *
    generalize (s.shift 2).dt (p 1) (p 2) (p 3) = bt at *
    generalize p 1 = r at *
    generalize Real.sin (p 2) = S at *
    generalize Real.cos (p 2) = C at *
    have g00 : g0 ≠ 0 := left_ne_zero_of_mul_eq_one i0
    have g10 : g1 ≠ 0 := left_ne_zero_of_mul_eq_one i1
    have g20 : g2 ≠ 0 := left_ne_zero_of_mul_eq_one i2
    obtain rfl : u0 = 1 / g0 := by field_simp; linear_combination i0
    obtain rfl : u1 = 1 / g1 := by field_simp; linear_combination i1
    obtain rfl : u2 = 1 / g2 := by field_simp; linear_combination i2
    obtain rfl : K1 = g2 * (r * br - b) / (2 * N * r) := by field_simp; linear_combination k1
    obtain rfl : K2 = g2 * (S * bt - C * b) / (2 * N * r * S) := by field_simp; linear_combination k2
    clear i0 i1 i2 k1 k2
    norm_num
    field_simp
    try ring

/-- **C137.** For circular slices, the lapse and shift of `computeNBeta` are those of `gmunu`, where the lapse is not negative. -/
theorem lapse_shift (s : Slice) (p : Vec) (h0 : 0 ≤ s.lapse.val (p 1) (p 2) (p 3)) (r0 : p 1 ≠ 0) (s0 : Real.sin (p 2) ≠ 0) :
    IsLapseShift (s.gmunu p) (s.nBeta p).1 (s.nBeta p).2 := by
  refine ⟨h0, fun i => ?_, ?_⟩
  · rw [Fin.sum_univ_three]
    match i with
    | 0 =>
      show (s.gcov 0 0).val (p 1) (p 2) (p 3) * (s.shift 0).val (p 1) (p 2) (p 3) = (s.gcov 0 0).val (p 1) (p 2) (p 3) * (s.shift 0).val (p 1) (p 2) (p 3)
        + 0 * (1 / p 1 * (s.shift 1).val (p 1) (p 2) (p 3)) + 0 * (1 / (p 1 * Real.sin (p 2)) * (s.shift 2).val (p 1) (p 2) (p 3))
      ring
    | 1 =>
      show p 1 * p 1 * (s.gcov 1 1).val (p 1) (p 2) (p 3) * (1 / p 1) * (s.shift 1).val (p 1) (p 2) (p 3) = 0 * (s.shift 0).val (p 1) (p 2) (p 3)
        + p 1 * p 1 * (s.gcov 1 1).val (p 1) (p 2) (p 3) * (1 / p 1 * (s.shift 1).val (p 1) (p 2) (p 3))
        + 0 * (1 / (p 1 * Real.sin (p 2)) * (s.shift 2).val (p 1) (p 2) (p 3))
      ring
    | 2 =>
      show p 1 * Real.sin (p 2) * (s.gcov 2 2).val (p 1) (p 2) (p 3) * (s.shift 2).val (p 1) (p 2) (p 3) = 0 * (s.shift 0).val (p 1) (p 2) (p 3)
        + 0 * (1 / p 1 * (s.shift 1).val (p 1) (p 2) (p 3))
        + p 1 * p 1 * Real.sin (p 2) * Real.sin (p 2) * (s.gcov 2 2).val (p 1) (p 2) (p 3) *
          (1 / (p 1 * Real.sin (p 2)) * (s.shift 2).val (p 1) (p 2) (p 3))
      field_simp
      ring
  · simp only [Fin.sum_univ_three]
    show -s.lapse.val (p 1) (p 2) (p 3) * s.lapse.val (p 1) (p 2) (p 3) + (s.gcov 0 0).val (p 1) (p 2) (p 3) * (s.shift 0).val (p 1) (p 2) (p 3) * (s.shift 0).val (p 1) (p 2) (p 3)
        + (s.gcov 1 1).val (p 1) (p 2) (p 3) * (s.shift 1).val (p 1) (p 2) (p 3) * (s.shift 1).val (p 1) (p 2) (p 3)
        + (s.gcov 2 2).val (p 1) (p 2) (p 3) * (s.shift 2).val (p 1) (p 2) (p 3) * (s.shift 2).val (p 1) (p 2) (p 3) =
      -s.lapse.val (p 1) (p 2) (p 3) ^ 2 +
      ((s.gcov 0 0).val (p 1) (p 2) (p 3) * (s.shift 0).val (p 1) (p 2) (p 3) * (s.shift 0).val (p 1) (p 2) (p 3)
        + 0 * (s.shift 0).val (p 1) (p 2) (p 3) * (1 / p 1 * (s.shift 1).val (p 1) (p 2) (p 3))
        + 0 * (s.shift 0).val (p 1) (p 2) (p 3) * (1 / (p 1 * Real.sin (p 2)) * (s.shift 2).val (p 1) (p 2) (p 3))
      + (0 * (1 / p 1 * (s.shift 1).val (p 1) (p 2) (p 3)) * (s.shift 0).val (p 1) (p 2) (p 3)
        + p 1 * p 1 * (s.gcov 1 1).val (p 1) (p 2) (p 3) * (1 / p 1 * (s.shift 1).val (p 1) (p 2) (p 3)) * (1 / p 1 * (s.shift 1).val (p 1) (p 2) (p 3))
        + 0 * (1 / p 1 * (s.shift 1).val (p 1) (p 2) (p 3)) * (1 / (p 1 * Real.sin (p 2)) * (s.shift 2).val (p 1) (p 2) (p 3)))
      + (0 * (1 / (p 1 * Real.sin (p 2)) * (s.shift 2).val (p 1) (p 2) (p 3)) * (s.shift 0).val (p 1) (p 2) (p 3)
        + 0 * (1 / (p 1 * Real.sin (p 2)) * (s.shift 2).val (p 1) (p 2) (p 3)) * (1 / p 1 * (s.shift 1).val (p 1) (p 2) (p 3))
        + p 1 * p 1 * Real.sin (p 2) * Real.sin (p 2) * (s.gcov 2 2).val (p 1) (p 2) (p 3) *
          (1 / (p 1 * Real.sin (p 2)) * (s.shift 2).val (p 1) (p 2) (p 3)) * (1 / (p 1 * Real.sin (p 2)) * (s.shift 2).val (p 1) (p 2) (p 3))))
    field_simp
    ring

/-- **C137 (derivatives).** `gmunu_di` gives the derivatives of `gmunu` in a circular slice — all of them in the equatorial plane or without shift;
elsewhere all except the radial derivative of `g_tt`. -/
theorem gmunu_di_partial (s : Slice) (p : Vec) (h : Circular s p) :
    (∀ α β, (α, β) ≠ (0, 0) ∨ Real.sin (p 2) = 1 ∨ (s.shift 2).val (p 1) (p 2) (p 3) = 0 →
        HasDerivAt (fun x => s.gmunu (Function.update p 1 x) α β) (s.gmunuDr p α β) (p 1)) ∧
      ∀ α β, HasDerivAt (fun x => s.gmunu (Function.update p 2 x) α β) (s.gmunuDth p α β) (p 2) := by
  obtain ⟨htr, htt, hhr, hht, hpr, hpt, hxr, hxt⟩ := gmunu_partials h
  obtain ⟨r0, s0⟩ := h.offAxis
  have e1 : ∀ x, (Function.update p 1 x) 1 = x := fun x => Function.update_self _ _ _
  have e2 : ∀ x, (Function.update p 1 x) 2 = p 2 := fun x => Function.update_of_ne (by decide) _ _
  have e3 : ∀ x, (Function.update p 2 x) 1 = p 1 := fun x => Function.update_of_ne (by decide) _ _
  have e4 : ∀ x, (Function.update p 2 x) 2 = x := fun x => Function.update_self _ _ _
  constructor
  · intro α β hc
    simp only [gmunu_circ h, e1, e2]
    refine (circ_deriv htr (flat_dr (h.axiGcov 0) (h.gcov 0)) hhr hpr hxr α β).congr_deriv ?_
    simp only [Slice.gmunuDr, flat_eq h.axiLapse, flat_eq h.axiShift, flat_eq (h.axiGcov _)] at hc ⊢
    generalize flat (s.shift 2) (p 1) (p 2) = b at *
    generalize p 1 = r at *
    generalize Real.sin (p 2) = S at *
    match α, β with
    | 0, 0 =>
      simp only [circ00, Matrix.of_apply, Matrix.cons_val_zero]
      rcases hc with hc | rfl | rfl
      · exact absurd rfl hc
      · field_simp
        ring
      · field_simp
        ring
    | 0, 3 =>
      simp only [circ03, Matrix.of_apply, Matrix.cons_val]
      field_simp
      ring
    | 3, 0 =>
      simp only [circ30, Matrix.of_apply, Matrix.cons_val]
      field_simp
      ring
    | 1, 1 => rfl
    | 2, 2 =>
      simp only [circ22, Matrix.of_apply, Matrix.cons_val]
      ring
    | 3, 3 =>
      simp only [circ33, Matrix.of_apply, Matrix.cons_val]
      ring
    | 0, 1 => rfl
    | 0, 2 => rfl
    | 1, 0 => rfl
    | 1, 2 => rfl
    | 1, 3 => rfl
    | 2, 0 => rfl
    | 2, 1 => rfl
    | 2, 3 => rfl
    | 3, 1 => rfl
    | 3, 2 => rfl
  · intro α β
    simp only [gmunu_circ h, e3, e4]
    refine (circ_deriv htt (flat_dt (h.axiGcov 0) (h.gcov 0)) hht hpt hxt α β).congr_deriv ?_
    simp only [Slice.gmunuDth, flat_eq h.axiLapse, flat_eq h.axiShift, flat_eq (h.axiGcov _)]
    generalize flat (s.shift 2) (p 1) (p 2) = b at *
    generalize p 1 = r at *
    generalize Real.sin (p 2) = S at *
    match α, β with
    | 0, 0 =>
      simp only [circ00, Matrix.of_apply, Matrix.cons_val_zero]
      field_simp
      ring
    | 0, 3 =>
      simp only [circ03, Matrix.of_apply, Matrix.cons_val]
      field_simp
      ring
    | 3, 0 =>
      simp only [circ30, Matrix.of_apply, Matrix.cons_val]
      field_simp
      ring
    | 1, 1 => rfl
    | 2, 2 =>
      simp only [circ22, Matrix.of_apply, Matrix.cons_val]
      ring
    | 3, 3 =>
      simp only [circ33, Matrix.of_apply, Matrix.cons_val]
      ring
    | 0, 1 => rfl
    | 0, 2 => rfl
    | 1, 0 => rfl
    | 1, 2 => rfl
    | 1, 3 => rfl
    | 2, 0 => rfl
    | 2, 1 => rfl
    | 2, 3 => rfl
    | 3, 1 => rfl
    | 3, 2 => rfl

theorem const_field (c : ℝ) (p : Vec) : IsField (const c) p := by
  refine ⟨hasDerivAt_const _ _, hasDerivAt_const _ _, ?_⟩
  show HasDerivAt (fun _ => c) (Real.sin (p 2) * 0) (p 3)
  rw [mul_zero]
  exact hasDerivAt_const _ _

/-- Flat space in a rotating frame satisfies all that is asked of a slice. -/
theorem rotatingFrame_circular (Ω : ℝ) (p : Vec) (r0 : p 1 ≠ 0) (s0 : Real.sin (p 2) ≠ 0) :
    Circular (rotatingFrame Ω) p ∧ IsExtrinsic (rotatingFrame Ω) p := by
  constructor
  · refine ⟨const_field 1 p, ⟨?_, ?_, ?_⟩, fun i => ?_, fun _ _ _ _ => rfl, fun _ _ _ _ => rfl, fun i _ _ _ _ => ?_, fun _ _ _ => ⟨rfl, rfl⟩, fun i => ?_,
      one_ne_zero, r0, s0⟩
    · exact (((hasDerivAt_id (p 1)).const_mul Ω).mul_const (Real.sin (p 2))).congr_deriv (by simp [rotatingFrame])
    · exact (Real.hasDerivAt_sin (p 2)).const_mul (Ω * p 1)
    · show HasDerivAt (fun _ => Ω * p 1 * Real.sin (p 2)) (Real.sin (p 2) * 0) (p 3)
      rw [mul_zero]
      exact hasDerivAt_const _ _
    · simp only [rotatingFrame, if_true]
      exact const_field 1 p
    · simp only [rotatingFrame, if_true]
      rfl
    · simp [rotatingFrame, const]
  · refine ⟨0, 0, ?_, ?_, ?_, ?_⟩
    · refine (hasDerivAt_const (p 1) Ω).congr_of_eventuallyEq ?_
      filter_upwards [isOpen_ne.mem_nhds r0] with x hx
      show Ω * x * Real.sin (p 2) / (x * Real.sin (p 2)) = Ω
      have hx : x ≠ 0 := hx
      field_simp
    · refine (hasDerivAt_const (p 2) Ω).congr_of_eventuallyEq ?_
      filter_upwards [(isOpen_ne.preimage Real.continuous_sin).mem_nhds s0] with x hx
      show Ω * p 1 * Real.sin x / (p 1 * Real.sin x) = Ω
      have hx : Real.sin x ≠ 0 := hx
      field_simp
    · simp [rotatingFrame, const]
    · simp [rotatingFrame, const]

/-- **C137 refuted (radial derivative of `g_tt`).** In a rotating frame, `gmunu_di` gives the wrong derivative wherever the sine of the colatitude is not
one. -/
theorem gmunu_di_wrong (Ω : ℝ) (p : Vec) (hΩ : Ω ≠ 0) (r0 : p 1 ≠ 0) (s0 : Real.sin (p 2) ≠ 0) (s1 : Real.sin (p 2) ≠ 1) :
    ¬HasDerivAt (fun x => (rotatingFrame Ω).gmunu (Function.update p 1 x) 0 0) ((rotatingFrame Ω).gmunuDr p 0 0) (p 1) := by
  intro hd
  obtain ⟨htr, -⟩ := gmunu_partials (rotatingFrame_circular Ω p r0 s0).1
  have e1 : ∀ x, (Function.update p 1 x) 1 = x := fun x => Function.update_self _ _ _
  have e2 : ∀ x, (Function.update p 1 x) 2 = p 2 := fun x => Function.update_of_ne (by decide) _ _
  simp only [gmunu_circ (rotatingFrame_circular Ω p r0 s0).1, e1, e2, circ00] at hd
  have := hd.unique htr
  simp only [Slice.gmunuDr, rotatingFrame, const, flat, if_true, Matrix.of_apply, Matrix.cons_val] at this
  field_simp at this
  refine s1 ?_
  have hc : Ω ^ 2 * Real.sin (p 2) * p 1 * 2 ≠ 0 := by positivity
  refine mul_left_cancel₀ hc ?_
  linear_combination -this

/-- `h` is the inverse of the metric `g`. -/
def IsInv (g h : Tensor) : Prop := ∀ α β, ∑ γ, h α γ * g γ β = if α = β then 1 else 0

theorem isInv_circ {s : Slice} {p : Vec} (h : Circular s p) (hu : ∀ i, (s.gcov i i).val (p 1) (p 2) (p 3) ^ 2 = 1) :
    IsInv (s.gmunu p) (s.gmunuUp p) := by
  obtain ⟨r0, s0⟩ := h.offAxis
  have n0 := h.lapse0
  have u0 := hu 0
  have u1 := hu 1
  have u2 := hu 2
  intro α β
  rw [Fin.sum_univ_four, gmunu_circ h]
  simp only [Slice.gmunuUp, flat_eq h.axiLapse, flat_eq h.axiShift, flat_eq (h.axiGcov _)] at *
  generalize flat s.lapse (p 1) (p 2) = N at *
  generalize flat (s.gcov 0 0) (p 1) (p 2) = g0 at *
  generalize flat (s.gcov 1 1) (p 1) (p 2) = g1 at *
  generalize flat (s.gcov 2 2) (p 1) (p 2) = g2 at *
  generalize flat (s.shift 2) (p 1) (p 2) = b at *
  generalize p 1 = r at *
  generalize Real.sin (p 2) = S at *
  fin_cases α <;> fin_cases β <;> simp [circ] <;> field_simp <;> first | ring1 | linear_combination u0 | linear_combination u1 | linear_combination u2 | linear_combination N ^ 2 * u2 | linear_combination b * N ^ 2 * u2

/-- **C137 (inverse).** What `gmunu_up` returns is the inverse of `gmunu` when the diagonal components of the spatial metric are `±1` … -/
theorem gmunu_up_partial (s : Slice) (p : Vec) (h : Circular s p) (hu : ∀ i, (s.gcov i i).val (p 1) (p 2) (p 3) ^ 2 = 1) :
    IsInv (s.gmunu p) (s.gmunuUp p) := isInv_circ h hu

/-- **C137 refuted (inverse).** … and only then: it reads the covariant components where the contravariant ones are needed. -/
theorem gmunu_up_wrong (s : Slice) (p : Vec) (h : Circular s p) (hi : IsInv (s.gmunu p) (s.gmunuUp p)) :
    ∀ i, (s.gcov i i).val (p 1) (p 2) (p 3) ^ 2 = 1 := by
  obtain ⟨r0, s0⟩ := h.offAxis
  have n0 := h.lapse0
  have i1 := hi 1 1
  have i2 := hi 2 2
  have i3 := hi 3 3
  rw [Fin.sum_univ_four, gmunu_circ h] at i1 i2 i3
  simp only [Slice.gmunuUp, flat_eq h.axiLapse, flat_eq h.axiShift, flat_eq (h.axiGcov _), circ, if_true, Matrix.of_apply, Matrix.cons_val] at *
  field_simp at i1 i2 i3
  intro i
  match i with
  | 0 => linarith
  | 1 => linarith
  | 2 =>
    refine mul_left_cancel₀ (pow_ne_zero 2 n0) ?_
    linear_combination i3

/-- **C137 (derivatives of the inverse).** `gmunu_up_dr` gives the radial derivatives of three components of the inverse of `gmunu`. -/
theorem gmunu_up_dr (s : Slice) (p : Vec) (h : Circular s p) :
    HasDerivAt (fun r => -1 / s.lapse.val r (p 2) (p 3) ^ 2) (s.gmunuUpDr p).1 (p 1) ∧
      HasDerivAt (fun r => (s.shift 2).val r (p 2) (p 3) / (r * Real.sin (p 2)) / s.lapse.val r (p 2) (p 3) ^ 2) (s.gmunuUpDr p).2.1 (p 1) ∧
      HasDerivAt (fun r => (1 / (s.gcov 2 2).val r (p 2) (p 3) - ((s.shift 2).val r (p 2) (p 3) / s.lapse.val r (p 2) (p 3)) ^ 2) / (r * Real.sin (p 2)) ^ 2)
        (s.gmunuUpDr p).2.2 (p 1) := by
  obtain ⟨r0, s0⟩ := h.offAxis
  have n0 := h.lapse0
  have g0 : (s.gcov 2 2).val (p 1) (p 2) (p 3) ≠ 0 := left_ne_zero_of_mul_eq_one (h.inverse 2)
  have hN := h.lapse.1
  have hb := h.shift.1
  have hg := (h.gcov 2).1
  have hr := (hasDerivAt_id (p 1)).mul_const (Real.sin (p 2))
  have rs : p 1 * Real.sin (p 2) ≠ 0 := mul_ne_zero r0 s0
  refine ⟨?_, ?_, ?_⟩
  · refine ((hasDerivAt_const (p 1) (-1 : ℝ)).div (hN.pow 2) (pow_ne_zero 2 n0)).congr_deriv ?_
    simp only [Slice.gmunuUpDr, Pi.pow_apply]
    field_simp
    ring
  · refine ((hb.div hr rs).div (hN.pow 2) (pow_ne_zero 2 n0)).congr_deriv ?_
    simp only [Slice.gmunuUpDr, Pi.pow_apply, Pi.div_apply, id]
    field_simp
    ring
  · refine ((((hasDerivAt_const (p 1) (1 : ℝ)).div hg g0).sub ((hb.div hN n0).pow 2)).div (hr.pow 2) (pow_ne_zero 2 rs)).congr_deriv ?_
    simp only [Slice.gmunuUpDr, Pi.pow_apply, Pi.div_apply, Pi.sub_apply, id, show (2 - 1 : ℕ) = 1 from rfl, pow_one, Nat.cast_ofNat]
    field_simp
    ring

/-- **C137 refuted (one component at a time).** In a rotating frame the overload of `christoffel` for one component gives `Γ^r_tt = 0`: no centrifugal
force.  The other overload gives `-Ω² r sin² θ`, as it should. -/
theorem christoffel1_wrong (Ω : ℝ) (p : Vec) (hΩ : Ω ≠ 0) (r0 : p 1 ≠ 0) (s0 : Real.sin (p 2) ≠ 0) :
    (rotatingFrame Ω).christoffel1 p 1 0 0 = 0 ∧ (rotatingFrame Ω).christoffel p 1 0 0 = -Ω ^ 2 * p 1 * Real.sin (p 2) ^ 2 ∧
      ¬IsChristoffel (rotatingFrame Ω).gmunu p ((rotatingFrame Ω).christoffel1 p) := by
  have a1 : (rotatingFrame Ω).christoffel1 p 1 0 0 = 0 := by
    show (rotatingFrame Ω).lapse.val (p 1) (p 2) (p 3) * ((rotatingFrame Ω).gcon 0 0).val (p 1) (p 2) (p 3) * ((rotatingFrame Ω).lapse.dr (p 1) (p 2) (p 3) -
      2 * (p 1 * Real.sin (p 2) * ((rotatingFrame Ω).kij 0 2).val (p 1) (p 2) (p 3)) *
        (1 / p 1 * (1 / Real.sin (p 2)) * ((rotatingFrame Ω).shift 2).val (p 1) (p 2) (p 3))) = 0
    simp [rotatingFrame, const]
  have a2 : (rotatingFrame Ω).christoffel p 1 0 0 = -Ω ^ 2 * p 1 * Real.sin (p 2) ^ 2 := by
    show (rotatingFrame Ω).lapse.val (p 1) (p 2) (p 3) * ((rotatingFrame Ω).gcon 0 0).val (p 1) (p 2) (p 3) * ((rotatingFrame Ω).lapse.dr (p 1) (p 2) (p 3) -
      2 * (p 1 * Real.sin (p 2) * ((rotatingFrame Ω).kij 0 2).val (p 1) (p 2) (p 3)) *
        (1 / p 1 * (1 / Real.sin (p 2)) * ((rotatingFrame Ω).shift 2).val (p 1) (p 2) (p 3)) -
      1 / p 1 * (1 / Real.sin (p 2)) * ((rotatingFrame Ω).shift 2).val (p 1) (p 2) (p 3) *
        (1 / p 1 * (1 / Real.sin (p 2)) * ((rotatingFrame Ω).shift 2).val (p 1) (p 2) (p 3)) / (2 * (rotatingFrame Ω).lapse.val (p 1) (p 2) (p 3)) *
        (p 1 * p 1 * (Real.sin (p 2) * Real.sin (p 2)) * ((rotatingFrame Ω).gcov 2 2).dr (p 1) (p 2) (p 3) +
          2 * p 1 * (Real.sin (p 2) * Real.sin (p 2)) * ((rotatingFrame Ω).gcov 2 2).val (p 1) (p 2) (p 3))) = _
    simp [rotatingFrame, const]
    field_simp
  refine ⟨a1, a2, fun hc => ?_⟩
  obtain ⟨hC, hK⟩ := rotatingFrame_circular Ω p r0 s0
  have hinv := isInv_circ hC (fun i => by simp [rotatingFrame, const])
  have e := IsChristoffel.unique hinv hc (christoffel_is_connection _ p hC hK)
  rw [e] at a1
  rw [a2] at a1
  simp [hΩ, r0, s0] at a1

/-- The symbols that the overload for one component gets wrong. -/
def wrongOnes : List (Fin 4 × Fin 4 × Fin 4) :=
  [(1, 0, 0), (2, 0, 0), (1, 0, 3), (1, 3, 0), (2, 0, 3), (2, 3, 0), (3, 0, 1), (3, 1, 0), (3, 0, 2), (3, 2, 0), (3, 2, 3), (3, 3, 2)]

/-- Two sets of symbols of that shape agree where their entries do. -/
theorem circΓ_agree {a001 a002 a013 a023 a100 a103 a111 a112 a122 a133 a200 a203 a211 a212 a222 a233 a301 a302 a313 a323 : ℝ}
    {b001 b002 b013 b023 b100 b103 b111 b112 b122 b133 b200 b203 b211 b212 b222 b233 b301 b302 b313 b323 : ℝ}
    (h001 : a001 = b001) (h002 : a002 = b002) (h013 : a013 = b013) (h023 : a023 = b023) (h111 : a111 = b111) (h112 : a112 = b112) (h122 : a122 = b122) (h133 : a133 = b133) (h211 : a211 = b211) (h212 : a212 = b212) (h222 : a222 = b222) (h233 : a233 = b233) (h313 : a313 = b313) (α μ ν : Fin 4)
    (hne : (α, μ, ν) ∉ wrongOnes) :
    circΓ a001 a002 a013 a023 a100 a103 a111 a112 a122 a133 a200 a203 a211 a212 a222 a233 a301 a302 a313 a323 α μ ν =
      circΓ b001 b002 b013 b023 b100 b103 b111 b112 b122 b133 b200 b203 b211 b212 b222 b233 b301 b302 b313 b323 α μ ν := by
  match α, μ, ν with
  | 0, 0, 0 =>
    show (0 : ℝ) = 0
    rfl
  | 0, 0, 1 =>
    show a001 = b001
    exact h001
  | 0, 0, 2 =>
    show a002 = b002
    exact h002
  | 0, 0, 3 =>
    show (0 : ℝ) = 0
    rfl
  | 0, 1, 0 =>
    show a001 = b001
    exact h001
  | 0, 1, 1 =>
    show (0 : ℝ) = 0
    rfl
  | 0, 1, 2 =>
    show (0 : ℝ) = 0
    rfl
  | 0, 1, 3 =>
    show a013 = b013
    exact h013
  | 0, 2, 0 =>
    show a002 = b002
    exact h002
  | 0, 2, 1 =>
    show (0 : ℝ) = 0
    rfl
  | 0, 2, 2 =>
    show (0 : ℝ) = 0
    rfl
  | 0, 2, 3 =>
    show a023 = b023
    exact h023
  | 0, 3, 0 =>
    show (0 : ℝ) = 0
    rfl
  | 0, 3, 1 =>
    show a013 = b013
    exact h013
  | 0, 3, 2 =>
    show a023 = b023
    exact h023
  | 0, 3, 3 =>
    show (0 : ℝ) = 0
    rfl
  | 1, 0, 0 => exact absurd (by simp [wrongOnes]) hne
  | 1, 0, 1 =>
    show (0 : ℝ) = 0
    rfl
  | 1, 0, 2 =>
    show (0 : ℝ) = 0
    rfl
  | 1, 0, 3 => exact absurd (by simp [wrongOnes]) hne
  | 1, 1, 0 =>
    show (0 : ℝ) = 0
    rfl
  | 1, 1, 1 =>
    show a111 = b111
    exact h111
  | 1, 1, 2 =>
    show a112 = b112
    exact h112
  | 1, 1, 3 =>
    show (0 : ℝ) = 0
    rfl
  | 1, 2, 0 =>
    show (0 : ℝ) = 0
    rfl
  | 1, 2, 1 =>
    show a112 = b112
    exact h112
  | 1, 2, 2 =>
    show a122 = b122
    exact h122
  | 1, 2, 3 =>
    show (0 : ℝ) = 0
    rfl
  | 1, 3, 0 => exact absurd (by simp [wrongOnes]) hne
  | 1, 3, 1 =>
    show (0 : ℝ) = 0
    rfl
  | 1, 3, 2 =>
    show (0 : ℝ) = 0
    rfl
  | 1, 3, 3 =>
    show a133 = b133
    exact h133
  | 2, 0, 0 => exact absurd (by simp [wrongOnes]) hne
  | 2, 0, 1 =>
    show (0 : ℝ) = 0
    rfl
  | 2, 0, 2 =>
    show (0 : ℝ) = 0
    rfl
  | 2, 0, 3 => exact absurd (by simp [wrongOnes]) hne
  | 2, 1, 0 =>
    show (0 : ℝ) = 0
    rfl
  | 2, 1, 1 =>
    show a211 = b211
    exact h211
  | 2, 1, 2 =>
    show a212 = b212
    exact h212
  | 2, 1, 3 =>
    show (0 : ℝ) = 0
    rfl
  | 2, 2, 0 =>
    show (0 : ℝ) = 0
    rfl
  | 2, 2, 1 =>
    show a212 = b212
    exact h212
  | 2, 2, 2 =>
    show a222 = b222
    exact h222
  | 2, 2, 3 =>
    show (0 : ℝ) = 0
    rfl
  | 2, 3, 0 => exact absurd (by simp [wrongOnes]) hne
  | 2, 3, 1 =>
    show (0 : ℝ) = 0
    rfl
  | 2, 3, 2 =>
    show (0 : ℝ) = 0
    rfl
  | 2, 3, 3 =>
    show a233 = b233
    exact h233
  | 3, 0, 0 =>
    show (0 : ℝ) = 0
    rfl
  | 3, 0, 1 => exact absurd (by simp [wrongOnes]) hne
  | 3, 0, 2 => exact absurd (by simp [wrongOnes]) hne
  | 3, 0, 3 =>
    show (0 : ℝ) = 0
    rfl
  | 3, 1, 0 => exact absurd (by simp [wrongOnes]) hne
  | 3, 1, 1 =>
    show (0 : ℝ) = 0
    rfl
  | 3, 1, 2 =>
    show (0 : ℝ) = 0
    rfl
  | 3, 1, 3 =>
    show a313 = b313
    exact h313
  | 3, 2, 0 => exact absurd (by simp [wrongOnes]) hne
  | 3, 2, 1 =>
    show (0 : ℝ) = 0
    rfl
  | 3, 2, 2 =>
    show (0 : ℝ) = 0
    rfl
  | 3, 2, 3 => exact absurd (by simp [wrongOnes]) hne
  | 3, 3, 0 =>
    show (0 : ℝ) = 0
    rfl
  | 3, 3, 1 =>
    show a313 = b313
    exact h313
  | 3, 3, 2 => exact absurd (by simp [wrongOnes]) hne
  | 3, 3, 3 =>
    show (0 : ℝ) = 0
    rfl

/-- **C137 (one component at a time).** Twelve of the sixty-four symbols differ; the others are those of the other overload. -/
theorem christoffel1_partial (s : Slice) (p : Vec) (α μ ν : Fin 4) (hne : (α, μ, ν) ∉ wrongOnes) : s.christoffel1 p α μ ν = s.christoffel p α μ ν := by
  refine circΓ_agree ?_ ?_ ?_ ?_ ?_ ?_ ?_ ?_ ?_ ?_ ?_ ?_ ?_ α μ ν hne
  all_goals ring

example : (rotatingFrame 1).christoffel1 ![0, 2, Real.pi / 2, 0] 1 0 0 = 0 ∧ (rotatingFrame 1).christoffel ![0, 2, Real.pi / 2, 0] 1 0 0 = -2 := by
  have h := christoffel1_wrong 1 ![0, 2, Real.pi / 2, 0] (by norm_num) (by norm_num) (by simp)
  refine ⟨h.1, h.2.1.trans ?_⟩
  simp

end Gyoto.Lorene
