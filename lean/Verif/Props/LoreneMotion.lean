import Verif.Spec.LoreneMotion
import Verif.Props.Lorene

/-!
# C138: the equations of motion in a numerical metric
-/

namespace Gyoto.Lorene

open Gyoto.MetricAlg Gyoto.Spacetime Gyoto.Three1

theorem upd0 (x : Fin 3 → ℝ) (y : ℝ) : Function.update x 0 y 0 = y ∧ Function.update x 0 y 1 = x 1 ∧ Function.update x 0 y 2 = x 2 :=
  ⟨Function.update_self _ _ _, Function.update_of_ne (by decide) _ _, Function.update_of_ne (by decide) _ _⟩

theorem upd1 (x : Fin 3 → ℝ) (y : ℝ) : Function.update x 1 y 0 = x 0 ∧ Function.update x 1 y 1 = y ∧ Function.update x 1 y 2 = x 2 :=
  ⟨Function.update_of_ne (by decide) _ _, Function.update_self _ _ _, Function.update_of_ne (by decide) _ _⟩

theorem upd2 (x : Fin 3 → ℝ) (y : ℝ) : Function.update x 2 y 0 = x 0 ∧ Function.update x 2 y 1 = x 1 ∧ Function.update x 2 y 2 = y :=
  ⟨Function.update_of_ne (by decide) _ _, Function.update_of_ne (by decide) _ _, Function.update_self _ _ _⟩

/-- The gradient of a field. -/
noncomputable def gradF (f : Scal) (x : Fin 3 → ℝ) : Fin 3 → ℝ :=
  ![f.dr (x 0) (x 1) (x 2), f.dt (x 0) (x 1) (x 2), Real.sin (x 1) * f.stdp (x 0) (x 1) (x 2)]

theorem grad_field {f : Scal} {x : Fin 3 → ℝ} (h : IsField3 f x) : Grad (at3 f) x (gradF f x) := by
  intro k
  match k with
  | 0 =>
    simp only [at3, (upd0 x _).1, (upd0 x _).2.1, (upd0 x _).2.2]
    exact h.1
  | 1 =>
    simp only [at3, (upd1 x _).1, (upd1 x _).2.1, (upd1 x _).2.2]
    exact h.2.1
  | 2 =>
    simp only [at3, (upd2 x _).1, (upd2 x _).2.1, (upd2 x _).2.2]
    exact h.2.2

/-- The gradient of the factors between bases. -/
noncomputable def gradS (x : Fin 3 → ℝ) : Fin 3 → Fin 3 → ℝ := ![0, ![1, 0, 0], ![Real.sin (x 1), x 0 * Real.cos (x 1), 0]]

theorem grad_scale (x : Fin 3 → ℝ) (i : Fin 3) : Grad (fun x => scale x i) x (gradS x i) := by
  intro k
  match i with
  | 0 => exact match k with | 0 => hasDerivAt_const _ _ | 1 => hasDerivAt_const _ _ | 2 => hasDerivAt_const _ _
  | 1 =>
    show HasDerivAt (fun y => Function.update x k y 0) ((![1, 0, 0] : Fin 3 → ℝ) k) (x k)
    match k with
    | 0 =>
      simp only [(upd0 x _).1]
      exact hasDerivAt_id _
    | 1 =>
      simp only [(upd1 x _).1]
      exact hasDerivAt_const _ _
    | 2 =>
      simp only [(upd2 x _).1]
      exact hasDerivAt_const _ _
  | 2 =>
    show HasDerivAt (fun y => Function.update x k y 0 * Real.sin (Function.update x k y 1)) ((![Real.sin (x 1), x 0 * Real.cos (x 1), 0] : Fin 3 → ℝ) k) (x k)
    match k with
    | 0 =>
      simp only [(upd0 x _).1, (upd0 x _).2.1]
      exact ((hasDerivAt_id (x 0)).mul_const (Real.sin (x 1))).congr_deriv (one_mul _)
    | 1 =>
      simp only [(upd1 x _).1, (upd1 x _).2.1]
      exact (Real.hasDerivAt_sin (x 1)).const_mul (x 0)
    | 2 =>
      simp only [(upd2 x _).1, (upd2 x _).2.1]
      exact hasDerivAt_const _ _

theorem grad_shift {s : Slice} {x : Fin 3 → ℝ} (i : Fin 3) (h : IsField3 (s.shift i) x) (h0 : scale x i ≠ 0) :
    Grad (fun x => coordShift s x i) x fun k => (gradF (s.shift i) x k * scale x i - at3 (s.shift i) x * gradS x i k) / scale x i ^ 2 := by
  intro k
  have h1 := grad_field h k
  have h2 := grad_scale x i k
  have e : Function.update x k (x k) = x := Function.update_eq_self _ _
  have := h1.div h2 (by rw [e]; exact h0)
  simp only [e] at this
  exact this

theorem grad_cov {s : Slice} {x : Fin 3 → ℝ} (i j : Fin 3) (h : IsField3 (sym s.gcov i j) x) :
    Grad (fun x => coordCov s x i j) x fun k => (gradS x i k * scale x j + scale x i * gradS x j k) * at3 (sym s.gcov i j) x +
      scale x i * scale x j * gradF (sym s.gcov i j) x k := by
  intro k
  have e : Function.update x k (x k) = x := Function.update_eq_self _ _
  have := ((grad_scale x i k).mul (grad_scale x j k)).mul (grad_field h k)
  simp only [e, Pi.mul_apply] at this
  exact this

set_option maxHeartbeats 4000000 in
/-- **C138.** In every slice with the fields that Lorene describes, whatever their components and symmetries, the general branch of `diff` computes the
right-hand sides of the 3+1 equations of motion. -/
theorem diff_general (s : Slice) (y : State31) (hN : IsField3 s.lapse y.x) (hβ : ∀ i, IsField3 (s.shift i) y.x) (hγ : ∀ i j, IsField3 (s.gcov i j) y.x)
    (n0 : at3 s.lapse y.x ≠ 0) (r0 : y.x 0 ≠ 0) (s0 : Real.sin (y.x 1) ≠ 0) : Moves s y (s.diffGen y) := by
  have sc : ∀ i, scale y.x i ≠ 0 := fun i => match i with
    | 0 => one_ne_zero
    | 1 => r0
    | 2 => mul_ne_zero r0 s0
  refine ⟨_, _, _, grad_field hN, fun i => grad_shift i (hβ i) (sc i), fun i j => grad_cov i j (hγ _ _), ?_⟩
  have m01 : sym s.gcov 0 1 = s.gcov 0 1 ∧ sym s.gcov 1 0 = s.gcov 0 1 ∧ sym s.gcov 0 2 = s.gcov 0 2 ∧ sym s.gcov 2 0 = s.gcov 0 2 ∧
    sym s.gcov 1 2 = s.gcov 1 2 ∧ sym s.gcov 2 1 = s.gcov 1 2 ∧ sym s.gcov 0 0 = s.gcov 0 0 ∧ sym s.gcov 1 1 = s.gcov 1 1 ∧ sym s.gcov 2 2 = s.gcov 2 2 :=
    ⟨rfl, rfl, rfl, rfl, rfl, rfl, rfl, rfl, rfl⟩
  have m02 : sym s.gcon 0 1 = s.gcon 0 1 ∧ sym s.gcon 1 0 = s.gcon 0 1 ∧ sym s.gcon 0 2 = s.gcon 0 2 ∧ sym s.gcon 2 0 = s.gcon 0 2 ∧
    sym s.gcon 1 2 = s.gcon 1 2 ∧ sym s.gcon 2 1 = s.gcon 1 2 ∧ sym s.gcon 0 0 = s.gcon 0 0 ∧ sym s.gcon 1 1 = s.gcon 1 1 ∧ sym s.gcon 2 2 = s.gcon 2 2 :=
    ⟨rfl, rfl, rfl, rfl, rfl, rfl, rfl, rfl, rfl⟩
  have m03 : sym s.kij 0 1 = s.kij 0 1 ∧ sym s.kij 1 0 = s.kij 0 1 ∧ sym s.kij 0 2 = s.kij 0 2 ∧ sym s.kij 2 0 = s.kij 0 2 ∧
    sym s.kij 1 2 = s.kij 1 2 ∧ sym s.kij 2 1 = s.kij 1 2 ∧ sym s.kij 0 0 = s.kij 0 0 ∧ sym s.kij 1 1 = s.kij 1 1 ∧ sym s.kij 2 2 = s.kij 2 2 :=
    ⟨rfl, rfl, rfl, rfl, rfl, rfl, rfl, rfl, rfl⟩
  have c0 : scale y.x 0 = 1 := rfl
  have c1 : scale y.x 1 = y.x 0 := rfl
  have c2 : scale y.x 2 = y.x 0 * Real.sin (y.x 1) := rfl
  have d00 : gradS y.x 0 0 = 0 := rfl
  have d01 : gradS y.x 0 1 = 0 := rfl
  have d02 : gradS y.x 0 2 = 0 := rfl
  have d10 : gradS y.x 1 0 = 1 := rfl
  have d11 : gradS y.x 1 1 = 0 := rfl
  have d12 : gradS y.x 1 2 = 0 := rfl
  have d20 : gradS y.x 2 0 = Real.sin (y.x 1) := rfl
  have d21 : gradS y.x 2 1 = y.x 0 * Real.cos (y.x 1) := rfl
  have d22 : gradS y.x 2 2 = 0 := rfl
  have f0 : ∀ f, gradF f y.x 0 = f.dr (y.x 0) (y.x 1) (y.x 2) := fun _ => rfl
  have f1 : ∀ f, gradF f y.x 1 = f.dt (y.x 0) (y.x 1) (y.x 2) := fun _ => rfl
  have f2 : ∀ f, gradF f y.x 2 = Real.sin (y.x 1) * f.stdp (y.x 0) (y.x 1) (y.x 2) := fun _ => rfl
  simp only [at3] at n0
  clear hN hβ hγ sc
  refine ⟨fun i => ?_, ?_, fun i => ?_⟩
  · match i with
    | 0 =>
      simp only [Slice.diffGen, coordShift, c0, at3, Matrix.cons_val]
      ring
    | 1 =>
      simp only [Slice.diffGen, coordShift, c1, at3, Matrix.cons_val]
      ring
    | 2 =>
      simp only [Slice.diffGen, coordShift, c2, at3, Matrix.cons_val]
      ring
  · simp only [Slice.diffGen, coordK, Fin.sum_univ_three, c0, c1, c2, f0, f1, f2, m03.1, m03.2.1, m03.2.2.1, m03.2.2.2.1, m03.2.2.2.2.1, m03.2.2.2.2.2.1,
      m03.2.2.2.2.2.2.1, m03.2.2.2.2.2.2.2.1, m03.2.2.2.2.2.2.2.2, at3]
    ring
  · match i with
    | 0 =>
      simp only [Slice.diffGen, coordK, coordCon, Fin.sum_univ_three, c0, c1, c2, f0, f1, f2, d00, d01, d02, d10, d11, d12, d20, d21, d22,
        m01.1, m01.2.1, m01.2.2.1, m01.2.2.2.1, m01.2.2.2.2.1, m01.2.2.2.2.2.1, m01.2.2.2.2.2.2.1, m01.2.2.2.2.2.2.2.1, m01.2.2.2.2.2.2.2.2,
        m02.1, m02.2.1, m02.2.2.1, m02.2.2.2.1, m02.2.2.2.2.1, m02.2.2.2.2.2.1, m02.2.2.2.2.2.2.1, m02.2.2.2.2.2.2.2.1, m02.2.2.2.2.2.2.2.2,
        m03.1, m03.2.1, m03.2.2.1, m03.2.2.2.1, m03.2.2.2.2.1, m03.2.2.2.2.2.1, m03.2.2.2.2.2.2.1, m03.2.2.2.2.2.2.2.1, m03.2.2.2.2.2.2.2.2, at3, Matrix.cons_val]
      ring
    | 1 =>
      simp only [Slice.diffGen, coordK, coordCon, Fin.sum_univ_three, c0, c1, c2, f0, f1, f2, d00, d01, d02, d10, d11, d12, d20, d21, d22,
        m01.1, m01.2.1, m01.2.2.1, m01.2.2.2.1, m01.2.2.2.2.1, m01.2.2.2.2.2.1, m01.2.2.2.2.2.2.1, m01.2.2.2.2.2.2.2.1, m01.2.2.2.2.2.2.2.2,
        m02.1, m02.2.1, m02.2.2.1, m02.2.2.2.1, m02.2.2.2.2.1, m02.2.2.2.2.2.1, m02.2.2.2.2.2.2.1, m02.2.2.2.2.2.2.2.1, m02.2.2.2.2.2.2.2.2,
        m03.1, m03.2.1, m03.2.2.1, m03.2.2.2.1, m03.2.2.2.2.1, m03.2.2.2.2.2.1, m03.2.2.2.2.2.2.1, m03.2.2.2.2.2.2.2.1, m03.2.2.2.2.2.2.2.2, at3, Matrix.cons_val]
      field_simp
      ring
    | 2 =>
      simp only [Slice.diffGen, coordK, coordCon, Fin.sum_univ_three, c0, c1, c2, f0, f1, f2, d00, d01, d02, d10, d11, d12, d20, d21, d22,
        m01.1, m01.2.1, m01.2.2.1, m01.2.2.2.1, m01.2.2.2.2.1, m01.2.2.2.2.2.1, m01.2.2.2.2.2.2.1, m01.2.2.2.2.2.2.2.1, m01.2.2.2.2.2.2.2.2,
        m02.1, m02.2.1, m02.2.2.1, m02.2.2.2.1, m02.2.2.2.2.1, m02.2.2.2.2.2.1, m02.2.2.2.2.2.2.1, m02.2.2.2.2.2.2.2.1, m02.2.2.2.2.2.2.2.2,
        m03.1, m03.2.1, m03.2.2.1, m03.2.2.2.1, m03.2.2.2.2.1, m03.2.2.2.2.2.1, m03.2.2.2.2.2.2.1, m03.2.2.2.2.2.2.2.1, m03.2.2.2.2.2.2.2.2, at3, Matrix.cons_val]
      field_simp
      ring

/-- Flat space seen by rotating observers, through the general branch: a star at rest among the stars turns backwards and does not accelerate. -/
example (Ω r th ph : ℝ) (r0 : r ≠ 0) (s0 : Real.sin th ≠ 0) :
    Moves (rotatingFrame Ω) ⟨1, ![r, th, ph], ![0, 0, 0]⟩ ((rotatingFrame Ω).diffGen ⟨1, ![r, th, ph], ![0, 0, 0]⟩) ∧
      ((rotatingFrame Ω).diffGen ⟨1, ![r, th, ph], ![0, 0, 0]⟩).x 2 = -Ω := by
  have hc : ∀ c, IsField3 (const c) ![r, th, ph] := fun c => by
    have := const_field c ![0, r, th, ph]
    exact this
  constructor
  · refine diff_general _ _ (hc 1) (fun i => ?_) (fun i j => ?_) one_ne_zero r0 s0
    · match i with
      | 0 => exact hc 0
      | 1 => exact hc 0
      | 2 =>
        have := (rotatingFrame_circular Ω ![0, r, th, ph] r0 s0).1.shift
        exact this
    · by_cases h : i = j
      · have : (rotatingFrame Ω).gcov i j = const 1 := if_pos h
        rw [this]
        exact hc 1
      · have : (rotatingFrame Ω).gcov i j = const 0 := if_neg h
        rw [this]
        exact hc 0
  · show 1 * 0 - 1 / (r * Real.sin th) * (Ω * r * Real.sin th) = -Ω
    field_simp
    ring

end Gyoto.Lorene
