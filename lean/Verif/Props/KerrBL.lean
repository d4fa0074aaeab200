import Verif.Lemmas.Circular
import Mathlib.LinearAlgebra.Matrix.Symmetric
import Mathlib.Analysis.SpecialFunctions.Trigonometric.Deriv
import Mathlib.Analysis.Calculus.Deriv.Inv
import Mathlib.Tactic.FieldSimp
import Mathlib.Tactic.LinearCombination
import Mathlib.Tactic.FinCases

/-!
# The Kerr metric in Boyer-Lindquist coordinates: its two forms, its inverse, its connection, its lapse and shift

Properties C61, C62 and C63 for `KerrBL`.  The points are those where the coordinates are regular: not on the ring (`Σ ≠ 0`), not on
a horizon (`Δ ≠ 0`), not on the axis (`sin θ ≠ 0`).
-/

namespace Gyoto.KerrBL

open Gyoto.MetricAlg Gyoto.Spacetime

/-- C61. Coefficients asked one by one are those of the matrix. -/
theorem coef_eq (a : ℝ) (pos : Vec) (mu nu : Fin 4) : gmunuCoef a pos mu nu = gmunu a pos mu nu := by
  fin_cases mu <;> fin_cases nu <;> simp [gmunuCoef, gmunu] <;> ring

/-- C61. -/
theorem upCoef_eq (a : ℝ) (pos : Vec) (mu nu : Fin 4) : gmunuUpCoef a pos mu nu = gmunuUp a pos mu nu := by
  fin_cases mu <;> fin_cases nu <;> simp [gmunuUpCoef, gmunuUp]

/-- C61. -/
theorem gmunu_symm (a : ℝ) (pos : Vec) : Matrix.IsSymm (gmunu a pos) := by
  ext i j
  fin_cases i <;> fin_cases j <;> simp [gmunu, Matrix.transpose_apply]

/-- C61. The optimised scalar product is the generic one. -/
theorem scalarProd_opt (a : ℝ) (pos u1 u2 : Vec) : scalarProdOpt a pos u1 u2 = scalarProd (gmunu a pos) u1 u2 := by
  simp [scalarProdOpt, scalarProd, gmunu, Fin.sum_univ_four]
  ring

/-- C61. `gmunu_up` is the inverse of `gmunu`. -/
theorem up_inverse {a : ℝ} {pos : Vec} (hs : pos 1 * pos 1 + a * a * (Real.cos (pos 2) * Real.cos (pos 2)) ≠ 0)
    (hd : pos 1 * pos 1 - 2 * pos 1 + a * a ≠ 0) (hsin : Real.sin (pos 2) ≠ 0) : gmunuUp a pos * gmunu a pos = 1 := by
  have h1 := Real.sin_sq_add_cos_sq (pos 2)
  unfold gmunuUp gmunu
  dsimp only
  generalize pos 1 = r at *
  generalize Real.sin (pos 2) = s at *
  generalize Real.cos (pos 2) = c at *
  obtain ⟨S, hS⟩ : ∃ S, S = r * r + a * a * (c * c) := ⟨_, rfl⟩
  obtain ⟨D, hD⟩ : ∃ D, D = r * r - 2 * r + a * a := ⟨_, rfl⟩
  rw [← hS] at hs
  rw [← hD] at hd
  try simp only [← hS, ← hD]
  ext i j
  fin_cases i <;> fin_cases j <;> simp [Matrix.mul_apply, Fin.sum_univ_four] <;> field_simp <;> grind

section deriv
variable {a r θ : ℝ}

theorem sigma_r : HasDerivAt (fun x => x * x + a * a * (Real.cos θ * Real.cos θ)) (2 * r) r := by
  have := ((hasDerivAt_id r).mul (hasDerivAt_id r)).add_const (a * a * (Real.cos θ * Real.cos θ))
  refine this.congr_deriv ?_
  simp; ring

theorem delta_r : HasDerivAt (fun x => x * x - 2 * x + a * a) (2 * r - 2) r := by
  have := (((hasDerivAt_id r).mul (hasDerivAt_id r)).sub ((hasDerivAt_id r).const_mul 2)).add_const (a * a)
  refine this.congr_deriv ?_
  simp; ring

theorem sigma_θ : HasDerivAt (fun x => r * r + a * a * (Real.cos x * Real.cos x)) (-2 * a * a * Real.cos θ * Real.sin θ) θ := by
  have := (((Real.hasDerivAt_cos θ).mul (Real.hasDerivAt_cos θ)).const_mul (a * a)).const_add (r * r)
  refine this.congr_deriv ?_
  ring

theorem sin2_θ : HasDerivAt (fun x => Real.sin x * Real.sin x) (2 * Real.sin θ * Real.cos θ) θ := by
  have := (Real.hasDerivAt_sin θ).mul (Real.hasDerivAt_sin θ)
  refine this.congr_deriv ?_
  ring

end deriv

/-- C62. What `christoffel` returns are the Christoffel symbols of `gmunu`. -/
theorem christoffel_ok {a : ℝ} {pos : Vec} (hs : pos 1 * pos 1 + a * a * (Real.cos (pos 2) * Real.cos (pos 2)) ≠ 0)
    (hd : pos 1 * pos 1 - 2 * pos 1 + a * a ≠ 0) (hsin : Real.sin (pos 2) ≠ 0) :
    IsChristoffel (gmunu a) pos (christoffel a pos) := by
  have h1 := Real.sin_sq_add_cos_sq (pos 2)
  have s0 := hasDerivAt_id (pos 1)
  have sr := sigma_r (a := a) (r := pos 1) (θ := pos 2)
  have sθ := sigma_θ (a := a) (r := pos 1) (θ := pos 2)
  have nθ := sin2_θ (θ := pos 2)
  have dr := delta_r (a := a) (r := pos 1)
  have hr2 := ((hasDerivAt_id (pos 1)).mul (hasDerivAt_id (pos 1)))
  have htr := ((s0.const_mul 2).div sr hs).const_add (-1)
  have htθ := ((hasDerivAt_const (pos 2) (2 * pos 1)).div sθ hs).const_add (-1)
  have hrr := sr.div dr hd
  have hrθ := sθ.div_const (pos 1 * pos 1 - 2 * pos 1 + a * a)
  have hpr := ((hr2.add_const (a * a)).add ((((s0.const_mul 2).mul_const (a * a)).mul_const
    (Real.sin (pos 2) * Real.sin (pos 2))).div sr hs)).mul_const (Real.sin (pos 2) * Real.sin (pos 2))
  have hpθ := (((nθ.const_mul (2 * pos 1 * (a * a))).div sθ hs).const_add (pos 1 * pos 1 + a * a)).mul nθ
  have hxr := ((s0.const_mul (-2 * a)).mul_const (Real.sin (pos 2) * Real.sin (pos 2))).div sr hs
  have hxθ := (nθ.const_mul (-2 * a * pos 1)).div sθ hs
  refine isChristoffel_circ
    (tt := fun r θ => -1 + 2 * r / (r * r + a * a * (Real.cos θ * Real.cos θ)))
    (rr := fun r θ => (r * r + a * a * (Real.cos θ * Real.cos θ)) / (r * r - 2 * r + a * a))
    (hh := fun r θ => r * r + a * a * (Real.cos θ * Real.cos θ))
    (pp := fun r θ => (r * r + a * a + 2 * r * (a * a) * (Real.sin θ * Real.sin θ) / (r * r + a * a * (Real.cos θ * Real.cos θ))) *
      (Real.sin θ * Real.sin θ))
    (tp := fun r θ => -2 * a * r * (Real.sin θ * Real.sin θ) / (r * r + a * a * (Real.cos θ * Real.cos θ)))
    htr hrr sr hpr hxr htθ hrθ sθ hpθ hxθ ?_ ?_ ?_ ?_ ?_ ?_ ?_ ?_ ?_ ?_ ?_ ?_ ?_ ?_ ?_ ?_ ?_ ?_ ?_ ?_
  all_goals
    clear s0 sr sθ nθ dr hr2 htr htθ hrr hrθ hpr hpθ hxr hxθ
    try simp only [id, Pi.div_apply,]
    generalize pos 1 = r at *
    generalize Real.sin (pos 2) = s at *
    generalize Real.cos (pos 2) = c at *
    obtain ⟨S, hS⟩ : ∃ S, S = r * r + a * a * (c * c) := ⟨_, rfl⟩
    obtain ⟨D, hD⟩ : ∃ D, D = r * r - 2 * r + a * a := ⟨_, rfl⟩
    rw [← hS] at hs
    rw [← hD] at hd
    try simp only [← hS, ← hD]
    field_simp
    try grind
/-- A point outside the equatorial plane of a rotating black hole meets the hypotheses, and the symbols are not all zero. -/
example : IsChristoffel (gmunu (1 / 2)) ![0, 4, Real.pi / 3, 0] (christoffel (1 / 2) ![0, 4, Real.pi / 3, 0]) ∧
    christoffel (1 / 2) ![0, 4, Real.pi / 3, 0] 2 1 2 = 64 / 257 := by
  refine ⟨christoffel_ok ?_ ?_ ?_, ?_⟩
  · simp; norm_num
  · simp; norm_num
  · simp
  · show (![0, 4, Real.pi / 3, 0] : Vec) 1 * (1 / ((![0, 4, Real.pi / 3, 0] : Vec) 1 * (![0, 4, Real.pi / 3, 0] : Vec) 1 +
      1 / 2 * (1 / 2) * (Real.cos ((![0, 4, Real.pi / 3, 0] : Vec) 2) * Real.cos ((![0, 4, Real.pi / 3, 0] : Vec) 2)))) = _
    simp
    norm_num

example : gmunuUp (1 / 2) ![0, 4, Real.pi / 3, 0] * gmunu (1 / 2) ![0, 4, Real.pi / 3, 0] = 1 :=
  up_inverse (by simp; norm_num) (by simp; norm_num) (by simp)

/-- C63. Outside the horizon `computeNBeta` returns the lapse and the shift. -/
theorem nBeta_ok {a : ℝ} {pos : Vec} (hr : 0 < pos 1) (hd : 0 ≤ pos 1 * pos 1 - 2 * pos 1 + a * a) :
    IsLapseShift (gmunu a pos) (nBeta a pos).1 (nBeta a pos).2 := by
  have h1 := Real.sin_sq_add_cos_sq (pos 2)
  unfold nBeta gmunu
  dsimp only
  generalize pos 1 = r at *
  generalize Real.sin (pos 2) = s at *
  generalize Real.cos (pos 2) = c at *
  have hS : 0 < r * r + a * a * (c * c) := by
    have := mul_pos hr hr
    have := mul_self_nonneg (a * c)
    nlinarith
  have hB : 0 < r * r + a * a + 2 * (a * a) * r * (s * s) / (r * r + a * a * (c * c)) := by
    have h2 := mul_pos hr hr
    have h3 : 0 ≤ 2 * (a * a) * r * (s * s) / (r * r + a * a * (c * c)) :=
      div_nonneg (mul_nonneg (mul_nonneg (by nlinarith [mul_self_nonneg a]) hr.le) (mul_self_nonneg s)) hS.le
    nlinarith [mul_self_nonneg a]
  have hX : (r * r + a * a * (c * c)) * (r * r + a * a) + 2 * (a * a) * r * (s * s) ≠ 0 := by
    have : (r * r + a * a * (c * c)) * (r * r + a * a) + 2 * (a * a) * r * (s * s) =
        (r * r + a * a * (c * c)) * (r * r + a * a + 2 * (a * a) * r * (s * s) / (r * r + a * a * (c * c))) := by
      field_simp
    rw [this]
    exact (mul_pos hS hB).ne'
  refine ⟨Real.sqrt_nonneg _, ?_, ?_⟩
  · intro i
    fin_cases i <;> simp [Fin.sum_univ_three]
    field_simp
  · rw [Real.sq_sqrt (div_nonneg hd hB.le)]
    simp [Fin.sum_univ_three]
    field_simp
    grind

example : IsLapseShift (gmunu (1 / 2) ![0, 4, Real.pi / 3, 0]) (nBeta (1 / 2) ![0, 4, Real.pi / 3, 0]).1
    (nBeta (1 / 2) ![0, 4, Real.pi / 3, 0]).2 := nBeta_ok (by simp) (by simp; norm_num)

end Gyoto.KerrBL
