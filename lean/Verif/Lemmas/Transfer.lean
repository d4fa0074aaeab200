import Verif.Model.Transfer
import Mathlib.Analysis.SpecialFunctions.Exponential
import Mathlib.Analysis.Normed.Algebra.MatrixExponential
import Mathlib.Analysis.SpecialFunctions.Trigonometric.Deriv
import Mathlib.Analysis.SpecialFunctions.Trigonometric.DerivHyp
import Mathlib.Analysis.Calculus.MeanValue

/-!
# The matrix of one step is an exponential

Spec: `absorption`, the matrix of the polarised transfer equation `dS/ds = -K S` for given coefficients, and `turn`, the
rotation of the polarisation basis.
-/

namespace Gyoto.Transfer

open Gyoto.Emission (Mueller)

/-- Matrix `K` of the equation of polarised radiative transfer `dS/ds = -K S + j`. -/
def absorption (aI aQ aU aV rQ rU rV : ℝ) : Mueller :=
  !![aI, aQ, aU, aV; aQ, aI, rV, -rU; aU, -rV, aI, rQ; aV, rU, -rQ, aI]

/-- Rotation of the basis of polarisation by the angle `χ`, given `sin 2χ` and `cos 2χ`. -/
def turn (s c : ℝ) : Mueller := !![1, 0, 0, 0; 0, c, -s, 0; 0, s, c, 0; 0, 0, 0, 1]

/-- Same without `aI`. -/
def K0 (a : Rotated) : Mueller := absorption 0 a.aQ a.aU a.aV a.rQ a.rU a.rV

/-- The dual of `K0`. -/
def Kt (a : Rotated) : Mueller := absorption 0 (-a.rQ) (-a.rU) (-a.rV) a.aQ a.aU a.aV

theorem K0_sq (a : Rotated) : K0 a * K0 a = M4 a + ((a.alpha2 - a.r2) / 2) • (1 : Mueller) := by
  ext i j
  fin_cases i <;> fin_cases j <;>
    simp [K0, absorption, M4, Matrix.mul_apply, Fin.sum_univ_four, Rotated.alpha2, Rotated.r2] <;> ring

theorem K0_Kt (a : Rotated) : K0 a * Kt a = (-a.dot) • (1 : Mueller) := by
  ext i j
  fin_cases i <;> fin_cases j <;>
    simp [K0, Kt, absorption, Matrix.mul_apply, Fin.sum_univ_four, Rotated.dot] <;> ring

theorem K0_M4 (a : Rotated) : K0 a * M4 a = ((a.alpha2 - a.r2) / 2) • K0 a - a.dot • Kt a := by
  ext i j
  fin_cases i <;> fin_cases j <;>
    simp [K0, Kt, absorption, M4, Matrix.mul_apply, Fin.sum_univ_four, Rotated.alpha2, Rotated.r2, Rotated.dot] <;> ring

theorem M2_eq (a : Rotated) (l1 l2 sg : ℝ) : M2 a l1 l2 sg = l2 • K0 a + (sg * l1) • Kt a := by
  ext i j
  fin_cases i <;> fin_cases j <;> simp [M2, K0, Kt, absorption] <;> ring

theorem M3_eq (a : Rotated) (l1 l2 sg : ℝ) : M3 a l1 l2 sg = l1 • K0 a - (sg * l2) • Kt a := by
  ext i j
  fin_cases i <;> fin_cases j <;> simp [M3, K0, Kt, absorption] <;> ring

section numbers
variable (a : Rotated)

theorem radicand_nonneg : 0 ≤ (a.alpha2 - a.r2) ^ 2 / 4 + a.dot ^ 2 := by positivity

theorem le_root : |(a.alpha2 - a.r2) / 2| ≤ √((a.alpha2 - a.r2) ^ 2 / 4 + a.dot ^ 2) := by
  apply Real.abs_le_sqrt
  nlinarith [sq_nonneg a.dot]

theorem lambda1_sq : a.lambda1 ^ 2 = √((a.alpha2 - a.r2) ^ 2 / 4 + a.dot ^ 2) + (a.alpha2 - a.r2) / 2 := by
  have h := abs_le.1 (le_root a)
  exact Real.sq_sqrt (by linarith [h.1])

theorem lambda2_sq : a.lambda2 ^ 2 = √((a.alpha2 - a.r2) ^ 2 / 4 + a.dot ^ 2) - (a.alpha2 - a.r2) / 2 := by
  have h := abs_le.1 (le_root a)
  exact Real.sq_sqrt (by linarith [h.2])

theorem sigma_mul : a.sigma * (a.lambda1 * a.lambda2) = a.dot := by
  have h1 : (a.lambda1 * a.lambda2) ^ 2 = a.dot ^ 2 := by
    rw [mul_pow, lambda1_sq, lambda2_sq]
    have := Real.sq_sqrt (radicand_nonneg a)
    nlinarith
  have h0 : 0 ≤ a.lambda1 * a.lambda2 := mul_nonneg (Real.sqrt_nonneg _) (Real.sqrt_nonneg _)
  have h2 : a.lambda1 * a.lambda2 = |a.dot| := by
    rw [← abs_of_nonneg h0]
    exact (sq_eq_sq_iff_abs_eq_abs _ _).1 h1
  rw [h2, Rotated.sigma]
  split
  · rename_i h; rw [abs_of_neg h]; ring
  · rename_i h; rw [abs_of_nonneg (not_lt.1 h)]; ring

theorem sigma_sq : a.sigma * a.sigma = 1 := by
  rw [Rotated.sigma]; split <;> ring

end numbers

theorem key2 (a : Rotated) : K0 a * M2 a a.lambda1 a.lambda2 a.sigma =
    a.lambda2 • M4 a - (a.lambda2 * a.Theta / 2) • (1 : Mueller) := by
  rw [M2_eq, mul_add, mul_smul_comm, mul_smul_comm, K0_sq, K0_Kt]
  have e : a.lambda2 * ((a.alpha2 - a.r2) / 2) - a.sigma * a.lambda1 * a.dot = -(a.lambda2 * a.Theta / 2) := by
    rw [← sigma_mul a, Rotated.Theta]
    have h1 := lambda1_sq a
    have h2 := lambda2_sq a
    have h3 := sigma_sq a
    linear_combination (-a.lambda1 ^ 2 * a.lambda2) * h3 + (-(1:ℝ)/2 * a.lambda2) * h1 + ((1:ℝ)/2 * a.lambda2) * h2
  rw [smul_add, smul_smul, smul_smul, add_assoc, ← add_smul]
  rw [show a.lambda2 * ((a.alpha2 - a.r2) / 2) + a.sigma * a.lambda1 * -a.dot = -(a.lambda2 * a.Theta / 2) by
    rw [← e]; ring]
  rw [neg_smul, sub_eq_add_neg]

theorem key3 (a : Rotated) : K0 a * M3 a a.lambda1 a.lambda2 a.sigma =
    a.lambda1 • M4 a + (a.lambda1 * a.Theta / 2) • (1 : Mueller) := by
  rw [M3_eq, mul_sub, mul_smul_comm, mul_smul_comm, K0_sq, K0_Kt]
  have e : a.lambda1 * ((a.alpha2 - a.r2) / 2) + a.sigma * a.lambda2 * a.dot = a.lambda1 * a.Theta / 2 := by
    rw [← sigma_mul a, Rotated.Theta]
    have h1 := lambda1_sq a
    have h2 := lambda2_sq a
    have h3 := sigma_sq a
    linear_combination (a.lambda2 ^ 2 * a.lambda1) * h3 + (-(1:ℝ)/2 * a.lambda1) * h1 + ((1:ℝ)/2 * a.lambda1) * h2
  rw [smul_add, smul_smul, smul_smul, add_sub_assoc, ← sub_smul]
  rw [show a.lambda1 * ((a.alpha2 - a.r2) / 2) - a.sigma * a.lambda2 * -a.dot = a.lambda1 * a.Theta / 2 by
    rw [← e]; ring]

theorem key4 (a : Rotated) : a.lambda2 • M2 a a.lambda1 a.lambda2 a.sigma = (a.Theta / 2) • K0 a - K0 a * M4 a := by
  rw [M2_eq, K0_M4, smul_add, smul_smul, smul_smul]
  have h1 := lambda1_sq a
  have h2 := lambda2_sq a
  have e1 : a.lambda2 * a.lambda2 = a.Theta / 2 - (a.alpha2 - a.r2) / 2 := by rw [Rotated.Theta]; nlinarith
  have e2 : a.lambda2 * (a.sigma * a.lambda1) = a.dot := by rw [← sigma_mul a]; ring
  rw [e1, e2, sub_smul]
  abel

theorem key5 (a : Rotated) : a.lambda1 • M3 a a.lambda1 a.lambda2 a.sigma = (a.Theta / 2) • K0 a + K0 a * M4 a := by
  rw [M3_eq, K0_M4, smul_sub, smul_smul, smul_smul]
  have h1 := lambda1_sq a
  have h2 := lambda2_sq a
  have e1 : a.lambda1 * a.lambda1 = a.Theta / 2 + (a.alpha2 - a.r2) / 2 := by rw [Rotated.Theta]; nlinarith
  have e2 : a.lambda1 * (a.sigma * a.lambda2) = a.dot := by rw [← sigma_mul a]; ring
  rw [e1, e2, add_smul]
  abel

/-- The bracket of `Omatrix`. -/
noncomputable def bracket (a : Rotated) (L : ℝ) : Mueller :=
  ((Real.cosh (a.lambda1 * L) + Real.cos (a.lambda2 * L)) / 2) • (1 : Mueller)
    - (Real.sin (a.lambda2 * L) / a.Theta) • M2 a a.lambda1 a.lambda2 a.sigma
    - (Real.sinh (a.lambda1 * L) / a.Theta) • M3 a a.lambda1 a.lambda2 a.sigma
    + ((Real.cosh (a.lambda1 * L) - Real.cos (a.lambda2 * L)) / a.Theta) • M4 a

open scoped Matrix.Norms.Operator

theorem bracket_deriv (a : Rotated) (h : a.Theta ≠ 0) (s : ℝ) :
    HasDerivAt (bracket a) (-(K0 a * bracket a s)) s := by
  have lin : ∀ l : ℝ, HasDerivAt (fun s : ℝ => l * s) l s := fun l => by
    simpa using (hasDerivAt_id s).const_mul l
  have hch := (lin a.lambda1).cosh
  have hsh := (lin a.lambda1).sinh
  have hc := (lin a.lambda2).cos
  have hs := (lin a.lambda2).sin
  have d := ((((hch.add hc).div_const 2).smul_const (1 : Mueller)).sub
    ((hs.div_const a.Theta).smul_const (M2 a a.lambda1 a.lambda2 a.sigma))).sub
    ((hsh.div_const a.Theta).smul_const (M3 a a.lambda1 a.lambda2 a.sigma)) |>.add
    (((hch.sub hc).div_const a.Theta).smul_const (M4 a))
  refine d.congr_deriv ?_
  simp only [bracket, mul_add, mul_sub, mul_smul_comm, key2, key3, mul_one]
  have k4 : K0 a * M4 a = (a.Theta / 2) • K0 a - a.lambda2 • M2 a a.lambda1 a.lambda2 a.sigma := by rw [key4]; abel
  have k0 : K0 a = a.Theta⁻¹ • (a.lambda1 • M3 a a.lambda1 a.lambda2 a.sigma +
      a.lambda2 • M2 a a.lambda1 a.lambda2 a.sigma) := by
    rw [key4, key5]
    have : (a.Theta / 2) • K0 a + K0 a * M4 a + ((a.Theta / 2) • K0 a - K0 a * M4 a) = a.Theta • K0 a := by module
    rw [this, smul_smul, inv_mul_cancel₀ h, one_smul]
  rw [k4, k0]
  generalize M2 a a.lambda1 a.lambda2 a.sigma = X2
  generalize M3 a a.lambda1 a.lambda2 a.sigma = X3
  generalize M4 a = X4
  generalize Real.cosh (a.lambda1 * s) = ch
  generalize Real.sinh (a.lambda1 * s) = sh
  generalize Real.cos (a.lambda2 * s) = co
  generalize Real.sin (a.lambda2 * s) = si
  match_scalars <;> field_simp <;> ring

theorem bracket_zero (a : Rotated) : bracket a 0 = 1 := by
  simp [bracket]

theorem bracket_exp (a : Rotated) (h : a.Theta ≠ 0) (L : ℝ) : bracket a L = NormedSpace.exp (-L • K0 a) := by
  have d : ∀ s : ℝ, HasDerivAt (fun s => NormedSpace.exp (s • K0 a) * bracket a s) 0 s := by
    intro s
    have h1 := hasDerivAt_exp_smul_const (𝕂 := ℝ) (K0 a) s
    have h2 := h1.mul (bracket_deriv a h s)
    refine h2.congr_deriv ?_
    simp [mul_assoc]
  have c := is_const_of_deriv_eq_zero (f := fun s => NormedSpace.exp (s • K0 a) * bracket a s)
    (fun s => (d s).differentiableAt) (fun s => (d s).deriv) L 0
  simp only [zero_smul, NormedSpace.exp_zero, one_mul, bracket_zero] at c
  have e : NormedSpace.exp (-L • K0 a) * NormedSpace.exp (L • K0 a) = 1 := by
    rw [← Matrix.exp_add_of_commute]
    · simp
    · rw [neg_smul]; exact (Commute.refl _).neg_left
  calc bracket a L = NormedSpace.exp (-L • K0 a) * NormedSpace.exp (L • K0 a) * bracket a L := by rw [e, one_mul]
    _ = NormedSpace.exp (-L • K0 a) := by rw [mul_assoc, c, mul_one]

theorem exp_scalar (x : ℝ) : NormedSpace.exp (x • (1 : Mueller)) = Real.exp x • (1 : Mueller) := by
  rw [Real.exp_eq_exp_ℝ, ← Algebra.algebraMap_eq_smul_one, ← Algebra.algebraMap_eq_smul_one]
  exact (NormedSpace.algebraMap_exp_comm x).symm

theorem rotate_absorption (c : Coefs) (h : c.sin2Chi ^ 2 + c.cos2Chi ^ 2 = 1) :
    absorption (rotate c).aI (rotate c).aQ (rotate c).aU (rotate c).aV (rotate c).rQ (rotate c).rU (rotate c).rV =
      turn c.sin2Chi c.cos2Chi * absorption c.alphaI c.alphaQ c.alphaU c.alphaV c.rQ c.rU c.rV *
        turn (-c.sin2Chi) c.cos2Chi := by
  ext i j
  fin_cases i <;> fin_cases j <;>
    simp [rotate, absorption, turn, Matrix.mul_apply, Fin.sum_univ_four] <;>
    first | ring1 | linear_combination (-c.alphaI) * h | linear_combination (c.rV) * h | linear_combination (-c.rV) * h

theorem omatrix_bracket (a : Rotated) (h : a.Theta ≠ 0) (L : ℝ) :
    Real.exp (-a.aI * L) • bracket a L = NormedSpace.exp (-L • absorption a.aI a.aQ a.aU a.aV a.rQ a.rU a.rV) := by
  have e : absorption a.aI a.aQ a.aU a.aV a.rQ a.rU a.rV = a.aI • (1 : Mueller) + K0 a := by
    ext i j
    fin_cases i <;> fin_cases j <;> simp [absorption, K0]
  rw [e, smul_add, smul_smul, bracket_exp a h, Matrix.exp_add_of_commute]
  · rw [exp_scalar, smul_mul_assoc, one_mul, show -a.aI * L = -L * a.aI by ring]
  · exact (Commute.one_left _).smul_left _

end Gyoto.Transfer
