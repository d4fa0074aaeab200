import Verif.Model.KerrKS
import Verif.Spec.Christoffel
import Mathlib.Analysis.SpecialFunctions.Sqrt
import Mathlib.Analysis.Calculus.Deriv.Add
import Mathlib.Analysis.Calculus.Deriv.Inv
import Mathlib.Analysis.Calculus.Deriv.Pow
import Mathlib.LinearAlgebra.Matrix.NonsingularInverse
import Mathlib.Tactic.Ring
import Mathlib.Tactic.FieldSimp
import Mathlib.Tactic.LinearCombination
import Mathlib.Tactic.Positivity

/-!
# Algebra of the Kerr-Schild coordinates
-/

namespace Gyoto.KerrKS

open Gyoto.MetricAlg

/-- What `r` and `rho` satisfy, away from the disk where `r` vanishes. -/
theorem facts {a : ℝ} {pos : Vec} (h : 0 < r2Of a pos) : 0 < rOf a pos ∧ r2Of a pos = rOf a pos ^ 2 ∧ 0 < rhoOf a pos ∧
    rhoOf a pos = 2 * rOf a pos ^ 2 - (pos 1 ^ 2 + pos 2 ^ 2 + pos 3 ^ 2) + a ^ 2 ∧
    rhoOf a pos * rOf a pos ^ 2 = rOf a pos ^ 4 + a ^ 2 * pos 3 ^ 2 ∧
    (pos 1 ^ 2 + pos 2 ^ 2 + pos 3 ^ 2) * rOf a pos ^ 2 = rOf a pos ^ 4 + a ^ 2 * rOf a pos ^ 2 - a ^ 2 * pos 3 ^ 2 := by
  have hr : 0 < rOf a pos := Real.sqrt_pos.2 h
  have hr2 : r2Of a pos = rOf a pos ^ 2 := (Real.sq_sqrt h.le).symm
  have hq : 0 ≤ tauOf a pos * tauOf a pos + 4 * (a * a) * (pos 3 * pos 3) := by
    have h1 := mul_self_nonneg (tauOf a pos)
    have h2 := mul_nonneg (mul_self_nonneg a) (mul_self_nonneg (pos 3))
    nlinarith
  have hrho2 : rhoOf a pos ^ 2 = tauOf a pos * tauOf a pos + 4 * (a * a) * (pos 3 * pos 3) := Real.sq_sqrt hq
  have hrho0 : 0 ≤ rhoOf a pos := Real.sqrt_nonneg _
  have e1 : rhoOf a pos = 2 * r2Of a pos - tauOf a pos := by
    have : r2Of a pos = 0.5 * (tauOf a pos + rhoOf a pos) := rfl
    rw [this]; ring
  have et : tauOf a pos = pos 1 * pos 1 + pos 2 * pos 2 + pos 3 * pos 3 - a * a := rfl
  have e2 : r2Of a pos ^ 2 - r2Of a pos * tauOf a pos = a ^ 2 * pos 3 ^ 2 := by
    rw [e1] at hrho2
    linear_combination hrho2 / 4
  have e3 : rhoOf a pos * r2Of a pos = r2Of a pos ^ 2 + a ^ 2 * pos 3 ^ 2 := by
    rw [e1]; linear_combination e2
  have hrho : 0 < rhoOf a pos := by
    refine lt_of_le_of_ne hrho0 fun h0 => ?_
    rw [← h0, zero_mul] at e3
    have := mul_nonneg (sq_nonneg a) (sq_nonneg (pos 3))
    nlinarith [pow_pos h 2]
  rw [hr2] at e1 e2 e3
  refine ⟨hr, hr2, hrho, ?_, ?_, ?_⟩
  · rw [e1, et]; ring
  · linear_combination e3
  · rw [et] at e2; linear_combination -e2

/-- The derivative of `r` along a curve. -/
theorem r_deriv {a : ℝ} {P : ℝ → Vec} {d : Vec} {s : ℝ} (hP : ∀ i, HasDerivAt (fun t => P t i) (d i) s) (h : 0 < r2Of a (P s)) :
    HasDerivAt (fun t => rOf a (P t)) ((rOf a (P s) * (P s 1 * d 1 + P s 2 * d 2 + P s 3 * d 3) + a ^ 2 * P s 3 * d 3 / rOf a (P s)) /
      rhoOf a (P s)) s := by
  obtain ⟨hr, hr2, hrho, e1, e2, e3⟩ := facts h
  have ht : HasDerivAt (fun t => tauOf a (P t)) (2 * (P s 1 * d 1 + P s 2 * d 2 + P s 3 * d 3)) s := by
    have := ((((hP 1).mul (hP 1)).add ((hP 2).mul (hP 2))).add ((hP 3).mul (hP 3))).sub_const (a * a)
    exact this.congr_deriv (by ring)
  have hq0 : tauOf a (P s) * tauOf a (P s) + 4 * (a * a) * (P s 3 * P s 3) ≠ 0 := fun h0 => by
    have h1 : rhoOf a (P s) = 0 := by unfold rhoOf; rw [h0, Real.sqrt_zero]
    linarith
  have hrho' : HasDerivAt (fun t => rhoOf a (P t))
      ((2 * tauOf a (P s) * (P s 1 * d 1 + P s 2 * d 2 + P s 3 * d 3) + 4 * (a * a) * (P s 3 * d 3)) / rhoOf a (P s)) s := by
    have := ((ht.mul ht).add (((hP 3).mul (hP 3)).const_mul (4 * (a * a)))).sqrt hq0
    refine this.congr_deriv ?_
    show _ / (2 * rhoOf a (P s)) = _
    field_simp
    ring
  have hr2' : HasDerivAt (fun t => r2Of a (P t)) (0.5 * (2 * (P s 1 * d 1 + P s 2 * d 2 + P s 3 * d 3) +
      (2 * tauOf a (P s) * (P s 1 * d 1 + P s 2 * d 2 + P s 3 * d 3) + 4 * (a * a) * (P s 3 * d 3)) / rhoOf a (P s))) s :=
    (ht.add hrho').const_mul 0.5
  refine (hr2'.sqrt h.ne').congr_deriv ?_
  show _ / (2 * rOf a (P s)) = _
  have et : tauOf a (P s) = 2 * rOf a (P s) ^ 2 - rhoOf a (P s) := by
    have : tauOf a (P s) = P s 1 * P s 1 + P s 2 * P s 2 + P s 3 * P s 3 - a * a := rfl
    rw [this]; linear_combination e1
  rw [et]
  field_simp
  ring

/-- The derivatives of `f` and `k` along a curve. -/
theorem fk_deriv {a : ℝ} {P : ℝ → Vec} {d : Vec} {s : ℝ} (hP : ∀ i, HasDerivAt (fun t => P t i) (d i) s) (h : 0 < r2Of a (P s)) {r r' : ℝ}
    (hr : r = rOf a (P s)) (hr' : HasDerivAt (fun t => rOf a (P t)) r' s) :
    HasDerivAt (fun t => fOf a (P t)) ((6 * r ^ 2 * r' * (r ^ 4 + a ^ 2 * P s 3 ^ 2) - 2 * r ^ 3 * (4 * r ^ 3 * r' + 2 * a ^ 2 * P s 3 * d 3)) /
      (r ^ 4 + a ^ 2 * P s 3 ^ 2) ^ 2) s ∧
    HasDerivAt (fun t => kOf a (P t) 1) (((r' * P s 1 + r * d 1 + a * d 2) * (r ^ 2 + a ^ 2) - (r * P s 1 + a * P s 2) * (2 * r * r')) /
      (r ^ 2 + a ^ 2) ^ 2) s ∧
    HasDerivAt (fun t => kOf a (P t) 2) (((r' * P s 2 + r * d 2 - a * d 1) * (r ^ 2 + a ^ 2) - (r * P s 2 - a * P s 1) * (2 * r * r')) /
      (r ^ 2 + a ^ 2) ^ 2) s ∧
    HasDerivAt (fun t => kOf a (P t) 3) ((d 3 * r - P s 3 * r') / r ^ 2) s := by
  obtain ⟨hr0, hr2, -⟩ := facts h
  rw [← hr] at hr0 hr2
  have hr2' : HasDerivAt (fun t => r2Of a (P t)) (2 * r * r') s := by
    have h1 := hr'.pow 2
    have hc : ContinuousAt (fun t => r2Of a (P t)) s := by
      have c : ∀ i, ContinuousAt (fun t => P t i) s := fun i => (hP i).continuousAt
      have ct : ContinuousAt (fun t => tauOf a (P t)) s :=
        ((((c 1).mul (c 1)).add ((c 2).mul (c 2))).add ((c 3).mul (c 3))).sub continuousAt_const
      exact continuousAt_const.mul (ct.add (((ct.mul ct).add (continuousAt_const.mul ((c 3).mul (c 3)))).sqrt))
    have hev : (fun t => r2Of a (P t)) =ᶠ[nhds s] fun t => rOf a (P t) ^ 2 := by
      filter_upwards [hc.eventually (lt_mem_nhds h)] with t ht
      exact (facts ht).2.1
    refine (h1.congr_of_eventuallyEq hev).congr_deriv ?_
    rw [← hr]; ring
  have hW : r ^ 4 + a ^ 2 * P s 3 ^ 2 ≠ 0 := by positivity
  have hA : r ^ 2 + a ^ 2 ≠ 0 := by positivity
  refine ⟨?_, ?_, ?_, ?_⟩
  · have h1 := (((hr2'.mul hr').const_mul 2).div (((hr2'.mul hr2').add (((hP 3).mul (hP 3)).const_mul (a * a))))
      (by show r2Of a (P s) * r2Of a (P s) + a * a * (P s 3 * P s 3) ≠ 0; rw [hr2]; convert hW using 1; ring))
    refine h1.congr_deriv ?_
    simp only [Pi.mul_apply, Pi.add_apply]
    rw [hr2, ← hr]
    congr 1 <;> ring
  · have h1 := (((hr'.mul (hP 1)).add ((hP 2).const_mul a)).div (hr2'.add_const (a * a))
      (by show r2Of a (P s) + a * a ≠ 0; rw [hr2]; convert hA using 1; ring))
    refine h1.congr_deriv ?_
    simp only [Pi.mul_apply, Pi.add_apply]
    rw [hr2, ← hr]
    congr 1 <;> ring
  · have h1 := (((hr'.mul (hP 2)).sub ((hP 1).const_mul a)).div (hr2'.add_const (a * a))
      (by show r2Of a (P s) + a * a ≠ 0; rw [hr2]; convert hA using 1; ring))
    refine h1.congr_deriv ?_
    simp only [Pi.mul_apply, Pi.sub_apply]
    rw [hr2, ← hr]
    congr 1 <;> ring
  · have h1 := (hP 3).div hr' (by rw [← hr]; exact hr0.ne')
    refine h1.congr_deriv ?_
    rw [← hr]

end Gyoto.KerrKS
