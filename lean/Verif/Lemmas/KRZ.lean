import Verif.Model.KRZ
import Verif.Lemmas.Circular
import Mathlib.Analysis.Calculus.Deriv.Pow
import Mathlib.Analysis.Calculus.Deriv.Inv
import Mathlib.Analysis.SpecialFunctions.Trigonometric.Deriv
import Mathlib.Tactic.FieldSimp
import Mathlib.Tactic.Positivity
import Mathlib.Tactic.Linarith

/-!
# Lemmas on the metric of Konoplya, Rezzolla and Zhidenko
-/

namespace Gyoto.KRZ

open Gyoto.MetricAlg Gyoto.Spacetime Gyoto.KerrBL

variable {m : Metric} {r th : ℝ}

theorem inv_deriv (c : ℝ) (hr : r ≠ 0) : HasDerivAt (fun x => c / x) (-c / r ^ 2) r := by
  refine ((hasDerivAt_const r c).div (hasDerivAt_id' r) hr).congr_deriv ?_
  simp

theorem pow_deriv (c : ℝ) (n : ℕ) (hr : r ≠ 0) : HasDerivAt (fun x => c / x ^ n) (-(n * c) / r ^ (n + 1)) r := by
  refine ((hasDerivAt_const r c).div (hasDerivAt_pow n r) (pow_ne_zero n hr)).congr_deriv ?_
  rcases n with _ | n
  · simp
  · have : n + 1 - 1 = n := rfl
    rw [this]
    push_cast
    field_simp
    ring

theorem cos2_deriv (k : ℝ) : HasDerivAt (fun x => k * (Real.cos x * Real.cos x)) (-2 * k * Real.cos th * Real.sin th) th := by
  refine (((Real.hasDerivAt_cos th).mul (Real.hasDerivAt_cos th)).const_mul k).congr_deriv ?_
  ring

theorem frac_deriv (hr : r ≠ 0) (hD : 1 + k23 m * (1 - r0 m / r) ≠ 0)
    (hE : 1 + (k23 m + k22 m) * (1 - r0 m / r) ≠ 0) :
    HasDerivAt (frac m)
      (-(k21 m * k22 m * r0 m / r ^ 2 / ((1 + (k23 m + k22 m) * (1 - r0 m / r)) * (1 + (k23 m + k22 m) * (1 - r0 m / r))))) r := by
  have hy : HasDerivAt (fun x => 1 - r0 m / x) (r0 m / r ^ 2) r := by
    refine ((inv_deriv (r0 m) hr).const_sub 1).congr_deriv ?_
    ring
  have h1 := ((hy.const_mul (k22 m)).div ((hy.const_mul (k23 m)).const_add 1) hD).const_add 1
  have hq : 1 + k22 m * (1 - r0 m / r) / (1 + k23 m * (1 - r0 m / r)) =
      (1 + (k23 m + k22 m) * (1 - r0 m / r)) / (1 + k23 m * (1 - r0 m / r)) := by
    rw [eq_div_iff hD, add_mul, div_mul_cancel₀ _ hD]
    ring
  have hne : 1 + k22 m * (1 - r0 m / r) / (1 + k23 m * (1 - r0 m / r)) ≠ 0 := by
    rw [hq]
    exact div_ne_zero hE hD
  refine ((hasDerivAt_const r (k21 m)).div h1 hne).congr_deriv ?_
  simp only [Pi.div_apply]
  rw [hq]
  generalize hu : r0 m / r ^ 2 = u
  generalize 1 - r0 m / r = y at *
  rw [show k21 m * k22 m * r0 m / r ^ 2 = k21 m * k22 m * u by rw [← hu]; ring]
  generalize hd : 1 + k23 m * y = D at *
  generalize he : 1 + (k23 m + k22 m) * y = E at *
  field_simp
  rw [← hd]
  ring

theorem sum_zero : k23 m + k22 m = 0 := by unfold k23 k22; ring

/-- Where the radial functions have a derivative. -/
def Smooth (m : Metric) (r : ℝ) : Prop := r ≠ 0 ∧ 1 + k23 m * (1 - r0 m / r) ≠ 0

theorem frac_deriv' (h : Smooth m r) : HasDerivAt (frac m) (-(k21 m * k22 m * r0 m / r ^ 2)) r := by
  refine (frac_deriv h.1 h.2 (by rw [sum_zero]; norm_num)).congr_deriv ?_
  rw [sum_zero]
  simp

/-- The derivative of `N2`: it is what the code computes, but for a term. -/
theorem N2_r (h : Smooth m r) :
    HasDerivAt (fun x => N2 m x th) (drN2 m r th - (1 - r0 m / r) * (2 * a00 m * r0 m ^ 2 / r ^ 3)) r := by
  have hr := h.1
  have hp := fun c n => pow_deriv (r := r) c n hr
  have hi := fun c => inv_deriv (r := r) c hr
  have h1 := ((hi (r0 m)).const_sub 1).mul
    ((((hi (epsilon0 m * r0 m)).const_sub 1).add (hp ((a00 m - epsilon0 m + k00 m) * r0 m ^ 2) 2)).add (hp (a01 m * r0 m ^ 3) 3))
  have h2 : HasDerivAt (fun x => (frac m x + a20 m) * r0 m ^ 3 / x ^ 3) _ r :=
    (((frac_deriv' h).add_const (a20 m)).mul_const (r0 m ^ 3)).div (hasDerivAt_pow 3 r) (pow_ne_zero 3 hr)
  have h3 := (((hp ((k20 + epsilon2) * r0 m ^ 2) 2).add h2).add (hp (a21 m * r0 m ^ 4) 4)).mul_const (Real.cos th * Real.cos th)
  refine (h1.add h3).congr_deriv ?_
  unfold drN2
  rw [sum_zero]
  generalize frac m r = F at *
  push_cast
  simp only [zero_mul, add_zero, mul_one, div_one, Pi.add_apply]
  field_simp
  ring

theorem N2_th : HasDerivAt (fun x => N2 m r x) (dthN2 m r th) th := by
  refine ((cos2_deriv _).const_add _).congr_deriv ?_
  rfl

theorem B_r (hr : r ≠ 0) : HasDerivAt (fun x => B m x th) (drB m r th) r := by
  have hp := fun c n => pow_deriv (r := r) c n hr
  have hi := fun c => inv_deriv (r := r) c hr
  refine ((((hi (b00 m * r0 m)).const_add 1).add (hp (b01 m * r0 m ^ 2) 2)).add
    (((hi (b20 * r0 m)).add (hp (b21 m * r0 m ^ 2) 2)).mul_const (Real.cos th * Real.cos th))).congr_deriv ?_
  unfold drB
  push_cast
  ring

theorem B_th : HasDerivAt (fun x => B m r x) (dthB m r th) th :=
  ((cos2_deriv _).const_add _).congr_deriv rfl

theorem Sigma_r (hr : r ≠ 0) : HasDerivAt (fun x => Sigma m x th) (drSigma m r th) r := by
  refine ((pow_deriv (m.spin2 * (Real.cos th * Real.cos th)) 2 hr).const_add 1).congr_deriv ?_
  unfold drSigma
  push_cast
  ring

theorem Sigma_th : HasDerivAt (fun x => Sigma m r x) (dthSigma m r th) th := by
  refine (((cos2_deriv m.spin2).div_const (r ^ 2)).const_add 1).congr_deriv ?_
  unfold dthSigma
  ring

theorem Wnum_r (hr : r ≠ 0) : HasDerivAt (fun x => Wnum m x th)
    (-(2 * w00 m * r0 m ^ 2 / r ^ 3 + 3 * w01 m * r0 m ^ 3 / r ^ 4
      + (2 * w20 * r0 m ^ 2 / r ^ 3 + 3 * w21 m * r0 m ^ 3 / r ^ 4) * (Real.cos th * Real.cos th))) r := by
  have hp := fun c n => pow_deriv (r := r) c n hr
  refine (((hp (w00 m * r0 m ^ 2) 2).add (hp (w01 m * r0 m ^ 3) 3)).add
    (((hp (w20 * r0 m ^ 2) 2).add (hp (w21 m * r0 m ^ 3) 3)).mul_const (Real.cos th * Real.cos th))).congr_deriv ?_
  push_cast
  ring

theorem Wnum_th : HasDerivAt (fun x => Wnum m r x) (-2 * (w20 * r0 m ^ 2 / r ^ 2 + w21 m * r0 m ^ 3 / r ^ 3) * Real.cos th * Real.sin th) th :=
  ((cos2_deriv _).const_add _).congr_deriv rfl

theorem W_r (hr : r ≠ 0) (hS : Sigma m r th ≠ 0) : HasDerivAt (fun x => W m x th) (drW m r th) r := by
  refine ((Wnum_r hr).div (Sigma_r hr) hS).congr_deriv ?_
  unfold drW
  generalize Sigma m r th = S at *
  generalize Wnum m r th = X at *
  field_simp
  ring

theorem W_th (hS : Sigma m r th ≠ 0) : HasDerivAt (fun x => W m r x) (dthW m r th) th := by
  refine (Wnum_th.div Sigma_th hS).congr_deriv ?_
  unfold dthW w20
  generalize Sigma m r th = S at *
  generalize Wnum m r th = X at *
  field_simp
  ring

theorem Knum_r (h : Smooth m r) : HasDerivAt (fun x => Knum m x th)
    (-(2 * k00 m * r0 m ^ 2 / r ^ 3 + k21 m * k22 m * (Real.cos th * Real.cos th) * r0 m ^ 4 / r ^ 5
      + 3 * frac m r * (Real.cos th * Real.cos th) * r0 m ^ 3 / r ^ 4)) r := by
  have hr := h.1
  have hp := fun c n => pow_deriv (r := r) c n hr
  have h2 : HasDerivAt (fun x => frac m x * r0 m ^ 3 / x ^ 3) _ r :=
    ((frac_deriv' h).mul_const (r0 m ^ 3)).div (hasDerivAt_pow 3 r) (pow_ne_zero 3 hr)
  refine ((hp (k00 m * r0 m ^ 2) 2).add (((hp (k20 * r0 m ^ 2) 2).add h2).mul_const (Real.cos th * Real.cos th))).congr_deriv ?_
  unfold k20
  generalize frac m r = F at *
  push_cast
  field_simp
  ring

theorem Knum_th : HasDerivAt (fun x => Knum m r x) (-2 * (frac m r * r0 m ^ 3 / r ^ 3) * Real.cos th * Real.sin th) th := by
  refine ((cos2_deriv _).const_add _).congr_deriv ?_
  unfold k20
  ring

theorem K2_r (h : Smooth m r) (hS : Sigma m r th ≠ 0) : HasDerivAt (fun x => K2 m x th) (drK2 m r th) r := by
  have hr := h.1
  have h1 : HasDerivAt (fun x => m.spin * W m x th / x) _ r := ((W_r hr hS).const_mul m.spin).div (hasDerivAt_id' r) hr
  refine ((h1.const_add 1).add ((Knum_r h).div (Sigma_r hr) hS)).congr_deriv ?_
  unfold drK2
  rw [sum_zero]
  unfold k20
  generalize Sigma m r th = S at *
  generalize drSigma m r th = Sr at *
  generalize Knum m r th = X at *
  generalize W m r th = Y at *
  generalize drW m r th = Yr at *
  generalize frac m r = F at *
  simp only [zero_mul, add_zero, mul_one, mul_zero, div_one]
  field_simp
  ring

theorem K2_th (hr : r ≠ 0) (hS : Sigma m r th ≠ 0) : HasDerivAt (fun x => K2 m r x) (dthK2 m r th) th := by
  have h1 : HasDerivAt (fun x => m.spin * W m r x / r) _ th := ((W_th hS).const_mul m.spin).div_const r
  refine ((h1.const_add 1).add (Knum_th.div Sigma_th hS)).congr_deriv ?_
  unfold dthK2 k20
  generalize Sigma m r th = S at *
  generalize dthSigma m r th = Sr at *
  generalize Knum m r th = X at *
  generalize dthW m r th = Yr at *
  generalize frac m r = F at *
  field_simp
  ring

/-- The symbols are the connection of the metric that five functions give. -/
theorem symbols_ok {N B S W K : ℝ → ℝ → ℝ} {pos : Vec} {Nr Nh Br Bh Sr Sh Wr Wh Kr Kh : ℝ}
    (hNr : HasDerivAt (fun x => N x (pos 2)) Nr (pos 1)) (hNh : HasDerivAt (fun x => N (pos 1) x) Nh (pos 2))
    (hBr : HasDerivAt (fun x => B x (pos 2)) Br (pos 1)) (hBh : HasDerivAt (fun x => B (pos 1) x) Bh (pos 2))
    (hSr : HasDerivAt (fun x => S x (pos 2)) Sr (pos 1)) (hSh : HasDerivAt (fun x => S (pos 1) x) Sh (pos 2))
    (hWr : HasDerivAt (fun x => W x (pos 2)) Wr (pos 1)) (hWh : HasDerivAt (fun x => W (pos 1) x) Wh (pos 2))
    (hKr : HasDerivAt (fun x => K x (pos 2)) Kr (pos 1)) (hKh : HasDerivAt (fun x => K (pos 1) x) Kh (pos 2))
    (r0 : pos 1 ≠ 0) (s0 : Real.sin (pos 2) ≠ 0) (N0 : N (pos 1) (pos 2) ≠ 0) (B0 : B (pos 1) (pos 2) ≠ 0)
    (S0 : S (pos 1) (pos 2) ≠ 0) (K0 : K (pos 1) (pos 2) ≠ 0) :
    IsChristoffel (fun p => circ (-(N (p 1) (p 2) - W (p 1) (p 2) * W (p 1) (p 2) * (Real.sin (p 2) * Real.sin (p 2))) / K (p 1) (p 2))
        (S (p 1) (p 2) * B (p 1) (p 2) * B (p 1) (p 2) / N (p 1) (p 2)) (S (p 1) (p 2) * (p 1 * p 1))
        (K (p 1) (p 2) * (p 1 * p 1) * (Real.sin (p 2) * Real.sin (p 2))) (-W (p 1) (p 2) * p 1 * (Real.sin (p 2) * Real.sin (p 2)))) pos
      (symbols (pos 1) (Real.sin (pos 2)) (Real.cos (pos 2)) (N (pos 1) (pos 2)) Nr Nh (B (pos 1) (pos 2)) Br Bh (S (pos 1) (pos 2)) Sr Sh
        (W (pos 1) (pos 2)) Wr Wh (K (pos 1) (pos 2)) Kr Kh) := by
  have hs := Real.hasDerivAt_sin (pos 2)
  have hs2 := hs.mul hs
  have hx := hasDerivAt_id' (pos 1)
  have hx2 := hx.mul hx
  refine isChristoffel_circ
    (tt := fun a b => -(N a b - W a b * W a b * (Real.sin b * Real.sin b)) / K a b)
    (rr := fun a b => S a b * B a b * B a b / N a b) (hh := fun a b => S a b * (a * a))
    (pp := fun a b => K a b * (a * a) * (Real.sin b * Real.sin b)) (tp := fun a b => -W a b * a * (Real.sin b * Real.sin b))
    (((hNr.sub ((hWr.mul hWr).mul_const _)).neg).div hKr K0) (((hSr.mul hBr).mul hBr).div hNr N0) (hSr.mul hx2)
    ((hKr.mul hx2).mul_const _) ((hWr.neg.mul hx).mul_const _)
    (((hNh.sub ((hWh.mul hWh).mul hs2)).neg).div hKh K0) (((hSh.mul hBh).mul hBh).div hNh N0) (hSh.mul_const _)
    ((hKh.mul_const _).mul hs2) ((hWh.neg.mul_const _).mul hs2)
    ?_ ?_ ?_ ?_ ?_ ?_ ?_ ?_ ?_ ?_ ?_ ?_ ?_ ?_ ?_ ?_ ?_ ?_ ?_ ?_ <;> clear hNr hNh hBr hBh hSr hSh hWr hWh hKr hKh hs hs2 hx hx2 <;>
    (try simp only [Pi.mul_apply, Pi.sub_apply, Pi.neg_apply]) <;> generalize N (pos 1) (pos 2) = N' at * <;>
    generalize B (pos 1) (pos 2) = B' at * <;> generalize S (pos 1) (pos 2) = S' at * <;>
    generalize K (pos 1) (pos 2) = K' at * <;> generalize W (pos 1) (pos 2) = W' at * <;>
    generalize Real.sin (pos 2) = s at * <;> generalize Real.cos (pos 2) = c at * <;> generalize pos 1 = r at * <;>
    field_simp <;> ring

end Gyoto.KRZ
