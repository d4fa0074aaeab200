import Verif.Lemmas.KRZ
import Verif.Spec.KRZ
import Verif.Props.Orbits
import Mathlib.LinearAlgebra.Matrix.NonsingularInverse

/-!
# C99: the metric of Konoplya, Rezzolla and Zhidenko
-/

namespace Gyoto.KRZ

open Gyoto.MetricAlg Gyoto.Spacetime Gyoto.KerrBL Gyoto.Orbits

/-- The objects that the methods can make. -/
inductive Reached : Metric → Prop
  | new : Reached new
  | spin {m} (h : Reached m) (a : ℝ) : Reached (setSpin m a)
  | horizon {m} (h : Reached m) (v : List ℝ) : Reached (setHorizon m v).1
  | asymptotics {m} (h : Reached m) (v : List ℝ) : Reached (setAsymptotics m v).1
  | copy {m} (h : Reached m) : Reached (copy m)

theorem storeLoop_spin (i : ℕ) (vs : List ℝ) (m : Metric) :
    (storeLoop i vs m).1.spin = m.spin ∧ (storeLoop i vs m).1.spin2 = m.spin2 ∧ (storeLoop i vs m).1.spin3 = m.spin3 ∧
      (storeLoop i vs m).1.spin4 = m.spin4 ∧ (storeLoop i vs m).1.da = m.da := by
  induction vs generalizing i m with
  | nil => exact ⟨rfl, rfl, rfl, rfl, rfl⟩
  | cons v vs ih =>
    unfold storeLoop
    by_cases h : i < 6
    · rw [dif_pos h]
      dsimp only
      split_ifs
      · exact ⟨rfl, rfl, rfl, rfl, rfl⟩
      · exact ih (i + 1) _
    · rw [dif_neg h]
      exact ⟨rfl, rfl, rfl, rfl, rfl⟩

theorem setHorizon_spin (m : Metric) (v : List ℝ) :
    (setHorizon m v).1.spin = m.spin ∧ (setHorizon m v).1.spin2 = m.spin2 ∧ (setHorizon m v).1.spin3 = m.spin3 ∧
      (setHorizon m v).1.spin4 = m.spin4 ∧ (setHorizon m v).1.da = m.da := by
  unfold setHorizon
  have h := storeLoop_spin 0 v m
  split_ifs <;> first | exact ⟨rfl, rfl, rfl, rfl, rfl⟩ | (dsimp only; split_ifs <;> exact h)

/-- C99. Whatever is done with the object, the powers of the spin that the metric uses are those of the spin. -/
theorem reached_coherent {m : Metric} (h : Reached m) : m.spin2 = m.spin * m.spin ∧ m.spin4 = m.spin2 * m.spin2 := by
  induction h with
  | new => exact ⟨by simp [KRZ.new], by simp [KRZ.new]⟩
  | spin _ a _ => exact ⟨rfl, rfl⟩
  | @horizon m _ v ih =>
    obtain ⟨h1, h2, -, h4, -⟩ := setHorizon_spin m v
    rw [h1, h2, h4]
    exact ih
  | @asymptotics m _ v ih =>
    unfold setAsymptotics
    split_ifs <;> exact ih
  | copy _ ih => exact ih

variable {m : Metric} {pos : Vec}

theorem r0_pos (m : Metric) : 0 < r0 m := by unfold r0; positivity

theorem frac_eq {r : ℝ} (h : Smooth m r) : frac m r = k21 m * (1 + k23 m * (1 - r0 m / r)) := by
  unfold frac
  have e : k22 m = -k23 m := by linarith [sum_zero (m := m)]
  have hD := h.2
  rw [e]
  generalize 1 - r0 m / r = y at *
  rw [show 1 + -k23 m * y / (1 + k23 m * y) = 1 / (1 + k23 m * y) by
    rw [eq_div_iff hD, add_mul, div_mul_cancel₀ _ hD]; ring, div_div_eq_mul_div, div_one]

/-- C99. The sphere of radius `r0` is a horizon whatever the deformation: the function that vanishes on the horizon of Kerr vanishes there. -/
theorem horizon_at_r0 (h : Reached m) (th : ℝ) : N2 m (r0 m) th = 0 := by
  have hp := (r0_pos m).ne'
  have e : r0 m / r0 m = 1 := div_self hp
  unfold N2 frac k21 k22 k23 a20 a21 k20 epsilon2
  rw [e, (reached_coherent h).2]
  field_simp
  ring

/-- Where the metric is regular: off the axis, the horizon and the zeros of the functions. -/
structure Regular (m : Metric) (pos : Vec) : Prop where
  r : 0 < pos 1
  smooth : 1 + k23 m * (1 - r0 m / pos 1) ≠ 0
  axis : Real.sin (pos 2) ≠ 0
  N : N2 m (pos 1) (pos 2) ≠ 0
  B : B m (pos 1) (pos 2) ≠ 0
  K : K2 m (pos 1) (pos 2) ≠ 0

theorem Sigma_pos (h : Reached m) {r th : ℝ} : 0 < Sigma m r th := by
  unfold Sigma
  rw [(reached_coherent h).1]
  have h1 := mul_self_nonneg m.spin
  have h2 := mul_self_nonneg (Real.cos th)
  have h3 := mul_nonneg h1 h2
  positivity

/-- C99. The contravariant components are the inverse of the covariant ones. -/
theorem up_inverse (h : Reached m) (hr : Regular m pos) : gmunuUp m pos * gmunu m pos = 1 := by
  have h1 := hr.r.ne'
  have h2 := hr.axis
  have h3 := hr.N
  have h4 := hr.B
  have h5 := hr.K
  have h6 := (Sigma_pos h (r := pos 1) (th := pos 2)).ne'
  unfold gmunuUp gmunu
  dsimp only
  generalize N2 m (pos 1) (pos 2) = N at *
  generalize KRZ.B m (pos 1) (pos 2) = B at *
  generalize K2 m (pos 1) (pos 2) = K at *
  generalize W m (pos 1) (pos 2) = W at *
  generalize Sigma m (pos 1) (pos 2) = S at *
  generalize Real.sin (pos 2) = s at *
  generalize pos 1 = r at *
  ext i j
  fin_cases i <;> fin_cases j <;> simp [Matrix.mul_apply, Fin.sum_univ_four] <;> field_simp <;> ring

/-- The symbols with the true derivative of `N2`. -/
theorem true_connection (h : Reached m) (hr : Regular m pos) :
    IsChristoffel (gmunu m) pos (symbols (pos 1) (Real.sin (pos 2)) (Real.cos (pos 2)) (N2 m (pos 1) (pos 2))
      (drN2 m (pos 1) (pos 2) - (1 - r0 m / pos 1) * (2 * a00 m * r0 m ^ 2 / pos 1 ^ 3)) (dthN2 m (pos 1) (pos 2))
      (KRZ.B m (pos 1) (pos 2)) (drB m (pos 1) (pos 2)) (dthB m (pos 1) (pos 2))
      (Sigma m (pos 1) (pos 2)) (drSigma m (pos 1) (pos 2)) (dthSigma m (pos 1) (pos 2)) (W m (pos 1) (pos 2)) (drW m (pos 1) (pos 2))
      (dthW m (pos 1) (pos 2)) (K2 m (pos 1) (pos 2)) (drK2 m (pos 1) (pos 2)) (dthK2 m (pos 1) (pos 2))) := by
  have hS := (Sigma_pos h (r := pos 1) (th := pos 2)).ne'
  have hr0 := hr.r.ne'
  have hsm : Smooth m (pos 1) := ⟨hr0, hr.smooth⟩
  exact symbols_ok (N2_r hsm) N2_th (B_r hr0) B_th (Sigma_r hr0) Sigma_th (W_r hr0 hS) (W_th hS) (K2_r hsm hS) (K2_th hr0 hS)
    hr0 hr.axis hr.N hr.B hS hr.K

/-- C99. `christoffel` returns the connection of the metric exactly when the third asymptotic parameter is zero: the derivative of `N2`
forgets it. -/
theorem connection_iff (h : Reached m) (hr : Regular m pos) :
    IsChristoffel (gmunu m) pos (christoffel m pos) ↔ m.da 2 = 0 := by
  constructor
  · intro hc
    have hu := up_inverse h hr
    have hinv : ∀ γ β, ∑ α, gmunuUp m pos γ α * gmunu m pos α β = if γ = β then 1 else 0 := by
      intro γ β
      have := congrFun (congrFun hu γ) β
      rw [Matrix.mul_apply, Matrix.one_apply] at this
      exact this
    have e := congrFun (congrFun (congrFun (IsChristoffel.unique hinv hc (true_connection h hr)) 1) 1) 1
    have hS := (Sigma_pos h (r := pos 1) (th := pos 2)).ne'
    have hne : 1 - r0 m / pos 1 ≠ 0 := by
      intro h0
      have : pos 1 = r0 m := by
        have := hr.r.ne'
        field_simp at h0
        linarith
      exact hr.N (this ▸ horizon_at_r0 h (pos 2))
    have hB := hr.B
    have hN := hr.N
    have hr1 := hr.r
    have e' : (2 * N2 m (pos 1) (pos 2) * Sigma m (pos 1) (pos 2) * drB m (pos 1) (pos 2)
        - KRZ.B m (pos 1) (pos 2) * Sigma m (pos 1) (pos 2) * drN2 m (pos 1) (pos 2)
        + KRZ.B m (pos 1) (pos 2) * N2 m (pos 1) (pos 2) * drSigma m (pos 1) (pos 2))
          / (2 * KRZ.B m (pos 1) (pos 2) * N2 m (pos 1) (pos 2) * Sigma m (pos 1) (pos 2)) =
        (2 * N2 m (pos 1) (pos 2) * Sigma m (pos 1) (pos 2) * drB m (pos 1) (pos 2)
        - KRZ.B m (pos 1) (pos 2) * Sigma m (pos 1) (pos 2) *
          (drN2 m (pos 1) (pos 2) - (1 - r0 m / pos 1) * (2 * a00 m * r0 m ^ 2 / pos 1 ^ 3))
        + KRZ.B m (pos 1) (pos 2) * N2 m (pos 1) (pos 2) * drSigma m (pos 1) (pos 2))
          / (2 * KRZ.B m (pos 1) (pos 2) * N2 m (pos 1) (pos 2) * Sigma m (pos 1) (pos 2)) := e
    rw [div_left_inj' (by positivity)] at e'
    have e2 : KRZ.B m (pos 1) (pos 2) * Sigma m (pos 1) (pos 2) * ((1 - r0 m / pos 1) * (2 * a00 m * r0 m ^ 2 / pos 1 ^ 3)) = 0 := by
      linear_combination -e'
    have hp := r0_pos m
    rcases mul_eq_zero.1 e2 with h1 | h1
    · exact absurd h1 (mul_ne_zero hB hS)
    · rcases mul_eq_zero.1 h1 with h2 | h2
      · exact absurd h2 hne
      · rw [div_eq_zero_iff] at h2
        rcases h2 with h2 | h2
        · rcases mul_eq_zero.1 h2 with h3 | h3
          · have : a00 m = 0 := by linarith
            exact this
          · exact absurd h3 (by positivity)
        · exact absurd h2 (by positivity)
  · intro ha
    have := true_connection h hr
    rw [show a00 m = 0 from ha] at this
    simpa [christoffel] using this

/-! ### Kerr without deformation -/

/-- C99. Without deformation the metric is that of Kerr, outside of the horizon. -/
theorem kerr_limit (h : Reached m) (ha : |m.spin| ≤ 1) (h0 : ∀ i, m.dh i = 0) (h1 : ∀ i, m.da i = 0) (hr : r0 m ≤ pos 1) :
    gmunu m pos = KerrBL.gmunu m.spin pos := by
  obtain ⟨c2, c4⟩ := reached_coherent h
  have hp := r0_pos m
  have hx : 0 < pos 1 := lt_of_lt_of_le hp hr
  have hS := Sigma_pos h (r := pos 1) (th := pos 2)
  have h1s := Real.sin_sq_add_cos_sq (pos 2)
  have hq : m.spin * m.spin = r0 m * (2 - r0 m) := by
    have : (r0 m - 1) ^ 2 = 1 - m.spin2 := by
      unfold r0
      rw [add_sub_cancel_left, Real.sq_sqrt]
      rw [c2]
      nlinarith [abs_le.1 ha]
    rw [c2] at this
    linear_combination this
  have hk : k23 m = (2 - r0 m) / r0 m := by
    unfold k23
    rw [c2, hq]
    field_simp
  have hy : 0 ≤ 1 - r0 m / pos 1 := by
    rw [sub_nonneg, div_le_one hx]
    exact hr
  have hsm : Smooth m (pos 1) := by
    refine ⟨hx.ne', ?_⟩
    have : 0 ≤ k23 m := by
      unfold k23
      rw [c2]
      have := mul_self_nonneg m.spin
      positivity
    have := mul_nonneg this hy
    positivity
  have hF : frac m (pos 1) = -((2 - r0 m) / r0 m) * (1 + (2 - r0 m) / r0 m * (1 - r0 m / pos 1)) := by
    rw [frac_eq hsm, hk]
    unfold k21
    rw [c2, hq, h0]
    field_simp
    ring
  have hN : N2 m (pos 1) (pos 2) = (pos 1 * pos 1 - 2 * pos 1 + m.spin * m.spin) / (pos 1 * pos 1) := by
    unfold N2 epsilon0 k00 a00 a01 k20 epsilon2 a20 a21
    rw [hF, c4, c2, hq, h0, h0, h1, h1]
    field_simp
    ring
  have hW : Wnum m (pos 1) (pos 2) = 2 * m.spin / (pos 1 * pos 1) := by
    unfold Wnum w00 w01 w20 w21
    rw [c2, hq, h0, h0, h1]
    field_simp
    ring
  have hK : Knum m (pos 1) (pos 2) = m.spin * m.spin / (pos 1 * pos 1)
      - m.spin * m.spin * (2 - m.spin * m.spin / pos 1) / (pos 1 * pos 1 * pos 1) * (Real.cos (pos 2) * Real.cos (pos 2)) := by
    unfold Knum k00 k20
    rw [hF, c2, hq]
    field_simp
    ring
  have hB : B m (pos 1) (pos 2) = 1 := by
    unfold B b00 b01 b20 b21
    rw [h0, h0, h1]
    ring
  have hSe : Sigma m (pos 1) (pos 2) =
      (pos 1 * pos 1 + m.spin * m.spin * (Real.cos (pos 2) * Real.cos (pos 2))) / (pos 1 * pos 1) := by
    unfold Sigma
    rw [c2]
    field_simp
  have hT : 0 < pos 1 * pos 1 + m.spin * m.spin * (Real.cos (pos 2) * Real.cos (pos 2)) := by
    have := mul_nonneg (mul_self_nonneg m.spin) (mul_self_nonneg (Real.cos (pos 2)))
    positivity
  have hKK : K2 m (pos 1) (pos 2) = (pos 1 * pos 1 + m.spin * m.spin + 2 * pos 1 * (m.spin * m.spin) *
      (Real.sin (pos 2) * Real.sin (pos 2)) / (pos 1 * pos 1 + m.spin * m.spin * (Real.cos (pos 2) * Real.cos (pos 2)))) / (pos 1 * pos 1) := by
    unfold K2 W
    rw [hW, hK, hSe]
    have hs : Real.sin (pos 2) * Real.sin (pos 2) = 1 - Real.cos (pos 2) * Real.cos (pos 2) := by linear_combination h1s
    rw [hs]
    generalize hTT : pos 1 * pos 1 + m.spin * m.spin * (Real.cos (pos 2) * Real.cos (pos 2)) = T at *
    field_simp
    rw [← hTT]
    ring
  have hWW : W m (pos 1) (pos 2) = 2 * m.spin / (pos 1 * pos 1 + m.spin * m.spin * (Real.cos (pos 2) * Real.cos (pos 2))) := by
    unfold W
    rw [hW, hSe]
    field_simp
  unfold gmunu KerrBL.gmunu
  dsimp only
  rw [hN, hB, hSe, hKK, hWW]
  have hs : Real.sin (pos 2) * Real.sin (pos 2) = 1 - Real.cos (pos 2) * Real.cos (pos 2) := by linear_combination h1s
  have hs0 : 0 ≤ Real.sin (pos 2) * Real.sin (pos 2) := mul_self_nonneg _
  clear hN hB hSe hKK hWW hW hK hF hk hsm hy hq h1s hS c2 c4
  generalize Real.sin (pos 2) * Real.sin (pos 2) = s at *
  generalize Real.cos (pos 2) * Real.cos (pos 2) = c at *
  generalize pos 1 = r at *
  generalize m.spin = a at *
  have ha2 := mul_self_nonneg a
  generalize hTT : r * r + a * a * c = T at *
  have hX : 0 < (r * r + a * a) * T + 2 * r * (a * a) * s := by positivity
  congr 1
  · rw [show (r * r + a * a + 2 * r * (a * a) * s / T) = ((r * r + a * a) * T + 2 * r * (a * a) * s) / T by field_simp]
    rw [show (-1 + 2 * r / T) = (2 * r - T) / T by field_simp; ring]
    rw [div_div, div_eq_div_iff (by positivity) hT.ne']
    generalize hXX : (r * r + a * a) * T + 2 * r * (a * a) * s = X at *
    field_simp
    rw [← hXX, hs, ← hTT]
    ring
  · rw [mul_one, mul_one, div_div_div_cancel_right₀ (by positivity)]
  · field_simp
  · field_simp
  · field_simp

/-! ### Circular orbits -/

variable {r th : ℝ}

/-- The derivatives of the contravariant components that the code computes, when the third asymptotic parameter is zero. -/
theorem up_derivs (h : Reached m) (ha : m.da 2 = 0) (hr : Regular m pos) :
    HasDerivAt (fun x => gmunuUp m (Function.update pos 1 x) 0 0) (drguptt m (pos 1) (pos 2)) (pos 1) ∧
    HasDerivAt (fun x => gmunuUp m (Function.update pos 1 x) 0 3) (drguptp m (pos 1) (pos 2)) (pos 1) ∧
    HasDerivAt (fun x => gmunuUp m (Function.update pos 1 x) 3 3) (drguppp m (pos 1) (pos 2)) (pos 1) := by
  have hS := (Sigma_pos h (r := pos 1) (th := pos 2)).ne'
  have hr0 := hr.r.ne'
  have hs := hr.axis
  have hsm : Smooth m (pos 1) := ⟨hr0, hr.smooth⟩
  have hN : HasDerivAt (fun x => N2 m x (pos 2)) (drN2 m (pos 1) (pos 2)) (pos 1) := by
    have := N2_r (th := pos 2) hsm
    rw [show a00 m = 0 from ha] at this
    simpa using this
  have hK := K2_r (th := pos 2) hsm hS
  have hW := W_r (th := pos 2) hr0 hS
  have hx := hasDerivAt_id' (pos 1)
  have e1 : ∀ x, (Function.update pos 1 x) 1 = x := fun x => Function.update_self _ _ _
  have e2 : ∀ x, (Function.update pos 1 x) 2 = pos 2 := fun x => Function.update_of_ne (by decide) _ _
  have hN0 := hr.N
  have hK0 := hr.K
  refine ⟨?_, ?_, ?_⟩ <;> simp only [gmunuUp, circ00, circ03, circ33, e1, e2]
  · refine (hK.neg.div hN hN0).congr_deriv ?_
    unfold drguptt
    simp only [Pi.neg_apply]
    field_simp
    ring
  · refine (hW.neg.div (hx.mul hN) (mul_ne_zero hr0 hN0)).congr_deriv ?_
    unfold drguptp
    simp only [Pi.mul_apply, Pi.neg_apply]
    field_simp
    ring
  · refine ((((hW.mul hW).mul_const (Real.sin (pos 2) * Real.sin (pos 2))).sub hN).neg.div
      ((((hx.mul hx).mul hK).mul hN).mul_const (Real.sin (pos 2) * Real.sin (pos 2))) ?_).congr_deriv ?_
    · simp only [Pi.mul_apply]
      exact mul_ne_zero (mul_ne_zero (mul_ne_zero (mul_ne_zero hr0 hr0) hK0) hN0) (mul_ne_zero hs hs)
    · unfold drguppp
      simp only [Pi.mul_apply, Pi.sub_apply, Pi.neg_apply]
      generalize N2 m (pos 1) (pos 2) = N at *
      generalize drN2 m (pos 1) (pos 2) = Nr at *
      generalize K2 m (pos 1) (pos 2) = K at *
      generalize drK2 m (pos 1) (pos 2) = Kr at *
      generalize W m (pos 1) (pos 2) = W at *
      generalize drW m (pos 1) (pos 2) = Wr at *
      generalize Real.sin (pos 2) = s at *
      generalize pos 1 = r at *
      field_simp
      ring

/-- The derivatives of the covariant components in the equatorial plane. -/
theorem down_derivs (h : Reached m) (ha : m.da 2 = 0) (hr : Regular m pos) (hθ : pos 2 = Real.pi / 2) :
    HasDerivAt (fun x => gmunu m (Function.update pos 1 x) 0 0)
      (-((drN2 m (pos 1) (pos 2) - 2 * W m (pos 1) (pos 2) * drW m (pos 1) (pos 2)) * K2 m (pos 1) (pos 2)
        - (N2 m (pos 1) (pos 2) - W m (pos 1) (pos 2) ^ 2) * drK2 m (pos 1) (pos 2)) / K2 m (pos 1) (pos 2) ^ 2) (pos 1) ∧
    HasDerivAt (fun x => gmunu m (Function.update pos 1 x) 0 3) (-(drW m (pos 1) (pos 2) * pos 1 + W m (pos 1) (pos 2))) (pos 1) ∧
    HasDerivAt (fun x => gmunu m (Function.update pos 1 x) 3 3)
      (drK2 m (pos 1) (pos 2) * pos 1 ^ 2 + 2 * K2 m (pos 1) (pos 2) * pos 1) (pos 1) := by
  have hS := (Sigma_pos h (r := pos 1) (th := pos 2)).ne'
  have hr0 := hr.r.ne'
  have hsm : Smooth m (pos 1) := ⟨hr0, hr.smooth⟩
  have hN : HasDerivAt (fun x => N2 m x (pos 2)) (drN2 m (pos 1) (pos 2)) (pos 1) := by
    have := N2_r (th := pos 2) hsm
    rw [show a00 m = 0 from ha] at this
    simpa using this
  have hK := K2_r (th := pos 2) hsm hS
  have hW := W_r (th := pos 2) hr0 hS
  have hx := hasDerivAt_id' (pos 1)
  have e1 : ∀ x, (Function.update pos 1 x) 1 = x := fun x => Function.update_self _ _ _
  have e2 : ∀ x, (Function.update pos 1 x) 2 = pos 2 := fun x => Function.update_of_ne (by decide) _ _
  have hK0 := hr.K
  have hs : Real.sin (pos 2) = 1 := by rw [hθ, Real.sin_pi_div_two]
  refine ⟨?_, ?_, ?_⟩ <;> simp only [gmunu, circ00, circ03, circ33, e1, e2, hs, mul_one]
  · refine ((hN.sub (hW.mul hW)).neg.div hK hK0).congr_deriv ?_
    simp only [Pi.mul_apply, Pi.sub_apply, Pi.neg_apply]
    field_simp
    ring
  · refine (hW.neg.mul hx).congr_deriv ?_
    simp only [Pi.neg_apply]
    ring
  · refine (hK.mul (hx.mul hx)).congr_deriv ?_
    simp only [Pi.mul_apply]
    ring

/-- What the two roots give: an angular velocity for which the orbit is free. -/
theorem root_algebra {N Nr W Wr K Kr r l : ℝ} (hN : N ≠ 0) (hK : K ≠ 0) (hr : r ≠ 0)
    (hl : (-(2 * (N * N) * K + r * (N * N) * Kr - (2 * (W * W) * K * N + r * (W * W) * (Kr * N + K * Nr) - 2 * r * K * N * W * Wr))
        / (r * r * r * (K * K) * (N * N))) * l ^ 2
      - 2 * (-(Wr * r * N - W * (N + r * Nr)) / (r * r * (N * N))) * l + -(Kr * N - K * Nr) / (N * N) = 0) :
    -((Nr - 2 * W * Wr) * K - (N - W ^ 2) * Kr) / K ^ 2 * (K * (r * r) + l * (-W * r)) ^ 2
      + 2 * (-(-W * r + l * (-(N - W * W) / K))) * (K * (r * r) + l * (-W * r)) * -(Wr * r + W)
      + (-(-W * r + l * (-(N - W * W) / K))) ^ 2 * (Kr * r ^ 2 + 2 * K * r) = 0 := by
  have e : -((Nr - 2 * W * Wr) * K - (N - W ^ 2) * Kr) / K ^ 2 * (K * (r * r) + l * (-W * r)) ^ 2
      + 2 * (-(-W * r + l * (-(N - W * W) / K))) * (K * (r * r) + l * (-W * r)) * -(Wr * r + W)
      + (-(-W * r + l * (-(N - W * W) / K))) ^ 2 * (Kr * r ^ 2 + 2 * K * r) = -(N * r ^ 2) ^ 2 *
      ((-(2 * (N * N) * K + r * (N * N) * Kr - (2 * (W * W) * K * N + r * (W * W) * (Kr * N + K * Nr) - 2 * r * K * N * W * Wr))
        / (r * r * r * (K * K) * (N * N))) * l ^ 2
      - 2 * (-(Wr * r * N - W * (N + r * Nr)) / (r * r * (N * N))) * l + -(Kr * N - K * Nr) / (N * N)) := by
    field_simp
    ring
  rw [e, hl, mul_zero]

/-- One root gives an angular velocity. -/
theorem root_omega {N Nr W Wr K Kr r l : ℝ} (hN : N ≠ 0) (hK : K ≠ 0) (hr : r ≠ 0) (hC : Kr * r ^ 2 + 2 * K * r ≠ 0)
    (hl : (-(2 * (N * N) * K + r * (N * N) * Kr - (2 * (W * W) * K * N + r * (W * W) * (Kr * N + K * Nr) - 2 * r * K * N * W * Wr))
        / (r * r * r * (K * K) * (N * N))) * l ^ 2
      - 2 * (-(Wr * r * N - W * (N + r * Nr)) / (r * r * (N * N))) * l + -(Kr * N - K * Nr) / (N * N) = 0) :
    K * (r * r) + l * (-W * r) ≠ 0 ∧
    -((Nr - 2 * W * Wr) * K - (N - W ^ 2) * Kr) / K ^ 2
      + 2 * omegaOf (-(N - W * W) / K) (-W * r) (K * (r * r)) l * -(Wr * r + W)
      + omegaOf (-(N - W * W) / K) (-W * r) (K * (r * r)) l ^ 2 * (Kr * r ^ 2 + 2 * K * r) = 0 := by
  have e := root_algebra hN hK hr hl
  have hD : K * (r * r) + l * (-W * r) ≠ 0 := by
    intro h0
    rw [h0] at e
    have h1 : (-(-W * r + l * (-(N - W * W) / K))) ^ 2 * (Kr * r ^ 2 + 2 * K * r) = 0 := by linear_combination e
    have h2 : -(-W * r + l * (-(N - W * W) / K)) = 0 := by
      rcases mul_eq_zero.1 h1 with h | h
      · exact pow_eq_zero_iff (two_ne_zero) |>.1 h
      · exact absurd h hC
    have h3 : l * N = 0 := by
      have h4 : r * (K * r - l * W) = 0 := by linear_combination h0
      rcases mul_eq_zero.1 h4 with h | h
      · exact absurd h hr
      · field_simp at h2
        linear_combination h2 - W * h
    have h5 : l = 0 := by
      rcases mul_eq_zero.1 h3 with h | h
      · exact h
      · exact absurd h hN
    rw [h5] at h0
    have : K * (r * r) = 0 := by linear_combination h0
    exact mul_ne_zero hK (mul_ne_zero hr hr) this
  refine ⟨hD, ?_⟩
  unfold omegaOf
  generalize hP : -(-W * r + l * (-(N - W * W) / K)) = P at *
  generalize K * (r * r) + l * (-W * r) = D at *
  generalize -((Nr - 2 * W * Wr) * K - (N - W ^ 2) * Kr) / K ^ 2 = A at *
  field_simp
  linear_combination e

/-- The choice between the two roots takes the positive angular velocity, when gravity attracts and the circumference grows. -/
theorem root_choice {N Nr W Wr K Kr r utt utp upp l1 l2 : ℝ} (hN : N ≠ 0) (hK : K ≠ 0) (hr : r ≠ 0)
    (htt : utt = -(Kr * N - K * Nr) / (N * N)) (htp : utp = -(Wr * r * N - W * (N + r * Nr)) / (r * r * (N * N)))
    (hpp : upp = -(2 * (N * N) * K + r * (N * N) * Kr - (2 * (W * W) * K * N + r * (W * W) * (Kr * N + K * Nr) - 2 * r * K * N * W * Wr))
        / (r * r * r * (K * K) * (N * N))) (hu : upp ≠ 0)
    (h1 : l1 = (utp + √(utp * utp - utt * upp)) / upp) (h2 : l2 = (utp - √(utp * utp - utt * upp)) / upp)
    (hA : -((Nr - 2 * W * Wr) * K - (N - W ^ 2) * Kr) / K ^ 2 < 0) (hC : 0 < Kr * r ^ 2 + 2 * K * r) :
    let l := if omegaOf (-(N - W * W) / K) (-W * r) (K * (r * r)) l1 > 0 then l1 else l2
    0 < omegaOf (-(N - W * W) / K) (-W * r) (K * (r * r)) l ∧
    -((Nr - 2 * W * Wr) * K - (N - W ^ 2) * Kr) / K ^ 2
      + 2 * omegaOf (-(N - W * W) / K) (-W * r) (K * (r * r)) l * -(Wr * r + W)
      + omegaOf (-(N - W * W) / K) (-W * r) (K * (r * r)) l ^ 2 * (Kr * r ^ 2 + 2 * K * r) = 0 := by
  have hdisc : utp * utp - utt * upp =
      ((Wr * r + W) ^ 2 - -((Nr - 2 * W * Wr) * K - (N - W ^ 2) * Kr) / K ^ 2 * (Kr * r ^ 2 + 2 * K * r)) / (N * r ^ 2) ^ 2 := by
    rw [htt, htp, hpp]
    field_simp
    ring
  have hpos : 0 < utp * utp - utt * upp := by
    rw [hdisc]
    have := mul_neg_of_neg_of_pos hA hC
    have h4 : 0 < (N * r ^ 2) ^ 2 := by positivity
    apply div_pos _ h4
    nlinarith [sq_nonneg (Wr * r + W)]
  have hsq := Real.sq_sqrt hpos.le
  have hsp := Real.sqrt_pos.2 hpos
  generalize √(utp * utp - utt * upp) = q at *
  have r1 : upp * l1 ^ 2 - 2 * utp * l1 + utt = 0 := by
    rw [h1]
    field_simp
    linear_combination hsq
  have r2 : upp * l2 ^ 2 - 2 * utp * l2 + utt = 0 := by
    rw [h2]
    field_simp
    linear_combination hsq
  have hne : l1 ≠ l2 := by
    rw [h1, h2]
    intro h
    rw [div_left_inj' hu] at h
    linarith
  rw [htt, htp, hpp] at r1 r2
  obtain ⟨d1, o1⟩ := root_omega (Nr := Nr) (W := W) (Wr := Wr) hN hK hr hC.ne' (l := l1) (by linear_combination r1)
  obtain ⟨d2, o2⟩ := root_omega (Nr := Nr) (W := W) (Wr := Wr) hN hK hr hC.ne' (l := l2) (by linear_combination r2)
  have hΩ : omegaOf (-(N - W * W) / K) (-W * r) (K * (r * r)) l1 ≠ omegaOf (-(N - W * W) / K) (-W * r) (K * (r * r)) l2 := by
    unfold omegaOf
    rw [Ne, div_eq_div_iff d1 d2]
    intro h
    have h3 : (l1 - l2) * (r ^ 2 * N) = 0 := by
      have h4 : K * ((l1 - l2) * (r ^ 2 * N)) = 0 := by
        field_simp at h
        linear_combination r * h
      rcases mul_eq_zero.1 h4 with h | h
      · exact absurd h hK
      · exact h
    rcases mul_eq_zero.1 h3 with h | h
    · exact hne (sub_eq_zero.1 h)
    · exact mul_ne_zero (pow_ne_zero 2 hr) hN h
  intro l
  by_cases hc : omegaOf (-(N - W * W) / K) (-W * r) (K * (r * r)) l1 > 0
  · have : l = l1 := if_pos hc
    rw [this]
    exact ⟨hc, o1⟩
  · have : l = l2 := if_neg hc
    rw [this]
    refine ⟨?_, o2⟩
    generalize omegaOf (-(N - W * W) / K) (-W * r) (K * (r * r)) l1 = x at *
    generalize omegaOf (-(N - W * W) / K) (-W * r) (K * (r * r)) l2 = y at *
    generalize Kr * r ^ 2 + 2 * K * r = C at *
    generalize -((Nr - 2 * W * Wr) * K - (N - W ^ 2) * Kr) / K ^ 2 = A at *
    have h5 : (x - y) * (C * (x + y) - 2 * (Wr * r + W)) = 0 := by linear_combination o1 - o2
    have h6 : C * (x + y) - 2 * (Wr * r + W) = 0 := by
      rcases mul_eq_zero.1 h5 with h | h
      · exact absurd (sub_eq_zero.1 h) hΩ
      · exact h
    have h7 : C * (x * y) = A := by linear_combination x * h6 - o1
    by_contra hy
    have := mul_nonneg_of_nonpos_of_nonpos (not_lt.1 hc) (not_lt.1 hy)
    have := mul_nonneg hC.le this
    linarith

/-- C99. In the equatorial plane, where gravity attracts and circumferences grow, with the third asymptotic parameter zero: the velocity
returned is that of a free circular orbit around the axis in the sense of growing `φ`. Whatever `dir`. -/
theorem circular_partial (h : Reached m) (ha : m.da 2 = 0) (hr : Regular m pos) (hθ : pos 2 = Real.pi / 2) {D : Fin 4 → Tensor}
    (hD : IsPartial (gmunu m) pos D) (h1 : D 1 0 0 < 0) (h2 : 0 < D 1 3 3)
    (hu : ∀ d, HasDerivAt (fun x => gmunuUp m (Function.update pos 1 x) 3 3) d (pos 1) → d ≠ 0)
    (hslow : ∀ w, 0 < w → D 1 0 0 + 2 * w * D 1 0 3 + w ^ 2 * D 1 3 3 = 0 → sp (gmunu m pos) ![1, 0, 0, w] ![1, 0, 0, w] < 0) (dir : ℝ) :
    IsRotating (gmunu m pos) (circularVelocity m pos dir) ∧ IsFree (gmunu m) pos (circularVelocity m pos dir) ∧
      0 < circularVelocity m pos dir 3 := by
  have hs : Real.sin (pos 2) = 1 := by rw [hθ, Real.sin_pi_div_two]
  have hc : Real.cos (pos 2) = 0 := by rw [hθ, Real.cos_pi_div_two]
  have hr0 := hr.r.ne'
  obtain ⟨dtt, dtp, dpp⟩ := down_derivs h ha hr hθ
  have ett := (hD 1 0 0).unique dtt
  have etp := (hD 1 0 3).unique dtp
  have epp := (hD 1 3 3).unique dpp
  have hupp := hu _ (up_derivs h ha hr).2.2
  rw [ett] at h1
  rw [epp] at h2
  obtain ⟨hpos, hroot⟩ := root_choice (utt := drguptt m (pos 1) (pos 2)) (utp := drguptp m (pos 1) (pos 2))
    (upp := drguppp m (pos 1) (pos 2)) (l1 := ell1 m (pos 1) (pos 2)) (l2 := ell2 m (pos 1) (pos 2))
    hr.N hr.K hr0 rfl rfl (by unfold drguppp; simp only [hs, mul_one]) hupp rfl rfl h1 h2
  have eo : ∀ l, omega m (pos 1) (pos 2) l = omegaOf (-(N2 m (pos 1) (pos 2) - W m (pos 1) (pos 2) * W m (pos 1) (pos 2)) / K2 m (pos 1) (pos 2))
      (-W m (pos 1) (pos 2) * pos 1) (K2 m (pos 1) (pos 2) * (pos 1 * pos 1)) l := by
    intro l
    unfold omega
    simp only [hs, mul_one]
  have el : ellOf m (pos 1) (pos 2) = if omegaOf (-(N2 m (pos 1) (pos 2) - W m (pos 1) (pos 2) * W m (pos 1) (pos 2)) / K2 m (pos 1) (pos 2))
      (-W m (pos 1) (pos 2) * pos 1) (K2 m (pos 1) (pos 2) * (pos 1 * pos 1)) (ell1 m (pos 1) (pos 2)) > 0 then ell1 m (pos 1) (pos 2)
      else ell2 m (pos 1) (pos 2) := by
    unfold ellOf
    rw [eo]
  rw [← el, ← eo] at hpos hroot
  have ecoor : (![pos 0, pos 1 * Real.sin (pos 2), Real.pi * 0.5, pos 3] : Vec) = pos := by
    rw [hs]
    funext i
    fin_cases i
    · rfl
    · simp
    · show Real.pi * 0.5 = pos 2
      rw [hθ]
      norm_num
      ring
    · rfl
  have ev : circularVelocity m pos dir = finishVel (gmunu m pos) (omega m (pos 1) (pos 2) (ellOf m (pos 1) (pos 2))) := by
    unfold circularVelocity
    dsimp only
    rw [ecoor, hs, mul_one]
  rw [ev]
  generalize omega m (pos 1) (pos 2) (ellOf m (pos 1) (pos 2)) = w at *
  obtain ⟨k1, k2, -⟩ := finish_ok (hslow w hpos (by rw [ett, etp, epp]; exact hroot))
  refine ⟨k1, ⟨christoffel m pos, (connection_iff h hr).2 ha, ?_⟩, ?_⟩
  · intro α
    rw [rot_sum k1.r k1.theta, k2]
    have n1 : dthN2 m (pos 1) (pos 2) = 0 := by unfold dthN2; rw [hc]; ring
    have n2 : dthSigma m (pos 1) (pos 2) = 0 := by unfold dthSigma; rw [hc]; ring
    have n3 : dthW m (pos 1) (pos 2) = 0 := by unfold dthW w20; rw [n2, hc]; ring
    have n4 : dthK2 m (pos 1) (pos 2) = 0 := by unfold dthK2 k20; rw [n2, n3, hc]; ring
    have hS := (Sigma_pos h (r := pos 1) (th := pos 2)).ne'
    have hB := hr.B
    have hN := hr.N
    have hK := hr.K
    generalize finishVel (gmunu m pos) w 0 = t at *
    have key : ∀ g00 g03 g33 : ℝ, g00 + 2 * w * g03 + w ^ 2 * g33 = 0 →
        g00 * (t * t) + (g03 + g03) * (t * (w * t)) + g33 * (w * t * (w * t)) = 0 := by
      intro g00 g03 g33 hg
      linear_combination t ^ 2 * hg
    match α with
    | 0 => exact key 0 0 0 (by ring)
    | 1 =>
      refine key (((N2 m (pos 1) (pos 2) * W m (pos 1) (pos 2) ^ 2 * drK2 m (pos 1) (pos 2) - 2 * K2 m (pos 1) (pos 2) * N2 m (pos 1) (pos 2) * W m (pos 1) (pos 2) * drW m (pos 1) (pos 2)) * Real.sin (pos 2) ^ 2 - N2 m (pos 1) (pos 2) ^ 2 * drK2 m (pos 1) (pos 2) + K2 m (pos 1) (pos 2) * N2 m (pos 1) (pos 2) * drN2 m (pos 1) (pos 2)) / (2 * B m (pos 1) (pos 2) ^ 2 * K2 m (pos 1) (pos 2) ^ 2 * Sigma m (pos 1) (pos 2)))
        ((pos 1 * N2 m (pos 1) (pos 2) * drW m (pos 1) (pos 2) + N2 m (pos 1) (pos 2) * W m (pos 1) (pos 2)) * Real.sin (pos 2) ^ 2 / (2 * B m (pos 1) (pos 2) ^ 2 * Sigma m (pos 1) (pos 2)))
        (-(pos 1 ^ 2 * N2 m (pos 1) (pos 2) * drK2 m (pos 1) (pos 2) + 2 * pos 1 * K2 m (pos 1) (pos 2) * N2 m (pos 1) (pos 2)) * Real.sin (pos 2) ^ 2 / (2 * B m (pos 1) (pos 2) ^ 2 * Sigma m (pos 1) (pos 2))) ?_
      rw [hs]
      generalize N2 m (pos 1) (pos 2) = N at *
      generalize drN2 m (pos 1) (pos 2) = Nr at *
      generalize K2 m (pos 1) (pos 2) = K at *
      generalize drK2 m (pos 1) (pos 2) = Kr at *
      generalize W m (pos 1) (pos 2) = W at *
      generalize drW m (pos 1) (pos 2) = Wr at *
      generalize B m (pos 1) (pos 2) = B at *
      generalize Sigma m (pos 1) (pos 2) = S at *
      have e : ∀ X Y : ℝ, X = -(N / (2 * B ^ 2 * S)) * Y → Y = 0 → X = 0 := fun X Y h1 h2 => by rw [h1, h2, mul_zero]
      refine e _ _ ?_ hroot
      field_simp
      ring
    | 2 =>
      refine key (-(2 * K2 m (pos 1) (pos 2) * W m (pos 1) (pos 2) ^ 2 * Real.cos (pos 2) * Real.sin (pos 2) - (W m (pos 1) (pos 2) ^ 2 * dthK2 m (pos 1) (pos 2) - 2 * K2 m (pos 1) (pos 2) * W m (pos 1) (pos 2) * dthW m (pos 1) (pos 2)) * Real.sin (pos 2) ^ 2 + N2 m (pos 1) (pos 2) * dthK2 m (pos 1) (pos 2) - K2 m (pos 1) (pos 2) * dthN2 m (pos 1) (pos 2)) / (2 * pos 1 ^ 2 * K2 m (pos 1) (pos 2) ^ 2 * Sigma m (pos 1) (pos 2)))
        ((2 * W m (pos 1) (pos 2) * Real.cos (pos 2) * Real.sin (pos 2) + Real.sin (pos 2) ^ 2 * dthW m (pos 1) (pos 2)) / (2 * pos 1 * Sigma m (pos 1) (pos 2)))
        (-(2 * K2 m (pos 1) (pos 2) * Real.cos (pos 2) * Real.sin (pos 2) + Real.sin (pos 2) ^ 2 * dthK2 m (pos 1) (pos 2)) / (2 * Sigma m (pos 1) (pos 2))) ?_
      rw [hc, n1, n3, n4]
      ring
    | 3 => exact key 0 0 0 (by ring)
  · rw [k2]
    exact mul_pos hpos k1.future

/-- C99. The orbit asked for against the rotation (`dir = -1`) turns with it. -/
theorem retrograde_wrong (h : Reached m) (ha : m.da 2 = 0) (hr : Regular m pos) (hθ : pos 2 = Real.pi / 2) {D : Fin 4 → Tensor}
    (hD : IsPartial (gmunu m) pos D) (h1 : D 1 0 0 < 0) (h2 : 0 < D 1 3 3)
    (hu : ∀ d, HasDerivAt (fun x => gmunuUp m (Function.update pos 1 x) 3 3) d (pos 1) → d ≠ 0)
    (hslow : ∀ w, 0 < w → D 1 0 0 + 2 * w * D 1 0 3 + w ^ 2 * D 1 3 3 = 0 → sp (gmunu m pos) ![1, 0, 0, w] ![1, 0, 0, w] < 0) :
    ¬ 0 < -1 * circularVelocity m pos (-1) 3 := by
  have := (circular_partial h ha hr hθ hD h1 h2 hu hslow (-1)).2.2
  linarith

/-! ### A black hole without rotation -/

theorem r0_new : r0 new = 2 := by
  unfold r0 new
  norm_num

theorem k_new : k21 new = 0 ∧ k22 new = 0 ∧ k23 new = 0 := by
  unfold k21 k22 k23 new
  norm_num

theorem frac_new (r : ℝ) : frac new r = 0 := by
  unfold frac
  rw [k_new.1, zero_div]

theorem N2_new (r th : ℝ) : N2 new r th = 1 - 2 / r := by
  unfold N2 epsilon0 a00 k00 a01 a20 a21 k20 epsilon2
  rw [frac_new, r0_new]
  simp [new]

theorem drN2_new (r th : ℝ) : drN2 new r th = 2 / r ^ 2 := by
  unfold drN2 epsilon0 a00 k00 a01 a20 a21 k20 epsilon2
  rw [frac_new, r0_new, k_new.1]
  simp [new]

theorem W_new (r th : ℝ) : W new r th = 0 ∧ drW new r th = 0 := by
  unfold W drW Wnum w00 w01 w20 w21
  simp [new]

theorem K2_new (r th : ℝ) : K2 new r th = 1 ∧ drK2 new r th = 0 := by
  unfold K2 drK2 Knum k00 k20
  rw [(W_new r th).1, (W_new r th).2, frac_new, k_new.1]
  simp [new]

theorem Sigma_new (r th : ℝ) : Sigma new r th = 1 := by
  unfold Sigma
  simp [new]

theorem B_new (r th : ℝ) : B new r th = 1 := by
  unfold B b00 b01 b20 b21
  simp [new]

theorem gmunu_new (pos : Vec) : gmunu new pos = circ (-(1 - 2 / pos 1)) (1 / (1 - 2 / pos 1)) (pos 1 * pos 1)
    (pos 1 * pos 1 * (Real.sin (pos 2) * Real.sin (pos 2))) 0 := by
  unfold gmunu
  dsimp only
  rw [N2_new, (W_new _ _).1, (K2_new _ _).1, Sigma_new, B_new]
  simp

theorem regular_new {pos : Vec} (hr : 2 < pos 1) (hs : Real.sin (pos 2) ≠ 0) : Regular new pos := by
  have h0 : 0 < pos 1 := by linarith
  refine ⟨h0, ?_, hs, ?_, ?_, ?_⟩
  · rw [k_new.2.2]
    simp
  · rw [N2_new, sub_ne_zero]
    intro h
    rw [eq_div_iff h0.ne'] at h
    linarith
  · rw [B_new]; exact one_ne_zero
  · rw [(K2_new _ _).1]; exact one_ne_zero

theorem sp_circ (a b c d : ℝ) (u : Vec) (h1 : u 1 = 0) (h2 : u 2 = 0) :
    sp (circ a b c d 0) u u = a * u 0 ^ 2 + d * u 3 ^ 2 := by
  rw [← scalarProd_eq]
  unfold scalarProd
  simp only [Fin.sum_univ_four, h1, h2, circ00, circ03, circ30, circ33, circ01, circ02, circ10, circ20, circ11, circ22, circ12, circ21,
    circ13, circ31, circ23, circ32]
  ring

/-- The theorems are about something: the orbit of radius 8 around a black hole without rotation. -/
example (dir : ℝ) : IsRotating (gmunu new ![0, 8, Real.pi / 2, 0]) (circularVelocity new ![0, 8, Real.pi / 2, 0] dir) ∧
    IsFree (gmunu new) ![0, 8, Real.pi / 2, 0] (circularVelocity new ![0, 8, Real.pi / 2, 0] dir) ∧
    0 < circularVelocity new ![0, 8, Real.pi / 2, 0] dir 3 := by
  have e1 : (![0, 8, Real.pi / 2, 0] : Vec) 1 = 8 := rfl
  have e2 : (![0, 8, Real.pi / 2, 0] : Vec) 2 = Real.pi / 2 := rfl
  have hr : Regular new ![0, 8, Real.pi / 2, 0] := regular_new (by rw [e1]; norm_num) (by rw [e2, Real.sin_pi_div_two]; norm_num)
  obtain ⟨D, hD, -⟩ := true_connection Reached.new hr
  obtain ⟨d1, d2, d3⟩ := down_derivs Reached.new rfl hr rfl
  have f1 := (hD 1 0 0).unique d1
  have f2 := (hD 1 0 3).unique d2
  have f3 := (hD 1 3 3).unique d3
  rw [e1, e2, drN2_new, (W_new _ _).1, (W_new _ _).2, (K2_new _ _).1, (K2_new _ _).2] at f1
  rw [e1, e2, (W_new _ _).1, (W_new _ _).2] at f2
  rw [e1, e2, (K2_new _ _).1, (K2_new _ _).2] at f3
  norm_num at f1 f2 f3
  refine circular_partial Reached.new rfl hr rfl hD (by rw [f1]; norm_num) (by rw [f3]; norm_num) ?_ ?_ dir
  · intro d hd
    rw [hd.unique (up_derivs Reached.new rfl hr).2.2]
    unfold drguppp
    rw [e1, e2, N2_new, drN2_new, (W_new _ _).1, (W_new _ _).2, (K2_new _ _).1, (K2_new _ _).2]
    norm_num
  · intro w _ hw
    rw [f1, f2, f3] at hw
    rw [gmunu_new, sp_circ _ _ _ _ _ rfl rfl, e1, e2, Real.sin_pi_div_two]
    show -(1 - 2 / 8) * 1 ^ 2 + 8 * 8 * (1 * 1) * w ^ 2 < 0
    linarith

/-- C99. Out of the equatorial plane the velocity returned is not a velocity: its norm is not -1 (here around a black hole without
rotation, at the radius 16 and the latitude of 60 degrees). -/
theorem off_plane_wrong : sp (gmunu new ![0, 16, Real.pi / 6, 0]) (circularVelocity new ![0, 16, Real.pi / 6, 0] 1)
    (circularVelocity new ![0, 16, Real.pi / 6, 0] 1) = -(3 / 2) := by
  have hs : Real.sin (Real.pi / 6) = 1 / 2 := Real.sin_pi_div_six
  have u1 : drguptt new 8 (Real.pi / 6) = 1 / 18 := by
    unfold drguptt
    rw [N2_new, drN2_new, (K2_new _ _).1, (K2_new _ _).2]
    norm_num
  have u2 : drguptp new 8 (Real.pi / 6) = 0 := by
    unfold drguptp
    rw [N2_new, drN2_new, (W_new _ _).1, (W_new _ _).2]
    norm_num
  have u3 : drguppp new 8 (Real.pi / 6) = -1 / 64 := by
    unfold drguppp
    rw [N2_new, drN2_new, (W_new _ _).1, (W_new _ _).2, (K2_new _ _).1, (K2_new _ _).2, hs]
    norm_num
  have q0 : 0 < √(1 / 1152 : ℝ) := Real.sqrt_pos.2 (by norm_num)
  have q2 : √(1 / 1152 : ℝ) ^ 2 = 1 / 1152 := Real.sq_sqrt (by norm_num)
  have l1 : ell1 new 8 (Real.pi / 6) = -64 * √(1 / 1152) := by
    unfold ell1
    rw [u1, u2, u3, show (0 * 0 - 1 / 18 * (-1 / 64) : ℝ) = 1 / 1152 by norm_num]
    ring
  have l2 : ell2 new 8 (Real.pi / 6) = 64 * √(1 / 1152) := by
    unfold ell2
    rw [u1, u2, u3, show (0 * 0 - 1 / 18 * (-1 / 64) : ℝ) = 1 / 1152 by norm_num]
    ring
  have ho : ∀ l, omega new 8 (Real.pi / 6) l = 3 / 64 * l := by
    intro l
    unfold omega omegaOf
    dsimp only
    rw [N2_new, (W_new _ _).1, (K2_new _ _).1, hs]
    norm_num
    ring
  have hl : ellOf new 8 (Real.pi / 6) = 64 * √(1 / 1152) := by
    unfold ellOf
    rw [ho, l1, l2, if_neg]
    linarith
  have ev : circularVelocity new ![0, 16, Real.pi / 6, 0] 1 =
      finishVel (gmunu new ![0, 8, Real.pi * 0.5, 0]) (3 * √(1 / 1152)) := by
    have e1 : (![0, 16, Real.pi / 6, 0] : Vec) 1 = 16 := rfl
    have e2 : (![0, 16, Real.pi / 6, 0] : Vec) 2 = Real.pi / 6 := rfl
    unfold circularVelocity
    dsimp only
    rw [e1, e2, hs, show (16 * (1 / 2) : ℝ) = 8 by norm_num, hl, ho,
      show (3 / 64 * (64 * √(1 / 1152)) : ℝ) = 3 * √(1 / 1152) by ring]
    rfl
  rw [ev]
  generalize √(1 / 1152 : ℝ) = q at *
  have hn : sp (gmunu new ![0, 8, Real.pi * 0.5, 0]) ![1, 0, 0, 3 * q] ![1, 0, 0, 3 * q] = -(1 / 4) := by
    rw [gmunu_new, sp_circ _ _ _ _ _ rfl rfl]
    show -(1 - 2 / 8) * 1 ^ 2 + 8 * 8 * (Real.sin (Real.pi * 0.5) * Real.sin (Real.pi * 0.5)) * (3 * q) ^ 2 = _
    rw [show Real.pi * 0.5 = Real.pi / 2 by ring, Real.sin_pi_div_two]
    linear_combination 576 * q2
  obtain ⟨k1, k2, k3⟩ := finish_ok (g := gmunu new ![0, 8, Real.pi * 0.5, 0]) (w := 3 * q) (by rw [hn]; norm_num)
  rw [hn, show -(-(1 / 4) : ℝ) = (1 / 2) ^ 2 by norm_num, Real.sqrt_sq (by norm_num)] at k3
  rw [gmunu_new, sp_circ _ _ _ _ _ k1.r k1.theta, k2, k3]
  show -(1 - 2 / 16) * ((1 / 2 : ℝ)⁻¹) ^ 2 + 16 * 16 * (Real.sin (Real.pi / 6) * Real.sin (Real.pi / 6)) * (3 * q * (1 / 2 : ℝ)⁻¹) ^ 2 = _
  rw [hs]
  linear_combination 2304 * q2

/-! ### Setting the parameters -/

theorem getD_lt {v : List ℝ} {n : ℕ} (h : n < v.length) : v.getD n 0 = v[n] := by
  rw [List.getD_eq_getElem?_getD, List.getElem?_eq_getElem h]
  rfl

theorem getD_ge {v : List ℝ} {n : ℕ} (h : v.length ≤ n) : v.getD n 0 = 0 := by
  rw [List.getD_eq_getElem?_getD, List.getElem?_eq_none h]
  rfl

theorem refused_dh (m : Metric) (f : Fin 6 → ℝ) (i : Fin 6) (v : ℝ) : refused { m with dh := f } i v = refused m i v := rfl

theorem storeLoop_ok (vs : List ℝ) : ∀ (i : ℕ) (m : Metric), (storeLoop i vs m).2 = false →
    (∀ j : Fin 6, (storeLoop i vs m).1.dh j = if h : i ≤ j.val ∧ j.val - i < vs.length then vs[j.val - i]'h.2 else m.dh j) ∧
    ∀ (k : ℕ) (hk : k < vs.length), ∃ h6 : i + k < 6, refused m ⟨i + k, h6⟩ vs[k] = false := by
  induction vs with
  | nil =>
    intro i m _
    refine ⟨fun j => ?_, fun k hk => absurd hk (by simp)⟩
    rw [dif_neg (by simp)]
    rfl
  | cons v vs ih =>
    intro i m h
    unfold storeLoop at h ⊢
    by_cases h6 : i < 6
    · rw [dif_pos h6] at h ⊢
      dsimp only at h ⊢
      rw [refused_dh] at h ⊢
      cases hb : refused m ⟨i, h6⟩ v
      · rw [hb] at h
        simp only [Bool.false_eq_true, if_false] at h ⊢
        obtain ⟨h1, h2⟩ := ih (i + 1) _ h
        refine ⟨?_, ?_⟩
        · intro j
          rw [h1 j]
          by_cases hj : i + 1 ≤ j.val ∧ j.val - (i + 1) < vs.length
          · rw [dif_pos hj, dif_pos ⟨by omega, by simp only [List.length_cons]; omega⟩]
            have e : j.val - i = j.val - (i + 1) + 1 := by omega
            simp only [e, List.getElem_cons_succ]
          · rw [dif_neg hj]
            by_cases hi : j.val = i
            · have hij : j = ⟨i, h6⟩ := Fin.ext hi
              rw [dif_pos ⟨by omega, by simp only [List.length_cons]; omega⟩]
              subst hij
              simp
            · have hu : Function.update m.dh ⟨i, h6⟩ v j = m.dh j := Function.update_of_ne (fun hc => hi (by rw [hc])) _ _
              show Function.update m.dh ⟨i, h6⟩ v j = _
              rw [hu, dif_neg]
              rintro ⟨ha, hb'⟩
              simp only [List.length_cons] at hb'
              apply hj
              omega
        · intro k hk
          rcases k with _ | k
          · exact ⟨h6, hb⟩
          · obtain ⟨h7, h8⟩ := h2 k (by simpa using hk)
            refine ⟨by omega, ?_⟩
            have e : (⟨i + (k + 1), by omega⟩ : Fin 6) = ⟨i + 1 + k, h7⟩ := Fin.ext (by simp; omega)
            rw [e]
            exact h8
      · rw [hb] at h
        simp at h
    · rw [dif_neg h6] at h
      simp at h

/-- The tests are those of the ranges, for an object whose third power of the spin is right. -/
theorem refused_range (h2 : m.spin2 = m.spin * m.spin) (h3 : m.spin3 = m.spin * m.spin * m.spin) (h0 : m.spin ≠ 0) (i : Fin 6) (v : ℝ) :
    refused m i v = false ↔ KRZRange m.spin i v := by
  have e3 : m.spin3 = m.spin ^ 3 := by rw [h3]; ring
  have e2 : m.spin2 = m.spin ^ 2 := by rw [h2]; ring
  unfold refused KRZRange r0
  rw [e2, e3]
  fin_cases i
  · simp [sq]
  · rcases lt_or_gt_of_ne h0 with h | h
    · simp [h, not_lt.2 h.le]
    · simp [h, not_lt.2 h.le]
  · rcases lt_or_gt_of_ne h0 with h | h
    · simp [h, not_lt.2 h.le]
    · simp [h, not_lt.2 h.le]
  · simp
  · simp
  · simp [sq]

/-- C99. What `deltashorizon` does when it throws nothing: the values are stored, missing ones are zero, the rest of the object is as
before, at most one value is not zero and each is in its range. -/
theorem set_ok_partial {m m' : Metric} {v : List ℝ} (h2 : m.spin2 = m.spin * m.spin) (h3 : m.spin3 = m.spin * m.spin * m.spin)
    (h : setHorizon m v = (m', false)) :
    m.spin ≠ 0 ∧ v.length ≤ 6 ∧ (∀ i : Fin 6, m'.dh i = v.getD i 0) ∧ getHorizon m' = v ++ List.replicate (6 - v.length) 0 ∧
    m' = { m with dh := m'.dh } ∧
    (∀ (i j : ℕ) (hi : i < v.length) (hj : j < v.length), v[i] ≠ 0 → v[j] ≠ 0 → i = j) ∧
    ∀ (i : ℕ) (hi : i < v.length), KRZRange m.spin i v[i] := by
  classical
  unfold setHorizon at h
  by_cases c0 : m.spin = 0
  · rw [if_pos c0] at h
    simp at h
  rw [if_neg c0] at h
  by_cases c1 : v.length > 6
  · rw [if_pos c1] at h
    simp at h
  rw [if_neg c1] at h
  by_cases c2 : v.countP (fun x => decide (x ≠ 0)) ≠ 0 ∧ v.countP (fun x => decide (x ≠ 0)) ≠ 1
  · rw [if_pos c2] at h
    simp at h
  rw [if_neg c2] at h
  have h : (if (storeLoop 0 v m).2 = true then ((storeLoop 0 v m).1, true) else
    ({ (storeLoop 0 v m).1 with dh := fun i => if i.val < v.length then (storeLoop 0 v m).1.dh i else 0 }, false)) = (m', false) := h
  by_cases c3 : (storeLoop 0 v m).2 = true
  · rw [if_pos c3] at h
    simp at h
  rw [if_neg c3] at h
  obtain ⟨h4, h5⟩ := storeLoop_ok v 0 m (by simpa using c3)
  have hl : v.length ≤ 6 := not_lt.1 c1
  have hm := (Prod.mk.inj h).1
  have hdh : ∀ i : Fin 6, m'.dh i = v.getD i 0 := by
    intro i
    rw [← hm]
    show (if i.val < v.length then (storeLoop 0 v m).1.dh i else 0) = _
    by_cases hi : i.val < v.length
    · rw [if_pos hi, h4 i, dif_pos ⟨Nat.zero_le _, by simpa using hi⟩, getD_lt hi]
      simp
    · rw [if_neg hi, getD_ge (not_lt.1 hi)]
  refine ⟨c0, hl, hdh, ?_, ?_, ?_, ?_⟩
  · apply List.ext_getElem
    · simp [getHorizon, hl]
    · intro n hn1 hn2
      simp only [getHorizon, List.getElem_ofFn, hdh]
      by_cases hi : n < v.length
      · rw [getD_lt hi, List.getElem_append_left hi]
      · rw [getD_ge (not_lt.1 hi), List.getElem_append_right (not_lt.1 hi), List.getElem_replicate]
  · obtain ⟨s1, s2, s3, s4, s5⟩ := storeLoop_spin 0 v m
    rw [← hm]
    simp only [s1, s2, s3, s4, s5]
  · have hcount : v.countP (fun x => decide (x ≠ 0)) ≤ 1 := by
      by_contra hc
      exact c2 ⟨by omega, by omega⟩
    intro i j hi hj hvi hvj
    by_contra hne
    have key : ∀ (l : List ℝ) (i j : ℕ) (hi : i < l.length) (hj : j < l.length), i < j → l[i] ≠ 0 → l[j] ≠ 0 →
        2 ≤ l.countP (fun x => decide (x ≠ 0)) := by
      intro l
      induction l with
      | nil => intro i j hi; simp at hi
      | cons x l ih =>
        intro i j hi hj hij h1 h2
        rcases j with _ | j
        · omega
        · have hj' : j < l.length := by simpa using hj
          have hc1 : 1 ≤ l.countP (fun x => decide (x ≠ 0)) :=
            List.countP_pos_iff.2 ⟨l[j], List.getElem_mem hj', by simpa using h2⟩
          rcases i with _ | i
          · have hx : x ≠ 0 := h1
            rw [List.countP_cons_of_pos (by simpa using hx)]
            omega
          · have := ih i j (by simpa using hi) hj' (by omega) (by simpa using h1) (by simpa using h2)
            rw [List.countP_cons]
            omega
    rcases lt_or_gt_of_ne hne with hlt | hlt
    · have := key v i j hi hj hlt hvi hvj
      omega
    · have := key v j i hj hi hlt hvj hvi
      omega
  · intro i hi
    obtain ⟨h6, h7⟩ := h5 i hi
    have := (refused_range h2 h3 c0 ⟨0 + i, h6⟩ v[i]).1 h7
    simpa using this

/-- C99. A value out of range is refused but it stays. -/
theorem refused_kept_wrong (h0 : m.spin ≠ 0) {x : ℝ} (h2 : m.spin2 = m.spin * m.spin) (h3 : m.spin3 = m.spin * m.spin * m.spin)
    (hx : ¬ KRZRange m.spin 0 x) : (setHorizon m [x]).2 = true ∧ (setHorizon m [x]).1.dh 0 = x := by
  classical
  have hb : refused m 0 x = true := by
    cases hc : refused m 0 x
    · exact absurd ((refused_range h2 h3 h0 0 x).1 hc) hx
    · rfl
  have hs : storeLoop 0 [x] m = ({ m with dh := Function.update m.dh 0 x }, true) := by
    unfold storeLoop
    rw [dif_pos (by norm_num)]
    dsimp only
    rw [refused_dh]
    show (if refused m 0 x = true then _ else _) = _
    rw [if_pos hb]
    rfl
  have e : setHorizon m [x] = ({ m with dh := Function.update m.dh 0 x }, true) := by
    unfold setHorizon
    rw [if_neg h0, if_neg (by simp), if_neg, hs]
    · rfl
    · rintro ⟨h1, h2⟩
      have : ([x] : List ℝ).countP (fun x => decide (x ≠ 0)) ≤ 1 := List.countP_le_length
      omega
  have hu : Function.update m.dh 0 x 0 = x := Function.update_self _ _ _
  rw [e]
  exact ⟨rfl, hu⟩

example : (setHorizon (setSpin new (1 / 2)) [-100]).2 = true ∧ (setHorizon (setSpin new (1 / 2)) [-100]).1.dh 0 = -100 := by
  refine refused_kept_wrong (by simp [setSpin]) rfl rfl ?_
  intro h
  have h1 := h.1 rfl
  have hs : (setSpin new (1 / 2)).spin = 1 / 2 := rfl
  rw [hs] at h1
  have h2 := Real.sqrt_nonneg (1 - (1 / 2 : ℝ) ^ 2)
  generalize √(1 - (1 / 2 : ℝ) ^ 2) = q at *
  rw [div_le_iff₀ (by positivity)] at h1
  nlinarith

/-- Two zeros are accepted by an object whose third power of the spin is right, but not by one that has another in its place. -/
theorem zeros (h0 : m.spin < 0) (h1 : -1 ≤ m.spin) (h2 : m.spin2 = m.spin * m.spin) :
    (setHorizon m [0, 0]).2 = decide (0 < m.spin3) := by
  classical
  have hq : √(1 - m.spin2) < 1 := by
    rw [Real.sqrt_lt' one_pos, h2]
    nlinarith [mul_pos_of_neg_of_neg h0 h0]
  have hq0 := Real.sqrt_nonneg (1 - m.spin2)
  have hqq : √(1 - m.spin2) ^ 2 = 1 - m.spin2 := Real.sq_sqrt (by rw [h2]; nlinarith)
  have b0 : refused m 0 0 = false := by
    unfold refused r0
    simp only [decide_eq_false_iff_not, not_lt]
    generalize √(1 - m.spin2) = q at *
    apply div_nonpos_of_nonpos_of_nonneg _ (by positivity)
    nlinarith
  have b1 : refused m 1 0 = decide (0 < m.spin3) := by
    unfold refused
    simp only [not_lt.2 h0.le, h0, gt_iff_lt, if_true, if_false]
    rw [decide_eq_decide]
    generalize √(1 - m.spin2) = q at *
    have hp : 0 < 1 - q := by linarith
    constructor
    · intro h
      by_contra hc
      have : 0 ≤ -4 / m.spin3 := div_nonneg_of_nonpos (by norm_num) (not_lt.1 hc)
      nlinarith
    · intro h
      have : -4 / m.spin3 < 0 := div_neg_of_neg_of_pos (by norm_num) h
      exact mul_neg_of_neg_of_pos this hp
  have hs : (storeLoop 0 [0, 0] m).2 = decide (0 < m.spin3) := by
    have e : storeLoop 0 [0, 0] m = (if refused m 1 0 = true then
        ({ m with dh := Function.update (Function.update m.dh 0 0) 1 0 }, true) else
        ({ m with dh := Function.update (Function.update m.dh 0 0) 1 0 }, false)) := by
      unfold storeLoop
      rw [dif_pos (by norm_num)]
      dsimp only
      rw [refused_dh]
      show (if refused m 0 0 = true then _ else _) = _
      rw [b0, if_neg (by simp)]
      unfold storeLoop
      rw [dif_pos (by norm_num)]
      rfl
    rw [e, b1]
    by_cases h : 0 < m.spin3
    · simp [h]
    · simp [h]
  unfold setHorizon
  rw [if_neg h0.ne, if_neg (by simp), if_neg (by simp)]
  show (if (storeLoop 0 [0, 0] m).2 = true then ((storeLoop 0 [0, 0] m).1, true) else
    ({ (storeLoop 0 [0, 0] m).1 with dh := fun i => if i.val < 2 then (storeLoop 0 [0, 0] m).1.dh i else 0 }, false)).2 = _
  rw [← hs]
  cases (storeLoop 0 [0, 0] m).2 <;> rfl

/-- C99. A clone is not the same object: when the spin is negative the original accepts that the two first parameters be set to zero, its
clone refuses. -/
theorem clone_wrong {a : ℝ} (h0 : a < 0) (h1 : -1 ≤ a) :
    (setHorizon (setSpin new a) [0, 0]).2 = false ∧ (setHorizon (copy (setSpin new a)) [0, 0]).2 = true := by
  rw [zeros (m := setSpin new a) h0 h1 rfl, zeros (m := copy (setSpin new a)) h0 h1 rfl]
  have h2 : a * a * a < 0 := mul_neg_of_pos_of_neg (mul_pos_of_neg_of_neg h0 h0) h0
  have h3 : 0 < a * a * (a * a) := mul_pos (mul_pos_of_neg_of_neg h0 h0) (mul_pos_of_neg_of_neg h0 h0)
  refine ⟨?_, ?_⟩
  · rw [decide_eq_false_iff_not]
    exact not_lt.2 h2.le
  · rw [decide_eq_true_iff]
    exact h3

/-- C99. A range is checked when the parameter is set and not when the spin is: the sixth parameter may be left out of its range. -/
theorem spin_after_wrong : ∃ v, (setHorizon (setSpin new (3 / 5)) v).2 = false ∧
    ¬ KRZRange (4 / 5) 5 ((setSpin (setHorizon (setSpin new (3 / 5)) v).1 (4 / 5)).dh 5) := by
  classical
  have hq : √(1 - (3 / 5 : ℝ) * (3 / 5)) = 4 / 5 := by
    rw [show (1 - (3 / 5 : ℝ) * (3 / 5)) = (4 / 5) ^ 2 by norm_num, Real.sqrt_sq (by norm_num)]
  have hr : ∀ m : Metric, m.spin2 = 3 / 5 * (3 / 5) → r0 m = 9 / 5 := by
    intro m hm
    unfold r0
    rw [hm, hq]
    norm_num
  have hl : storeLoop 0 [0, 0, 0, 0, 0, 4 / 5] (setSpin new (3 / 5)) =
      ({ setSpin new (3 / 5) with dh := ![0, 0, 0, 0, 0, 4 / 5] }, false) := by
    have step : ∀ (i : ℕ) (h6 : i < 6) (v : ℝ) (vs : List ℝ) (f : Fin 6 → ℝ), refused (setSpin new (3 / 5)) ⟨i, h6⟩ v = false →
        storeLoop i (v :: vs) { setSpin new (3 / 5) with dh := f } =
          storeLoop (i + 1) vs { setSpin new (3 / 5) with dh := Function.update f ⟨i, h6⟩ v } := by
      intro i h6 v vs f hb
      rw [storeLoop, dif_pos h6]
      dsimp only
      rw [refused_dh, hb]
      simp
    have b : ∀ (i : Fin 6) (v : ℝ), v = 0 ∨ (i = 5 ∧ v = 4 / 5) → refused (setSpin new (3 / 5)) i v = false := by
      intro i v hv
      unfold refused
      rw [hr _ rfl]
      have es : (setSpin new (3 / 5)).spin = 3 / 5 := rfl
      have e2 : (setSpin new (3 / 5)).spin2 = 3 / 5 * (3 / 5) := rfl
      have e3 : (setSpin new (3 / 5)).spin3 = 3 / 5 * (3 / 5) * (3 / 5) := rfl
      rw [es, e2, e3, hq]
      rcases hv with rfl | ⟨rfl, rfl⟩
      · fin_cases i <;> norm_num
      · norm_num
    have e0 : (setSpin new (3 / 5)) = { setSpin new (3 / 5) with dh := fun _ => 0 } := rfl
    rw [e0, step 0 (by norm_num) _ _ _ (b _ _ (Or.inl rfl)), step 1 (by norm_num) _ _ _ (b _ _ (Or.inl rfl)),
      step 2 (by norm_num) _ _ _ (b _ _ (Or.inl rfl)), step 3 (by norm_num) _ _ _ (b _ _ (Or.inl rfl)),
      step 4 (by norm_num) _ _ _ (b _ _ (Or.inl rfl)), step 5 (by norm_num) _ _ _ (b _ _ (Or.inr ⟨rfl, rfl⟩))]
    have ed : Function.update (Function.update (Function.update (Function.update (Function.update (Function.update
        (fun _ : Fin 6 => (0 : ℝ)) ⟨0, by norm_num⟩ 0) ⟨1, by norm_num⟩ 0) ⟨2, by norm_num⟩ 0) ⟨3, by norm_num⟩ 0) ⟨4, by norm_num⟩ 0)
        ⟨5, by norm_num⟩ (4 / 5) = ![0, 0, 0, 0, 0, 4 / 5] := by
      funext i
      fin_cases i <;> rfl
    rw [ed]
    rfl
  have hset : setHorizon (setSpin new (3 / 5)) [0, 0, 0, 0, 0, 4 / 5] =
      ({ setSpin new (3 / 5) with dh := fun i => if i.val < 6 then (![0, 0, 0, 0, 0, 4 / 5] : Fin 6 → ℝ) i else 0 }, false) := by
    unfold setHorizon
    rw [if_neg (by simp [setSpin]), if_neg (by simp), if_neg (by simp), hl]
    rfl
  refine ⟨[0, 0, 0, 0, 0, 4 / 5], by rw [hset], ?_⟩
  rw [hset]
  intro h
  have h5 := h.2.2.2 rfl
  have hv : (setSpin ({ setSpin new (3 / 5) with dh := fun i => if i.val < 6 then (![0, 0, 0, 0, 0, 4 / 5] : Fin 6 → ℝ) i else 0 }, false).1
    (4 / 5)).dh 5 = 4 / 5 := rfl
  rw [hv, show (1 - (4 / 5 : ℝ) ^ 2) = (3 / 5) ^ 2 by norm_num, Real.sqrt_sq (by norm_num)] at h5
  norm_num at h5

/-- C99. The connection of a metric with a third asymptotic parameter is not the one returned. -/
theorem connection_wrong : ∃ m pos, Reached m ∧ Regular m pos ∧ ¬ IsChristoffel (gmunu m) pos (christoffel m pos) := by
  classical
  have e : (setAsymptotics new [0, 0, 1]).1 = { new with da := ![0, 0, 1, 0] } := by
    unfold setAsymptotics
    rw [if_neg (by simp), if_neg (by simp)]
    have hf : (fun i : Fin 4 => ([0, 0, 1] : List ℝ).getD i 0) = ![0, 0, 1, 0] := by
      funext i
      fin_cases i <;> rfl
    show ({ new with da := fun i : Fin 4 => ([0, 0, 1] : List ℝ).getD i 0 } : Metric) = _
    rw [hf]
  have h : Reached { new with da := ![0, 0, 1, 0] } := e ▸ Reached.asymptotics Reached.new [0, 0, 1]
  have hr0 : r0 { new with da := ![0, 0, 1, 0] } = 2 := r0_new
  have hF : ∀ r, frac { new with da := ![0, 0, 1, 0] } r = 0 := frac_new
  have hreg : Regular { new with da := ![0, 0, 1, 0] } ![0, 4, Real.pi / 2, 0] := by
    refine ⟨?_, ?_, ?_, ?_, ?_, ?_⟩
    · show (0 : ℝ) < 4
      norm_num
    · rw [show k23 { new with da := ![0, 0, 1, 0] } = 0 from k_new.2.2]
      simp
    · show Real.sin (Real.pi / 2) ≠ 0
      rw [Real.sin_pi_div_two]
      norm_num
    · show N2 _ 4 (Real.pi / 2) ≠ 0
      unfold N2 epsilon0 a00 k00 a01 a20 a21 k20 epsilon2
      rw [hF, hr0]
      simp [new]
      norm_num
    · show B _ 4 (Real.pi / 2) ≠ 0
      unfold B b00 b01 b20 b21
      simp [new]
    · show K2 _ 4 (Real.pi / 2) ≠ 0
      rw [show K2 { new with da := ![0, 0, 1, 0] } 4 (Real.pi / 2) = 1 from (K2_new _ _).1]
      norm_num
  refine ⟨_, _, h, hreg, ?_⟩
  rw [connection_iff h hreg]
  show (1 : ℝ) ≠ 0
  norm_num

/-- Kerr is reached: a spin of one half, at the radius 4. -/
example : gmunu (setSpin new (1 / 2)) ![0, 4, 1, 0] = KerrBL.gmunu (1 / 2) ![0, 4, 1, 0] := by
  refine kerr_limit (m := setSpin new (1 / 2)) (Reached.spin Reached.new _) ?_ (fun _ => rfl) (fun _ => rfl) ?_
  · show |(1 / 2 : ℝ)| ≤ 1
    rw [abs_of_pos (by norm_num)]
    norm_num
  · show r0 _ ≤ 4
    unfold r0
    have : √(1 - (setSpin new (1 / 2)).spin2) ≤ 1 := by
      rw [Real.sqrt_le_one]
      show 1 - (1 / 2 * (1 / 2) : ℝ) ≤ 1
      norm_num
    linarith

example : setHorizon (setSpin new (1 / 2)) [] = ({ setSpin new (1 / 2) with dh := fun _ => 0 }, false) := by
  unfold setHorizon
  rw [if_neg (by simp [setSpin]), if_neg (by simp), if_neg (by simp)]
  simp [storeLoop]

end Gyoto.KRZ
