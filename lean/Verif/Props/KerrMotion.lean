import Verif.Model.KerrMotion
import Verif.Spec.Hamilton
import Verif.Props.KerrBL
import Mathlib.Analysis.Calculus.MeanValue

/-!
# Motion in the Kerr metric
-/

namespace Gyoto.KerrBL

open Gyoto.MetricAlg Gyoto.Spacetime

/-- The Hamiltonian, written out. -/
theorem hamiltonian_eq (a : ℝ) (x p : Vec) : hamiltonian (gmunuUp a) x p =
    (gmunuUp a x 0 0 * (p 0 * p 0) + gmunuUp a x 1 1 * (p 1 * p 1) + gmunuUp a x 2 2 * (p 2 * p 2) +
      gmunuUp a x 3 3 * (p 3 * p 3) + gmunuUp a x 0 3 * (2 * (p 0 * p 3))) / 2 := by
  unfold hamiltonian
  rw [Fin.sum_univ_four]
  simp only [Fin.sum_univ_four]
  rw [show gmunuUp a x 0 1 = 0 from rfl, show gmunuUp a x 0 2 = 0 from rfl, show gmunuUp a x 1 0 = 0 from rfl,
    show gmunuUp a x 1 2 = 0 from rfl, show gmunuUp a x 1 3 = 0 from rfl, show gmunuUp a x 2 0 = 0 from rfl,
    show gmunuUp a x 2 1 = 0 from rfl, show gmunuUp a x 2 3 = 0 from rfl, show gmunuUp a x 3 1 = 0 from rfl,
    show gmunuUp a x 3 2 = 0 from rfl, show gmunuUp a x 3 0 = gmunuUp a x 0 3 from rfl]
  ring

/-- When `diff` stops the integration; otherwise it returns 0 or throws. -/
theorem diff_stop_iff {a rsink : ℝ} {cst : Cst} {x p : Vec} : diff a rsink cst x p = .stop ↔ 0 ≤ x 1 ∧ x 1 < rsink := by
  unfold diff
  dsimp only
  by_cases h1 : x 1 < 0
  · rw [if_pos h1]
    exact ⟨(fun h => by cases h), fun h => absurd h1 (not_lt.2 h.1)⟩
  rw [if_neg h1]
  by_cases h2 : x 1 < rsink
  · rw [if_pos h2]
    exact ⟨fun _ => ⟨not_lt.1 h1, h2⟩, fun _ => rfl⟩
  rw [if_neg h2]
  refine ⟨fun h => ?_, fun h => absurd h.2 h2⟩
  split_ifs at h

/-- When `diff` returns 0. -/
theorem diff_ok_iff {a rsink : ℝ} {cst : Cst} {x p : Vec} : (∃ dx dp, diff a rsink cst x p = .ok dx dp) ↔
    0 ≤ x 1 ∧ rsink ≤ x 1 ∧ Real.sin (x 2) ≠ 0 ∧ x 1 * x 1 + a * a * (Real.cos (x 2) * Real.cos (x 2)) ≠ 0 ∧
      x 1 * x 1 - 2 * x 1 + a * a ≠ 0 := by
  unfold diff
  dsimp only
  by_cases h1 : x 1 < 0
  · rw [if_pos h1]
    constructor
    · rintro ⟨dx, dp, h⟩; cases h
    · rintro ⟨h, -⟩; exact absurd h1 (not_lt.2 h)
  rw [if_neg h1]
  by_cases h2 : x 1 < rsink
  · rw [if_pos h2]
    constructor
    · rintro ⟨dx, dp, h⟩; cases h
    · rintro ⟨-, h, -⟩; exact absurd h2 (not_lt.2 h)
  rw [if_neg h2]
  by_cases h3 : Real.sin (x 2) = 0
  · rw [if_pos h3]
    constructor
    · rintro ⟨dx, dp, h⟩; cases h
    · rintro ⟨-, -, h, -⟩; exact absurd h3 h
  rw [if_neg h3]
  by_cases h4 : x 1 * x 1 + a * a * (Real.cos (x 2) * Real.cos (x 2)) = 0
  · rw [if_pos h4]
    constructor
    · rintro ⟨dx, dp, h⟩; cases h
    · rintro ⟨-, -, -, h, -⟩; exact absurd h4 h
  rw [if_neg h4]
  by_cases h5 : x 1 * x 1 - 2 * x 1 + a * a = 0
  · rw [if_pos (by rw [h5]; ring)]
    constructor
    · rintro ⟨dx, dp, h⟩; cases h
    · rintro ⟨-, -, -, -, h⟩; exact absurd h5 h
  rw [if_neg (by simp [h4, h5])]
  exact ⟨fun _ => ⟨not_lt.1 h1, not_lt.1 h2, h3, h4, h5⟩, fun _ => ⟨_, _, rfl⟩⟩

/-- The derivatives with respect to the momenta. -/
theorem hamilton_x {a rsink : ℝ} {cst : Cst} {x p dx dp : Vec} (h : diff a rsink cst x p = .ok dx dp) (hE : p 0 = -cst.E)
    (hL : p 3 = cst.L) (μ : Fin 4) : dx μ = ∑ ν, gmunuUp a x μ ν * p ν := by
  obtain ⟨h1, h2, h3, h4, h5⟩ := diff_ok_iff.1 ⟨_, _, h⟩
  have h6 : 2 * (x 1 * x 1 - 2 * x 1 + a * a) * (x 1 * x 1 + a * a * (Real.cos (x 2) * Real.cos (x 2))) ≠ 0 := by
    simp [h4, h5]
  unfold diff at h
  dsimp only at h
  rw [if_neg (not_lt.2 h1), if_neg (not_lt.2 h2), if_neg h3, if_neg h4, if_neg h6] at h
  injection h with e1 e2
  rw [← e1, Fin.sum_univ_four]
  have hsc := Real.sin_sq_add_cos_sq (x 2)
  clear e1 e2
  simp only [gmunuUp, circ]
  rw [show cst.E = -p 0 by rw [hE, neg_neg], ← hL]
  generalize x 1 = r at *
  generalize Real.sin (x 2) = s at *
  generalize Real.cos (x 2) = c at *
  generalize p 0 = p0 at *
  generalize p 1 = p1 at *
  generalize p 2 = p2 at *
  generalize p 3 = p3 at *
  clear h6
  obtain ⟨S, hS⟩ : ∃ S, S = r * r + a * a * (c * c) := ⟨_, rfl⟩
  obtain ⟨D, hD⟩ : ∃ D, D = r * r - 2 * r + a * a := ⟨_, rfl⟩
  rw [← hS] at h4
  rw [← hD] at h5
  simp only [← hS, ← hD]
  fin_cases μ <;> simp <;> field_simp <;> grind

/-- How the Hamiltonian varies along any curve, in terms of what `diff` returns. -/
theorem hamiltonian_curve {a rsink : ℝ} {cst : Cst} {X P : ℝ → Vec} {X' P' dx dp : Vec} {τ : ℝ}
    (h : diff a rsink cst (X τ) (P τ) = .ok dx dp) (hE : P τ 0 = -cst.E) (hL : P τ 3 = cst.L)
    (hX : ∀ μ, HasDerivAt (fun t => X t μ) (X' μ) τ) (hP : ∀ μ, HasDerivAt (fun t => P t μ) (P' μ) τ) :
    HasDerivAt (fun t => hamiltonian (gmunuUp a) (X t) (P t)) (∑ μ, (dx μ * P' μ - dp μ * X' μ)) τ := by
  obtain ⟨h1, h2, h3, h4, h5⟩ := diff_ok_iff.1 ⟨_, _, h⟩
  have h6 : 2 * (X τ 1 * X τ 1 - 2 * X τ 1 + a * a) * (X τ 1 * X τ 1 + a * a * (Real.cos (X τ 2) * Real.cos (X τ 2))) ≠ 0 := by
    simp [h4, h5]
  have hss : Real.sin (X τ 2) * Real.sin (X τ 2) ≠ 0 := mul_ne_zero h3 h3
  have hsc := Real.sin_sq_add_cos_sq (X τ 2)
  have hr := hX 1
  have hs := (hX 2).sin
  have hc := (hX 2).cos
  have hD := ((hr.mul hr).sub (hr.const_mul 2)).add_const (a * a)
  have hS := (hr.mul hr).add ((hc.mul hc).const_mul (a * a))
  have hra := (hr.mul hr).add_const (a * a)
  have hxi := (hra.mul hra).sub ((hD.const_mul (a * a)).mul (hs.mul hs))
  have k00 := hxi.neg.div (hD.mul hS) (mul_ne_zero h5 h4)
  have k11 := hD.div hS h4
  have k22 := (hasDerivAt_const τ (1 : ℝ)).div hS h4
  have k33 := (hD.sub ((hs.mul hs).const_mul (a * a))).div ((hS.mul hD).mul (hs.mul hs)) (mul_ne_zero (mul_ne_zero h4 h5) hss)
  have k03 := (hr.const_mul (-2 * a)).div (hS.mul hD) (mul_ne_zero h4 h5)
  have key := ((((k00.mul ((hP 0).mul (hP 0))).add (k11.mul ((hP 1).mul (hP 1)))).add (k22.mul ((hP 2).mul (hP 2)))).add
    (k33.mul ((hP 3).mul (hP 3)))).add (k03.mul (((hP 0).mul (hP 3)).const_mul 2)) |>.div_const 2
  have e : (fun t => hamiltonian (gmunuUp a) (X t) (P t)) = _ := funext fun t => hamiltonian_eq a (X t) (P t)
  rw [e]
  refine key.congr_deriv ?_
  clear key k00 k11 k22 k33 k03 hxi hra hS hD hs hc hr hX hP e
  unfold diff at h
  dsimp only at h
  rw [if_neg (not_lt.2 h1), if_neg (not_lt.2 h2), if_neg h3, if_neg h4, if_neg h6] at h
  injection h with e1 e2
  rw [← e1, ← e2, Fin.sum_univ_four]
  clear e1 e2 h6
  rw [show cst.E = -P τ 0 by rw [hE, neg_neg], ← hL]
  clear hE hL
  simp only [Pi.mul_apply, Pi.sub_apply, Pi.add_apply, Pi.neg_apply, Pi.div_apply, Matrix.cons_val]
  generalize X τ 1 = r at *
  generalize Real.sin (X τ 2) = s at *
  generalize Real.cos (X τ 2) = c at *
  generalize P τ 0 = p0 at *
  generalize P τ 1 = p1 at *
  generalize P τ 2 = p2 at *
  generalize P τ 3 = p3 at *
  generalize X' 0 = x0 at *
  generalize X' 1 = x1 at *
  generalize X' 2 = x2 at *
  generalize X' 3 = x3 at *
  generalize P' 0 = q0 at *
  generalize P' 1 = q1 at *
  generalize P' 2 = q2 at *
  generalize P' 3 = q3 at *
  obtain ⟨S, hS⟩ : ∃ S, S = r * r + a * a * (c * c) := ⟨_, rfl⟩
  obtain ⟨D, hD⟩ : ∃ D, D = r * r - 2 * r + a * a := ⟨_, rfl⟩
  have hD' : a * a + r * (-2 + r) = D := by rw [hD]; ring
  rw [← hS] at h4
  rw [← hD] at h5
  simp only [← hS, ← hD, hD']
  field_simp
  norm_num only
  grind

/-- C66. What `diff` returns are Hamilton's equations for the metric, with `-E` and `L` as momenta conjugate to `t` and `φ`. -/
theorem diff_hamilton {a rsink : ℝ} {cst : Cst} {x p dx dp : Vec} (h : diff a rsink cst x p = .ok dx dp) (hE : p 0 = -cst.E)
    (hL : p 3 = cst.L) : IsHamilton (gmunuUp a) x p dx dp := by
  have hd : ∀ (v : Vec) (μ ν : Fin 4), HasDerivAt (fun s => Function.update v μ s ν) (if ν = μ then 1 else 0) (v μ) := by
    intro v μ ν
    by_cases hν : ν = μ
    · subst hν
      simp only [Function.update_self, if_true]
      exact hasDerivAt_id _
    · simp only [Function.update_of_ne hν, if_neg hν]
      exact hasDerivAt_const _ _
  have h0 : ∀ (v : Vec) (t : ℝ) (ν : Fin 4), HasDerivAt (fun _ : ℝ => v ν) 0 t := fun v t ν => hasDerivAt_const _ _
  intro μ
  constructor
  · have := hamiltonian_curve (X := fun _ => x) (P := fun s => Function.update p μ s) (τ := p μ) (X' := 0)
      (by rw [Function.update_eq_self]; exact h) (by rw [Function.update_eq_self]; exact hE)
      (by rw [Function.update_eq_self]; exact hL) (fun ν => h0 x _ ν) (hd p μ)
    refine this.congr_deriv ?_
    simp
  · have := hamiltonian_curve (X := fun s => Function.update x μ s) (P := fun _ => p) (τ := x μ) (P' := 0)
      (by rw [Function.update_eq_self]; exact h) hE hL (hd x μ) (fun ν => h0 p _ ν)
    refine this.congr_deriv ?_
    simp

/-- `diff` does not change the energy and the angular momentum. -/
theorem diff_energy {a rsink : ℝ} {cst : Cst} {x p dx dp : Vec} (h : diff a rsink cst x p = .ok dx dp) : dp 0 = 0 ∧ dp 3 = 0 := by
  obtain ⟨h1, h2, h3, h4, h5⟩ := diff_ok_iff.1 ⟨_, _, h⟩
  have h6 : 2 * (x 1 * x 1 - 2 * x 1 + a * a) * (x 1 * x 1 + a * a * (Real.cos (x 2) * Real.cos (x 2))) ≠ 0 := by
    simp [h4, h5]
  unfold diff at h
  dsimp only at h
  rw [if_neg (not_lt.2 h1), if_neg (not_lt.2 h2), if_neg h3, if_neg h4, if_neg h6] at h
  injection h with e1 e2
  rw [← e2]
  exact ⟨rfl, rfl⟩

/-- Carter's constant of a particle of mass `mu`, energy `E`, angular momentum `L` at colatitude `θ` with momentum `pθ` along it. -/
noncomputable def carter (a mu E L θ pθ : ℝ) : ℝ :=
  pθ ^ 2 + Real.cos θ ^ 2 * (a ^ 2 * (mu ^ 2 - E ^ 2) + L ^ 2 / Real.sin θ ^ 2)

/-- Carter's constant does not vary along a solution, if the mass is the right one. -/
theorem carter_curve {a rsink : ℝ} {cst : Cst} {X P : ℝ → Vec} {dx dp : Vec} {τ : ℝ}
    (h : diff a rsink cst (X τ) (P τ) = .ok dx dp) (hE : P τ 0 = -cst.E) (hL : P τ 3 = cst.L)
    (hX : ∀ μ, HasDerivAt (fun t => X t μ) (dx μ) τ) (hP : ∀ μ, HasDerivAt (fun t => P t μ) (dp μ) τ)
    (hm : 2 * hamiltonian (gmunuUp a) (X τ) (P τ) = -cst.mu ^ 2) :
    HasDerivAt (fun t => carter a cst.mu cst.E cst.L (X t 2) (P t 2)) 0 τ := by
  obtain ⟨h1, h2, h3, h4, h5⟩ := diff_ok_iff.1 ⟨_, _, h⟩
  have h6 : 2 * (X τ 1 * X τ 1 - 2 * X τ 1 + a * a) * (X τ 1 * X τ 1 + a * a * (Real.cos (X τ 2) * Real.cos (X τ 2))) ≠ 0 := by
    simp [h4, h5]
  have hsc := Real.sin_sq_add_cos_sq (X τ 2)
  have hs := (hX 2).sin
  have hc := (hX 2).cos
  have key := ((hP 2).pow 2).add ((hc.pow 2).mul
    (((hasDerivAt_const τ (cst.L ^ 2)).div (hs.pow 2) (pow_ne_zero 2 h3)).const_add (a ^ 2 * (cst.mu ^ 2 - cst.E ^ 2))))
  refine key.congr_deriv ?_
  clear key hs hc hX hP
  rw [hamiltonian_eq] at hm
  have hm' : cst.mu ^ 2 = -(gmunuUp a (X τ) 0 0 * (P τ 0 * P τ 0) + gmunuUp a (X τ) 1 1 * (P τ 1 * P τ 1) +
    gmunuUp a (X τ) 2 2 * (P τ 2 * P τ 2) + gmunuUp a (X τ) 3 3 * (P τ 3 * P τ 3) +
    gmunuUp a (X τ) 0 3 * (2 * (P τ 0 * P τ 3))) := by linarith
  rw [hm']
  clear hm hm'
  unfold diff at h
  dsimp only at h
  rw [if_neg (not_lt.2 h1), if_neg (not_lt.2 h2), if_neg h3, if_neg h4, if_neg h6] at h
  injection h with e1 e2
  rw [← e1, ← e2]
  clear e1 e2 h6
  rw [show cst.E = -P τ 0 by rw [hE, neg_neg], ← hL]
  clear hE hL
  simp only [gmunuUp, circ, Pi.pow_apply, Pi.div_apply, Matrix.cons_val]
  generalize X τ 1 = r at *
  generalize Real.sin (X τ 2) = s at *
  generalize Real.cos (X τ 2) = c at *
  generalize P τ 0 = p0 at *
  generalize P τ 1 = p1 at *
  generalize P τ 2 = p2 at *
  generalize P τ 3 = p3 at *
  obtain ⟨S, hS⟩ : ∃ S, S = r * r + a * a * (c * c) := ⟨_, rfl⟩
  obtain ⟨D, hD⟩ : ∃ D, D = r * r - 2 * r + a * a := ⟨_, rfl⟩
  have hD' : a * a + r * (-2 + r) = D := by rw [hD]; ring
  rw [← hS] at h4
  rw [← hD] at h5
  simp only [← hS, ← hD, hD']
  field_simp
  norm_num only
  grind

/-- C66. Along any solution of the equations of motion, from date `τ₀` to date `τ₁`, the energy, the angular momentum, the mass and
Carter's constant keep their initial values. -/
theorem diff_conserved {a rsink τ₀ τ₁ : ℝ} {cst : Cst} {X P : ℝ → Vec}
    (hsol : ∀ τ ∈ Set.Icc τ₀ τ₁, ∃ dx dp, diff a rsink cst (X τ) (P τ) = .ok dx dp ∧
      (∀ μ, HasDerivAt (fun t => X t μ) (dx μ) τ) ∧ ∀ μ, HasDerivAt (fun t => P t μ) (dp μ) τ)
    (hE : P τ₀ 0 = -cst.E) (hL : P τ₀ 3 = cst.L) (hm : 2 * hamiltonian (gmunuUp a) (X τ₀) (P τ₀) = -cst.mu ^ 2) :
    ∀ τ ∈ Set.Icc τ₀ τ₁, P τ 0 = -cst.E ∧ P τ 3 = cst.L ∧ 2 * hamiltonian (gmunuUp a) (X τ) (P τ) = -cst.mu ^ 2 ∧
      carter a cst.mu cst.E cst.L (X τ 2) (P τ 2) = carter a cst.mu cst.E cst.L (X τ₀ 2) (P τ₀ 2) := by
  have const : ∀ f : ℝ → ℝ, (∀ τ ∈ Set.Icc τ₀ τ₁, HasDerivAt f 0 τ) → ∀ τ ∈ Set.Icc τ₀ τ₁, f τ = f τ₀ := by
    intro f hf
    apply constant_of_has_deriv_right_zero
    · exact fun τ hτ => (hf τ hτ).continuousAt.continuousWithinAt
    · exact fun τ hτ => (hf τ (Set.Ico_subset_Icc_self hτ)).hasDerivWithinAt
  have e0 : ∀ τ ∈ Set.Icc τ₀ τ₁, P τ 0 = -cst.E := by
    intro τ hτ
    rw [const (fun t => P t 0) _ τ hτ, hE]
    intro t ht
    obtain ⟨dx, dp, h, -, hP⟩ := hsol t ht
    exact (hP 0).congr_deriv (diff_energy h).1
  have e3 : ∀ τ ∈ Set.Icc τ₀ τ₁, P τ 3 = cst.L := by
    intro τ hτ
    rw [const (fun t => P t 3) _ τ hτ, hL]
    intro t ht
    obtain ⟨dx, dp, h, -, hP⟩ := hsol t ht
    exact (hP 3).congr_deriv (diff_energy h).2
  have eH : ∀ τ ∈ Set.Icc τ₀ τ₁, 2 * hamiltonian (gmunuUp a) (X τ) (P τ) = -cst.mu ^ 2 := by
    intro τ hτ
    rw [const (fun t => hamiltonian (gmunuUp a) (X t) (P t)) _ τ hτ, hm]
    intro t ht
    obtain ⟨dx, dp, h, hX, hP⟩ := hsol t ht
    refine (hamiltonian_curve h (e0 t ht) (e3 t ht) hX hP).congr_deriv ?_
    rw [Fin.sum_univ_four]
    ring
  intro τ hτ
  refine ⟨e0 τ hτ, e3 τ hτ, eH τ hτ, const (fun t => carter a cst.mu cst.E cst.L (X t 2) (P t 2)) ?_ τ hτ⟩
  intro t ht
  obtain ⟨dx, dp, h, hX, hP⟩ := hsol t ht
  exact carter_curve h (e0 t ht) (e3 t ht) hX hP (eH t ht)

/-- The circular orbit of radius 4 without spin, with unit mass and energy and angular momentum 4. -/
theorem orbit_diff (t : ℝ) : diff 0 2 ⟨1, 1, 4, 0, 1⟩ ![2 * t, 4, Real.pi / 2, t / 4] ![-1, 0, 0, 4] =
    .ok ![2, 0, 0, 1 / 4] ![0, 0, 0, 0] := by
  unfold diff
  simp only [Matrix.cons_val, Real.sin_pi_div_two, Real.cos_pi_div_two]
  norm_num

/-- That orbit is a solution to which `diff_conserved` applies. -/
example : ∀ τ ∈ Set.Icc (0 : ℝ) 1, ∃ dx dp, diff 0 2 ⟨1, 1, 4, 0, 1⟩ ![2 * τ, 4, Real.pi / 2, τ / 4] ![-1, 0, 0, 4] = .ok dx dp ∧
    (∀ μ, HasDerivAt (fun t => (![2 * t, 4, Real.pi / 2, t / 4] : Vec) μ) (dx μ) τ) ∧
    ∀ μ, HasDerivAt (fun _ => (![-1, 0, 0, 4] : Vec) μ) (dp μ) τ := by
  intro τ _
  refine ⟨_, _, orbit_diff τ, ?_, ?_⟩
  · intro μ
    match μ with
    | 0 => simpa using (hasDerivAt_id τ).const_mul 2
    | 1 => exact hasDerivAt_const _ _
    | 2 => exact hasDerivAt_const _ _
    | 3 => simpa using (hasDerivAt_id τ).div_const 4
  · intro μ
    match μ with
    | 0 => exact hasDerivAt_const _ _
    | 1 => exact hasDerivAt_const _ _
    | 2 => exact hasDerivAt_const _ _
    | 3 => exact hasDerivAt_const _ _

example : 2 * hamiltonian (gmunuUp 0) ![0, 4, Real.pi / 2, 0] ![-1, 0, 0, 4] = -1 ^ 2 := by
  rw [hamiltonian_eq]
  simp only [gmunuUp, circ, Matrix.cons_val, Real.sin_pi_div_two, Real.cos_pi_div_two]
  norm_num

/-- Below `rsink_` the integration stops; on the axis it is an error. -/
example : diff 0 2 ⟨1, 1, 4, 0, 1⟩ ![0, 1, 0, 0] ![-1, 0, 0, 4] = .stop ∧
    diff 0 2 ⟨1, 1, 4, 0, 1⟩ ![0, 4, 0, 0] ![-1, 0, 0, 4] = .error := by
  unfold diff
  simp only [Matrix.cons_val, Real.sin_zero]
  norm_num

end Gyoto.KerrBL
