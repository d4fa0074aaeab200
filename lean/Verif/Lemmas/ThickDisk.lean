import Verif.Model.ThickDisk
import Verif.Spec.ThickDisk
import Verif.Lemmas.SphAcc
import Verif.Props.Orbits

/-! Lemmas on the velocity of the thick disk. -/

namespace Gyoto.Thick

open Gyoto.MetricAlg Gyoto.KerrBL Gyoto.Spacetime
open Gyoto.Transfer (Out)
open Gyoto.SphAcc (sp_circ lower_circ)

/-- The metric of a stationary, axisymmetric spacetime outside a horizon, with its inverse. -/
structure Place (g up : Tensor) (tt rr hh pp tp : ℝ) : Prop where
  eq : g = circ tt rr hh pp tp
  prr : 0 < rr
  ppp : 0 < pp
  det : tt * pp - tp ^ 2 < 0
  u00 : up 0 0 = pp / (tt * pp - tp ^ 2)
  u03 : up 0 3 = -tp / (tt * pp - tp ^ 2)
  u33 : up 3 3 = tt / (tt * pp - tp ^ 2)
  u11 : up 1 1 = 1 / rr

/-- The angular momentum per energy of the circles (`lib/ThickDisk.C:449`). -/
noncomputable def ell (pos : Vec) : ℝ := (pos 1 * Real.sin (pos 2)) ^ (1.5 : ℝ) / (pos 1 * Real.sin (pos 2) + 1)

variable {g up : Tensor} {tt rr hh pp tp : ℝ} {pos : Vec}

/-- The angular velocity. -/
noncomputable def rate (tt pp tp l beta : ℝ) : ℝ := -(tp + tt * l) / (pp + tp * l) + (1 - beta) * (-tp / pp - -(tp + tt * l) / (pp + tp * l))

theorem rate_neg {l beta : ℝ} (hpp : 0 < pp) (hdet : tt * pp - tp ^ 2 < 0) (hK : 0 < pp + 2 * tp * l + tt * l ^ 2) (hb0 : 0 ≤ beta) (hb1 : beta ≤ 1) :
    pp + tp * l ≠ 0 ∧ tt + 2 * rate tt pp tp l beta * tp + rate tt pp tp l beta ^ 2 * pp < 0 := by
  obtain ⟨D, hD⟩ : ∃ D, D = tt * pp - tp ^ 2 := ⟨_, rfl⟩
  obtain ⟨E, hE⟩ : ∃ E, E = pp + tp * l := ⟨_, rfl⟩
  rw [← hD] at hdet
  have key : pp * (pp + 2 * tp * l + tt * l ^ 2) = E ^ 2 + D * l ^ 2 := by rw [hD, hE]; ring
  have e2 : 0 < E ^ 2 := by
    have := mul_pos hpp hK
    have := mul_nonneg (neg_pos.2 hdet).le (sq_nonneg l)
    linarith
  have e0 : E ≠ 0 := by intro h; rw [h] at e2; norm_num at e2
  refine ⟨by rw [← hE]; exact e0, ?_⟩
  have hr : rate tt pp tp l beta = -tp / pp + beta * (-(D * l) / (pp * E)) := by
    unfold rate
    rw [← hE]
    have : -(tp + tt * l) / E - -tp / pp = -(D * l) / (pp * E) := by
      rw [div_sub_div _ _ e0 hpp.ne', div_eq_div_iff (by positivity) (by positivity), hD, hE]; ring
    linear_combination beta * this
  have hv : tt + 2 * rate tt pp tp l beta * tp + rate tt pp tp l beta ^ 2 * pp = D / pp * (1 + beta ^ 2 * (D * l ^ 2) / E ^ 2) := by
    rw [hr]
    field_simp
    rw [hD]
    ring
  rw [hv]
  refine mul_neg_of_neg_of_pos (div_neg_of_neg_of_pos hdet hpp) ?_
  have h1 : -(D * l ^ 2) / E ^ 2 < 1 := by
    rw [div_lt_one e2]
    have := mul_pos hpp hK
    linarith
  have h2 : 0 ≤ -(D * l ^ 2) / E ^ 2 := div_nonneg (by have := mul_nonneg (neg_pos.2 hdet).le (sq_nonneg l); linarith) e2.le
  have h3 : beta ^ 2 ≤ 1 := by nlinarith
  have : beta ^ 2 * (D * l ^ 2) / E ^ 2 = -(beta ^ 2 * (-(D * l ^ 2) / E ^ 2)) := by ring
  rw [this]
  nlinarith [sq_nonneg beta]

/-- What `getVelocity` returns. -/
noncomputable def mixed (s : Disk) (g up : Tensor) (pos : Vec) : Vec :=
  let O := rate (g 0 0) (g 3 3) (g 0 3) (ell pos) s.beta
  let v1 := (1 - s.alpha) * -√((-1 - up 0 0) * up 1 1)
  let v0 := √(-(1 + g 1 1 * v1 * v1) / (g 0 0 + 2 * O * g 0 3 + O * O * g 3 3))
  ![v0, v1, 0, O * v0]

theorem velocity_eq (h : Place g up tt rr hh pp tp) {s : Disk} (hrho : 0 ≤ pos 1 * Real.sin (pos 2))
    (hK : 0 < pp + 2 * tp * ell pos + tt * ell pos ^ 2) (hw : up 0 0 ≤ -1) (hb0 : 0 ≤ s.beta) (hb1 : s.beta ≤ 1) :
    s.getVelocity g up pos = .ok (mixed s g up pos) ∧ IsObserver g (mixed s g up pos) := by
  obtain ⟨e0, hn⟩ := rate_neg h.ppp h.det hK hb0 hb1
  obtain ⟨heq, hrr, hpp, hdet, u00, u03, u33, u11⟩ := h
  have g00 : g 0 0 = tt := by rw [heq]; rfl
  have g11 : g 1 1 = rr := by rw [heq]; rfl
  have g33 : g 3 3 = pp := by rw [heq]; rfl
  have g03 : g 0 3 = tp := by rw [heq]; rfl
  have d0 : tt * pp - tp ^ 2 ≠ 0 := hdet.ne
  obtain ⟨l, hl⟩ : ∃ l, l = ell pos := ⟨_, rfl⟩
  rw [← hl] at hK e0 hn
  have hq : up 0 0 - 2 * up 0 3 * l + up 3 3 * l * l = (pp + 2 * tp * l + tt * l ^ 2) / (tt * pp - tp ^ 2) := by
    rw [u00, u03, u33]; field_simp
    try ring
  have hq0 : up 0 0 - 2 * up 0 3 * l + up 3 3 * l * l < 0 := by rw [hq]; exact div_neg_of_pos_of_neg hK hdet
  obtain ⟨m, hm⟩ : ∃ m, m = √(-1 / (up 0 0 - 2 * up 0 3 * l + up 3 3 * l * l)) := ⟨_, rfl⟩
  have m0 : 0 < m := by rw [hm]; exact Real.sqrt_pos.2 (div_pos_of_neg_of_neg (by norm_num) hq0)
  have hc0 : up 0 0 * -m + up 0 3 * (m * l) = -m * (pp + tp * l) / (tt * pp - tp ^ 2) := by
    rw [u00, u03]; field_simp
    try ring
  have hc3 : up 0 3 * -m + up 3 3 * (m * l) = m * (tp + tt * l) / (tt * pp - tp ^ 2) := by
    rw [u03, u33]; field_simp
    try ring
  have hc00 : up 0 0 * -m + up 0 3 * (m * l) ≠ 0 := by
    rw [hc0]; exact div_ne_zero (mul_ne_zero (neg_ne_zero.2 m0.ne') e0) d0
  have hOc : (up 0 3 * -m + up 3 3 * (m * l)) / (up 0 0 * -m + up 0 3 * (m * l)) = -(tp + tt * l) / (pp + tp * l) := by
    rw [hc0, hc3]; field_simp
  have hOr : -up 0 3 / -up 0 0 = -tp / pp := by
    rw [u00, u03]; field_simp
  have hup : 0 < up 1 1 := by rw [u11]; positivity
  have hW : 0 ≤ (-1 - up 0 0) * up 1 1 := mul_nonneg (by linarith) hup.le
  obtain ⟨O, hO⟩ : ∃ O, O = rate tt pp tp l s.beta := ⟨_, rfl⟩
  rw [← hO] at hn
  have hOeq : -(tp + tt * l) / (pp + tp * l) + (1 - s.beta) * (-tp / pp - -(tp + tt * l) / (pp + tp * l)) = O := by rw [hO]; rfl
  obtain ⟨v1, hv1⟩ : ∃ v1, v1 = (1 - s.alpha) * -√((-1 - up 0 0) * up 1 1) := ⟨_, rfl⟩
  have hnf : tt + 2 * O * tp + O * O * pp < 0 := by rw [← pow_two O]; exact hn
  have hp : 0 < 1 + rr * v1 * v1 := by
    have := mul_nonneg hrr.le (mul_self_nonneg v1)
    nlinarith
  have hd : 0 < -(1 + rr * v1 * v1) / (tt + 2 * O * tp + O * O * pp) := div_pos_of_neg_of_neg (by linarith) hnf
  obtain ⟨v0, hv0⟩ : ∃ v0, v0 = √(-(1 + rr * v1 * v1) / (tt + 2 * O * tp + O * O * pp)) := ⟨_, rfl⟩
  have v0pos : 0 < v0 := by rw [hv0]; exact Real.sqrt_pos.2 hd
  have hsq : v0 ^ 2 * (tt + 2 * O * tp + O * O * pp) = -(1 + rr * v1 * v1) := by
    rw [hv0, Real.sq_sqrt hd.le, div_mul_cancel₀ _ hnf.ne]
  have hmix : mixed s g up pos = ![v0, v1, 0, O * v0] := by
    unfold mixed
    simp only [g00, g11, g33, g03, ← hl, ← hO, ← hv1, ← hv0]
  have hnorm : sp g ![v0, v1, 0, O * v0] ![v0, v1, 0, O * v0] = -1 := by
    rw [heq, sp_circ]
    simp only [Matrix.cons_val_zero, Matrix.cons_val_one, Matrix.cons_val]
    linear_combination hsq
  refine ⟨?_, ⟨by rw [hmix]; exact v0pos, by rw [hmix]; exact hnorm⟩⟩
  unfold Disk.getVelocity
  simp only
  rw [if_neg (not_lt.2 hrho)]
  have hl' : (pos 1 * Real.sin (pos 2)) ^ (1.5 : ℝ) / (pos 1 * Real.sin (pos 2) + 1) = l := hl.symm
  rw [hl', if_neg (not_le.2 hq0), ← hm, if_neg (by
    rintro (h | h | h)
    · exact hc00 h
    · linarith
    · linarith), hOc, hOr, hOeq, sub_zero, zero_add, ← hv1, g00, g11, g33, g03, if_neg (by
    rintro (h | h) <;> linarith), ← hv0, scalarProd_eq, hnorm, if_neg (by norm_num), hmix]

theorem mixed_1 (s : Disk) : mixed s g up pos 1 = (1 - s.alpha) * -√((-1 - up 0 0) * up 1 1) := rfl
theorem mixed_2 (s : Disk) : mixed s g up pos 2 = 0 := rfl
theorem mixed_3 (s : Disk) : mixed s g up pos 3 = rate (g 0 0) (g 3 3) (g 0 3) (ell pos) s.beta * mixed s g up pos 0 := rfl

end Gyoto.Thick
