import Verif.Props.Hayward
import Verif.Props.OrbitRadii

/-!
# Circular orbits of the Hayward metric
-/

namespace Gyoto.Hayward

open Gyoto.MetricAlg Gyoto.Spacetime Gyoto.KerrBL Gyoto.Orbits

/-- The orbit of radius `r` in the equatorial plane is slower than light. -/
def Slow (a b dir r : ℝ) : Prop :=
  0 < (r ^ 3 + 2 * b ^ 2) ^ 2 + 2 * dir * a * (r ^ 3 + 2 * b ^ 2) * √(r ^ 3 - 4 * b ^ 2) - r ^ 2 * (r ^ 3 - 4 * b ^ 2) -
    2 * r ^ 2 * (r ^ 3 + 2 * b ^ 2)

/-- What the theorems on the circular orbits suppose of the radius. -/
structure Orbit (a b dir : ℝ) (pos : Vec) : Prop where
  radius : 0 < pos 1
  equator : pos 2 = Real.pi / 2
  direction : dir = 1 ∨ dir = -1
  /-- Nearer to the centre the gravity of the Hayward metric is repulsive. -/
  attractive : 4 * b ^ 2 < pos 1 ^ 3
  slow : Slow a b dir (pos 1)
  /-- Where the code divides zero by zero. -/
  generic : (pos 1 ^ 3 + 2 * b ^ 2) ^ 2 ≠ a ^ 2 * (pos 1 ^ 3 - 4 * b ^ 2)
  horizon : pos 1 ^ 2 - 2 * hm b (pos 1) + a ^ 2 ≠ 0

/-- The numbers that the computations are written with: `k` is the root, `B` the cubic and `P` the denominator of the angular velocity. -/
theorem Orbit.facts {a b dir : ℝ} {pos : Vec} (h : Orbit a b dir pos) :
    ∃ k B P : ℝ, 0 < k ∧ 0 < B ∧ 0 < P ∧ k = √(pos 1 ^ 3 - 4 * b ^ 2) ∧ B = pos 1 ^ 3 + 2 * (b * b) ∧ P = B + dir * a * k ∧
      k ^ 2 = pos 1 ^ 3 - 4 * (b * b) ∧ B - dir * a * k ≠ 0 ∧ dir ^ 2 = 1 ∧
      0 < B ^ 2 + 2 * dir * a * B * k - pos 1 ^ 2 * k ^ 2 - 2 * pos 1 ^ 2 * B := by
  have hr := h.radius
  have hk2 : √(pos 1 ^ 3 - 4 * b ^ 2) ^ 2 = pos 1 ^ 3 - 4 * b ^ 2 := Real.sq_sqrt (by linarith [h.attractive])
  have hk : 0 < √(pos 1 ^ 3 - 4 * b ^ 2) := Real.sqrt_pos.2 (by linarith [h.attractive])
  have hB : 0 < pos 1 ^ 3 + 2 * (b * b) := by have := mul_self_nonneg b; positivity
  have hd : dir ^ 2 = 1 := by rcases h.direction with rfl | rfl <;> norm_num
  have hs := h.slow
  unfold Slow at hs
  rw [← hk2] at hs
  have hg := h.generic
  rw [← hk2] at hg
  generalize √(pos 1 ^ 3 - 4 * b ^ 2) = k at *
  rw [Real.sqrt_sq hk.le] at hs
  rw [sq b] at hs hg hk2
  refine ⟨k, pos 1 ^ 3 + 2 * (b * b), pos 1 ^ 3 + 2 * (b * b) + dir * a * k, hk, hB, ?_, rfl, rfl, rfl, by rw [hk2], ?_, hd, ?_⟩
  · generalize pos 1 ^ 3 + 2 * (b * b) = B at *
    by_contra hn
    push Not at hn
    have h1 : B * (B + dir * a * k) ≤ 0 := mul_nonpos_of_nonneg_of_nonpos hB.le hn
    have h2 : 0 ≤ pos 1 ^ 2 * k ^ 2 := by positivity
    have h3 : 0 < pos 1 ^ 2 * B := by positivity
    nlinarith [sq_nonneg B]
  · intro hz
    apply hg
    have : pos 1 ^ 3 + 2 * (b * b) = dir * a * k := by linarith
    rw [this, mul_pow, mul_pow, hd]
    ring
  · linarith

/-- The angular velocity. -/
theorem velocity_eq {a b dir : ℝ} {pos : Vec} (h : Orbit a b dir pos) {k B P : ℝ} (hk : 0 < k) (hB0 : 0 < B) (hP0 : 0 < P)
    (hB : B = pos 1 ^ 3 + 2 * (b * b)) (hP : P = B + dir * a * k) (hk2 : k ^ 2 = pos 1 ^ 3 - 4 * (b * b))
    (hg : B - dir * a * k ≠ 0) (hd : dir ^ 2 = 1) : circularVelocity a b pos dir = finishVel (gmunu a b pos) (dir * k / P) := by
  have hr := h.radius
  have hr' := hr.ne'
  unfold circularVelocity
  simp only [h.equator, Real.sin_pi_div_two, mul_one]
  have e1 : √(-(4 * (b * b) * (pos 1 * pos 1) - pos 1 * pos 1 * (pos 1 * pos 1) * pos 1) /
      (4 * (b * b * (b * b)) + 4 * (b * b) * (pos 1 * pos 1 * pos 1) + pos 1 * pos 1 * (pos 1 * pos 1) * pos 1 * pos 1)) = pos 1 * k / B := by
    rw [show -(4 * (b * b) * (pos 1 * pos 1) - pos 1 * pos 1 * (pos 1 * pos 1) * pos 1) = (pos 1 * k) ^ 2 by rw [mul_pow, hk2]; ring,
      show 4 * (b * b * (b * b)) + 4 * (b * b) * (pos 1 * pos 1 * pos 1) + pos 1 * pos 1 * (pos 1 * pos 1) * pos 1 * pos 1 = B ^ 2 by
        rw [hB]; ring, ← div_pow, Real.sqrt_sq (by positivity)]
  rw [e1]
  congr 1
  have e2 : pos 1 * pos 1 * (pos 1 * pos 1) * pos 1 * pos 1 * pos 1 - (a * a - 4 * (b * b)) * (pos 1 * pos 1 * (pos 1 * pos 1)) +
      4 * (a * a * (b * b) + b * b * (b * b)) * pos 1 = pos 1 * (P * (B - dir * a * k)) := by
    have : P * (B - dir * a * k) = B ^ 2 - a ^ 2 * k ^ 2 := by rw [hP]; linear_combination (-(a ^ 2 * k ^ 2)) * hd
    rw [this, hk2, hB]
    ring
  have e3 : 4 * a * (b * b) * pos 1 - a * (pos 1 * pos 1 * (pos 1 * pos 1)) +
      dir * (4 * (b * b * (b * b)) + 4 * (b * b) * (pos 1 * pos 1 * pos 1) + pos 1 * pos 1 * (pos 1 * pos 1) * pos 1 * pos 1) * (pos 1 * k / B) =
      dir * k * (pos 1 * (B - dir * a * k)) := by
    rw [show 4 * (b * b * (b * b)) + 4 * (b * b) * (pos 1 * pos 1 * pos 1) + pos 1 * pos 1 * (pos 1 * pos 1) * pos 1 * pos 1 = B ^ 2 by
        rw [hB]; ring, show 4 * a * (b * b) * pos 1 - a * (pos 1 * pos 1 * (pos 1 * pos 1)) = -(a * pos 1 * k ^ 2) by rw [hk2]; ring]
    field_simp
    linear_combination (a * k) * hd
  rw [e2, e3, div_eq_div_iff (mul_ne_zero hr' (mul_ne_zero hP0.ne' hg)) hP0.ne']
  ring

/-- The metric in the equatorial plane. -/
theorem equator_metric {a b : ℝ} {pos : Vec} (hr : 0 < pos 1) (hθ : pos 2 = Real.pi / 2) {B : ℝ} (hB : B = pos 1 ^ 3 + 2 * (b * b)) (hB0 : 0 < B) :
    gmunu a b pos 0 0 = -1 + 2 * pos 1 ^ 2 / B ∧ gmunu a b pos 0 3 = -2 * a * pos 1 ^ 2 / B ∧ gmunu a b pos 3 0 = gmunu a b pos 0 3 ∧
      gmunu a b pos 3 3 = pos 1 ^ 2 + a ^ 2 + 2 * a ^ 2 * pos 1 ^ 2 / B := by
  have hr' := hr.ne'
  rw [gmunu_fun]
  unfold massMetric
  rw [hm_pos hr.le, ← hB, hθ]
  simp only [Real.sin_pi_div_two, Real.cos_pi_div_two, circ00, circ03, circ30, circ33]
  refine ⟨?_, ?_, trivial, ?_⟩ <;> field_simp <;> ring

theorem sp_eq (a b : ℝ) (pos u v : Vec) : sp (gmunu a b pos) u v =
    gmunu a b pos 0 0 * u 0 * v 0 + gmunu a b pos 1 1 * u 1 * v 1 + gmunu a b pos 2 2 * u 2 * v 2 + gmunu a b pos 3 3 * u 3 * v 3 +
      gmunu a b pos 0 3 * (u 0 * v 3 + u 3 * v 0) := by
  rw [← scalarProd_eq, gmunu_fun]
  unfold massMetric
  simp [MetricAlg.scalarProd, Fin.sum_univ_four]
  ring

theorem lower_eq (a b : ℝ) (pos u : Vec) : lower (gmunu a b pos) u 0 = gmunu a b pos 0 0 * u 0 + gmunu a b pos 0 3 * u 3 ∧
    lower (gmunu a b pos) u 3 = gmunu a b pos 0 3 * u 0 + gmunu a b pos 3 3 * u 3 := by
  rw [gmunu_fun]
  unfold massMetric lower
  simp [Fin.sum_univ_four]

/-- C82. `ScalarProd` is the scalar product of the metric. -/
theorem scalarProd_ok (a b : ℝ) (pos u v : Vec) : scalarProd a b pos u v = sp (gmunu a b pos) u v := by
  rw [sp_eq]
  unfold scalarProd
  have : gmunu a b pos 3 0 = gmunu a b pos 0 3 := by rw [gmunu_fun]; rfl
  dsimp only
  rw [this]
  ring

/-- The norm of the velocity before normalisation. -/
theorem norm_eq {a b dir : ℝ} {pos : Vec} (h : Orbit a b dir pos) {k B P : ℝ} (hB0 : 0 < B) (hP0 : 0 < P)
    (hB : B = pos 1 ^ 3 + 2 * (b * b)) (hP : P = B + dir * a * k) (hd : dir ^ 2 = 1) :
    sp (gmunu a b pos) ![1, 0, 0, dir * k / P] ![1, 0, 0, dir * k / P] =
      -(B ^ 2 + 2 * dir * a * B * k - pos 1 ^ 2 * k ^ 2 - 2 * pos 1 ^ 2 * B) / P ^ 2 := by
  obtain ⟨e0, e1, -, e2⟩ := equator_metric (a := a) h.radius h.equator hB hB0
  rw [sp_eq, e0, e1, e2]
  simp only [Matrix.cons_val]
  clear e0 e1 e2 hB
  generalize pos 1 = r at *
  have hP' := hP0.ne'
  field_simp
  subst hP
  rcases h.direction with rfl | rfl <;> ring

/-- A rotating velocity in the equatorial plane is free if its angular velocity is that of the code. -/
theorem free {a b w B : ℝ} {pos u : Vec} (hr : 0 < pos 1) (hh : pos 1 ^ 2 - 2 * hm b (pos 1) + a ^ 2 ≠ 0)
    (hθ : pos 2 = Real.pi / 2) (h1 : u 1 = 0) (h2 : u 2 = 0) (h3 : u 3 = w * u 0) (hB0 : 0 < B) (hB : B = pos 1 ^ 3 + 2 * (b * b))
    (hw : (pos 1 ^ 3 - 4 * (b * b)) * (1 - a * w) ^ 2 = B ^ 2 * w ^ 2) : IsFree (gmunu a b) pos u := by
  have hreg : Regular a b pos := ⟨Or.inl hr.ne', hh⟩
  have hs : Real.sin (pos 2) = 1 := by rw [hθ, Real.sin_pi_div_two]
  have hc : Real.cos (pos 2) = 0 := by rw [hθ, Real.cos_pi_div_two]
  have hsin : Real.sin (pos 2) ≠ 0 := by rw [hs]; norm_num
  refine ⟨christoffel a b pos, christoffel_ok hreg hsin, ?_⟩
  intro α
  rw [rot_sum h1 h2, h3, christoffel_eq hreg hsin]
  unfold massΓ hm'
  rw [hs, hc, hm_pos hr.le, abs_of_pos hr, sq b, ← hB]
  have hr' := hr.ne'
  match α with
  | 0 => show 0 * (u 0 * u 0) + (0 + 0) * (u 0 * (w * u 0)) + 0 * (w * u 0 * (w * u 0)) = 0; ring
  | 1 =>
    simp only [circΓ, Matrix.cons_val]
    generalize pos 1 = r at *
    generalize b * b = β at *
    have hQ : (r ^ 6 + 8 * β * r ^ 3) / B ^ 2 * (r * r + a * a * (0 * 0)) - 2 * r * (r ^ 4 / B) = -r ^ 5 * (r ^ 3 - 4 * β) / B ^ 2 := by
      field_simp
      rw [hB]
      ring
    rw [hQ]
    generalize r * r - 2 * (r ^ 4 / B) + a * a = D at *
    clear hQ hB
    field_simp
    linear_combination D * r ^ 5 * u 0 ^ 2 * hw
  | 2 =>
    simp only [circΓ, Matrix.cons_val]
    ring
  | 3 => show 0 * (u 0 * u 0) + (0 + 0) * (u 0 * (w * u 0)) + 0 * (w * u 0 * (w * u 0)) = 0; ring

/-- C82. `circularVelocity` gives the velocity of an observer in free fall on a circular orbit. -/
theorem circular_ok {a b dir : ℝ} {pos : Vec} (h : Orbit a b dir pos) :
    IsRotating (gmunu a b pos) (circularVelocity a b pos dir) ∧ IsFree (gmunu a b) pos (circularVelocity a b pos dir) ∧
      0 < dir * circularVelocity a b pos dir 3 := by
  obtain ⟨k, B, P, hk0, hB0, hP0, -, hB, hP, hk2, hg, hd, hs⟩ := h.facts
  rw [velocity_eq h hk0 hB0 hP0 hB hP hk2 hg hd]
  have hn : sp (gmunu a b pos) ![1, 0, 0, dir * k / P] ![1, 0, 0, dir * k / P] < 0 := by
    rw [norm_eq h hB0 hP0 hB hP hd, neg_div, neg_lt_zero]
    positivity
  obtain ⟨k1, k2, -⟩ := finish_ok hn
  refine ⟨k1, free h.radius h.horizon h.equator k1.r k1.theta k2 hB0 hB ?_, ?_⟩
  · rw [← hk2]
    have hP' := hP0.ne'
    have : 1 - a * (dir * k / P) = B / P := by
      field_simp
      rw [hP]
      ring
    rw [this]
    field_simp
    rw [hd]
  · rw [k2]
    have := k1.future
    have e : dir * (dir * k / P * finishVel (gmunu a b pos) (dir * k / P) 0) = dir ^ 2 * (k / P * finishVel (gmunu a b pos) (dir * k / P) 0) := by
      ring
    rw [e, hd, one_mul]
    positivity

/-- C82. `getSpecificAngularMomentum` is `-u_φ/u_t` for the circular orbit in the direction of the rotation. -/
theorem angularMomentum_ok {a b : ℝ} {pos : Vec} (h : Orbit a b 1 pos)
    (hE : lower (gmunu a b pos) (circularVelocity a b pos 1) 0 ≠ 0) :
    angularMomentum a b (pos 1) =
      -lower (gmunu a b pos) (circularVelocity a b pos 1) 3 / lower (gmunu a b pos) (circularVelocity a b pos 1) 0 := by
  obtain ⟨k, B, P, hk0, hB0, hP0, -, hB, hP, hk2, hg, hd, hs⟩ := h.facts
  have hr := h.radius
  rw [velocity_eq h hk0 hB0 hP0 hB hP hk2 hg hd]
  have hn : sp (gmunu a b pos) ![1, 0, 0, 1 * k / P] ![1, 0, 0, 1 * k / P] < 0 := by
    rw [norm_eq h hB0 hP0 hB hP hd, neg_div, neg_lt_zero]
    positivity
  obtain ⟨k1, k2, -⟩ := finish_ok hn
  rw [velocity_eq h hk0 hB0 hP0 hB hP hk2 hg hd] at hE
  obtain ⟨l0, l3⟩ := lower_eq a b pos (finishVel (gmunu a b pos) (1 * k / P))
  rw [l0, k2] at hE
  rw [l0, l3, k2]
  have hu := k1.future
  generalize finishVel (gmunu a b pos) (1 * k / P) 0 = T at *
  obtain ⟨e0, e1, -, e2⟩ := equator_metric (a := a) h.radius h.equator hB hB0
  rw [e0, e1] at hE
  rw [e0, e1, e2]
  clear l0 l3 k1 k2 e0 e1 e2 hn
  unfold angularMomentum
  dsimp only
  have er : √(pos 1) ^ 2 = pos 1 := Real.sq_sqrt hr.le
  have hw : 0 < √(pos 1) := Real.sqrt_pos.2 hr
  have eB : pos 1 * pos 1 * pos 1 + 2 * (b * b) = B := by rw [hB]; ring
  have em : -3 * (pos 1 * pos 1 * pos 1 * (pos 1 * pos 1)) / B / B + 3 * (pos 1 * pos 1) / B = 6 * (b * b) * pos 1 ^ 2 / B ^ 2 := by
    field_simp
    rw [hB]
    ring
  have es : √(pos 1 * pos 1 * pos 1 / B - pos 1 * (6 * (b * b) * pos 1 ^ 2 / B ^ 2)) = pos 1 * √(pos 1) * k / B := by
    rw [show pos 1 * pos 1 * pos 1 / B - pos 1 * (6 * (b * b) * pos 1 ^ 2 / B ^ 2) = (pos 1 * √(pos 1) * k / B) ^ 2 by
      rw [div_pow, mul_pow, mul_pow, er, hk2]
      field_simp
      rw [hB]
      ring, Real.sqrt_sq (by positivity)]
  rw [eB, em, es]
  clear eB em es
  have g0 : (-1 + 2 * pos 1 ^ 2 / B) * T + -2 * a * pos 1 ^ 2 / B * (1 * k / P * T) = T / P * (2 * pos 1 ^ 2 - P) := by
    field_simp
    rw [hP]
    ring
  have g3 : -2 * a * pos 1 ^ 2 / B * T + (pos 1 ^ 2 + a ^ 2 + 2 * a ^ 2 * pos 1 ^ 2 / B) * (1 * k / P * T) =
      T / P * ((pos 1 ^ 2 + a ^ 2) * k - 2 * a * pos 1 ^ 2) := by
    field_simp
    rw [hP]
    ring
  rw [g0] at hE
  have hTP : T / P ≠ 0 := (div_pos hu hP0).ne'
  have hne : 2 * pos 1 ^ 2 - P ≠ 0 := fun h => hE (by rw [h, mul_zero])
  rw [g0, g3, ← mul_neg, mul_div_mul_left _ _ hTP]
  have hβ : 6 * (b * b) = B - k ^ 2 := by rw [hB, hk2]; ring
  rw [hβ]
  rw [one_mul] at hg
  have n0 : (a * a * pos 1 + pos 1 * pos 1 * pos 1 + 2 * (a * a) * (pos 1 * pos 1 * pos 1 / B)) * (pos 1 * √(pos 1) * k / B) * √(pos 1) -
      (a * a * a + 3 * a * (pos 1 * pos 1)) * (pos 1 * pos 1 * pos 1 / B) +
      (a * a * a * pos 1 + a * (pos 1 * pos 1 * pos 1)) * ((B - k ^ 2) * pos 1 ^ 2 / B ^ 2) =
      pos 1 ^ 3 / B ^ 2 * (B - a * k) * ((pos 1 ^ 2 + a ^ 2) * k - 2 * a * pos 1 ^ 2) := by
    have : (a * a * pos 1 + pos 1 * pos 1 * pos 1 + 2 * (a * a) * (pos 1 * pos 1 * pos 1 / B)) * (pos 1 * √(pos 1) * k / B) * √(pos 1) =
        (a * a * pos 1 + pos 1 * pos 1 * pos 1 + 2 * (a * a) * (pos 1 * pos 1 * pos 1 / B)) * (pos 1 * k / B) * √(pos 1) ^ 2 := by ring
    rw [this, er]
    field_simp
    ring
  have d0 : a * a * pos 1 * ((B - k ^ 2) * pos 1 ^ 2 / B ^ 2) + pos 1 * pos 1 * pos 1 +
      2 * (pos 1 * √(pos 1) * k / B) * a * (pos 1 * pos 1 * pos 1 / B) * √(pos 1) - (a * a + 2 * (pos 1 * pos 1)) * (pos 1 * pos 1 * pos 1 / B) =
      pos 1 ^ 3 / B ^ 2 * (B - a * k) * (P - 2 * pos 1 ^ 2) := by
    have : 2 * (pos 1 * √(pos 1) * k / B) * a * (pos 1 * pos 1 * pos 1 / B) * √(pos 1) =
        2 * (pos 1 * k / B) * a * (pos 1 * pos 1 * pos 1 / B) * √(pos 1) ^ 2 := by ring
    rw [this, er, hP]
    field_simp
    ring
  rw [n0, d0, mul_div_mul_left _ _ (mul_ne_zero (by positivity) hg), neg_div, ← div_neg, neg_sub]

/-- C82. `getPotential` is `-ln |u_t|` for any observer that turns around the axis with the given angular momentum. -/
theorem potential_ok {a b l : ℝ} {pos u : Vec} (h : Regular a b pos) (hsin : Real.sin (pos 2) ≠ 0) (hu : IsRotating (gmunu a b pos) u)
    (hl : lower (gmunu a b pos) u 3 = -l * lower (gmunu a b pos) u 0) :
    potential a b pos l = -Real.log |lower (gmunu a b pos) u 0| := by
  have hdet : gmunu a b pos 0 3 * gmunu a b pos 0 3 - gmunu a b pos 0 0 * gmunu a b pos 3 3 =
      (pos 1 * pos 1 - 2 * hm b (pos 1) + a * a) * (Real.sin (pos 2) * Real.sin (pos 2)) := by
    obtain ⟨h0, hW0, hD0⟩ := h.facts
    have h1 := Real.sin_sq_add_cos_sq (pos 2)
    have hS : Real.sin (pos 2) * Real.sin (pos 2) = 1 - Real.cos (pos 2) * Real.cos (pos 2) := by linear_combination h1
    rw [gmunu_fun]
    unfold massMetric
    simp only [circ00, circ03, circ33]
    rw [hS]
    generalize hm b (pos 1) = M at *
    generalize hW : pos 1 * pos 1 + a * a * (Real.cos (pos 2) * Real.cos (pos 2)) = W at *
    field_simp
    rw [← hW]
    ring
  obtain ⟨e0, e3⟩ := lower_eq a b pos u
  rw [e0, e3] at hl
  rw [e0]
  have hn := hu.unit
  rw [sp_eq, hu.r, hu.theta] at hn
  have hT := hu.future
  unfold potential
  rw [coef_eq, coef_eq, coef_eq]
  have hdet0 : gmunu a b pos 0 3 * gmunu a b pos 0 3 - gmunu a b pos 0 0 * gmunu a b pos 3 3 ≠ 0 := by
    rw [hdet]
    exact mul_ne_zero h.facts.2.2 (mul_ne_zero hsin hsin)
  clear hdet e0 e3 h hsin hu
  generalize gmunu a b pos 0 0 = gtt at *
  generalize gmunu a b pos 0 3 = gtp at *
  generalize gmunu a b pos 3 3 = gpp at *
  generalize u 0 = T at *
  generalize u 3 = F at *
  have hden : gpp + l * gtp ≠ 0 := by
    intro h
    have h1 : T * (gtp + l * gtt) = 0 := by linear_combination hl - F * h
    rcases mul_eq_zero.1 h1 with h2 | h2
    · exact absurd h2 hT.ne'
    · apply hdet0
      linear_combination gtp * h2 - gtt * h
  have hO : -(gtp + l * gtt) / (gpp + l * gtp) = F / T := by
    rw [div_eq_div_iff hden hT.ne']
    linear_combination -hl
  dsimp only
  rw [hO]
  have e1 : gtt + 2 * (F / T) * gtp + F / T * (F / T) * gpp = -(1 / T) ^ 2 := by
    field_simp
    linear_combination hn
  have e2 : gtt + F / T * gtp = (gtt * T + gtp * F) / T := by field_simp
  rw [e1, abs_neg, abs_of_nonneg (sq_nonneg (1 / T)), log_half, e2, abs_div (gtt * T + gtp * F)]
  have hz : gtt * T + gtp * F ≠ 0 := by
    intro hz
    have h3 : gtp * T + gpp * F = 0 := by rw [hl, hz]; ring
    have : T * (gtt * T + gtp * F) + F * (gtp * T + gpp * F) = -1 := by linear_combination hn
    rw [hz, h3] at this
    norm_num at this
  rw [Real.log_div (abs_ne_zero.2 hz) (abs_ne_zero.2 hT.ne'), abs_div, abs_one, Real.log_div one_ne_zero (abs_ne_zero.2 hT.ne'),
    Real.log_one]
  ring

/-- An orbit that the theorems speak of. -/
theorem orbit_example : Orbit (1 / 2) (1 / 2) 1 ![0, 10, Real.pi / 2, 0] where
  radius := by norm_num
  equator := rfl
  direction := Or.inl rfl
  attractive := by simp only [Matrix.cons_val]; norm_num
  slow := by
    simp only [Matrix.cons_val]
    unfold Slow
    have := Real.sqrt_nonneg ((10 : ℝ) ^ 3 - 4 * (1 / 2) ^ 2)
    generalize √((10 : ℝ) ^ 3 - 4 * (1 / 2) ^ 2) = k at *
    norm_num
    linarith
  generic := by simp only [Matrix.cons_val]; norm_num
  horizon := by
    simp only [Matrix.cons_val]
    rw [hm_pos (by norm_num)]
    norm_num

example : 0 < circularVelocity (1 / 2) (1 / 2) ![0, 10, Real.pi / 2, 0] 1 3 := by
  have := (circular_ok orbit_example).2.2
  rwa [one_mul] at this

end Gyoto.Hayward
