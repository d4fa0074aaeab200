import Verif.Model.HotSpot
import Verif.Spec.HotSpot
import Verif.Lemmas.Circular
import Verif.Props.Orbits

/-! Lemmas on the equatorial hot spot. -/

namespace Gyoto.HotSpot

open Gyoto.MetricAlg Gyoto.KerrBL Gyoto.Spacetime
open Gyoto.Transfer (Out)
open Gyoto.USphere (Kind)

theorem sp_circ (tt rr hh pp tp : ℝ) (u v : Vec) : scalarProd (circ tt rr hh pp tp) u v =
    tt * u 0 * v 0 + tp * (u 0 * v 3 + u 3 * v 0) + pp * u 3 * v 3 + rr * u 1 * v 1 + hh * u 2 * v 2 := by
  simp only [scalarProd, Fin.sum_univ_four, circ00, circ01, circ02, circ03, circ10, circ11, circ12, circ13, circ20, circ21, circ22, circ23,
    circ30, circ31, circ32, circ33]
  ring

/-- The metric of a stationary, axisymmetric spacetime outside a horizon. -/
structure Outside (g : Tensor) (tt rr hh pp tp : ℝ) : Prop where
  eq : g = circ tt rr hh pp tp
  rr : 0 < rr
  hh : 0 < hh
  det : tt * pp - tp ^ 2 < 0

variable {g : Tensor} {tt rr hh pp tp : ℝ} {u p : Vec}

/-- Light does not move faster across the plane than it moves. -/
theorem energy_ge (h : Outside g tt rr hh pp tp) (h1 : u 1 = 0) (h2 : u 2 = 0) (hu : scalarProd g u u = -1)
    (hp : scalarProd g p p = 0) : hh * p 2 ^ 2 ≤ scalarProd g p u ^ 2 := by
  obtain ⟨rfl, hr, hh0, hd⟩ := h
  rw [sp_circ] at hu hp ⊢
  rw [h1, h2] at hu ⊢
  have key : (tt * p 0 * u 0 + tp * (p 0 * u 3 + p 3 * u 0) + pp * p 3 * u 3 + rr * p 1 * 0 + hh * p 2 * 0) ^ 2 =
      hh * p 2 ^ 2 + rr * p 1 ^ 2 + (tp ^ 2 - tt * pp) * (u 0 * p 3 - u 3 * p 0) ^ 2 := by
    linear_combination -hp + (tt * p 0 * p 0 + tp * (p 0 * p 3 + p 3 * p 0) + pp * p 3 * p 3) * hu
  rw [key]
  have := mul_nonneg hr.le (sq_nonneg (p 1))
  have := mul_nonneg (a := tp ^ 2 - tt * pp) (by linarith) (sq_nonneg (u 0 * p 3 - u 3 * p 0))
  linarith

/-- The cosine of the angle of the light with the normal. -/
theorem cos_poleward (h : Outside g tt rr hh pp tp) (h2 : u 2 = 0) :
    scalarProd g (direction g u p) (poleward g) = √hh * p 2 / (-scalarProd g p u) := by
  have hs : √hh ≠ 0 := (Real.sqrt_pos.2 h.hh).ne'
  have hm : √hh * √hh = hh := Real.mul_self_sqrt h.hh.le
  generalize he : -scalarProd g p u = e
  obtain ⟨rfl, hr, hh0, hd⟩ := h
  rw [sp_circ]
  unfold direction
  rw [he]
  simp only [poleward, circ22, h2, Matrix.cons_val_zero, Matrix.cons_val_one, Matrix.cons_val]
  rw [div_eq_mul_inv, div_eq_mul_inv, div_eq_mul_inv]
  have : hh * (√hh)⁻¹ = √hh := by
    rw [← div_eq_mul_inv, div_eq_iff hs, hm]
  linear_combination (p 2 * e⁻¹) * this

/-- What `cosalpha` is when the velocity used is that of an observer at the place of the hit. -/
theorem cosalpha_eq {s : Spot} {ph : Vec} (h : Outside (s.g ph) tt rr hh pp tp) (h1 : s.getVelocity ph 1 = 0)
    (h2 : s.getVelocity ph 2 = 0) (hu : scalarProd (s.g ph) (s.getVelocity ph) (s.getVelocity ph) = -1)
    (hp : scalarProd (s.g ph) p p = 0) (he : scalarProd (s.g ph) p (s.getVelocity ph) ≠ 0) :
    s.cosalpha ph p = .ok |scalarProd (s.g ph) (direction (s.g ph) (s.getVelocity ph) p) (poleward (s.g ph))| ∧
      |scalarProd (s.g ph) (direction (s.g ph) (s.getVelocity ph) p) (poleward (s.g ph))| ≤ 1 := by
  have hle := energy_ge h h1 h2 hu hp
  have h22 : s.g ph 2 2 = hh := by rw [h.eq]; rfl
  rw [cos_poleward h h2]
  unfold Spot.cosalpha
  rw [h22]
  generalize scalarProd (s.g ph) p (s.getVelocity ph) = e at *
  have ea : 0 < |e| := abs_pos.2 he
  have e1 : |√hh * p 2 / -e| = 1 / |e| * √hh * |p 2| := by
    rw [abs_div, abs_mul, abs_neg, abs_of_nonneg (Real.sqrt_nonneg hh)]
    ring
  have e2 : 1 / |e| * √hh * |p 2| ≤ 1 := by
    rw [mul_assoc, div_mul_eq_mul_div, one_mul, div_le_one ea]
    apply abs_le_of_sq_le_sq' _ ea.le |>.2
    rw [mul_pow, Real.sq_sqrt h.hh.le, sq_abs, sq_abs]
    exact hle
  have e3 : 0 ≤ 1 / |e| * √hh * |p 2| := by positivity
  rw [e1]
  refine ⟨?_, e2⟩
  simp only
  rw [if_neg ea.ne', if_neg (not_lt.2 h.hh.le), abs_of_nonneg e3, if_neg (not_lt.2 e2)]

/-- The distance of a hit to the spot. -/
theorem d2_dist {s : Spot} (hk : s.kind = .spherical) (obj : Vec) (hθ : s.track (obj 0) 1 = Real.pi / 2) :
    s.d2 obj = planeDist (obj 1) (obj 3) (s.track (obj 0) 0) (s.track (obj 0) 2) ^ 2 := by
  unfold planeDist
  rw [Real.sq_sqrt (by positivity)]
  simp only [Spot.d2, hk, StarTrace.cart, Spot.centre, Matrix.cons_val_one, Matrix.cons_val_zero, Matrix.cons_val, hθ, Real.sin_pi_div_two]
  ring

theorem planeDist_nonneg (a b c d : ℝ) : 0 ≤ planeDist a b c d := Real.sqrt_nonneg _

/-- The test of `emission` is on the distance. -/
theorem near_iff {s : Spot} (hk : s.kind = .spherical) (obj : Vec) (hθ : s.track (obj 0) 1 = Real.pi / 2) :
    s.d2 obj < 16 * (s.size * s.size) ↔
      planeDist (obj 1) (obj 3) (s.track (obj 0) 0) (s.track (obj 0) 2) < 4 * |s.size| := by
  rw [d2_dist hk obj hθ, show 16 * (s.size * s.size) = (4 * |s.size|) ^ 2 by rw [mul_pow, sq_abs]; ring]
  exact sq_lt_sq₀ (planeDist_nonneg _ _ _ _) (by positivity)

/-- Kerr's metric in the equatorial plane, outside the horizon. -/
theorem kerr_outside {a : ℝ} {pos : Vec} (hr : 0 < pos 1) (hd : 0 < pos 1 * pos 1 - 2 * pos 1 + a * a) (hθ : pos 2 = Real.pi / 2) :
    Outside (gmunu a pos) (-1 + 2 / pos 1) (pos 1 ^ 2 / (pos 1 * pos 1 - 2 * pos 1 + a * a)) (pos 1 ^ 2)
      (pos 1 ^ 2 + a ^ 2 + 2 * a ^ 2 / pos 1) (-2 * a / pos 1) := by
  have h0 : pos 1 ≠ 0 := hr.ne'
  refine ⟨?_, by positivity, by positivity, ?_⟩
  · unfold gmunu
    simp only [hθ, Real.sin_pi_div_two, Real.cos_pi_div_two, mul_zero, mul_one, add_zero]
    congr 1 <;> field_simp
  · have : (-1 + 2 / pos 1) * (pos 1 ^ 2 + a ^ 2 + 2 * a ^ 2 / pos 1) - (-2 * a / pos 1) ^ 2 =
        -(pos 1 * pos 1 - 2 * pos 1 + a * a) := by
      field_simp
      ring
    rw [this]
    linarith

end Gyoto.HotSpot
