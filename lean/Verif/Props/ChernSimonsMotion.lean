import Verif.Props.ChernSimons
import Verif.Spec.EulerLagrange

/-!
# Motion in the Chern-Simons metric
-/

namespace Gyoto.ChernSimons

open Gyoto.MetricAlg Gyoto.Spacetime Gyoto.KerrBL Gyoto.Orbits Gyoto.Order2 Asymptotics Topology Filter

/-! The derivatives of the metric to the second order in the spin. -/

theorem rep_tt_r (r θ : ℝ) : Rep (fun a => tt_r a r θ) (-2 / r ^ 2) 0 (6 * Real.cos θ ^ 2 / r ^ 4) :=
  (rep_poly _ 0 _).congr fun a => by unfold tt_r; ring
theorem rep_tt_θ (r θ : ℝ) : Rep (fun a => tt_θ a r θ) 0 0 (4 * Real.cos θ * Real.sin θ / r ^ 3) :=
  (rep_poly 0 0 _).congr fun a => by unfold tt_θ; ring
theorem rep_rr_r (r θ : ℝ) : Rep (fun a => rr_r a r θ) (-2 / (r - 2) ^ 2) 0
    (-Real.cos θ ^ 2 * (2 * r - 2) / (r ^ 2 * (r - 2) ^ 2) + 2 / (r - 2) ^ 3) :=
  (rep_poly _ 0 _).congr fun a => by unfold rr_r; ring
theorem rep_rr_θ (r θ : ℝ) : Rep (fun a => rr_θ a r θ) 0 0 (-2 * Real.cos θ * Real.sin θ / (r * (r - 2))) :=
  (rep_poly 0 0 _).congr fun a => by unfold rr_θ; ring
theorem rep_hh_r (r θ : ℝ) : Rep (fun a => hh_r a r θ) (2 * r) 0 0 := rep_const _
theorem rep_hh_θ (r θ : ℝ) : Rep (fun a => hh_θ a r θ) 0 0 (-2 * Real.cos θ * Real.sin θ) :=
  (rep_poly 0 0 _).congr fun a => by unfold hh_θ; ring
theorem rep_pp_r (r θ : ℝ) : Rep (fun a => pp_r a r θ) (2 * r * Real.sin θ ^ 2) 0 (-2 * Real.sin θ ^ 4 / r ^ 2) :=
  (rep_poly _ 0 _).congr fun a => by unfold pp_r; ring
theorem rep_pp_θ (r θ : ℝ) : Rep (fun a => pp_θ a r θ) (2 * Real.sin θ * Real.cos θ * r ^ 2) 0
    (2 * Real.sin θ * Real.cos θ + 8 * Real.sin θ ^ 3 * Real.cos θ / r) :=
  (rep_poly _ 0 _).congr fun a => by unfold pp_θ; ring
theorem rep_tp_r (z r θ : ℝ) : Rep (fun a => tp_r a z r θ) 0 (tp_r 1 z r θ) 0 :=
  (rep_poly 0 (tp_r 1 z r θ) 0).congr fun a => by unfold tp_r; ring
theorem rep_tp_θ (z r θ : ℝ) : Rep (fun a => tp_θ a z r θ) 0 (tp_θ 1 z r θ) 0 :=
  (rep_poly 0 (tp_θ 1 z r θ) 0).congr fun a => by unfold tp_θ; ring

/-! The velocity of the momentum `(-E, pr, pθ, L)`. -/

noncomputable def vt (a z r θ E L : ℝ) : ℝ :=
  (pp a r θ * -E - tp a z r θ * L) / (tt a r θ * pp a r θ - tp a z r θ * tp a z r θ)
noncomputable def vφ (a z r θ E L : ℝ) : ℝ :=
  (tt a r θ * L - tp a z r θ * -E) / (tt a r θ * pp a r θ - tp a z r θ * tp a z r θ)

section
variable {r θ z E L q : ℝ}

theorem rep_det (h0 : r ≠ 0) : Rep (fun a => tt a r θ * pp a r θ - tp a z r θ * tp a z r θ)
    (-(r * (r - 2) * Real.sin θ ^ 2)) 0
    (-(1 - 2 / r) * (Real.sin θ ^ 2 * (1 + 2 / r * Real.sin θ ^ 2)) - 2 / r * Real.cos θ ^ 2 * Real.sin θ ^ 2 - tp 1 z r θ ^ 2) :=
  (((rep_tt r θ).mul (rep_pp r θ)).sub ((rep_tp z r θ).mul (rep_tp z r θ))).of_eq (by field_simp; ring) (by ring) (by field_simp; ring)

theorem det0 (h0 : r ≠ 0) (h2 : r ≠ 2) (hs : Real.sin θ ≠ 0) : -(r * (r - 2) * Real.sin θ ^ 2) ≠ 0 :=
  neg_ne_zero.2 (mul_ne_zero (mul_ne_zero h0 (sub_ne_zero.2 h2)) (pow_ne_zero 2 hs))

/-- The polynomial of the Chern-Simons term. -/
noncomputable def csq (r : ℝ) : ℝ := 189 + 120 * r + 70 * r ^ 2

theorem tp1 (h0 : r ≠ 0) : tp 1 z r θ = (-2 / r + z * csq r / (112 * r ^ 6)) * Real.sin θ ^ 2 := by
  unfold tp csq; field_simp; ring

theorem rep_vt (h0 : r ≠ 0) (h2 : r ≠ 2) (hs : Real.sin θ ≠ 0) : Rep (fun a => vt a z r θ E L) (E * r / (r - 2))
    (L * (-2 / r + z * csq r / (112 * r ^ 6)) / (r * (r - 2)))
    (E * (1 + 2 / r * Real.sin θ ^ 2) / (r * (r - 2)) - E / (r - 2) ^ 2 * ((1 - 2 / r) * (1 + 2 / r * Real.sin θ ^ 2) +
      2 / r * Real.cos θ ^ 2 + (-2 / r + z * csq r / (112 * r ^ 6)) ^ 2 * Real.sin θ ^ 2)) := by
  have h2' : r - 2 ≠ 0 := sub_ne_zero.2 h2
  refine ((((rep_pp r θ).mul (rep_const (-E))).sub ((rep_tp z r θ).mul (rep_const L))).div (rep_det h0) (det0 h0 h2 hs)).of_eq ?_ ?_ ?_
  · field_simp; ring
  · rw [tp1 h0]
    generalize -2 / r + z * csq r / (112 * r ^ 6) = X
    field_simp; ring
  · rw [tp1 h0]
    generalize -2 / r + z * csq r / (112 * r ^ 6) = X
    field_simp; ring

theorem rep_vφ (h0 : r ≠ 0) (h2 : r ≠ 2) (hs : Real.sin θ ≠ 0) : Rep (fun a => vφ a z r θ E L) (L / (r ^ 2 * Real.sin θ ^ 2))
    (-E * (-2 / r + z * csq r / (112 * r ^ 6)) / (r * (r - 2)))
    (L * (2 / r ^ 3 * Real.cos θ ^ 2) / (r * (r - 2) * Real.sin θ ^ 2) - L / (r ^ 3 * (r - 2) * Real.sin θ ^ 2) *
      ((1 - 2 / r) * (1 + 2 / r * Real.sin θ ^ 2) +
      2 / r * Real.cos θ ^ 2 + (-2 / r + z * csq r / (112 * r ^ 6)) ^ 2 * Real.sin θ ^ 2)) := by
  have h2' : r - 2 ≠ 0 := sub_ne_zero.2 h2
  refine ((((rep_tt r θ).mul (rep_const L)).sub ((rep_tp z r θ).mul (rep_const (-E)))).div (rep_det h0) (det0 h0 h2 hs)).of_eq ?_ ?_ ?_
  · field_simp; ring
  · rw [tp1 h0]
    generalize -2 / r + z * csq r / (112 * r ^ 6) = X
    field_simp; ring
  · rw [tp1 h0]
    generalize -2 / r + z * csq r / (112 * r ^ 6) = X
    field_simp; ring

theorem rep_vr (h0 : r ≠ 0) (h2 : r ≠ 2) : Rep (fun a => q / rr a r θ) (q * (r - 2) / r) 0
    (q * (r - (r - 2) * Real.cos θ ^ 2) / r ^ 3) := by
  have h2' : r - 2 ≠ 0 := sub_ne_zero.2 h2
  have e : 1 - 2 / r = (r - 2) / r := by field_simp
  refine ((rep_const q).div (rep_rr r θ) (one_div_ne_zero (ff_ne h0 h2))).of_eq ?_ ?_ ?_
  · rw [e]; field_simp
  · ring
  · rw [e]; field_simp; ring

theorem rep_vθ (h0 : r ≠ 0) : Rep (fun a => q / hh a r θ) (q / r ^ 2) 0 (-q * Real.cos θ ^ 2 / r ^ 4) := by
  refine ((rep_const q).div (rep_hh r θ) (mul_ne_zero h0 h0)).of_eq ?_ ?_ ?_
  · field_simp
  · ring
  · field_simp; ring

end

/-! The right-hand side computed. -/

noncomputable def dx (a z : ℝ) (cst : Cst) (x p : Vec) : Vec :=
  let a2 := a * a
  let r := x 1
  let r2 := r * r
  let r3 := r2 * r
  let r4 := r2 * r2
  let ff := 1 - 2 / r
  let costheta2 := Real.cos (x 2) * Real.cos (x 2)
  let cotantheta := Real.cos (x 2) / Real.sin (x 2)
  let cotantheta2 := cotantheta * cotantheta
  ![1 / (2 * ff * r4) * (2 * (r * (-2 * a * cst.L + cst.E * r3 + a2 * cst.E * (2 + r)) + a2 * cst.E * (a2 + r * (-2 + r)) * costheta2))
      - 1 / (2 * ff * r4) * a2 / r2 * (costheta2 - 1 / ff) * (2 * (cst.E * r4))
      + 1 / (2 * ff * r4) * a * cst.L * (189 + 120 * r + 70 * r2) * z / (56 * r2 * r2),
    (ff + a2 / r2 * (1 - ff * costheta2)) * p 1,
    1 / r2 * (1 - a2 / r2 * costheta2) * p 2,
    -1 / (2 * ff * r4) * (-2 * (r * (2 * a * cst.E + cst.L * (-2 + r)) + cst.L * (a2 + r * (-2 + r)) * cotantheta2))
      + 1 / (2 * ff * r4) * a2 / r2 * (costheta2 - 1 / ff)
        * (-2 * (r * (2 * a * cst.E + cst.L * (-2 + r)) + cst.L * (r * (-2 + r)) * cotantheta2))
      + -1 / (2 * ff * r4) * a * cst.E * (189 + 120 * r + 70 * r2) * z / (56 * r2 * r2)]

noncomputable def dp (a z : ℝ) (cst : Cst) (x p : Vec) : Vec :=
  let a2 := a * a
  let r := x 1
  let r2 := r * r
  let r3 := r2 * r
  let r4 := r2 * r2
  let r5 := r4 * r
  let ff := 1 - 2 / r
  let costheta := Real.cos (x 2)
  let sintheta := Real.sin (x 2)
  let costheta2 := costheta * costheta
  let cotantheta := costheta / sintheta
  let cotantheta2 := cotantheta * cotantheta
  let cotantheta3 := cotantheta2 * cotantheta
  let sin2theta := 2 * sintheta * costheta
  let cos2theta := 2 * costheta2 - 1
  let pr := p 1
  let ptheta := p 2
  let a3 := a2 * a
  let E := cst.E
  let E2 := E * E
  let L := cst.L
  let L2 := L * L
  ![0,
    (-1 / r4 * (r * (r - a2) - a2 * (1 - r) * costheta2) + 2 * a2 * costheta2 / r4) * pr * pr
      + 1 / r3 * (1 - 2 * a2 / r2 * costheta2) * ptheta * ptheta
      + (1 / (r4 * r4 * ff * ff)
          * (costheta2 * a2 * E2 * r3 * (r - 4) - 2 * r3 * a * E * L * (4 - 3 * r) - r2 * a2 * (L2 + 2 * E2 * r * (r - 2))
            - r3 * (E2 * r3 - L2 * (r - 2) * (r - 2)) + L2 * cotantheta2 * r4 * r * ff * ff * (1 + 2 * a2 / (ff * r2)))
        - 2 * a2 / (r4 * r4 * r2 * ff * ff) * (costheta2 + 1 / ff)
          * (-r3 * (E2 * r3 - L2 * (r - 2) * (r - 2)) + L2 * cotantheta2 * r5 * ff * ff * (1 + 2 * a2 / (ff * r2))))
      + -a * E * L * z / (56 * r4 * r2 * (r - 2)) * (-1323 + 36 * r + 70 * r2 + 210 * r2 * r)
        / (r2 * (r - 2) + 2 * a2 * costheta2 * (r - 2) + 2 * a2 * r),
    -0.5 * (a2 * sin2theta * ff / r2) * pr * pr
      - 0.5 * (a2 * sin2theta * 1 / r4) * ptheta * ptheta
      + (1 / r4
          * (L2 * r2 * cotantheta + 0.5 * L2 * (a2 + 2 * r2 + a2 * cos2theta) * cotantheta3
            + a2 / (ff * r) * (L2 * (2 - r) + 2 * E2 * r2) * costheta * sintheta)
        - 2 * a2 * costheta2 / (r4 * r2) * (L2 * r2 * cotantheta + L2 * r2 * cotantheta3))
      + a3 * E * L * z * (189 + 120 * r + 70 * r2) * costheta * sintheta
        / (56 * r4 * r4 * (a2 + r * (r - 2) * (1 + 2 * a2 / r2 * costheta2))),
    0]

theorem rsink_le {a s : ℝ} (h : rsink a = some s) : s ≤ 2.2 := by
  unfold rsink at h
  split_ifs at h with h1
  injection h with h
  have : √(1 - a * a) ≤ 1 := Real.sqrt_le_one.2 (by nlinarith [mul_self_nonneg a])
  rw [← h]; linarith

theorem not_below {a r : ℝ} (hr : 2.2 ≤ r) : ¬ below r (rsink a) := by
  intro h
  cases e : rsink a with
  | none => rw [e] at h; exact h
  | some s => rw [e] at h; exact absurd (lt_of_lt_of_le (show r < s from h) (rsink_le e)) (not_lt.2 hr)

/-- Outside of `r = 2.2` and off the axis the right-hand side is written. -/
theorem diff_eq {a z : ℝ} {cst : Cst} {x p : Vec} (hr : 2.2 ≤ x 1) (hs : Real.sin (x 2) ≠ 0) :
    diff a z cst x p = .ok (dx a z cst x p) (dp a z cst x p) := by
  have hr0 : 0 < x 1 := lt_of_lt_of_le (by norm_num) hr
  have ha := mul_self_nonneg a
  have hSig : 0 < x 1 * x 1 + a * a * (Real.cos (x 2) * Real.cos (x 2)) := by
    have := mul_self_nonneg (Real.cos (x 2)); positivity
  have hDel : 0 < x 1 * x 1 - 2 * x 1 + a * a := by nlinarith
  unfold diff
  dsimp only
  rw [if_neg (not_lt.2 hr0.le), if_neg (not_below hr), if_neg hs, if_neg hSig.ne', if_neg (by positivity), if_neg hDel.ne', if_neg hSig.ne']
  rfl

section
variable {z : ℝ} {cst : Cst} {x p : Vec}

theorem rep_dx0 : Rep (fun a => dx a z cst x p 0)
    (2 * (1 / (2 * (1 - 2 / x 1) * x 1 ^ 4)) * cst.E * x 1 ^ 4)
    (1 / (2 * (1 - 2 / x 1) * x 1 ^ 4) * cst.L * (-4 * x 1 + csq (x 1) * z / (56 * x 1 ^ 4)))
    (2 * (1 / (2 * (1 - 2 / x 1) * x 1 ^ 4)) * cst.E * (x 1 * (2 + x 1) + x 1 * (x 1 - 2) * Real.cos (x 2) ^ 2) -
      2 * (1 / (2 * (1 - 2 / x 1) * x 1 ^ 4)) / x 1 ^ 2 * (Real.cos (x 2) ^ 2 - 1 / (1 - 2 / x 1)) * cst.E * x 1 ^ 4) := by
  refine (rep_cube _ _ _ (q := fun a => 2 * (1 / (2 * (1 - 2 / x 1) * x 1 ^ 4)) * cst.E * Real.cos (x 2) ^ 2 * a) (by fun_prop)).congr
    fun a => ?_
  simp only [dx, Matrix.cons_val, csq]
  ring

theorem rep_dx1 : Rep (fun a => dx a z cst x p 1) ((1 - 2 / x 1) * p 1) 0
    (1 / x 1 ^ 2 * (1 - (1 - 2 / x 1) * Real.cos (x 2) ^ 2) * p 1) := by
  refine (rep_poly _ 0 _).congr fun a => ?_
  simp only [dx, Matrix.cons_val]
  ring

theorem rep_dx2 : Rep (fun a => dx a z cst x p 2) (1 / x 1 ^ 2 * p 2) 0 (-1 / x 1 ^ 4 * Real.cos (x 2) ^ 2 * p 2) := by
  refine (rep_poly _ 0 _).congr fun a => ?_
  simp only [dx, Matrix.cons_val]
  ring

theorem rep_dx3 : Rep (fun a => dx a z cst x p 3)
    (2 * (1 / (2 * (1 - 2 / x 1) * x 1 ^ 4)) * cst.L * (x 1 * (x 1 - 2)) * (1 + (Real.cos (x 2) / Real.sin (x 2)) ^ 2))
    (1 / (2 * (1 - 2 / x 1) * x 1 ^ 4) * cst.E * (4 * x 1 - csq (x 1) * z / (56 * x 1 ^ 4)))
    (2 * (1 / (2 * (1 - 2 / x 1) * x 1 ^ 4)) * cst.L * (Real.cos (x 2) / Real.sin (x 2)) ^ 2 -
      2 * (1 / (2 * (1 - 2 / x 1) * x 1 ^ 4)) / x 1 ^ 2 * (Real.cos (x 2) ^ 2 - 1 / (1 - 2 / x 1)) * cst.L * (x 1 * (x 1 - 2)) *
        (1 + (Real.cos (x 2) / Real.sin (x 2)) ^ 2)) := by
  refine (rep_cube _ _ _ (q := fun a => -2 * (1 / (2 * (1 - 2 / x 1) * x 1 ^ 4)) / x 1 ^ 2 * (Real.cos (x 2) ^ 2 - 1 / (1 - 2 / x 1)) *
    (2 * x 1 * cst.E)) (by fun_prop)).congr fun a => ?_
  simp only [dx, Matrix.cons_val, csq]
  ring

/-- The part of the force that does not depend on the spin. -/
noncomputable def n0 (cst : Cst) (x : Vec) : ℝ :=
  -x 1 ^ 3 * (cst.E ^ 2 * x 1 ^ 3 - cst.L ^ 2 * (x 1 - 2) ^ 2) +
    cst.L ^ 2 * (Real.cos (x 2) / Real.sin (x 2)) ^ 2 * x 1 ^ 5 * (1 - 2 / x 1) ^ 2

theorem rep_dp1 (h0 : x 1 ≠ 0) (h2 : x 1 ≠ 2) : Rep (fun a => dp a z cst x p 1)
    (-(p 1) ^ 2 / x 1 ^ 2 + p 2 ^ 2 / x 1 ^ 3 + 1 / (x 1 ^ 8 * (1 - 2 / x 1) ^ 2) * n0 cst x)
    (-2 * (1 / (x 1 ^ 8 * (1 - 2 / x 1) ^ 2)) * x 1 ^ 3 * cst.E * cst.L * (4 - 3 * x 1) +
      -cst.E * cst.L * z / (56 * x 1 ^ 6 * (x 1 - 2)) * (-1323 + 36 * x 1 + 70 * x 1 ^ 2 + 210 * x 1 ^ 3) / (x 1 ^ 2 * (x 1 - 2)))
    (p 1 ^ 2 * (x 1 + (1 - x 1) * Real.cos (x 2) ^ 2 + 2 * Real.cos (x 2) ^ 2) / x 1 ^ 4 - 2 * Real.cos (x 2) ^ 2 * p 2 ^ 2 / x 1 ^ 5 +
      1 / (x 1 ^ 8 * (1 - 2 / x 1) ^ 2) * (Real.cos (x 2) ^ 2 * cst.E ^ 2 * x 1 ^ 3 * (x 1 - 4) -
        x 1 ^ 2 * (cst.L ^ 2 + 2 * cst.E ^ 2 * x 1 * (x 1 - 2)) +
        2 * cst.L ^ 2 * (Real.cos (x 2) / Real.sin (x 2)) ^ 2 * x 1 ^ 3 * (1 - 2 / x 1)) -
      2 * (1 / (x 1 ^ 8 * (1 - 2 / x 1) ^ 2)) / x 1 ^ 2 * (Real.cos (x 2) ^ 2 + 1 / (1 - 2 / x 1)) * n0 cst x) := by
  have h2' : x 1 - 2 ≠ 0 := sub_ne_zero.2 h2
  have hf := ff_ne h0 h2
  have hd : Rep (fun a => x 1 * x 1 * (x 1 - 2) + 2 * (a * a) * (Real.cos (x 2) * Real.cos (x 2)) * (x 1 - 2) + 2 * (a * a) * x 1)
      (x 1 ^ 2 * (x 1 - 2)) 0 (2 * Real.cos (x 2) ^ 2 * (x 1 - 2) + 2 * x 1) := (rep_poly _ 0 _).congr fun a => by ring
  have hn : Rep (fun a => -a * cst.E * cst.L * z / (56 * (x 1 * x 1 * (x 1 * x 1)) * (x 1 * x 1) * (x 1 - 2)) *
      (-1323 + 36 * x 1 + 70 * (x 1 * x 1) + 210 * (x 1 * x 1) * x 1)) 0
      (-cst.E * cst.L * z / (56 * x 1 ^ 6 * (x 1 - 2)) * (-1323 + 36 * x 1 + 70 * x 1 ^ 2 + 210 * x 1 ^ 3)) 0 :=
    (rep_poly 0 _ 0).congr fun a => by ring
  have hq := hn.div hd (mul_ne_zero (pow_ne_zero 2 h0) h2')
  have hp := rep_cube (-(p 1) ^ 2 / x 1 ^ 2 + p 2 ^ 2 / x 1 ^ 3 + 1 / (x 1 ^ 8 * (1 - 2 / x 1) ^ 2) * n0 cst x)
    (-2 * (1 / (x 1 ^ 8 * (1 - 2 / x 1) ^ 2)) * x 1 ^ 3 * cst.E * cst.L * (4 - 3 * x 1))
    (p 1 ^ 2 * (x 1 + (1 - x 1) * Real.cos (x 2) ^ 2 + 2 * Real.cos (x 2) ^ 2) / x 1 ^ 4 - 2 * Real.cos (x 2) ^ 2 * p 2 ^ 2 / x 1 ^ 5 +
      1 / (x 1 ^ 8 * (1 - 2 / x 1) ^ 2) * (Real.cos (x 2) ^ 2 * cst.E ^ 2 * x 1 ^ 3 * (x 1 - 4) -
        x 1 ^ 2 * (cst.L ^ 2 + 2 * cst.E ^ 2 * x 1 * (x 1 - 2)) +
        2 * cst.L ^ 2 * (Real.cos (x 2) / Real.sin (x 2)) ^ 2 * x 1 ^ 3 * (1 - 2 / x 1)) -
      2 * (1 / (x 1 ^ 8 * (1 - 2 / x 1) ^ 2)) / x 1 ^ 2 * (Real.cos (x 2) ^ 2 + 1 / (1 - 2 / x 1)) * n0 cst x)
    (q := fun a => -2 * (1 / (x 1 ^ 8 * (1 - 2 / x 1) ^ 2)) / x 1 ^ 2 * (Real.cos (x 2) ^ 2 + 1 / (1 - 2 / x 1)) *
      (2 * cst.L ^ 2 * (Real.cos (x 2) / Real.sin (x 2)) ^ 2 * x 1 ^ 3 * (1 - 2 / x 1)) * a) (by fun_prop)
  refine ((hp.add hq).of_eq ?_ ?_ ?_).congr fun a => ?_
  · simp
  · have : x 1 ^ 2 * (x 1 - 2) ≠ 0 := mul_ne_zero (pow_ne_zero 2 h0) h2'
    congr 1
    field_simp
    ring
  · simp
  · simp only [dp, Matrix.cons_val]
    congr 1
    unfold n0
    generalize Real.cos (x 2) / Real.sin (x 2) = ct
    generalize 1 - 2 / x 1 = f at *
    field_simp
    ring

theorem rep_dp2 (h0 : x 1 ≠ 0) (h2 : x 1 ≠ 2) : Rep (fun a => dp a z cst x p 2)
    (1 / x 1 ^ 2 * cst.L ^ 2 * (Real.cos (x 2) / Real.sin (x 2) + (Real.cos (x 2) / Real.sin (x 2)) ^ 3)) 0
    (-(Real.sin (x 2) * Real.cos (x 2) * (1 - 2 / x 1) / x 1 ^ 2) * p 1 ^ 2 - Real.sin (x 2) * Real.cos (x 2) / x 1 ^ 4 * p 2 ^ 2 +
      1 / x 1 ^ 4 * (cst.L ^ 2 * Real.cos (x 2) ^ 2 * (Real.cos (x 2) / Real.sin (x 2)) ^ 3 +
        1 / ((1 - 2 / x 1) * x 1) * (cst.L ^ 2 * (2 - x 1) + 2 * cst.E ^ 2 * x 1 ^ 2) * Real.cos (x 2) * Real.sin (x 2)) -
      2 * Real.cos (x 2) ^ 2 / x 1 ^ 4 * cst.L ^ 2 * (Real.cos (x 2) / Real.sin (x 2) + (Real.cos (x 2) / Real.sin (x 2)) ^ 3)) := by
  have h2' : x 1 - 2 ≠ 0 := sub_ne_zero.2 h2
  have hf := ff_ne h0 h2
  refine (rep_cube _ 0 _ (q := fun a => cst.E * cst.L * z * csq (x 1) * Real.cos (x 2) * Real.sin (x 2) /
    (56 * x 1 ^ 8 * (a * a + x 1 * (x 1 - 2) * (1 + 2 * (a * a) / x 1 ^ 2 * Real.cos (x 2) ^ 2)))) ?_).congr fun a => ?_
  · refine ContinuousAt.div₀ (by fun_prop) (by fun_prop) ?_
    simp [h0, h2']
  · simp only [dp, Matrix.cons_val, csq]
    refine congrArg₂ (· + ·) ?_ ?_
    · generalize Real.cos (x 2) / Real.sin (x 2) = ct
      generalize 1 - 2 / x 1 = f at *
      field_simp
      ring
    · rw [div_mul_eq_mul_div]
      congr 1 <;> ring
end

/-! The exact motion. -/

/-- The rate of change of the momentum that goes with the velocity `v`, for the derivatives of the metric `t r h q x`. -/
noncomputable def force (t r h q x : ℝ) (v : Vec) : ℝ := (t * v 0 ^ 2 + r * v 1 ^ 2 + h * v 2 ^ 2 + q * v 3 ^ 2 + 2 * x * v 0 * v 3) / 2

noncomputable def vel (a z : ℝ) (x p : Vec) : Vec :=
  ![vt a z (x 1) (x 2) (-p 0) (p 3), p 1 / rr a (x 1) (x 2), p 2 / hh a (x 1) (x 2), vφ a z (x 1) (x 2) (-p 0) (p 3)]

noncomputable def frc (a z : ℝ) (x p : Vec) : Vec :=
  ![0, force (tt_r a (x 1) (x 2)) (rr_r a (x 1) (x 2)) (hh_r a (x 1) (x 2)) (pp_r a (x 1) (x 2)) (tp_r a z (x 1) (x 2)) (vel a z x p),
    force (tt_θ a (x 1) (x 2)) (rr_θ a (x 1) (x 2)) (hh_θ a (x 1) (x 2)) (pp_θ a (x 1) (x 2)) (tp_θ a z (x 1) (x 2)) (vel a z x p), 0]

theorem lower_circ (t r h q x : ℝ) (v : Vec) : lower (circ t r h q x) v = ![t * v 0 + x * v 3, r * v 1, h * v 2, x * v 0 + q * v 3] := by
  funext i
  match i with
  | 0 => simp [lower, Fin.sum_univ_four]
  | 1 => simp [lower, Fin.sum_univ_four]
  | 2 => simp [lower, Fin.sum_univ_four]
  | 3 => simp [lower, Fin.sum_univ_four]

theorem circ_force (t r h q x : ℝ) (v : Vec) : (∑ μ, ∑ ν, circ t r h q x μ ν * v μ * v ν) / 2 = force t r h q x v := by
  simp [Fin.sum_univ_four, force]
  ring

theorem zero_force (v : Vec) : (∑ μ, ∑ ν, (0 : Tensor) μ ν * v μ * v ν) / 2 = 0 := by simp

theorem motion_iff {a z : ℝ} {x p v f : Vec} (h0 : x 1 ≠ 0) (h2 : x 1 ≠ 2)
    (hd : tt a (x 1) (x 2) * pp a (x 1) (x 2) - tp a z (x 1) (x 2) * tp a z (x 1) (x 2) ≠ 0) (hr : rr a (x 1) (x 2) ≠ 0)
    (hh' : hh a (x 1) (x 2) ≠ 0) : IsMotion (gmunu a z) x p v f ↔ v = vel a z x p ∧ f = frc a z x p := by
  have hP := partials (a := a) (z := z) h0 h2
  have hv : (∀ α, lower (gmunu a z x) v α = p α) ↔ v = vel a z x p := by
    rw [gmunu_eq, lower_circ]
    unfold vel vt vφ
    constructor
    · intro h
      have e0 : _ * v 0 + _ * v 3 = p 0 := h 0
      have e1 : _ * v 1 = p 1 := h 1
      have e2 : _ * v 2 = p 2 := h 2
      have e3 : _ * v 0 + _ * v 3 = p 3 := h 3
      funext i
      match i with
      | 0 => show v 0 = _ / _; rw [eq_div_iff hd, ← e0, ← e3]; ring
      | 1 => show v 1 = _ / _; rw [eq_div_iff hr, ← e1]; ring
      | 2 => show v 2 = _ / _; rw [eq_div_iff hh', ← e2]; ring
      | 3 => show v 3 = _ / _; rw [eq_div_iff hd, ← e0, ← e3]; ring
    · intro h α
      subst h
      match α with
      | 0 =>
        show _ * (_ / _) + _ * (_ / _) = _
        rw [← mul_div_assoc, ← mul_div_assoc, ← add_div, div_eq_iff hd]
        ring
      | 1 => exact mul_div_cancel₀ _ hr
      | 2 => exact mul_div_cancel₀ _ hh'
      | 3 =>
        show _ * (_ / _) + _ * (_ / _) = _
        rw [← mul_div_assoc, ← mul_div_assoc, ← add_div, div_eq_iff hd]
        ring
  unfold IsMotion
  rw [hv]
  refine and_congr_right fun ev => ?_
  constructor
  · rintro ⟨D, hD, hf⟩
    have eD : D = _ := funext fun μ => by ext α β; exact (hD μ α β).unique (hP μ α β)
    subst eD
    funext α
    rw [hf α, ev]
    match α with
    | 0 => exact zero_force _
    | 1 => exact circ_force _ _ _ _ _ _
    | 2 => exact circ_force _ _ _ _ _ _
    | 3 => exact zero_force _
  · intro e
    refine ⟨_, hP, fun α => ?_⟩
    rw [e, ev]
    match α with
    | 0 => exact (zero_force _).symm
    | 1 => exact (circ_force _ _ _ _ _ _).symm
    | 2 => exact (circ_force _ _ _ _ _ _).symm
    | 3 => exact (zero_force _).symm

/-- For a small spin the motion is determined by the momentum. -/
theorem motion_eventually (z : ℝ) {x : Vec} (h0 : x 1 ≠ 0) (h2 : x 1 ≠ 2) (hs : Real.sin (x 2) ≠ 0) :
    ∀ᶠ a in 𝓝 0, ∀ p v f, IsMotion (gmunu a z) x p v f ↔ v = vel a z x p ∧ f = frc a z x p := by
  have k1 := (rep_det (z := z) (θ := x 2) h0).tendsto.eventually_ne (det0 h0 h2 hs)
  have k2 := (rep_rr (x 1) (x 2)).tendsto.eventually_ne (one_div_ne_zero (ff_ne h0 h2))
  have k3 := (rep_hh (x 1) (x 2)).tendsto.eventually_ne (mul_ne_zero h0 h0)
  filter_upwards [k1, k2, k3] with a e1 e2 e3 p v f
  exact motion_iff h0 h2 e1 e2 e3

/-- C84. There is a motion for every momentum when the spin is small. -/
theorem motion_exists (z : ℝ) {x : Vec} (p : Vec) (h0 : x 1 ≠ 0) (h2 : x 1 ≠ 2) (hs : Real.sin (x 2) ≠ 0) :
    ∃ v f : ℝ → Vec, ∀ᶠ a in 𝓝 0, IsMotion (gmunu a z) x p (v a) (f a) :=
  ⟨fun a => vel a z x p, fun a => frc a z x p, (motion_eventually z h0 h2 hs).mono fun _ h => (h p _ _).2 ⟨rfl, rfl⟩⟩

theorem rep_force {t r h q y v0 v1 v2 v3 : ℝ → ℝ} {t0 t1 t2 r0 r1 r2 h0 h1 h2 q0 q1 q2 y0 y1 y2 a0 a1 a2 b0 b1 b2 c0 c1 c2 d0 d1 d2 : ℝ}
    (ht : Rep t t0 t1 t2) (hr : Rep r r0 r1 r2) (hh : Rep h h0 h1 h2) (hq : Rep q q0 q1 q2) (hy : Rep y y0 y1 y2)
    (k0 : Rep v0 a0 a1 a2) (k1 : Rep v1 b0 b1 b2) (k2 : Rep v2 c0 c1 c2) (k3 : Rep v3 d0 d1 d2) :
    Rep (fun a => force (t a) (r a) (h a) (q a) (y a) ![v0 a, v1 a, v2 a, v3 a])
      ((t0 * a0 ^ 2 + r0 * b0 ^ 2 + h0 * c0 ^ 2 + q0 * d0 ^ 2 + 2 * y0 * a0 * d0) / 2)
      ((t1 * a0 ^ 2 + 2 * t0 * a0 * a1 + r1 * b0 ^ 2 + 2 * r0 * b0 * b1 + h1 * c0 ^ 2 + 2 * h0 * c0 * c1 + q1 * d0 ^ 2 + 2 * q0 * d0 * d1 +
        2 * (y1 * a0 * d0 + y0 * a1 * d0 + y0 * a0 * d1)) / 2)
      ((t2 * a0 ^ 2 + 2 * t1 * a0 * a1 + t0 * (a1 ^ 2 + 2 * a0 * a2) + r2 * b0 ^ 2 + 2 * r1 * b0 * b1 + r0 * (b1 ^ 2 + 2 * b0 * b2) +
        h2 * c0 ^ 2 + 2 * h1 * c0 * c1 + h0 * (c1 ^ 2 + 2 * c0 * c2) + q2 * d0 ^ 2 + 2 * q1 * d0 * d1 + q0 * (d1 ^ 2 + 2 * d0 * d2) +
        2 * (y2 * a0 * d0 + y1 * (a1 * d0 + a0 * d1) + y0 * (a2 * d0 + a1 * d1 + a0 * d2))) / 2) := by
  refine (((((((ht.mul (k0.mul k0)).add (hr.mul (k1.mul k1))).add (hh.mul (k2.mul k2))).add (hq.mul (k3.mul k3))).add
    ((hy.mul (k0.mul k3)).mul (rep_const 2))).mul (rep_const (1 / 2))).of_eq ?_ ?_ ?_).congr fun a => ?_
  · ring
  · ring
  · ring
  · simp only [force, Matrix.cons_val]; ring

section
variable {z : ℝ} {cst : Cst} {x p : Vec}

/-- The radial force to the second order. -/
theorem rep_frc1 (h0 : x 1 ≠ 0) (h2 : x 1 ≠ 2) (hs : Real.sin (x 2) ≠ 0) (hE : p 0 = -cst.E) (hL : p 3 = cst.L) :
    ∃ c2, Rep (fun a => frc a z x p 1)
      (-(p 1) ^ 2 / x 1 ^ 2 + p 2 ^ 2 / x 1 ^ 3 + 1 / (x 1 ^ 8 * (1 - 2 / x 1) ^ 2) * n0 cst x)
      (-2 * (1 / (x 1 ^ 8 * (1 - 2 / x 1) ^ 2)) * x 1 ^ 3 * cst.E * cst.L * (4 - 3 * x 1) +
        -cst.E * cst.L * z / (56 * x 1 ^ 6 * (x 1 - 2)) * (-1323 + 36 * x 1 + 70 * x 1 ^ 2 + 210 * x 1 ^ 3) / (x 1 ^ 2 * (x 1 - 2)))
      c2 ∧ (z = 0 → c2 =
      (p 1 ^ 2 * (x 1 + (1 - x 1) * Real.cos (x 2) ^ 2 + 2 * Real.cos (x 2) ^ 2) / x 1 ^ 4 - 2 * Real.cos (x 2) ^ 2 * p 2 ^ 2 / x 1 ^ 5 +
      1 / (x 1 ^ 8 * (1 - 2 / x 1) ^ 2) * (Real.cos (x 2) ^ 2 * cst.E ^ 2 * x 1 ^ 3 * (x 1 - 4) -
        x 1 ^ 2 * (cst.L ^ 2 + 2 * cst.E ^ 2 * x 1 * (x 1 - 2)) +
        2 * cst.L ^ 2 * (Real.cos (x 2) / Real.sin (x 2)) ^ 2 * x 1 ^ 3 * (1 - 2 / x 1)) -
      2 * (1 / (x 1 ^ 8 * (1 - 2 / x 1) ^ 2)) / x 1 ^ 2 * (Real.cos (x 2) ^ 2 + 1 / (1 - 2 / x 1)) * n0 cst x)) := by
  have h2' : x 1 - 2 ≠ 0 := sub_ne_zero.2 h2
  have e : 1 - 2 / x 1 = (x 1 - 2) / x 1 := by field_simp
  have hc : Real.cos (x 2) ^ 2 = 1 - Real.sin (x 2) ^ 2 := Real.cos_sq' _
  have key := rep_force (rep_tt_r (x 1) (x 2)) (rep_rr_r (x 1) (x 2)) (rep_hh_r (x 1) (x 2)) (rep_pp_r (x 1) (x 2)) (rep_tp_r z (x 1) (x 2))
    (rep_vt (z := z) (E := - p 0) (L := p 3) h0 h2 hs) (rep_vr (θ := x 2) (q := p 1) h0 h2) (rep_vθ (θ := x 2) (q := p 2) h0)
    (rep_vφ (z := z) (E := - p 0) (L := p 3) h0 h2 hs)
  rw [hE, hL, neg_neg] at key
  refine ⟨_, Rep.congr (key.of_eq ?_ ?_ rfl) fun a => ?_, ?_⟩
  · clear key
    unfold n0
    simp only [div_pow, hc, e]
    generalize Real.sin (x 2) = s at *
    generalize x 1 = r at *
    clear hc
    field_simp
    ring
  · clear key
    unfold tp_r csq
    rw [e]
    generalize Real.sin (x 2) = s at *
    generalize x 1 = r at *
    clear hc
    field_simp
    ring
  · rw [← hL, show cst.E = -p 0 by rw [hE, neg_neg]]; rfl
  · clear key
    rintro rfl
    unfold tp_r csq n0
    simp only [div_pow, hc, e]
    generalize Real.sin (x 2) = s at *
    generalize x 1 = r at *
    clear hc
    field_simp
    ring

/-- The polar force to the second order. -/
theorem rep_frc2 (h0 : x 1 ≠ 0) (h2 : x 1 ≠ 2) (hs : Real.sin (x 2) ≠ 0) (hE : p 0 = -cst.E) (hL : p 3 = cst.L) :
    ∃ c2, Rep (fun a => frc a z x p 2)
      (1 / x 1 ^ 2 * cst.L ^ 2 * (Real.cos (x 2) / Real.sin (x 2) + (Real.cos (x 2) / Real.sin (x 2)) ^ 3)) 0 c2 ∧ (z = 0 → c2 =
    (-(Real.sin (x 2) * Real.cos (x 2) * (1 - 2 / x 1) / x 1 ^ 2) * p 1 ^ 2 - Real.sin (x 2) * Real.cos (x 2) / x 1 ^ 4 * p 2 ^ 2 +
      1 / x 1 ^ 4 * (cst.L ^ 2 * Real.cos (x 2) ^ 2 * (Real.cos (x 2) / Real.sin (x 2)) ^ 3 +
        1 / ((1 - 2 / x 1) * x 1) * (cst.L ^ 2 * (2 - x 1) + 2 * cst.E ^ 2 * x 1 ^ 2) * Real.cos (x 2) * Real.sin (x 2)) -
      2 * Real.cos (x 2) ^ 2 / x 1 ^ 4 * cst.L ^ 2 * (Real.cos (x 2) / Real.sin (x 2) + (Real.cos (x 2) / Real.sin (x 2)) ^ 3))) := by
  have h2' : x 1 - 2 ≠ 0 := sub_ne_zero.2 h2
  have e : 1 - 2 / x 1 = (x 1 - 2) / x 1 := by field_simp
  have hc : Real.cos (x 2) ^ 2 = 1 - Real.sin (x 2) ^ 2 := Real.cos_sq' _
  have hc3 : Real.cos (x 2) ^ 3 = Real.cos (x 2) * (1 - Real.sin (x 2) ^ 2) := by rw [← hc]; ring
  have key := rep_force (rep_tt_θ (x 1) (x 2)) (rep_rr_θ (x 1) (x 2)) (rep_hh_θ (x 1) (x 2)) (rep_pp_θ (x 1) (x 2)) (rep_tp_θ z (x 1) (x 2))
    (rep_vt (z := z) (E := - p 0) (L := p 3) h0 h2 hs) (rep_vr (θ := x 2) (q := p 1) h0 h2) (rep_vθ (θ := x 2) (q := p 2) h0)
    (rep_vφ (z := z) (E := - p 0) (L := p 3) h0 h2 hs)
  rw [hE, hL, neg_neg] at key
  refine ⟨_, Rep.congr (key.of_eq ?_ ?_ rfl) fun a => ?_, ?_⟩
  · clear key
    simp only [div_pow, hc3]
    clear hc3 hc
    generalize Real.sin (x 2) = s at *
    generalize x 1 = r at *
    field_simp
    ring
  · clear key
    unfold tp_θ csq
    clear hc3 hc
    generalize Real.sin (x 2) = s at *
    generalize x 1 = r at *
    field_simp
    ring
  · rw [← hL, show cst.E = -p 0 by rw [hE, neg_neg]]; rfl
  · clear key
    rintro rfl
    unfold tp_θ csq
    simp only [div_pow, hc3, hc, e]
    clear hc3 hc
    generalize Real.sin (x 2) = s at *
    generalize x 1 = r at *
    field_simp
    ring

theorem dx0_first (h0 : x 1 ≠ 0) (h2 : x 1 ≠ 2) (hs : Real.sin (x 2) ≠ 0) :
    (∃ c0 c1 c2 d2, Rep (fun a => dx a z cst x p 0) c0 c1 c2 ∧ Rep (fun a => vt a z (x 1) (x 2) cst.E cst.L) c0 c1 d2 ∧
      (z = 0 → c2 - d2 = 2 * cst.E / (x 1 - 2) ^ 2)) := by
  have h2' : x 1 - 2 ≠ 0 := sub_ne_zero.2 h2
  have e : 1 - 2 / x 1 = (x 1 - 2) / x 1 := by field_simp
  have hc : Real.cos (x 2) ^ 2 = 1 - Real.sin (x 2) ^ 2 := Real.cos_sq' _
  refine ⟨_, _, _, _, rep_dx0, (rep_vt h0 h2 hs).of_eq ?_ ?_ rfl, ?_⟩
  · rw [e]; field_simp
  · rw [e]; field_simp; ring
  · rintro rfl
    rw [hc, e]
    field_simp
    ring

theorem dx3_first (h0 : x 1 ≠ 0) (h2 : x 1 ≠ 2) (hs : Real.sin (x 2) ≠ 0) :
    (∃ c0 c1 c2 d2, Rep (fun a => dx a z cst x p 3) c0 c1 c2 ∧ Rep (fun a => vφ a z (x 1) (x 2) cst.E cst.L) c0 c1 d2 ∧
      (z = 0 → c2 - d2 = 2 * cst.L / (x 1 ^ 3 * (x 1 - 2) * Real.sin (x 2) ^ 2))) := by
  have h2' : x 1 - 2 ≠ 0 := sub_ne_zero.2 h2
  have e : 1 - 2 / x 1 = (x 1 - 2) / x 1 := by field_simp
  have hc : Real.cos (x 2) ^ 2 = 1 - Real.sin (x 2) ^ 2 := Real.cos_sq' _
  refine ⟨_, _, _, _, rep_dx3, (rep_vφ h0 h2 hs).of_eq ?_ ?_ rfl, ?_⟩
  · rw [div_pow, hc, e]; field_simp; ring
  · rw [e]; field_simp; ring
  · rintro rfl
    rw [div_pow, hc, e]
    field_simp
    ring

theorem dx1_second (h0 : x 1 ≠ 0) (h2 : x 1 ≠ 2) : (fun a => dx a z cst x p 1 - vel a z x p 1) =O[𝓝 0] fun a => a ^ 3 := by
  have e : 1 - 2 / x 1 = (x 1 - 2) / x 1 := by field_simp
  refine rep_dx1.agree ((rep_vr h0 h2).of_eq ?_ rfl ?_)
  · rw [e]; ring
  · rw [e]; field_simp

theorem dx2_second (h0 : x 1 ≠ 0) : (fun a => dx a z cst x p 2 - vel a z x p 2) =O[𝓝 0] fun a => a ^ 3 :=
  rep_dx2.agree ((rep_vθ h0).of_eq (by ring) rfl (by ring))

theorem cube_sq {f : ℝ → ℝ} (h : f =O[𝓝 0] fun a => a ^ 3) : f =O[𝓝 0] fun a => a ^ 2 := by
  have hf : Rep f 0 0 0 := by
    refine h.congr_left fun a => ?_
    ring
  have := hf.agree1 (rep_const 0)
  simpa using this

variable {v f : ℝ → Vec}

theorem of_motion (h0 : x 1 ≠ 0) (h2 : x 1 ≠ 2) (hs : Real.sin (x 2) ≠ 0)
    (hm : ∀ᶠ a in 𝓝 0, IsMotion (gmunu a z) x p (v a) (f a)) : ∀ᶠ a in 𝓝 0, v a = vel a z x p ∧ f a = frc a z x p := by
  filter_upwards [hm, motion_eventually z h0 h2 hs] with a e k
  exact (k _ _ _).1 e

theorem swap_v {μ : Fin 4} {n : ℕ} {g : ℝ → Vec} (hm : ∀ᶠ a in 𝓝 0, v a = vel a z x p ∧ f a = frc a z x p) :
    ((fun a => g a μ - v a μ) =O[𝓝 0] fun a => a ^ n) ↔ (fun a => g a μ - vel a z x p μ) =O[𝓝 0] fun a => a ^ n := by
  refine isBigO_congr ?_ EventuallyEq.rfl
  filter_upwards [hm] with a e
  rw [e.1]

theorem swap_f {μ : Fin 4} {n : ℕ} {g : ℝ → Vec} (hm : ∀ᶠ a in 𝓝 0, v a = vel a z x p ∧ f a = frc a z x p) :
    ((fun a => g a μ - f a μ) =O[𝓝 0] fun a => a ^ n) ↔ (fun a => g a μ - frc a z x p μ) =O[𝓝 0] fun a => a ^ n := by
  refine isBigO_congr ?_ EventuallyEq.rfl
  filter_upwards [hm] with a e
  rw [e.2]

/-- C84. `diff` gives the motion of the metric to the first order in the spin, for every coupling. -/
theorem diff_first (hr : 2.2 ≤ x 1) (hs : Real.sin (x 2) ≠ 0) (hE : p 0 = -cst.E) (hL : p 3 = cst.L)
    (hm : ∀ᶠ a in 𝓝 0, IsMotion (gmunu a z) x p (v a) (f a)) :
    ∃ X P : ℝ → Vec, (∀ a, diff a z cst x p = .ok (X a) (P a)) ∧
      ∀ μ, ((fun a => X a μ - v a μ) =O[𝓝 0] fun a => a ^ 2) ∧ ((fun a => P a μ - f a μ) =O[𝓝 0] fun a => a ^ 2) := by
  have h0 : x 1 ≠ 0 := (lt_of_lt_of_le (by norm_num) hr).ne'
  have h2 : x 1 ≠ 2 := (lt_of_lt_of_le (by norm_num) hr).ne'
  have hm' := of_motion h0 h2 hs hm
  have hE' : cst.E = -p 0 := by rw [hE, neg_neg]
  refine ⟨fun a => dx a z cst x p, fun a => dp a z cst x p, fun a => diff_eq hr hs, fun μ => ?_⟩
  rw [swap_v hm', swap_f hm']
  match μ with
  | 0 =>
    refine ⟨?_, ?_⟩
    · obtain ⟨c0, c1, c2, d2, k1, k2, -⟩ := dx0_first (z := z) (cst := cst) (p := p) h0 h2 hs
      rw [hE', ← hL] at k2
      exact k1.agree1 k2
    · simpa [dp, frc] using isBigO_zero (fun a : ℝ => a ^ 2) (𝓝 0)
  | 1 =>
    refine ⟨cube_sq (dx1_second h0 h2), ?_⟩
    obtain ⟨c2, k, -⟩ := rep_frc1 (z := z) h0 h2 hs hE hL
    exact (rep_dp1 h0 h2).agree1 k
  | 2 =>
    refine ⟨cube_sq (dx2_second h0), ?_⟩
    obtain ⟨c2, k, -⟩ := rep_frc2 (z := z) h0 h2 hs hE hL
    exact (rep_dp2 h0 h2).agree1 k
  | 3 =>
    refine ⟨?_, ?_⟩
    · obtain ⟨c0, c1, c2, d2, k1, k2, -⟩ := dx3_first (z := z) (cst := cst) (p := p) h0 h2 hs
      rw [hE', ← hL] at k2
      exact k1.agree1 k2
    · simpa [dp, frc] using isBigO_zero (fun a : ℝ => a ^ 2) (𝓝 0)

/-- C84. Without coupling, the momenta and the radial and polar velocities are those of the metric to the second order in the spin.
Missing: the date and the azimuth (`date_wrong`, `azimuth_wrong`). -/
theorem diff_second_partial (hr : 2.2 ≤ x 1) (hs : Real.sin (x 2) ≠ 0) (hE : p 0 = -cst.E) (hL : p 3 = cst.L)
    (hm : ∀ᶠ a in 𝓝 0, IsMotion (gmunu a 0) x p (v a) (f a)) :
    ∃ X P : ℝ → Vec, (∀ a, diff a 0 cst x p = .ok (X a) (P a)) ∧
      (∀ μ, μ = 1 ∨ μ = 2 → (fun a => X a μ - v a μ) =O[𝓝 0] fun a => a ^ 3) ∧
      ∀ μ, (fun a => P a μ - f a μ) =O[𝓝 0] fun a => a ^ 3 := by
  have h0 : x 1 ≠ 0 := (lt_of_lt_of_le (by norm_num) hr).ne'
  have h2 : x 1 ≠ 2 := (lt_of_lt_of_le (by norm_num) hr).ne'
  have hm' := of_motion h0 h2 hs hm
  refine ⟨fun a => dx a 0 cst x p, fun a => dp a 0 cst x p, fun a => diff_eq hr hs, fun μ h => ?_, fun μ => ?_⟩
  · rw [swap_v hm']
    rcases h with rfl | rfl
    · exact dx1_second h0 h2
    · exact dx2_second h0
  · rw [swap_f hm']
    match μ with
    | 0 => simpa [dp, frc] using isBigO_zero (fun a : ℝ => a ^ 3) (𝓝 0)
    | 1 =>
      obtain ⟨c2, k, e⟩ := rep_frc1 (z := 0) h0 h2 hs hE hL
      exact (rep_dp1 h0 h2).agree (k.of_eq rfl rfl (e rfl))
    | 2 =>
      obtain ⟨c2, k, e⟩ := rep_frc2 (z := 0) h0 h2 hs hE hL
      exact (rep_dp2 h0 h2).agree (k.of_eq rfl rfl (e rfl))
    | 3 => simpa [dp, frc] using isBigO_zero (fun a : ℝ => a ^ 3) (𝓝 0)

/-- C84. The date does not advance as in the metric to the second order in the spin, whatever the position and the (non-zero) energy. -/
theorem date_wrong (hr : 2.2 ≤ x 1) (hs : Real.sin (x 2) ≠ 0) (hE : p 0 = -cst.E) (hL : p 3 = cst.L) (hE0 : cst.E ≠ 0)
    (hm : ∀ᶠ a in 𝓝 0, IsMotion (gmunu a 0) x p (v a) (f a)) {X P : ℝ → Vec} (hX : ∀ a, diff a 0 cst x p = .ok (X a) (P a)) :
    ¬ (fun a => X a 0 - v a 0) =O[𝓝 0] fun a => a ^ 3 := by
  have h0 : x 1 ≠ 0 := (lt_of_lt_of_le (by norm_num) hr).ne'
  have h2 : x 1 ≠ 2 := (lt_of_lt_of_le (by norm_num) hr).ne'
  have hE' : cst.E = -p 0 := by rw [hE, neg_neg]
  have eX : X = fun a => dx a 0 cst x p := by
    funext a
    have := (hX a).symm.trans (diff_eq hr hs)
    injection this
  rw [swap_v (of_motion h0 h2 hs hm), eX]
  obtain ⟨c0, c1, c2, d2, k1, k2, e⟩ := dx0_first (z := 0) (cst := cst) (p := p) h0 h2 hs
  have k := k1.sub k2
  rw [sub_self, sub_self, e rfl] at k
  have := k.not_small (div_ne_zero (mul_ne_zero two_ne_zero hE0) (pow_ne_zero 2 (sub_ne_zero.2 h2)))
  rw [hE', ← hL] at this
  exact this

/-- C84. Nor does the azimuth, when the angular momentum is not zero. -/
theorem azimuth_wrong (hr : 2.2 ≤ x 1) (hs : Real.sin (x 2) ≠ 0) (hE : p 0 = -cst.E) (hL : p 3 = cst.L) (hL0 : cst.L ≠ 0)
    (hm : ∀ᶠ a in 𝓝 0, IsMotion (gmunu a 0) x p (v a) (f a)) {X P : ℝ → Vec} (hX : ∀ a, diff a 0 cst x p = .ok (X a) (P a)) :
    ¬ (fun a => X a 3 - v a 3) =O[𝓝 0] fun a => a ^ 3 := by
  have h0 : x 1 ≠ 0 := (lt_of_lt_of_le (by norm_num) hr).ne'
  have h2 : x 1 ≠ 2 := (lt_of_lt_of_le (by norm_num) hr).ne'
  have hE' : cst.E = -p 0 := by rw [hE, neg_neg]
  have eX : X = fun a => dx a 0 cst x p := by
    funext a
    have := (hX a).symm.trans (diff_eq hr hs)
    injection this
  rw [swap_v (of_motion h0 h2 hs hm), eX]
  obtain ⟨c0, c1, c2, d2, k1, k2, e⟩ := dx3_first (z := 0) (cst := cst) (p := p) h0 h2 hs
  have k := k1.sub k2
  rw [sub_self, sub_self, e rfl] at k
  have := k.not_small (div_ne_zero (mul_ne_zero two_ne_zero hL0)
    (mul_ne_zero (mul_ne_zero (pow_ne_zero 3 h0) (sub_ne_zero.2 h2)) (pow_ne_zero 2 hs)))
  rw [hE', ← hL] at this
  exact this

/-- C84. When the integration stops. -/
theorem diff_stop {a : ℝ} (h : diff a z cst x p = .stop) : 0 ≤ x 1 ∧ x 1 < 1 + √(1 - a ^ 2) + 0.2 ∧ |a| ≤ 1 := by
  unfold diff at h
  dsimp only at h
  by_cases h1 : x 1 < 0
  · rw [if_pos h1] at h; cases h
  rw [if_neg h1] at h
  by_cases hb : below (x 1) (rsink a)
  · by_cases ha : 1 - a * a < 0
    · rw [rsink, if_pos ha] at hb; exact hb.elim
    · rw [rsink, if_neg ha] at hb
      refine ⟨not_lt.1 h1, by rw [sq]; exact hb, ?_⟩
      rw [← sq_le_one_iff_abs_le_one]; nlinarith
  · rw [if_neg hb] at h
    split_ifs at h

/-- C84. At a distance a geodesic that crosses the equatorial plane, and the motion of that momentum. -/
example : ∃ v f : ℝ → Vec, (∀ᶠ a in 𝓝 0, IsMotion (gmunu a 0) ![0, 10, Real.pi / 2, 0] ![-1, 0, 1, 4] (v a) (f a)) ∧
    ∃ X P : ℝ → Vec, (∀ a, diff a 0 ⟨0, 1, 4, 0, 0⟩ ![0, 10, Real.pi / 2, 0] ![-1, 0, 1, 4] = .ok (X a) (P a)) ∧
      ¬ (fun a => X a 0 - v a 0) =O[𝓝 0] fun a => a ^ 3 := by
  have hs : Real.sin ((![0, 10, Real.pi / 2, 0] : Vec) 2) ≠ 0 := by simp
  obtain ⟨v, f, hm⟩ := motion_exists 0 (x := ![0, 10, Real.pi / 2, 0]) ![-1, 0, 1, 4] (by simp) (by norm_num) hs
  have hr : (2.2 : ℝ) ≤ (![0, 10, Real.pi / 2, 0] : Vec) 1 := by simp; norm_num
  obtain ⟨X, P, hX, -⟩ := diff_first (cst := ⟨0, 1, 4, 0, 0⟩) hr hs rfl rfl hm
  exact ⟨v, f, hm, X, P, hX, date_wrong hr hs rfl rfl one_ne_zero hm hX⟩

end

end Gyoto.ChernSimons
