import Verif.Lemmas.PolarSpot
import Verif.Props.ThermalSynch
import Verif.Props.HotSpot
import Verif.Props.StokesStep

/-!
# C117: the angle of light with the magnetic field and the polarised equatorial hot spot
-/

namespace Gyoto.HotSpot

open Gyoto.MetricAlg Gyoto.KerrBL Gyoto.Spacetime
open Gyoto.Transfer (Out)
open Gyoto.Synch (Thermal Bessel ThermalCall bind)
open Gyoto.Orbits

variable {g : Tensor} {u p B : Vec} {tt rr hh pp tp : ℝ}

/-- **C117.** For an observer, future light and a field that is not along the 4-velocity, `get_theta_mag` gives the angle between the direction
of the light and the spatial part of the field in the frame of the observer: no number outside of the domain of the arc cosine is met. -/
theorem angle_ok (h : LorentzianAlong g u) (hu : scalarProd g u u = -1) (hp : scalarProd g p p = 0) (hE : scalarProd g p u < 0)
    (hB : restPart g u B ≠ 0) :
    ∃ θ, thetaMag g B p u = .ok θ ∧ IsAngle g u p B θ ∧ ∀ θ', IsAngle g u p B θ' → θ' = θ := by
  rw [scalarProd_eq] at hu hp hE
  obtain ⟨e, hle⟩ := thetaMag_eq h hu hp hE hB
  have hbb : 0 < sp g (restPart g u B) (restPart g u B) := h.2.2 _ hB (by rw [sp_comm h.1, rest_u hu])
  have hs := (Real.sqrt_pos.2 hbb).ne'
  obtain ⟨h1, h2⟩ := abs_le.1 hle
  refine ⟨_, e, ⟨Real.arccos_nonneg _, Real.arccos_le_pi _, ?_⟩, fun θ' h' => ?_⟩
  · rw [Real.cos_arccos h1 h2, scalarProd_eq, scalarProd_eq, div_mul_cancel₀ _ hs]
  · obtain ⟨a, b, c⟩ := h'
    rw [scalarProd_eq, scalarProd_eq] at c
    rw [← c, mul_div_cancel_right₀ _ hs, Real.arccos_cos a b]

/-- **C117.** The angle does not depend on the strength of the field, on its part along the 4-velocity, nor on the energy of the light. -/
theorem angle_gauge (h : LorentzianAlong g u) (hu : scalarProd g u u = -1) (hp : scalarProd g p p = 0) (hE : scalarProd g p u < 0)
    (hB : restPart g u B ≠ 0) {k m : ℝ} (hk : 0 < k) (hm : 0 < m) (c : ℝ) :
    thetaMag g (k • B + c • u) (m • p) u = thetaMag g B p u := by
  obtain ⟨θ, e, ⟨a1, a2, a3⟩, -⟩ := angle_ok h hu hp hE hB
  have hr : restPart g u (k • B + c • u) = k • restPart g u B := by
    rw [rest_along (by rw [← scalarProd_eq]; exact hu), rest_smul]
  have hd : Spacetime.direction g u (m • p) = Spacetime.direction g u p := by
    funext i
    simp only [Spacetime.direction, scalarProd_eq, sp_smul_left, Pi.smul_apply, smul_eq_mul]
    rw [← mul_neg, mul_div_mul_left _ _ hm.ne']
  have hB' : restPart g u (k • B + c • u) ≠ 0 := by
    rw [hr]; exact smul_ne_zero hk.ne' hB
  obtain ⟨θ', e', -, uniq⟩ := angle_ok (p := m • p) h hu (by rw [scalarProd_eq, sp_smul_left, sp_smul_right, ← scalarProd_eq, hp]; ring)
    (by rw [scalarProd_eq, sp_smul_left, ← scalarProd_eq]; exact mul_neg_of_pos_of_neg hm hE) hB'
  rw [e, e', uniq θ ⟨a1, a2, ?_⟩]
  rw [hr, hd]
  simp only [scalarProd_eq, sp_smul_left, sp_smul_right] at a3 ⊢
  rw [← mul_assoc, Real.sqrt_mul (mul_self_nonneg k), Real.sqrt_mul_self hk.le, ← a3]
  ring

/-- **C117.** Reversing the field turns the angle into its supplement. -/
theorem angle_reversed (h : LorentzianAlong g u) (hu : scalarProd g u u = -1) (hp : scalarProd g p p = 0) (hE : scalarProd g p u < 0)
    (hB : restPart g u B ≠ 0) {θ : ℝ} (e : thetaMag g B p u = .ok θ) : thetaMag g (-B) p u = .ok (Real.pi - θ) := by
  obtain ⟨θ1, e1, ⟨a1, a2, a3⟩, -⟩ := angle_ok h hu hp hE hB
  obtain rfl : θ1 = θ := by rw [e1] at e; exact Out.ok.inj e
  have hr : restPart g u (-B) = -restPart g u B := by
    rw [← neg_one_smul ℝ B, rest_smul, neg_one_smul]
  obtain ⟨θ', e', -, uniq⟩ := angle_ok (B := -B) h hu hp hE (by rw [hr]; exact neg_ne_zero.2 hB)
  rw [e', uniq (Real.pi - θ1) ⟨by linarith, by linarith, ?_⟩]
  rw [hr, ← neg_one_smul ℝ (restPart g u B), Real.cos_pi_sub]
  simp only [scalarProd_eq, sp_smul_left, sp_smul_right] at a3 ⊢
  rw [show -1 * (-1 * sp g (restPart g u B) (restPart g u B)) = sp g (restPart g u B) (restPart g u B) by ring, ← a3]
  ring

/-- **C117.** Only the direction of the 4-velocity counts: the angle is the same for a velocity that is not normalised. -/
theorem angle_any_speed (g : Tensor) (B p : Vec) {u : Vec} (hu : scalarProd g u u ≠ 0) {k : ℝ} (hk : k ≠ 0) :
    thetaMag g B p (k • u) = thetaMag g B p u := by
  rw [scalarProd_eq] at hu
  have e : ∀ w, project g w (k • u) = project g w u := by
    intro w
    rw [project_eq w hu, project_eq w (by rw [sp_smul_left, sp_smul_right]; exact mul_ne_zero hk (mul_ne_zero hk hu))]
    rw [sp_smul_left, sp_smul_left, sp_smul_right, smul_smul]
    congr 3
    field_simp
  unfold thetaMag
  rw [e, e]

/-- **C117.** A field along the 4-velocity gives no angle. -/
theorem angle_ub (h : LorentzianAlong g u) (hu : scalarProd g u u = -1) (hB : restPart g u B = 0) : thetaMag g B p u = .ub := by
  rw [scalarProd_eq] at hu
  have z : MetricAlg.norm g (0 : Vec) = 0 := by
    rw [norm_zero_iff]; simpa using sp_smul_right g 0 0 0
  unfold thetaMag
  simp only [project_rest h.1 hu, hB, z, mul_zero, if_true]

/-! ### The fields -/

/-- A unit vector orthogonal to the observer. -/
theorem angle_unit (h : LorentzianAlong g u) (hu : scalarProd g u u = -1) (hp : scalarProd g p p = 0) (hE : scalarProd g p u < 0)
    {n : Vec} (hn : scalarProd g n n = 1) (hnu : scalarProd g n u = 0) {k c : ℝ} (hk : 0 < k) :
    ∃ θ, thetaMag g (k • n + c • u) p u = .ok θ ∧ 0 ≤ θ ∧ θ ≤ Real.pi ∧ Real.cos θ = scalarProd g (Spacetime.direction g u p) n := by
  have hr : restPart g u n = n := rest_of_orth (by rw [← scalarProd_eq]; exact hnu)
  have hne : restPart g u n ≠ 0 := by
    rw [hr]; rintro rfl
    rw [scalarProd_eq, show sp g (0 : Vec) 0 = 0 by simpa using sp_smul_right g 0 0 0] at hn
    norm_num at hn
  have hg := angle_gauge h hu hp hE hne hk one_pos c
  rw [one_smul] at hg
  obtain ⟨θ, e, ⟨a1, a2, a3⟩, -⟩ := angle_ok h hu hp hE hne
  refine ⟨θ, by rw [hg, e], a1, a2, ?_⟩
  rw [hr, hn, Real.sqrt_one, mul_one] at a3
  exact a3

theorem smul_of_multiply (v : Vec) (k : ℝ) : multiply v k = k • v := by
  funext i; simp [multiply, mul_comm]

/-- **C117.** The field that the coefficients are computed with is normalised. -/
theorem field_unit {cfg : String} {B : Vec} (hB : field cfg g u = .ok B) : scalarProd g B B = 1 := by
  unfold field at hB
  rcases hv : rawField cfg g u with v | _ | _
  · rw [hv] at hB
    simp only [Synch.bind] at hB
    split at hB
    · simp at hB
    · rename_i hn
      rw [not_le] at hn
      rw [← Out.ok.inj hB, smul_of_multiply, scalarProd_eq, sp_smul_left, sp_smul_right]
      rw [scalarProd_eq] at hn ⊢
      have hs := (Real.sqrt_pos.2 hn).ne'
      have hm := Real.sq_sqrt hn.le
      field_simp
      exact hm.symm
  · rw [hv] at hB; simp [Synch.bind] at hB
  · rw [hv] at hB; simp [Synch.bind] at hB

/-- **C117.** "Vertical": the angle with the normal to the plane, on the side of the north. -/
theorem vertical_angle (h : Outside g tt rr hh pp tp) (h1 : u 1 = 0) (h2 : u 2 = 0) (hu : scalarProd g u u = -1)
    (hp : scalarProd g p p = 0) (hE : scalarProd g p u < 0) :
    ∃ B θ, field "Vertical" g u = .ok B ∧ scalarProd g B B = 1 ∧ scalarProd g B u = 0 ∧ thetaMag g B p u = .ok θ ∧
      0 ≤ θ ∧ θ ≤ Real.pi ∧ Real.cos θ = -scalarProd g (Spacetime.direction g u p) (poleward g) := by
  have hL := h.lorentzian h1 h2 hu
  have hs := Real.sqrt_pos.2 h.hh
  have hm := Real.mul_self_sqrt h.hh.le
  have h22 : g 2 2 = hh := by rw [h.eq]; exact circ22 _ _ _ _ _
  have hB : field "Vertical" g u = .ok (-poleward g) := by
    have e0 : scalarProd g ![0, 0, -1, 0] ![0, 0, -1, 0] = hh := by
      rw [h.eq, sp_circ]; simp
    unfold field rawField
    rw [if_neg (by decide), if_pos rfl]
    simp only [Synch.bind, e0]
    rw [if_neg (not_le.2 h.hh)]
    congr 1
    funext i
    fin_cases i <;> simp [multiply, poleward, h22]
  have n1 : scalarProd g (-poleward g) (-poleward g) = 1 := by
    have : hh * (√hh)⁻¹ * (√hh)⁻¹ = 1 := by
      rw [mul_assoc, ← mul_inv, hm]; exact mul_inv_cancel₀ h.hh.ne'
    rw [h.eq, sp_circ]
    simp only [poleward, circ22]
    simpa using this
  have nu : scalarProd g (-poleward g) u = 0 := by
    rw [h.eq, sp_circ]
    simp [poleward, h2]
  obtain ⟨θ, e, b1, b2, b3⟩ := angle_unit (c := 0) hL hu hp hE n1 nu one_pos
  rw [one_smul, zero_smul, add_zero] at e
  refine ⟨_, θ, hB, n1, nu, e, b1, b2, ?_⟩
  rw [b3, ← neg_one_smul ℝ (poleward g), scalarProd_eq, sp_smul_right, ← scalarProd_eq]
  ring

/-- **C117.** "Radial": the angle with the direction away from the centre. -/
theorem radial_angle (h : Outside g tt rr hh pp tp) (h1 : u 1 = 0) (h2 : u 2 = 0) (hu : scalarProd g u u = -1)
    (hp : scalarProd g p p = 0) (hE : scalarProd g p u < 0) :
    ∃ B θ, field "Radial" g u = .ok B ∧ scalarProd g B B = 1 ∧ scalarProd g B u = 0 ∧ thetaMag g B p u = .ok θ ∧
      0 ≤ θ ∧ θ ≤ Real.pi ∧ Real.cos θ = scalarProd g (Spacetime.direction g u p) (outward g) := by
  have hL := h.lorentzian h1 h2 hu
  have hs := Real.sqrt_pos.2 h.rr
  have hm := Real.mul_self_sqrt h.rr.le
  have h11 : g 1 1 = rr := by rw [h.eq]; exact circ11 _ _ _ _ _
  have hB : field "Radial" g u = .ok (outward g) := by
    have e0 : scalarProd g ![0, 1, 0, 0] ![0, 1, 0, 0] = rr := by
      rw [h.eq, sp_circ]; simp
    unfold field rawField
    rw [if_neg (by decide), if_neg (by decide), if_pos rfl]
    simp only [Synch.bind, e0]
    rw [if_neg (not_le.2 h.rr)]
    congr 1
    funext i
    fin_cases i <;> simp [multiply, outward, h11]
  have n1 : scalarProd g (outward g) (outward g) = 1 := by
    have : rr * (√rr)⁻¹ * (√rr)⁻¹ = 1 := by
      rw [mul_assoc, ← mul_inv, hm]; exact mul_inv_cancel₀ h.rr.ne'
    rw [h.eq, sp_circ]
    simp only [outward, circ11]
    simpa using this
  have nu : scalarProd g (outward g) u = 0 := by
    rw [h.eq, sp_circ]
    simp [outward, h1]
  obtain ⟨θ, e, b1, b2, b3⟩ := angle_unit (c := 0) hL hu hp hE n1 nu one_pos
  rw [one_smul, zero_smul, add_zero] at e
  exact ⟨_, θ, hB, n1, nu, e, b1, b2, b3⟩

/-- The azimuthal direction is a unit vector orthogonal to the observer. -/
theorem azimuthal_unit (h : Outside g tt rr hh pp tp) (h1 : u 1 = 0) (h2 : u 2 = 0) (hu : scalarProd g u u = -1) :
    scalarProd g (azimuthal g u) (azimuthal g u) = 1 ∧ scalarProd g (azimuthal g u) u = 0 := by
  have hD : 0 < tp ^ 2 - tt * pp := by have := h.det; linarith
  have hs := Real.sqrt_pos.2 hD
  have hm := Real.sq_sqrt hD.le
  obtain ⟨rfl, -, -, -⟩ := h
  rw [sp_circ] at hu
  rw [sp_circ, sp_circ]
  simp only [azimuthal, circ00, circ03, circ33]
  generalize √(tp ^ 2 - tt * pp) = d at *
  simp only [h1, h2, Matrix.cons_val_zero, Matrix.cons_val_one, Matrix.cons_val] at hu ⊢
  constructor
  · field_simp
    rw [hm]
    linear_combination (tt * pp - tp ^ 2) * hu
  · field_simp
    ring

/-- The toroidal field of the code, as a combination of the azimuthal direction and of the velocity. -/
theorem toroidal_parts (h : Outside g tt rr hh pp tp) (h1 : u 1 = 0) (h2 : u 2 = 0) (hu : scalarProd g u u = -1) (b : ℝ) :
    (![b, 0, 0, 1] : Vec) = (√(tp ^ 2 - tt * pp) * (u 0 - b * u 3)) • azimuthal g u +
      (-scalarProd g ![b, 0, 0, 1] u) • u := by
  have hD : 0 < tp ^ 2 - tt * pp := by have := h.det; linarith
  have hs := Real.sqrt_pos.2 hD
  obtain ⟨rfl, -, -, -⟩ := h
  rw [sp_circ] at hu
  rw [sp_circ]
  funext i
  simp only [azimuthal, circ00, circ03, circ33, Pi.add_apply, Pi.smul_apply, smul_eq_mul]
  generalize √(tp ^ 2 - tt * pp) = d at *
  simp only [h1, h2, Matrix.cons_val_zero, Matrix.cons_val_one, Matrix.cons_val] at hu ⊢
  fin_cases i
  · show b = d * (u 0 - b * u 3) * ((tp * u 0 + pp * u 3) / d) + _ * u 0
    rw [mul_right_comm, mul_div_cancel₀ _ hs.ne']
    linear_combination b * hu
  · show (0 : ℝ) = _ * 0 + _ * u 1
    rw [h1]; ring
  · show (0 : ℝ) = _ * 0 + _ * u 2
    rw [h2]; ring
  · show 1 = d * (u 0 - b * u 3) * (-(tt * u 0 + tp * u 3) / d) + _ * u 3
    rw [mul_right_comm, mul_div_cancel₀ _ hs.ne']
    linear_combination hu

theorem toroidal_field {B : Vec} (hB : field "Toroidal" g u = .ok B) :
    ∃ k : ℝ, 0 < k ∧ g 0 0 * u 0 ≠ 0 ∧ B = k • ![-g 3 3 * 1 * u 3 / (g 0 0 * u 0), 0, 0, 1] := by
  unfold field rawField at hB
  rw [if_neg (by decide), if_neg (by decide), if_neg (by decide), if_pos rfl] at hB
  by_cases h0 : g 0 0 * u 0 = 0
  · rw [if_pos h0] at hB
    simp [Synch.bind] at hB
  · rw [if_neg h0] at hB
    simp only [Synch.bind] at hB
    split at hB
    · simp at hB
    · rename_i hn
      rw [not_le] at hn
      refine ⟨_, one_div_pos.2 (Real.sqrt_pos.2 hn), h0, ?_⟩
      rw [← Out.ok.inj hB]
      funext i
      simp [multiply, mul_comm]

/-- **C117.** "Toroidal": where the field is one and the gas is slow enough, the angle with the direction of the rotation, though the field
given is not orthogonal to the velocity. -/
theorem toroidal_angle (h : Outside g tt rr hh pp tp) (h1 : u 1 = 0) (h2 : u 2 = 0) (hu : scalarProd g u u = -1) (h0 : 0 < u 0)
    (ht : tt < 0) (hslow : tt * u 0 ^ 2 + pp * u 3 ^ 2 < 0) (hp : scalarProd g p p = 0) (hE : scalarProd g p u < 0) {B : Vec}
    (hB : field "Toroidal" g u = .ok B) :
    ∃ θ, thetaMag g B p u = .ok θ ∧ 0 ≤ θ ∧ θ ≤ Real.pi ∧ Real.cos θ = scalarProd g (Spacetime.direction g u p) (azimuthal g u) := by
  obtain ⟨k, hk, -, rfl⟩ := toroidal_field hB
  have hD : 0 < tp ^ 2 - tt * pp := by have := h.det; linarith
  have g00 : g 0 0 = tt := by rw [h.eq]; exact circ00 _ _ _ _ _
  have g33 : g 3 3 = pp := by rw [h.eq]; exact circ33 _ _ _ _ _
  obtain ⟨n1, nu⟩ := azimuthal_unit h h1 h2 hu
  rw [toroidal_parts h h1 h2 hu, smul_add, smul_smul, smul_smul]
  refine angle_unit (h.lorentzian h1 h2 hu) hu hp hE n1 nu (mul_pos hk (mul_pos (Real.sqrt_pos.2 hD) ?_))
  rw [g00, g33]
  have e : u 0 - -pp * 1 * u 3 / (tt * u 0) * u 3 = (tt * u 0 ^ 2 + pp * u 3 ^ 2) / (tt * u 0) := by
    have := ht.ne; field_simp; ring
  rw [e]
  exact div_pos_of_neg_of_neg hslow (mul_neg_of_neg_of_pos ht h0)

/-- The square of the toroidal field. -/
theorem toroidal_square (h : Outside g tt rr hh pp tp) (b : ℝ) :
    scalarProd g ![b, 0, 0, 1] ![b, 0, 0, 1] = tt * b ^ 2 + 2 * tp * b + pp := by
  rw [h.eq, sp_circ]
  simp only [Matrix.cons_val_zero, Matrix.cons_val_one, Matrix.cons_val]
  ring

/-- **C117.** Around a centre that does not rotate, the toroidal field is one for every circular velocity, it is orthogonal to the velocity and the
angle is that with the direction of the rotation. -/
theorem toroidal_static (h : Outside g tt rr hh pp 0) (h1 : u 1 = 0) (h2 : u 2 = 0) (hu : scalarProd g u u = -1) (h0 : 0 < u 0)
    (ht : tt < 0) (hp : scalarProd g p p = 0) (hE : scalarProd g p u < 0) :
    ∃ B θ, field "Toroidal" g u = .ok B ∧ scalarProd g B B = 1 ∧ scalarProd g B u = 0 ∧ thetaMag g B p u = .ok θ ∧ 0 ≤ θ ∧ θ ≤ Real.pi ∧
      Real.cos θ = scalarProd g (Spacetime.direction g u p) (azimuthal g u) := by
  have g00 : g 0 0 = tt := by rw [h.eq]; exact circ00 _ _ _ _ _
  have g33 : g 3 3 = pp := by rw [h.eq]; exact circ33 _ _ _ _ _
  have hd := h.det
  have hpp : 0 < pp := by nlinarith
  have hu' := hu
  rw [h.eq, sp_circ, h1, h2] at hu'
  have hslow : tt * u 0 ^ 2 + pp * u 3 ^ 2 < 0 := by nlinarith
  have hsq : 0 < scalarProd g ![-g 3 3 * 1 * u 3 / (g 0 0 * u 0), 0, 0, 1] ![-g 3 3 * 1 * u 3 / (g 0 0 * u 0), 0, 0, 1] := by
    rw [toroidal_square h, g00, g33]
    have e : tt * (-pp * 1 * u 3 / (tt * u 0)) ^ 2 + 2 * 0 * (-pp * 1 * u 3 / (tt * u 0)) + pp =
        pp * (tt * u 0 ^ 2 + pp * u 3 ^ 2) / (tt * u 0 ^ 2) := by
      have := ht.ne; field_simp; ring
    rw [e]
    exact div_pos_of_neg_of_neg (mul_neg_of_pos_of_neg hpp hslow) (mul_neg_of_neg_of_pos ht (by positivity))
  obtain ⟨B, hB⟩ : ∃ B, field "Toroidal" g u = .ok B := by
    unfold field rawField
    rw [if_neg (by decide), if_neg (by decide), if_neg (by decide), if_pos rfl,
      if_neg (by rw [g00]; exact mul_ne_zero ht.ne h0.ne')]
    simp only [Synch.bind]
    rw [if_neg (not_le.2 hsq)]
    exact ⟨_, rfl⟩
  obtain ⟨θ, a1, a2, a3, a4⟩ := toroidal_angle h h1 h2 hu h0 ht hslow hp hE hB
  refine ⟨B, θ, hB, ?_, ?_, a1, a2, a3, a4⟩
  · exact field_unit hB
  · obtain ⟨k, hk, -, rfl⟩ := toroidal_field hB
    rw [scalarProd_eq, sp_smul_left, ← scalarProd_eq, g00, g33]
    refine mul_eq_zero_of_right k ?_
    rw [h.eq, sp_circ]
    simp only [Matrix.cons_val_zero, Matrix.cons_val_one, Matrix.cons_val]
    have := ht.ne
    field_simp
    ring

/-- A place close to a black hole that does not rotate, for the examples. -/
theorem at_rest_outside : Outside (gmunu 0 ![0, 8 / 3, Real.pi / 2, 0]) (-1 / 4) 4 (64 / 9) (64 / 9) 0 := by
  have h := kerr_outside (a := 0) (pos := ![0, 8 / 3, Real.pi / 2, 0]) (by simp) (by norm_num) rfl
  norm_num at h ⊢
  exact h

/-- Example: light that leaves a source at rest along the rotation is along the toroidal field and across the vertical and radial ones. -/
example : ∃ B θ, field "Toroidal" (gmunu 0 ![0, 8 / 3, Real.pi / 2, 0]) ![2, 0, 0, 0] = .ok B ∧
    thetaMag (gmunu 0 ![0, 8 / 3, Real.pi / 2, 0]) B ![2, 0, 0, 3 / 8] ![2, 0, 0, 0] = .ok θ ∧ Real.cos θ = 1 := by
  have h := at_rest_outside
  have hs : ∀ v w : Vec, scalarProd (gmunu 0 ![0, 8 / 3, Real.pi / 2, 0]) v w = -1 / 4 * v 0 * w 0 + 0 * (v 0 * w 3 + v 3 * w 0) +
      64 / 9 * v 3 * w 3 + 4 * v 1 * w 1 + 64 / 9 * v 2 * w 2 := fun v w => by rw [h.eq, sp_circ]
  obtain ⟨B, θ, e, -, -, e', -, -, c⟩ := toroidal_static (u := ![2, 0, 0, 0]) (p := ![2, 0, 0, 3 / 8]) h rfl rfl
    (by rw [hs]; simp; norm_num) (by simp) (by norm_num) (by rw [hs]; simp; norm_num) (by rw [hs]; simp; norm_num)
  refine ⟨B, θ, e, e', ?_⟩
  have g00 : gmunu 0 ![0, 8 / 3, Real.pi / 2, 0] 0 0 = -1 / 4 := by rw [h.eq]; exact circ00 _ _ _ _ _
  have g03 : gmunu 0 ![0, 8 / 3, Real.pi / 2, 0] 0 3 = 0 := by rw [h.eq]; exact circ03 _ _ _ _ _
  have g33 : gmunu 0 ![0, 8 / 3, Real.pi / 2, 0] 3 3 = 64 / 9 := by rw [h.eq]; exact circ33 _ _ _ _ _
  have hq : √(4 ^ 2 / 3 ^ 2 : ℝ) = 4 / 3 := by rw [← div_pow]; exact Real.sqrt_sq (by norm_num)
  rw [c, hs]
  simp only [Spacetime.direction, hs, azimuthal, g00, g03, g33]
  rw [show (0 : ℝ) ^ 2 - -1 / 4 * (64 / 9) = 4 ^ 2 / 3 ^ 2 by norm_num, hq]
  simp
  norm_num

/-- **C117, not so.** Around a centre that rotates the toroidal field is never orthogonal to the velocity outside the ergosphere: the term
`g_tφ` is missing in its time component. -/
theorem toroidal_tilted_wrong (h : Outside g tt rr hh pp tp) (hpp : 0 < pp) (htp : tp ≠ 0) (ht : tt < 0) (h0 : 0 < u 0)
    {B : Vec} (hB : field "Toroidal" g u = .ok B) : scalarProd g B u ≠ 0 := by
  have g00 : g 0 0 = tt := by rw [h.eq]; exact circ00 _ _ _ _ _
  have g33 : g 3 3 = pp := by rw [h.eq]; exact circ33 _ _ _ _ _
  obtain ⟨k, hk, -, rfl⟩ := toroidal_field hB
  rw [scalarProd_eq, sp_smul_left, ← scalarProd_eq, g00, g33]
  refine mul_ne_zero hk.ne' ?_
  rw [h.eq, sp_circ]
  simp only [Matrix.cons_val_zero, Matrix.cons_val_one, Matrix.cons_val]
  have e : tt * (-pp * 1 * u 3 / (tt * u 0)) * u 0 + tp * (-pp * 1 * u 3 / (tt * u 0) * u 3 + 1 * u 0) + pp * 1 * u 3 +
      rr * 0 * u 1 + hh * 0 * u 2 = tp * (tt * u 0 ^ 2 - pp * u 3 ^ 2) / (tt * u 0) := by
    have := ht.ne; field_simp; ring
  rw [e]
  refine div_ne_zero (mul_ne_zero htp ?_) (mul_ne_zero ht.ne h0.ne')
  have := mul_neg_of_neg_of_pos ht (pow_pos h0 2)
  have := mul_nonneg hpp.le (sq_nonneg (u 3))
  linarith

/-- The toroidal field where the vector normalised is not spacelike. -/
theorem toroidal_ub (h : Outside g tt rr hh pp tp) (ht : tt ≠ 0) (h0 : u 0 ≠ 0) {w : ℝ} (h3 : u 3 = w * u 0)
    (hle : tt * (-pp * w / tt) ^ 2 + 2 * tp * (-pp * w / tt) + pp ≤ 0) : field "Toroidal" g u = .ub := by
  have g00 : g 0 0 = tt := by rw [h.eq]; exact circ00 _ _ _ _ _
  have g33 : g 3 3 = pp := by rw [h.eq]; exact circ33 _ _ _ _ _
  unfold field rawField
  rw [if_neg (by decide), if_neg (by decide), if_neg (by decide), if_pos rfl, if_neg (by rw [g00]; exact mul_ne_zero ht h0)]
  have e : -g 3 3 * 1 * u 3 / (g 0 0 * u 0) = -pp * w / tt := by
    rw [g00, g33, h3]; field_simp
  rw [e]
  simp only [Synch.bind]
  rw [if_pos (by rw [toroidal_square h]; exact hle)]

/-- **C117, not so.** For a free circular orbit at 2.25 from a black hole of spin 0.95 (the orbits are stable there) the toroidal field is not a
number: the vector normalised is timelike. -/
theorem toroidal_wrong {pos : Vec} (h1 : pos 1 = 9 / 4) (h2 : pos 2 = Real.pi / 2) :
    IsRotating (gmunu 0.95 pos) (kerrVel 0.95 pos 1) ∧ IsFree (gmunu 0.95) pos (kerrVel 0.95 pos 1) ∧
      field "Toroidal" (gmunu 0.95 pos) (kerrVel 0.95 pos 1) = .ub := by
  have hsq : √(9 / 4 : ℝ) = 3 / 2 := by
    rw [show (9 / 4 : ℝ) = (3 / 2) ^ 2 by norm_num]; exact Real.sqrt_sq (by norm_num)
  have hr : 0 < pos 1 := by rw [h1]; norm_num
  have hd : 0 < pos 1 * pos 1 - 2 * pos 1 + 0.95 * 0.95 := by rw [h1]; norm_num
  have h := kerr_outside (a := 0.95) hr hd h2
  rw [h1] at h
  obtain ⟨k1, k2, -⟩ := kerr_circular (a := 0.95) (dir := 1) hr hd.ne' h2 (.inl rfl) (by unfold KerrSlow; rw [h1, hsq]; norm_num)
  refine ⟨k1, k2, ?_⟩
  have hk : kerrVel 0.95 pos 1 3 = 1 / (27 / 8 + 0.95) * kerrVel 0.95 pos 1 0 := by
    rw [kerr_eq hr h2, h1, hsq]
    simp only [finishVel, Matrix.cons_val_zero, Matrix.cons_val]
    norm_num
  exact toroidal_ub h (by norm_num) k1.future.ne' hk (by norm_num)

/-! ### The plasma -/

/-- **C117.** The spectrum is asked at the temperature, the density, the field and the angle of the place. -/
theorem spot_plasma (s : Spot) (b : Bessel) (t : Thermal) (θ : ℝ) (obj : Vec) :
    (s.plasma b t θ obj).theta = s.Theta obj ∧ (s.plasma b t θ obj).n = s.density obj ∧ (s.plasma b t θ obj).angle = θ ∧
      (s.plasma b t θ obj).nu0 = nu0 ∧ (s.plasma b t θ obj).averaged = false := by
  refine ⟨?_, rfl, rfl, rfl, rfl⟩
  have h1 : Synch.boltzmannCGS ≠ 0 := by norm_num [Synch.boltzmannCGS]
  have h2 : Synch.electronMassCGS * Synch.c2CGS ≠ 0 := by norm_num [Synch.electronMassCGS, Synch.c2CGS]
  show Synch.electronMassCGS * Synch.c2CGS * s.Theta obj / Synch.boltzmannCGS * Synch.boltzmannCGS / (Synch.electronMassCGS * Synch.c2CGS) = _
  rw [div_mul_cancel₀ _ h1, mul_div_cancel_left₀ _ h2]

theorem nu0_pos : 0 < nu0 := by
  unfold nu0 Synch.chargeCGS Synch.electronMassCGS Synch.cCGS
  have := Real.pi_pos
  positivity

/-- **C117.** There are electrons within `√(2 ln 20)` (2.4) sizes of the centre, and none farther. -/
theorem spot_reach {s : Spot} {obj : Vec} (hk : s.kind = .spherical) (hθ : s.track (obj 0) 1 = Real.pi / 2) (hs : s.size ≠ 0) :
    (2 * Real.log 20 * s.size ^ 2 < planeDist (obj 1) (obj 3) (s.track (obj 0) 0) (s.track (obj 0) 2) ^ 2 ↔ s.density obj = 0) ∧
    (s.density obj ≠ 0 → 1e5 ≤ s.density obj ∧ s.density obj ≤ 2e6) := by
  have hs2 : 0 < s.size ^ 2 := by positivity
  have key : 6e6 / 3 * Real.exp (-s.d2 obj / (2 * (s.size * s.size))) < 1e5 ↔ 2 * Real.log 20 * s.size ^ 2 < s.d2 obj := by
    have e : (6e6 / 3 * Real.exp (-s.d2 obj / (2 * (s.size * s.size))) < 1e5) ↔
        Real.exp (-s.d2 obj / (2 * (s.size * s.size))) < Real.exp (-Real.log 20) := by
      rw [Real.exp_neg (Real.log 20), Real.exp_log (by norm_num)]
      constructor <;> intro h <;> norm_num at h ⊢ <;> linarith
    rw [e, Real.exp_lt_exp, neg_div, neg_lt_neg_iff, lt_div_iff₀ (by nlinarith)]
    constructor <;> intro h <;> nlinarith
  have hd0 : 0 ≤ s.d2 obj := by rw [d2_dist hk obj hθ]; positivity
  have hle : Real.exp (-s.d2 obj / (2 * (s.size * s.size))) ≤ 1 := by
    rw [Real.exp_le_one_iff, neg_div, neg_nonpos]
    exact div_nonneg hd0 (by nlinarith)
  rw [← d2_dist hk obj hθ, ← key]
  unfold Spot.density
  simp only
  split_ifs with hc
  · exact ⟨⟨fun _ => rfl, fun _ => hc⟩, fun h => absurd rfl h⟩
  · refine ⟨⟨fun h => absurd h hc, fun h => ?_⟩, fun _ => ⟨not_lt.1 hc, ?_⟩⟩
    · rw [h] at hc; norm_num at hc
    · have := mul_le_mul_of_nonneg_left hle (show (0 : ℝ) ≤ 6e6 / 3 by norm_num)
      refine this.trans ?_
      norm_num

/-- A cell without matter. -/
theorem empty_step (chi L : ℝ) : StokesStep.step (cellOf 0) chi L = .ok (0, 1) := by
  have hc : (cellOf 0).coefs chi = ⟨0, 0, 0, 0, 0, 0, 0, Real.sin (2 * chi), Real.cos (2 * chi)⟩ := by
    simp [cellOf, StokesStep.Cell.coefs]
  have hJ : Evpa.rotateJsChi ((cellOf 0).j 0) ((cellOf 0).j 1) ((cellOf 0).j 2) ((cellOf 0).j 3) chi = 0 := by
    funext i
    fin_cases i <;> simp [cellOf, Evpa.rotateJsChi, Evpa.rotateJs]
  have hr : Transfer.rotate ((cellOf 0).coefs chi) = ⟨0, 0, 0, 0, 0, 0, 0⟩ := by
    rw [hc]; simp [Transfer.rotate]
  have hO : Transfer.Omatrix ((cellOf 0).coefs chi) L = .ok 1 := by
    unfold Transfer.Omatrix
    rw [hr]
    simp [Transfer.Rotated.Theta, Transfer.Rotated.lambda1, Transfer.Rotated.lambda2, Transfer.Rotated.alpha2, Transfer.Rotated.r2, Transfer.Rotated.dot]
  obtain ⟨P, hP⟩ : ∃ P, Transfer.Pmatrix ((cellOf 0).coefs chi) L = some P := by
    unfold Transfer.Pmatrix
    rw [hr]
    have hK : Transfer.Kmat ⟨0, 0, 0, 0, 0, 0, 0⟩ = 0 := by
      ext i j
      fin_cases i <;> fin_cases j <;> simp [Transfer.Kmat]
    simp only [hK, smul_zero, Matrix.zero_apply]
    rw [if_neg (by norm_num), if_pos (by norm_num)]
    simp only
    split_ifs <;> exact ⟨_, rfl⟩
  unfold StokesStep.step
  simp only [hO, hP, hJ, Matrix.mulVec_zero]
  rw [if_pos (by simp)]

theorem empty_steps (chi L : ℝ) (nus : List ℝ) : steps chi L (nus.map fun _ => 0) = .ok (nus.map fun _ => (0, 1)) := by
  induction nus with
  | nil => rfl
  | cons a l ih =>
    rw [List.map_cons, List.map_cons, steps, ih, empty_step]
    rfl

/-- A plasma without electrons has no coefficients. -/
theorem no_electrons {b : Bessel} {t : Thermal} (h : t.n = 0) (ha : t.averaged = false) (nu : ℝ) : t.outs b nu = 0 := by
  have hf : t.front = 0 := by simp [Thermal.front, h]
  have hQ : t.rQVal b nu = 0 := by
    unfold Thermal.rQVal Thermal.rQ
    rcases t.xx nu with x | _ | _
    · simp only [Synch.bind]
      split_ifs
      · rfl
      · rfl
      · simp [h]
    · rfl
    · rfl
  unfold Thermal.outs
  rw [if_pos ha]
  funext i
  have hv : t.vals b nu = 0 := by
    funext i
    fin_cases i <;> simp [Thermal.vals, Thermal.jVal, Thermal.jQVal, Thermal.jVVal, Thermal.rVVal, Thermal.lin, hf, hQ, h]
  rw [hv]
  unfold Synch.toSI
  simp

/-- **C117.** Out of the reach of the spot, or where it is cold, nothing is emitted and everything passes, for every configuration of the field
and every frequency, if the light is not along the field. -/
theorem spot_dark (s : Spot) {cfg : String} {b : Bessel} (calls : List ThermalCall) {size : ℕ} {ph p ephi etheta obj u B : Vec} {nus : List ℝ}
    {L chi θ : ℝ} (hB : field cfg (s.g ph) u = .ok B) (hχ : Evpa.getChi (s.g ph) size p ephi etheta B u false = some chi)
    (hθ : thetaMag (s.g ph) B p u = .ok θ) (h0 : 0 < θ) (hπ : θ < Real.pi) (hs : s.size ≠ 0) (hr : 0 < obj 1)
    (hb : b.k2 (1 / s.Theta obj) ≠ 0) (hn : ∀ nu ∈ nus, 0 < nu) (hd : s.density obj = 0 ∨ s.Theta obj < 0.01) :
    ∃ t', s.radiativeQP cfg b (Thermal.new.run calls) size ph p ephi etheta obj u nus L = .ok (t', nus.map fun _ => (0, 1)) := by
  obtain ⟨q1, q2, q3, q4, q5⟩ := spot_plasma s b (Thermal.new.run calls) θ obj
  have hq : ∃ t', (s.plasma b (Thermal.new.run calls) θ obj).radiativeQP b nus = .ok (t', nus.map fun _ => 0) := by
    by_cases hc : s.Theta obj < 0.01
    · exact ⟨_, (Synch.cold_is_dark (by rw [q1]; exact hc) b nus).2⟩
    · have hn0 := hd.resolve_right hc
      have hstep : (s.plasma b (Thermal.new.run calls) θ obj).InStep := by
        unfold Spot.plasma
        rw [Thermal.run, Thermal.run, ← List.foldl_append]
        exact Synch.black_body_in_step _
      have hready : (s.plasma b (Thermal.new.run calls) θ obj).Ready :=
        ⟨hstep, by rw [q1]; exact not_lt.1 hc, by rw [q4]; exact nu0_pos, fun _ => by rw [q3]; exact ⟨h0, hπ⟩⟩
      obtain ⟨t', -, e⟩ := Synch.polarised_results hready (by rw [q1]; exact hb) hn
      refine ⟨t', ?_⟩
      rw [e]
      congr 2
      refine List.map_congr_left fun nu _ => ?_
      exact no_electrons (by rw [q2, hn0]) q5 nu
  obtain ⟨t', e⟩ := hq
  refine ⟨t', ?_⟩
  unfold Spot.radiativeQP
  simp only [hB, hχ, hθ, Synch.bind]
  rw [if_neg (by rw [not_or, not_le]; exact ⟨hs, hr⟩), e]
  simp only [empty_steps]

/-- **C117.** Another word than the four configurations is refused. -/
theorem config_needed (s : Spot) {cfg : String} (h1 : cfg ≠ "Vertical") (h2 : cfg ≠ "Radial") (h3 : cfg ≠ "Toroidal")
    (h4 : cfg ≠ "Radial-Azimuthal") (b : Bessel) (t : Thermal) (size : ℕ) (ph p ephi etheta obj u : Vec) (nus : List ℝ) (L : ℝ) :
    s.radiativeQP cfg b t size ph p ephi etheta obj u nus L = .throws := by
  unfold Spot.radiativeQP field rawField
  by_cases h0 : cfg = "None"
  · simp only [if_pos h0, Synch.bind]
  · simp only [if_neg h0, if_neg h1, if_neg h2, if_neg h3, if_neg h4, Synch.bind]

/-- **C117.** Light along the field stops the computation with an error, though the plasma emits nothing in this direction. -/
theorem along_throws (s : Spot) {cfg : String} (b : Bessel) (t : Thermal) (size : ℕ) {ph p ephi etheta obj u B : Vec} (nus : List ℝ) (L : ℝ)
    (h : LorentzianAlong (s.g ph) u) (hu : scalarProd (s.g ph) u u = -1) (hp : scalarProd (s.g ph) p p = 0)
    (hE : scalarProd (s.g ph) p u < 0) (hB : field cfg (s.g ph) u = .ok B) (hBu : scalarProd (s.g ph) B u = 0)
    {c : ℝ} (hc : B = c • Spacetime.direction (s.g ph) u p) :
    s.radiativeQP cfg b t size ph p ephi etheta obj u nus L = .throws := by
  have hnone : Evpa.getChi (s.g ph) size p ephi etheta B u false = none := by
    have hg := h.1
    have hBB := field_unit hB
    rw [scalarProd_eq] at hu hp hE hBu hBB
    have hd := direction_smul hE.ne
    have hl : sp (s.g ph) (restPart (s.g ph) u p) (restPart (s.g ph) u p) = sp (s.g ph) p u ^ 2 := by rw [rest_rest hg hu, hp]; ring
    have hl2 : 0 < sp (s.g ph) p u ^ 2 := sq_pos_of_neg hE
    have nl : MetricAlg.norm (s.g ph) (restPart (s.g ph) u p) = -sp (s.g ph) p u := by
      simp only [MetricAlg.norm, scalarProd_eq, hl, sgn_pos hl2, abs_of_pos hl2, one_mul, Real.sqrt_sq_eq_abs, abs_of_neg hE]
    have hw : Evpa.waveInFrame (s.g ph) p u = some (Spacetime.direction (s.g ph) u p) := by
      unfold Evpa.waveInFrame
      rw [project_rest hg hu]
      simp only [Option.bind_some, Evpa.byNorm, nl, inv]
      rw [if_neg (by linarith), Option.map_some, smul_of_multiply, hd, smul_smul, one_div,
        inv_mul_cancel₀ (by linarith), one_smul]
    have nB : MetricAlg.norm (s.g ph) B = 1 := by
      simp [MetricAlg.norm, scalarProd_eq, hBB, sgn_pos one_pos]
    have hf : Evpa.fieldInFrame (s.g ph) B u = some B := by
      unfold Evpa.fieldInFrame
      simp only [nB, div_one, scalarProd_eq, hBu]
      rw [if_neg (by norm_num [Evpa.tol]), if_neg (by norm_num)]
    have hKK : sp (s.g ph) (Spacetime.direction (s.g ph) u p) (Spacetime.direction (s.g ph) u p) = 1 := by
      rw [hd, sp_smul_left, sp_smul_right] at hl
      have : sp (s.g ph) p u ^ 2 * (sp (s.g ph) (Spacetime.direction (s.g ph) u p) (Spacetime.direction (s.g ph) u p) - 1) = 0 := by
        linear_combination hl
      rcases mul_eq_zero.1 this with h' | h'
      · exact absurd h' hl2.ne'
      · linarith
    have hz : sp (s.g ph) (0 : Vec) 0 = 0 := by simpa using sp_smul_right (s.g ph) 0 0 0
    have hsc : Evpa.fieldOnScreen (s.g ph) B (Spacetime.direction (s.g ph) u p) = none := by
      unfold Evpa.fieldOnScreen
      rw [project_eq B (by rw [hKK]; exact one_ne_zero), hKK, hc, sp_smul_right, hKK, div_one, mul_one, sub_self]
      simp only [Option.bind_some, Evpa.byNorm, inv]
      rw [if_pos ((norm_zero_iff _ _).2 hz)]
      rfl
    unfold Evpa.getChi
    rw [hw, hf]
    simp only [Option.bind_some, hsc, Option.bind_none]
    split_ifs <;> rfl
  unfold Spot.radiativeQP
  simp only [hB, hnone, Synch.bind]

end Gyoto.HotSpot
