import Verif.Model.Plunge
import Verif.Spec.Plunge
import Verif.Props.OrbitRadii
import Verif.Lemmas.Circular
import Mathlib.Analysis.Calculus.Deriv.Inv
import Mathlib.Analysis.SpecialFunctions.Sqrt

/-!
# Lemmas on the fall of gas in the equatorial plane of Kerr
-/

namespace Gyoto.Plunge

open Gyoto.MetricAlg Gyoto.KerrBL Gyoto.Orbits Gyoto.Static Gyoto.Spacetime

/-- `u^t` for the energy `E` and the angular momentum `L`, at `r`. -/
noncomputable def uT (a E L r : ℝ) : ℝ := ((r ^ 3 + a ^ 2 * r + 2 * a ^ 2) * E - 2 * a * L) / (r * (r * r - 2 * r + a * a))

/-- `u^φ` -/
noncomputable def uF (a E L r : ℝ) : ℝ := ((r - 2) * L + 2 * a * E) / (r * (r * r - 2 * r + a * a))

/-- The square of `u^r`. -/
noncomputable def uW (a E L r : ℝ) : ℝ := E ^ 2 - 1 + 2 / r + (a ^ 2 * (E ^ 2 - 1) - L ^ 2) / r ^ 2 + 2 * (L - a * E) ^ 2 / r ^ 3

/-- The field of velocities of gas of energy `E` and angular momentum `L` that falls in the equatorial plane. -/
noncomputable def fall (a E L : ℝ) (p : Vec) : Vec := ![uT a E L (p 1), -√(uW a E L (p 1)), 0, uF a E L (p 1)]

section plane
variable {a E L : ℝ} {p : Vec}

theorem g00 (hr : p 1 ≠ 0) (h : p 2 = Real.pi / 2) : gmunu a p 0 0 = -1 + 2 / p 1 := by
  rw [gmunu_00, h, Real.cos_pi_div_two]; field_simp; ring
theorem g11 (h : p 2 = Real.pi / 2) : gmunu a p 1 1 = p 1 * p 1 / (p 1 * p 1 - 2 * p 1 + a * a) := by
  rw [gmunu_11, h, Real.cos_pi_div_two]; ring
theorem g33 (hr : p 1 ≠ 0) (h : p 2 = Real.pi / 2) : gmunu a p 3 3 = p 1 ^ 2 + a ^ 2 + 2 * a ^ 2 / p 1 := by
  rw [gmunu_33, h, Real.cos_pi_div_two, Real.sin_pi_div_two]
  rw [show p 1 * p 1 + a * a * (0 * 0) = p 1 ^ 2 by ring]; field_simp
theorem g03 (hr : p 1 ≠ 0) (h : p 2 = Real.pi / 2) : gmunu a p 0 3 = -2 * a / p 1 := by
  rw [gmunu_03, h, Real.cos_pi_div_two, Real.sin_pi_div_two]
  rw [show p 1 * p 1 + a * a * (0 * 0) = p 1 ^ 2 by ring]; field_simp

theorem up00 (hr : p 1 ≠ 0) (hd : p 1 * p 1 - 2 * p 1 + a * a ≠ 0) (h : p 2 = Real.pi / 2) :
    gmunuUp a p 0 0 = -(p 1 ^ 3 + a ^ 2 * p 1 + 2 * a ^ 2) / (p 1 * (p 1 * p 1 - 2 * p 1 + a * a)) := by
  have e : gmunuUp a p 0 0 = -((p 1 * p 1 + a * a) * (p 1 * p 1 + a * a) - a * a * (p 1 * p 1 - 2 * p 1 + a * a) * (Real.sin (p 2) * Real.sin (p 2))) /
    ((p 1 * p 1 - 2 * p 1 + a * a) * (p 1 * p 1 + a * a * (Real.cos (p 2) * Real.cos (p 2)))) := rfl
  rw [e, h, Real.cos_pi_div_two, Real.sin_pi_div_two, show p 1 * p 1 + a * a * (0 * 0) = p 1 ^ 2 by ring]
  obtain ⟨d, hdd⟩ : ∃ d, d = p 1 * p 1 - 2 * p 1 + a * a := ⟨_, rfl⟩
  rw [← hdd] at hd ⊢
  field_simp
  rw [hdd]; ring

theorem up03 (hr : p 1 ≠ 0) (h : p 2 = Real.pi / 2) :
    gmunuUp a p 0 3 = -2 * a / (p 1 * (p 1 * p 1 - 2 * p 1 + a * a)) := by
  have e : gmunuUp a p 0 3 = -2 * a * p 1 / ((p 1 * p 1 + a * a * (Real.cos (p 2) * Real.cos (p 2))) * (p 1 * p 1 - 2 * p 1 + a * a)) := rfl
  rw [e, h, Real.cos_pi_div_two, show p 1 * p 1 + a * a * (0 * 0) = p 1 * p 1 by ring]
  rw [mul_assoc (p 1), mul_comm (-2 * a), mul_div_mul_left _ _ hr]

theorem up33 (hr : p 1 ≠ 0) (h : p 2 = Real.pi / 2) :
    gmunuUp a p 3 3 = (p 1 - 2) / (p 1 * (p 1 * p 1 - 2 * p 1 + a * a)) := by
  have e : gmunuUp a p 3 3 = ((p 1 * p 1 - 2 * p 1 + a * a) - a * a * (Real.sin (p 2) * Real.sin (p 2))) /
    ((p 1 * p 1 + a * a * (Real.cos (p 2) * Real.cos (p 2))) * (p 1 * p 1 - 2 * p 1 + a * a) * (Real.sin (p 2) * Real.sin (p 2))) := rfl
  rw [e, h, Real.cos_pi_div_two, Real.sin_pi_div_two, show p 1 * p 1 + a * a * (0 * 0) = p 1 * p 1 by ring,
    show p 1 * p 1 - 2 * p 1 + a * a - a * a * (1 * 1) = p 1 * (p 1 - 2) by ring, mul_assoc (p 1), mul_one, mul_assoc (p 1),
    mul_div_mul_left _ _ hr, mul_one]

theorem raise_eq (hr : p 1 ≠ 0) (hd : p 1 * p 1 - 2 * p 1 + a * a ≠ 0) (h : p 2 = Real.pi / 2) :
    raise (gmunuUp a p) (E, L) = (uT a E L (p 1), uF a E L (p 1)) := by
  unfold raise uT uF
  rw [up00 hr hd h, up03 hr h, up33 hr h]
  obtain ⟨d, hdd⟩ : ∃ d, d = p 1 * p 1 - 2 * p 1 + a * a := ⟨_, rfl⟩
  rw [← hdd] at hd ⊢
  congr 1 <;> field_simp <;> ring

theorem lower_circ (u : Vec) : lower (gmunu a p) u = ![gmunu a p 0 0 * u 0 + gmunu a p 0 3 * u 3, gmunu a p 1 1 * u 1,
    gmunu a p 2 2 * u 2, gmunu a p 0 3 * u 0 + gmunu a p 3 3 * u 3] := by
  funext α
  match α with
  | 0 => exact (kerr_lower a p u).1
  | 1 => show ∑ ν, gmunu a p 1 ν * u ν = _; rw [Fin.sum_univ_four]; show 0 * u 0 + _ + 0 * u 2 + 0 * u 3 = gmunu a p 1 1 * u 1; ring
  | 2 => show ∑ ν, gmunu a p 2 ν * u ν = _; rw [Fin.sum_univ_four]; show 0 * u 0 + 0 * u 1 + _ + 0 * u 3 = gmunu a p 2 2 * u 2; ring
  | 3 => exact (kerr_lower a p u).2

theorem lower_fall (hr : p 1 ≠ 0) (hd : p 1 * p 1 - 2 * p 1 + a * a ≠ 0) (h : p 2 = Real.pi / 2) :
    lower (gmunu a p) (fall a E L p) = ![-E, p 1 * p 1 / (p 1 * p 1 - 2 * p 1 + a * a) * -√(uW a E L (p 1)), 0, L] := by
  rw [lower_circ, g00 hr h, g11 h, g03 hr h, g33 hr h]
  unfold fall uT uF
  simp only [Matrix.cons_val]
  obtain ⟨d, hdd⟩ : ∃ d, d = p 1 * p 1 - 2 * p 1 + a * a := ⟨_, rfl⟩
  rw [← hdd] at hd ⊢
  congr 1
  · field_simp; rw [hdd]; ring
  · congr 1; congr 1
    · ring
    · congr 1; field_simp; rw [hdd]; ring

theorem sp_lower (g : Tensor) (u v : Vec) : sp g u v = ∑ α, u α * lower g v α := by
  rw [← scalarProd_eq]
  unfold scalarProd lower
  simp only [Finset.mul_sum]
  refine Finset.sum_congr rfl fun i _ => Finset.sum_congr rfl fun j _ => by ring

theorem fall_unit (hr : p 1 ≠ 0) (hd : p 1 * p 1 - 2 * p 1 + a * a ≠ 0) (h : p 2 = Real.pi / 2) (hW : 0 ≤ uW a E L (p 1)) :
    sp (gmunu a p) (fall a E L p) (fall a E L p) = -1 := by
  rw [sp_lower, lower_fall hr hd h, Fin.sum_univ_four]
  have hq := Real.mul_self_sqrt hW
  unfold fall
  simp only [Matrix.cons_val]
  have e : -√(uW a E L (p 1)) * (p 1 * p 1 / (p 1 * p 1 - 2 * p 1 + a * a) * -√(uW a E L (p 1))) =
    p 1 * p 1 / (p 1 * p 1 - 2 * p 1 + a * a) * uW a E L (p 1) := by linear_combination (p 1 * p 1 / (p 1 * p 1 - 2 * p 1 + a * a)) * hq
  rw [e]
  unfold uT uF uW
  generalize p 1 = r at *
  obtain ⟨d, hdd⟩ : ∃ d, d = r * r - 2 * r + a * a := ⟨_, rfl⟩
  rw [← hdd] at hd ⊢
  field_simp
  rw [hdd]
  ring

/-- The derivatives of the metric at the equator. -/
theorem plane_partial (hr : p 1 ≠ 0) (hd : p 1 * p 1 - 2 * p 1 + a * a ≠ 0) (h : p 2 = Real.pi / 2) :
    ∃ hr' hθ', IsPartial (gmunu a) p ![0, circ (-2 / p 1 ^ 2) (2 * p 1 * (a * a - p 1) / (p 1 * p 1 - 2 * p 1 + a * a) ^ 2) hr'
      (2 * p 1 - 2 * a ^ 2 / p 1 ^ 2) (2 * a / p 1 ^ 2), circ 0 0 hθ' 0 0, 0] := by
  have hS : p 1 * p 1 + a * a * (Real.cos (p 2) * Real.cos (p 2)) ≠ 0 := by
    rw [h, Real.cos_pi_div_two]; simpa using hr
  have dS : HasDerivAt (fun x => x * x + a * a * (Real.cos (p 2) * Real.cos (p 2))) (2 * p 1) (p 1) := sigma_r
  have dD : HasDerivAt (fun x : ℝ => x * x - 2 * x + a * a) (2 * p 1 - 2) (p 1) := by
    refine ((((hasDerivAt_id (p 1)).mul (hasDerivAt_id (p 1))).sub ((hasDerivAt_id (p 1)).const_mul 2)).add_const (a * a)).congr_deriv ?_
    simp; ring
  have ds : HasDerivAt (fun x => Real.sin x * Real.sin x) 0 (p 2) := by
    refine ((Real.hasDerivAt_sin (p 2)).mul (Real.hasDerivAt_sin (p 2))).congr_deriv ?_
    rw [h, Real.cos_pi_div_two]; ring
  have dc : HasDerivAt (fun x => Real.cos x * Real.cos x) 0 (p 2) := by
    refine ((Real.hasDerivAt_cos (p 2)).mul (Real.hasDerivAt_cos (p 2))).congr_deriv ?_
    rw [h, Real.cos_pi_div_two]; ring
  have dSθ : HasDerivAt (fun x => p 1 * p 1 + a * a * (Real.cos x * Real.cos x)) 0 (p 2) := by
    refine ((dc.const_mul (a * a)).const_add (p 1 * p 1)).congr_deriv ?_
    ring
  have d2r : HasDerivAt (fun x : ℝ => 2 * x) 2 (p 1) := by
    refine ((hasDerivAt_id (p 1)).const_mul 2).congr_deriv ?_
    ring
  have key := isPartial_circ (pos := p)
    (tt := fun r θ => -1 + 2 * r / (r * r + a * a * (Real.cos θ * Real.cos θ)))
    (rr := fun r θ => (r * r + a * a * (Real.cos θ * Real.cos θ)) / (r * r - 2 * r + a * a))
    (hh := fun r θ => r * r + a * a * (Real.cos θ * Real.cos θ))
    (pp := fun r θ => (r * r + a * a + 2 * r * (a * a) * (Real.sin θ * Real.sin θ) / (r * r + a * a * (Real.cos θ * Real.cos θ))) * (Real.sin θ * Real.sin θ))
    (tp := fun r θ => -2 * a * r * (Real.sin θ * Real.sin θ) / (r * r + a * a * (Real.cos θ * Real.cos θ)))
    ((d2r.div dS hS).const_add (-1)) (dS.div dD hd) dS
    (((((hasDerivAt_id (p 1)).mul (hasDerivAt_id (p 1))).add_const (a * a)).add
      (((d2r.mul_const (a * a)).mul_const (Real.sin (p 2) * Real.sin (p 2))).div dS hS)).mul_const (Real.sin (p 2) * Real.sin (p 2)))
    ((((hasDerivAt_id (p 1)).const_mul (-2 * a)).mul_const (Real.sin (p 2) * Real.sin (p 2))).div dS hS)
    ((((hasDerivAt_const (p 2) (2 * p 1))).div dSθ hS).const_add (-1)) (dSθ.div_const (p 1 * p 1 - 2 * p 1 + a * a)) dSθ
    ((((ds.const_mul (2 * p 1 * (a * a))).div dSθ hS).const_add (p 1 * p 1 + a * a)).mul ds)
    ((ds.const_mul (-2 * a * p 1)).div dSθ hS)
  refine ⟨2 * p 1, 0, ?_⟩
  refine cast ?_ key
  have hs : Real.sin (p 2) = 1 := by rw [h, Real.sin_pi_div_two]
  have hc : Real.cos (p 2) = 0 := by rw [h, Real.cos_pi_div_two]
  simp only [hs, hc]
  congr 1
  congr 1
  congr 1
  · congr 1 <;> simp <;> field_simp <;> ring
  · congr 1; congr 1 <;> simp

theorem sum_circ (tt rr hh pp tp : ℝ) (u : Vec) : ∑ μ, ∑ ν, circ tt rr hh pp tp μ ν * u μ * u ν =
    tt * u 0 ^ 2 + rr * u 1 ^ 2 + hh * u 2 ^ 2 + pp * u 3 ^ 2 + 2 * tp * u 0 * u 3 := by
  simp only [Fin.sum_univ_four, circ00, circ01, circ02, circ03, circ10, circ11, circ12, circ13, circ20, circ21, circ22, circ23, circ30, circ31, circ32, circ33]
  ring

/-- Gas that keeps its energy and its angular momentum, and the norm of its velocity, is in free fall. -/
theorem fall_free (hr : p 1 ≠ 0) (hd : p 1 * p 1 - 2 * p 1 + a * a ≠ 0) (h : p 2 = Real.pi / 2) (hW : 0 < uW a E L (p 1)) :
    FallsFreely (gmunu a) (fall a E L) p := by
  obtain ⟨h1, h2, hD⟩ := plane_partial hr hd h
  refine ⟨_, hD, ?_⟩
  obtain ⟨v, hv⟩ : ∃ v, v = fall a E L p 1 := ⟨_, rfl⟩
  have e1 : ∀ s : ℝ, (p + s • fall a E L p) 1 = p 1 + s * v := fun s => by rw [hv]; rfl
  have e2 : ∀ s : ℝ, (p + s • fall a E L p) 2 = Real.pi / 2 := fun s => by
    show p 2 + s * 0 = _; rw [h]; ring
  have dr : HasDerivAt (fun s : ℝ => p 1 + s * v) v 0 := by
    refine (((hasDerivAt_id (0 : ℝ)).mul_const v).const_add (p 1)).congr_deriv ?_
    ring
  have r0 : p 1 + 0 * v = p 1 := by ring
  have c1 : ∀ᶠ s in nhds (0 : ℝ), p 1 + s * v ≠ 0 := dr.continuousAt.eventually_ne (by rw [r0]; exact hr)
  have c2 : ∀ᶠ s in nhds (0 : ℝ), (p 1 + s * v) * (p 1 + s * v) - 2 * (p 1 + s * v) + a * a ≠ 0 := by
    have : ContinuousAt (fun s : ℝ => (p 1 + s * v) * (p 1 + s * v) - 2 * (p 1 + s * v) + a * a) 0 := by fun_prop
    exact this.eventually_ne (by rw [r0]; exact hd)
  have ev : ∀ α, (fun s : ℝ => lower (gmunu a (p + s • fall a E L p)) (fall a E L (p + s • fall a E L p)) α) =ᶠ[nhds 0]
      fun s => (![-E, (p 1 + s * v) * (p 1 + s * v) / ((p 1 + s * v) * (p 1 + s * v) - 2 * (p 1 + s * v) + a * a) * -√(uW a E L (p 1 + s * v)), 0, L] : Vec) α := by
    intro α
    filter_upwards [c1, c2] with s k1 k2
    rw [lower_fall (by rw [e1]; exact k1) (by rw [e1]; exact k2) (e2 s), e1]
  intro α
  refine HasDerivAt.congr_of_eventuallyEq ?_ (ev α)
  match α with
  | 0 =>
    refine (hasDerivAt_const (0 : ℝ) (-E)).congr_deriv ?_
    show (0 : ℝ) = (∑ μ, ∑ ν, (0 : Tensor) μ ν * _ * _) / 2
    simp
  | 3 =>
    refine (hasDerivAt_const (0 : ℝ) L).congr_deriv ?_
    show (0 : ℝ) = (∑ μ, ∑ ν, (0 : Tensor) μ ν * _ * _) / 2
    simp
  | 2 =>
    refine (hasDerivAt_const (0 : ℝ) (0 : ℝ)).congr_deriv ?_
    show (0 : ℝ) = (∑ μ, ∑ ν, circ 0 0 h2 0 0 μ ν * _ * _) / 2
    rw [sum_circ]
    have : fall a E L p 2 = 0 := rfl
    rw [this]; ring
  | 1 =>
    have dW : HasDerivAt (uW a E L) (-2 / p 1 ^ 2 - 2 * (a ^ 2 * (E ^ 2 - 1) - L ^ 2) / p 1 ^ 3 - 6 * (L - a * E) ^ 2 / p 1 ^ 4) (p 1) := by
      have q := fun (k : ℝ) (n : ℕ) => (hasDerivAt_const (p 1) k).div (hasDerivAt_pow n (p 1)) (pow_ne_zero n hr)
      have := ((((q 2 1).const_add (E ^ 2 - 1)).add (q (a ^ 2 * (E ^ 2 - 1) - L ^ 2) 2)).add (q (2 * (L - a * E) ^ 2) 3))
      have e : uW a E L = fun x => E ^ 2 - 1 + 2 / x ^ 1 + (a ^ 2 * (E ^ 2 - 1) - L ^ 2) / x ^ 2 + 2 * (L - a * E) ^ 2 / x ^ 3 := by
        funext x; unfold uW; rw [pow_one]
      rw [e]
      refine this.congr_deriv ?_
      simp
      field_simp
      ring
    have dG : HasDerivAt (fun x : ℝ => x * x / (x * x - 2 * x + a * a)) (2 * p 1 * (a * a - p 1) / (p 1 * p 1 - 2 * p 1 + a * a) ^ 2) (p 1) := by
      refine (((hasDerivAt_id (p 1)).mul (hasDerivAt_id (p 1))).div ((((hasDerivAt_id (p 1)).mul (hasDerivAt_id (p 1))).sub ((hasDerivAt_id (p 1)).const_mul 2)).add_const (a * a)) hd).congr_deriv ?_
      simp
      field_simp
      ring
    have dU := dG.mul (dW.sqrt hW.ne').neg
    have dr' : HasDerivAt (fun s : ℝ => p 1 + s * v) v 0 := dr
    rw [← r0] at dU
    have dV := dU.comp (0 : ℝ) dr'
    refine dV.congr_deriv ?_
    show _ = (∑ μ, ∑ ν, circ _ _ h1 _ _ μ ν * fall a E L p μ * fall a E L p ν) / 2
    rw [sum_circ]
    rw [r0]
    simp only [Pi.neg_apply]
    have hq := Real.mul_self_sqrt hW.le
    have hq0 : √(uW a E L (p 1)) ≠ 0 := (Real.sqrt_pos.2 hW).ne'
    rw [hv]
    have f0 : fall a E L p 0 = uT a E L (p 1) := rfl
    have f1 : fall a E L p 1 = -√(uW a E L (p 1)) := rfl
    have f2 : fall a E L p 2 = 0 := rfl
    have f3 : fall a E L p 3 = uF a E L (p 1) := rfl
    rw [f0, f1, f2, f3]
    obtain ⟨w, hw⟩ : ∃ w, w = √(uW a E L (p 1)) := ⟨_, rfl⟩
    rw [← hw] at hq hq0 ⊢
    have hq' : w ^ 2 = uW a E L (p 1) := by rw [← hq]; ring
    unfold uW at hq'
    unfold uT uF
    clear dU dV dr' dG dW hw f0 f1 f2 f3 ev e1 e2 c1 c2 r0 dr hv hD
    generalize p 1 = r at *
    obtain ⟨d, hdd⟩ : ∃ d, d = r * r - 2 * r + a * a := ⟨_, rfl⟩
    rw [← hdd] at hd ⊢
    have hk : ∀ A B C : ℝ, (A * -w + B * -(C / (2 * w))) * -w = A * w ^ 2 + B * C / 2 := by
      intro A B C; field_simp; ring
    rw [hk]
    have hn : (-w) ^ 2 = w ^ 2 := by ring
    rw [hn, hq']
    field_simp
    rw [hdd]
    ring

end plane

/-! ### The last stable orbit -/

/-- The polynomial of the marginal orbits is negative up to 1. -/
theorem marginal_neg {b w : ℝ} (hw : 0 < w) (h1 : w ≤ 1) (hb : b < 1) : w ^ 4 - 6 * w ^ 2 + 8 * b * w - 3 * b ^ 2 < 0 := by
  rcases le_or_gt (3 / 4) w with h | h
  · have e : w ^ 4 - 6 * w ^ 2 + 8 * b * w - 3 * b ^ 2 = -((1 - w) ^ 3 * (w + 3)) - (1 - b) * (8 * w - 3 * b - 3) := by ring
    have k1 : 0 ≤ (1 - w) ^ 3 * (w + 3) := by
      have : 0 ≤ 1 - w := by linarith
      positivity
    have k2 : 0 < (1 - b) * (8 * w - 3 * b - 3) := mul_pos (by linarith) (by linarith)
    linarith
  · have : w ^ 4 - 6 * w ^ 2 + 8 * b * w - 3 * b ^ 2 = -(3 * (b - 4 / 3 * w) ^ 2) - w ^ 2 * (2 / 3 - w ^ 2) := by ring
    have k : 0 < w ^ 2 * (2 / 3 - w ^ 2) := mul_pos (by positivity) (by nlinarith)
    have := sq_nonneg (b - 4 / 3 * w)
    linarith

theorem rms_gt_one {a : ℝ} (h1 : -1 < a) (h2 : a < 1) : 1 < √(kerrRms a) := by
  obtain ⟨hr, h⟩ := rms_spec h1.le h2.le
  by_contra hc
  push Not at hc
  have := marginal_neg (Real.sqrt_pos.2 hr) hc (abs_lt.2 ⟨h1, h2⟩)
  rw [sq_abs] at this
  linarith

theorem slow_mono {b w w' : ℝ} (h1 : 1 ≤ w) (h : w ≤ w') (hs : 0 < w ^ 3 - 3 * w + 2 * b) : 0 < w' ^ 3 - 3 * w' + 2 * b := by
  have e : w' ^ 3 - 3 * w' - (w ^ 3 - 3 * w) = (w' - w) * (w' ^ 2 + w * w' + w ^ 2 - 3) := by ring
  have : 0 ≤ (w' - w) * (w' ^ 2 + w * w' + w ^ 2 - 3) := mul_nonneg (by linarith) (by nlinarith)
  linarith

/-- Outside the last stable orbit, with the black hole, the circular orbits are slower than light. -/
theorem slow_outside {a r : ℝ} (h1 : 0 ≤ a) (h2 : a < 1) (h : kerrRms a ≤ r) : KerrSlow a 1 r := by
  have hs := (rms_stationary (dir := 1) (by linarith) h2 (Or.inl rfl) (by linarith)).1
  unfold KerrSlow at *
  have := slow_mono (b := a * 1) (rms_gt_one (by linarith) h2).le (Real.sqrt_le_sqrt h) (by linarith)
  linarith

/-- The energy and the angular momentum of the circular orbit of radius `r`. -/
noncomputable def orbitE (a r : ℝ) : ℝ := (√r ^ 3 - 2 * √r + a) / √(√r ^ 3 * (√r ^ 3 - 3 * √r + 2 * a))
noncomputable def orbitL (a r : ℝ) : ℝ := (√r ^ 4 - 2 * a * √r + a ^ 2) / √(√r ^ 3 * (√r ^ 3 - 3 * √r + 2 * a))

theorem pow_three_quarters {r : ℝ} (hr : 0 ≤ r) : r ^ (0.75 : ℝ) = √(√r ^ 3) := by
  rw [← pow_three_half hr, Real.sqrt_eq_rpow, ← Real.rpow_mul hr]
  norm_num

theorem kerrEL_eq {a xi r : ℝ} (hr : 0 < r) (hs : KerrSlow a 1 r) : kerrEL a xi r = some (orbitE a r, orbitL a r) := by
  have hw := Real.sqrt_pos.2 hr
  unfold KerrSlow at hs
  rw [mul_one] at hs
  unfold kerrEL root
  rw [pow_three_half hr.le, pow_three_quarters hr.le, if_neg (by linarith)]
  have e : √(√r ^ 3) * √(√r ^ 3 - 3 * √r + 2 * a) = √(√r ^ 3 * (√r ^ 3 - 3 * √r + 2 * a)) := (Real.sqrt_mul (by positivity) _).symm
  have hp : 0 < √(√r ^ 3 * (√r ^ 3 - 3 * √r + 2 * a)) := Real.sqrt_pos.2 (by positivity)
  have e4 : r ^ 2 = √r ^ 4 := by rw [show √r ^ 4 = (√r ^ 2) ^ 2 by ring, Real.sq_sqrt hr.le]
  simp only [Option.bind_some, e, quot, if_neg hp.ne', Option.map_some, e4]
  rw [show a * a = a ^ 2 by ring]
  rfl

/-- Where there is no such orbit, the code gets no number. -/
theorem kerrEL_none {a xi r : ℝ} (hr : 0 ≤ r) (hs : ¬KerrSlow a 1 r) : kerrEL a xi r = none := by
  unfold KerrSlow at hs
  rw [mul_one] at hs
  push Not at hs
  unfold kerrEL root
  rw [pow_three_half hr]
  rcases hs.lt_or_eq with h | h
  · rw [if_pos h]; rfl
  · rw [h, if_neg (lt_irrefl _), Real.sqrt_zero]
    simp [quot]

theorem orbit_lower {a : ℝ} {p : Vec} (hr : 0 < p 1) (h : p 2 = Real.pi / 2) (hs : KerrSlow a 1 (p 1)) :
    lower (gmunu a p) (kerrVel a p 1) 0 = -orbitE a (p 1) ∧ lower (gmunu a p) (kerrVel a p 1) 3 = orbitL a (p 1) := by
  obtain ⟨k1, k2⟩ := kerr_energy hr h (Or.inl rfl) hs
  rw [k1, k2]
  unfold orbitE orbitL
  simp only [mul_one, one_mul, neg_div]
  trivial

theorem raise_lower {a : ℝ} {p u : Vec} (hr : p 1 ≠ 0) (hd : p 1 * p 1 - 2 * p 1 + a * a ≠ 0) (h : p 2 = Real.pi / 2) :
    raise (gmunuUp a p) (-lower (gmunu a p) u 0, lower (gmunu a p) u 3) = (u 0, u 3) := by
  unfold raise
  rw [lower_circ, up00 hr hd h, up03 hr h, up33 hr h, g00 hr h, g03 hr h, g33 hr h]
  simp only [Matrix.cons_val]
  obtain ⟨d, hdd⟩ : ∃ d, d = p 1 * p 1 - 2 * p 1 + a * a := ⟨_, rfl⟩
  rw [← hdd] at hd ⊢
  congr 1 <;> field_simp <;> rw [hdd] <;> ring

/-- The circular orbit found with the energy and the angular momentum is that of `circularVelocity`. -/
theorem raise_orbit {a : ℝ} {p : Vec} (hr : 0 < p 1) (hd : p 1 * p 1 - 2 * p 1 + a * a ≠ 0) (h : p 2 = Real.pi / 2) (hs : KerrSlow a 1 (p 1)) :
    raise (gmunuUp a p) (orbitE a (p 1), orbitL a (p 1)) = (kerrVel a p 1 0, kerrVel a p 1 3) := by
  obtain ⟨k1, k2⟩ := orbit_lower hr h hs
  rw [← raise_lower (u := kerrVel a p 1) hr.ne' hd h, k1, k2, neg_neg]

section isco
variable {a : ℝ} (h1 : 0 ≤ a) (h2 : a < 1)
include h1 h2

/-- What the last stable orbit is worth. -/
theorem isco_relations : orbitE a (kerrRms a) ^ 2 = 1 - 2 / (3 * kerrRms a) ∧
    orbitL a (kerrRms a) ^ 2 = 2 * kerrRms a - 2 * a ^ 2 / (3 * kerrRms a) ∧
    (orbitL a (kerrRms a) - a * orbitE a (kerrRms a)) ^ 2 = kerrRms a ^ 2 / 3 := by
  obtain ⟨hr, h⟩ := rms_spec (a := a) (by linarith) h2.le
  rw [abs_of_nonneg h1] at h
  have hs := (rms_stationary (dir := 1) (by linarith) h2 (Or.inl rfl) (by linarith)).1
  have hw := Real.sqrt_pos.2 hr
  have hwr := Real.sq_sqrt hr.le
  unfold KerrSlow at hs
  rw [mul_one] at hs
  unfold orbitE orbitL
  generalize √(kerrRms a) = w at *
  rw [← hwr]
  have hP : 0 < w ^ 3 * (w ^ 3 - 3 * w + 2 * a) := by positivity
  have hq := Real.sq_sqrt hP.le
  have hq0 := Real.sqrt_pos.2 hP
  obtain ⟨d, hd⟩ : ∃ d, d = w ^ 3 - 3 * w + 2 * a := ⟨_, rfl⟩
  generalize √(w ^ 3 * (w ^ 3 - 3 * w + 2 * a)) = s at *
  rw [← hd] at hq hs
  refine ⟨?_, ?_, ?_⟩
  · rw [div_pow, hq]
    field_simp
    rw [hd]
    linear_combination (-1) * h
  · rw [div_pow, hq]
    field_simp
    rw [hd]
    linear_combination (-(3 * w ^ 4 + a ^ 2)) * h
  · rw [show (w ^ 4 - 2 * a * w + a ^ 2) / s - a * ((w ^ 3 - 2 * w + a) / s) = (w ^ 4 - a * w ^ 3) / s by field_simp; ring]
    rw [div_pow, hq]
    field_simp
    rw [hd]
    linear_combination (-1) * h

/-- The radial velocity of the gas that leaves the last stable orbit. -/
theorem isco_uW {r : ℝ} (hr : r ≠ 0) : uW a (orbitE a (kerrRms a)) (orbitL a (kerrRms a)) r = 2 / (3 * kerrRms a) * (kerrRms a / r - 1) ^ 3 := by
  obtain ⟨e1, e2, e3⟩ := isco_relations h1 h2
  have hR := (rms_spec (a := a) (by linarith) h2.le).1
  unfold uW
  rw [e3, e1, e2]
  field_simp
  ring

theorem orbitE_pos : 0 < orbitE a (kerrRms a) := by
  obtain ⟨hr, h⟩ := rms_spec (a := a) (by linarith) h2.le
  have hw1 := rms_gt_one (a := a) (by linarith) h2
  have hs := (rms_stationary (dir := 1) (by linarith) h2 (Or.inl rfl) (by linarith)).1
  unfold KerrSlow at hs
  unfold orbitE
  have hw := Real.sqrt_pos.2 hr
  generalize √(kerrRms a) = w at *
  refine div_pos ?_ (Real.sqrt_pos.2 (by have : 0 < w ^ 3 - 3 * w + 2 * a := by linarith
                                         positivity))
  nlinarith

end isco

/-! ### Mixtures -/

theorem quot_ne {x y : ℝ} (h : y ≠ 0) : quot x y = some (x / y) := if_neg h
theorem root_nonneg {x : ℝ} (h : 0 ≤ x) : root x = some √x := if_neg (not_lt.2 h)
theorem root_neg {x : ℝ} (h : x < 0) : root x = none := if_pos h

section mixing
variable {tt rr hh pp tp : ℝ}

theorem sp_circ' (u v : Vec) : sp (circ tt rr hh pp tp) u v =
    tt * u 0 * v 0 + tp * (u 0 * v 3 + u 3 * v 0) + rr * u 1 * v 1 + hh * u 2 * v 2 + pp * u 3 * v 3 := by
  rw [← scalarProd_eq]
  unfold scalarProd
  simp only [Fin.sum_univ_four, circ00, circ01, circ02, circ03, circ10, circ11, circ12, circ13, circ20, circ21, circ22, circ23, circ30, circ31, circ32, circ33]
  ring

/-- The angular velocity of an observer is less than that of light. -/
theorem slow_of_observer {u : Vec} (hrr : 0 < rr) (hu : IsObserver (circ tt rr hh pp tp) u) (h2 : u 2 = 0) :
    (tt + 2 * tp * (u 3 / u 0) + pp * (u 3 / u 0) ^ 2) * u 0 ^ 2 = -(1 + rr * u 1 ^ 2) ∧
      tt + 2 * tp * (u 3 / u 0) + pp * (u 3 / u 0) ^ 2 < 0 := by
  have h0 := hu.future
  have hu2 := hu.unit
  rw [sp_circ', h2] at hu2
  have e : (tt + 2 * tp * (u 3 / u 0) + pp * (u 3 / u 0) ^ 2) * u 0 ^ 2 = -(1 + rr * u 1 ^ 2) := by
    field_simp
    linear_combination hu2
  refine ⟨e, ?_⟩
  have h3 : 0 < 1 + rr * u 1 ^ 2 := by positivity
  by_contra hc
  push Not at hc
  have := mul_nonneg hc (sq_nonneg (u 0))
  linarith

/-- The mixture of the velocities of two observers is that of an observer. -/
theorem mix_ok {b : ℝ} {u v : Vec} (hrr : 0 < rr) (hpp : 0 < pp) (hb0 : 0 ≤ b) (hb1 : b ≤ 1)
    (hu : IsObserver (circ tt rr hh pp tp) u) (hu2 : u 2 = 0) (hv : IsObserver (circ tt rr hh pp tp) v) (hv2 : v 2 = 0) :
    ∃ w, mix (circ tt rr hh pp tp) b u v = some w ∧ IsObserver (circ tt rr hh pp tp) w ∧ w 1 = b * v 1 + (1 - b) * u 1 ∧ w 2 = 0 ∧
      w 3 / w 0 = b * (v 3 / v 0) + (1 - b) * (u 3 / u 0) := by
  have k1 := (slow_of_observer hrr hu hu2).2
  have k2 := (slow_of_observer hrr hv hv2).2
  unfold mix
  rw [quot_ne hu.future.ne', quot_ne hv.future.ne']
  simp only [Option.bind_some, circ00, circ11, circ33, circ03]
  obtain ⟨O, hO⟩ : ∃ O, O = v 3 / v 0 + (1 - b) * (u 3 / u 0 - v 3 / v 0) := ⟨_, rfl⟩
  obtain ⟨w1, hw1⟩ : ∃ w1, w1 = v 1 + (1 - b) * (u 1 - v 1) := ⟨_, rfl⟩
  rw [← hO, ← hw1]
  have hq : 0 < -tt - O ^ 2 * pp - 2 * O * tp := by
    have hc : -tt - O ^ 2 * pp - 2 * O * tp = -(b * (tt + 2 * tp * (v 3 / v 0) + pp * (v 3 / v 0) ^ 2)) -
        (1 - b) * (tt + 2 * tp * (u 3 / u 0) + pp * (u 3 / u 0) ^ 2) + b * (1 - b) * pp * (u 3 / u 0 - v 3 / v 0) ^ 2 := by
      rw [hO]; ring
    rw [hc]
    have l1 : 0 ≤ b * (1 - b) * pp * (u 3 / u 0 - v 3 / v 0) ^ 2 := by
      have : 0 ≤ 1 - b := by linarith
      positivity
    rcases hb0.eq_or_lt with hb | hb
    · rw [← hb] at l1 ⊢
      linarith
    · have l2 := mul_neg_of_pos_of_neg hb k2
      have l3 := mul_nonneg (sub_nonneg.2 hb1) (neg_nonneg.2 k1.le)
      linarith
  rw [quot_ne hq.ne']
  have hn : 0 < 1 + rr * w1 ^ 2 := by positivity
  have hx : 0 < (1 + rr * w1 ^ 2) / (-tt - O ^ 2 * pp - 2 * O * tp) := div_pos hn hq
  rw [Option.bind_some, root_nonneg hx.le]
  have hs := Real.sqrt_pos.2 hx
  have hs2 := Real.sq_sqrt hx.le
  generalize √((1 + rr * w1 ^ 2) / (-tt - O ^ 2 * pp - 2 * O * tp)) = s at *
  rw [eq_div_iff hq.ne'] at hs2
  refine ⟨_, rfl, ⟨hs, ?_⟩, ?_, rfl, ?_⟩
  · rw [sp_circ']
    simp only [Matrix.cons_val]
    linear_combination -hs2
  · show w1 = _
    rw [hw1]; ring
  · show O * s / s = _
    rw [mul_div_assoc, div_self hs.ne', hO]
    ring

theorem observer_ext {u w : Vec} (hrr : 0 < rr) (hu : IsObserver (circ tt rr hh pp tp) u) (hw : IsObserver (circ tt rr hh pp tp) w)
    (hu2 : u 2 = 0) (hw2 : w 2 = 0) (h1 : w 1 = u 1) (h3 : w 3 / w 0 = u 3 / u 0) : w = u := by
  obtain ⟨a1, a2⟩ := slow_of_observer hrr hu hu2
  obtain ⟨b1, b2⟩ := slow_of_observer hrr hw hw2
  rw [h3, h1, ← a1] at b1
  have e := mul_left_cancel₀ a2.ne b1
  have e0 : w 0 = u 0 := by
    rcases sq_eq_sq_iff_eq_or_eq_neg.1 e with h | h
    · exact h
    · have := hu.future
      have := hw.future
      linarith
  have e3 : w 3 = u 3 := by
    rw [e0] at h3
    exact (div_left_inj' hu.future.ne').1 h3
  funext α
  match α with
  | 0 => exact e0
  | 1 => exact h1
  | 2 => rw [hu2, hw2]
  | 3 => exact e3

theorem mix_one {u v : Vec} (hrr : 0 < rr) (hpp : 0 < pp) (hu : IsObserver (circ tt rr hh pp tp) u) (hu2 : u 2 = 0)
    (hv : IsObserver (circ tt rr hh pp tp) v) (hv2 : v 2 = 0) : mix (circ tt rr hh pp tp) 1 u v = some v := by
  obtain ⟨w, e, hw, e1, e2, e3⟩ := mix_ok hrr hpp zero_le_one le_rfl hu hu2 hv hv2
  rw [e, observer_ext hrr hv hw hv2 e2 (by rw [e1]; ring) (by rw [e3]; ring)]

theorem mix_zero {u v : Vec} (hrr : 0 < rr) (hpp : 0 < pp) (hu : IsObserver (circ tt rr hh pp tp) u) (hu2 : u 2 = 0)
    (hv : IsObserver (circ tt rr hh pp tp) v) (hv2 : v 2 = 0) : mix (circ tt rr hh pp tp) 0 u v = some u := by
  obtain ⟨w, e, hw, e1, e2, e3⟩ := mix_ok hrr hpp le_rfl zero_le_one hu hu2 hv hv2
  rw [e, observer_ext hrr hu hw hu2 e2 (by rw [e1]; ring) (by rw [e3]; ring)]

end mixing

theorem observer_passes {g : Tensor} {u : Vec} (h : IsObserver g u) : Passes g u := by
  unfold Passes
  rw [scalarProd_eq, h.unit]
  norm_num

/-- What `getVelocity` answers when the two velocities are those of observers. -/
theorem getVelocity_eq {M : Metric} {k : Motion} {p rad c : Vec} {tt rr hh pp tp : ℝ} (hg : M.g p = circ tt rr hh pp tp) (hrr : 0 < rr) (hpp : 0 < pp)
    (er : radial (M.g p) (M.gup p) = some rad) (hr : IsObserver (M.g p) rad) (hr2 : rad 2 = 0)
    (ec : circular M (xiOf M k) p = some c) (hc : IsObserver (M.g p) c) (hc2 : c 2 = 0) :
    ∃ w, getVelocity M k p = .ok w ∧ IsObserver (M.g p) w ∧ w 1 = beta k * c 1 + (1 - beta k) * rad 1 ∧ w 2 = 0 ∧
      w 3 / w 0 = beta k * (c 3 / c 0) + (1 - beta k) * (rad 3 / rad 0) ∧ (k = .circular → w = c) ∧ (k = .radial → w = rad) := by
  have hb : 0 ≤ beta k ∧ beta k ≤ 1 := by cases k <;> simp [beta] <;> norm_num
  have key : ∃ w, mix (M.g p) (beta k) rad c = some w ∧ IsObserver (M.g p) w ∧ w 1 = beta k * c 1 + (1 - beta k) * rad 1 ∧ w 2 = 0 ∧
      w 3 / w 0 = beta k * (c 3 / c 0) + (1 - beta k) * (rad 3 / rad 0) := by
    rw [hg] at hr hc ⊢
    exact mix_ok hrr hpp hb.1 hb.2 hr hr2 hc hc2
  obtain ⟨w, e, hw, e1, e2, e3⟩ := key
  refine ⟨w, ?_, hw, e1, e2, e3, ?_, ?_⟩
  · unfold getVelocity
    rw [er]
    simp only [not_not]
    rw [if_neg (not_not.2 (observer_passes hr)), ec]
    simp only []
    rw [if_neg (not_not.2 (observer_passes hc)), e]
    simp only []
    rw [if_pos (observer_passes hw)]
  · rintro rfl
    rw [hg] at hr hc e
    have := mix_one hrr hpp hr hr2 hc hc2
    rw [show beta .circular = 1 from rfl, this] at e
    exact (Option.some.inj e).symm
  · rintro rfl
    rw [hg] at hr hc e
    have := mix_zero hrr hpp hr hr2 hc hc2
    rw [show beta .radial = 0 from rfl, this] at e
    exact (Option.some.inj e).symm

end Gyoto.Plunge
