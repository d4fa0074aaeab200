import Verif.Model.Jet
import Verif.Spec.Jet
import Verif.Lemmas.HotSpot
import Verif.Props.BField

/-! Lemmas on the jet. -/

namespace Gyoto.JetFlow

open Gyoto.MetricAlg Gyoto.KerrBL Gyoto.Spacetime
open Gyoto.Transfer (Out)
open Gyoto.USphere (Kind)
open Gyoto.HotSpot (Outside sp_circ)

theorem wall_pos {z k : ℝ} (hz : 0 ≤ z) (hk : 0 < k) : wall z k = some √(z / k) := by
  unfold wall BField.div? BField.sqrt?
  rw [if_neg hk.ne']
  simp only [Option.bind_some]
  rw [if_neg (not_lt.2 (div_nonneg hz hk.le))]

theorem wall_neg {z k : ℝ} (hz : 0 < z) (hk : k < 0) : wall z k = none := by
  unfold wall BField.div? BField.sqrt?
  rw [if_neg hk.ne]
  simp only [Option.bind_some]
  rw [if_pos (div_neg_of_pos_of_neg hz hk)]

theorem height_nonneg (k : Kind) (p : Vec) : 0 ≤ height k p := by
  cases k <;> exact abs_nonneg _

/-- A product is negative between its roots. -/
theorem prod_neg_iff {x a b : ℝ} (h : a ≤ b) : (x - a) * (x - b) < 0 ↔ a < x ∧ x < b := by
  rw [mul_neg_iff]
  constructor
  · rintro (⟨h1, h2⟩ | ⟨h1, h2⟩)
    · exact ⟨by linarith, by linarith⟩
    · exfalso; linarith
  · rintro ⟨h1, h2⟩
    exact .inl ⟨by linarith, by linarith⟩

/-- Which side of a cone a point is on. -/
theorem cone_lt {r t ρ z a : ℝ} (h : IsPolar r t ρ z) (h0 : 0 ≤ a) (h1 : a < Real.pi / 2) :
    (|z| * Real.tan a < ρ ↔ a < t) ∧ (ρ < |z| * Real.tan a ↔ t < a) := by
  have hc : 0 < Real.cos a := Real.cos_pos_of_mem_Ioo ⟨by linarith, h1⟩
  have hp := Real.pi_pos
  have e : (ρ - |z| * Real.tan a) * Real.cos a = r * Real.sin (t - a) := by
    rw [Real.sin_sub, h.rho, h.z, Real.tan_eq_sin_div_cos]
    field_simp
  have key : 0 < Real.sin (t - a) ↔ a < t := by
    constructor
    · intro hs
      by_contra hn
      have := Real.sin_nonpos_of_nonpos_of_neg_pi_le (x := t - a) (by linarith) (by linarith [h.lo])
      linarith
    · intro ht
      exact Real.sin_pos_of_pos_of_lt_pi (by linarith) (by linarith [h.hi])
  have key' : Real.sin (t - a) < 0 ↔ t < a := by
    constructor
    · intro hs
      by_contra hn
      have := Real.sin_nonneg_of_nonneg_of_le_pi (x := t - a) (by linarith) (by linarith [h.hi])
      linarith
    · intro ht
      exact Real.sin_neg_of_neg_of_neg_pi_lt (by linarith) (by linarith [h.lo])
  constructor
  · rw [← key, ← sub_pos]
    constructor
    · intro hx
      have : 0 < r * Real.sin (t - a) := e ▸ mul_pos hx hc
      exact pos_of_mul_pos_right this h.pos.le
    · intro hx
      have : 0 < (ρ - |z| * Real.tan a) * Real.cos a := e ▸ mul_pos h.pos hx
      exact pos_of_mul_pos_left this hc.le
  · rw [← key', ← sub_neg]
    constructor
    · intro hx
      have : r * Real.sin (t - a) < 0 := e ▸ mul_neg_of_neg_of_pos hx hc
      by_contra hn
      have := mul_nonneg h.pos.le (not_lt.1 hn)
      linarith
    · intro hx
      have : (ρ - |z| * Real.tan a) * Real.cos a < 0 := e ▸ mul_neg_of_pos_of_neg h.pos hx
      by_contra hn
      have := mul_nonneg (not_lt.1 hn) hc.le
      linarith

theorem cone_mono {z a b : ℝ} (hz : 0 ≤ z) (h0 : 0 ≤ a) (hab : a ≤ b) (hb : b < Real.pi / 2) : z * Real.tan a ≤ z * Real.tan b := by
  refine mul_le_mul_of_nonneg_left ?_ hz
  exact Real.strictMonoOn_tan.monotoneOn ⟨by linarith [Real.pi_pos], by linarith⟩ ⟨by linarith [Real.pi_pos], hb⟩ hab

/-- The direction of the jet is a unit vector. -/
theorem heading_unit (s : Jet) (r t : ℝ) :
    (s.heading r t).1 ^ 2 + (s.heading r t).2.1 ^ 2 + (s.heading r t).2.2 ^ 2 = 1 := by
  unfold Jet.heading
  by_cases h : s.parabolic = true
  · rw [if_pos h]
    dsimp only
    generalize (if r * Real.cos t < 0 then (-1 : ℝ) else 1) = sz
    obtain ⟨a, ha⟩ : ∃ a, a = Real.sin t + 2 * sz * s.kIn * (r * Real.sin t) * Real.cos t := ⟨_, rfl⟩
    obtain ⟨b, hb⟩ : ∃ b, b = Real.cos t - 2 * sz * s.kIn * (r * Real.sin t) * Real.sin t := ⟨_, rfl⟩
    have hpos : 0 < a * a + b * b := by
      have e : a * a + b * b = 1 + (2 * sz * s.kIn * (r * Real.sin t)) ^ 2 := by
        rw [ha, hb]
        linear_combination (1 + (2 * sz * s.kIn * (r * Real.sin t)) ^ 2) * Real.sin_sq_add_cos_sq t
      rw [e]; positivity
    rw [← ha, ← hb]
    have h1 := Real.sq_sqrt hpos.le
    have h1p := Real.sqrt_pos.2 hpos
    generalize √(a * a + b * b) = n at *
    have e1 : (a / n) ^ 2 + (b / n) ^ 2 = 1 := by
      rw [div_pow, div_pow, ← add_div, h1, div_eq_one_iff_eq hpos.ne']; ring
    generalize a / n = x at *
    generalize b / n = y at *
    have h2 : 0 < 1 + s.ratio * x * (s.ratio * x) := by linarith [mul_self_nonneg (s.ratio * x)]
    have h3 := Real.sq_sqrt h2.le
    rw [div_pow, div_pow, div_pow, h3]
    field_simp
    linear_combination e1
  · rw [if_neg h]
    dsimp only
    have h2 : 0 < 1 + s.ratio * s.ratio := by linarith [mul_self_nonneg s.ratio]
    rw [div_pow, div_pow, Real.sq_sqrt h2.le]
    field_simp
    ring

theorem heading_ratio (s : Jet) (r t : ℝ) : (s.heading r t).2.2 = s.ratio * (s.heading r t).1 := by
  unfold Jet.heading
  by_cases h : s.parabolic = true
  · rw [if_pos h]
    dsimp only
    rw [mul_div_assoc]
  · rw [if_neg h]
    dsimp only
    rw [mul_one_div]

/-- What the direction is along the sheet. -/
theorem heading_parabolic {s : Jet} (h : s.parabolic = true) (r t sz : ℝ) (hsz : sz = if r * Real.cos t < 0 then -1 else 1) :
    ∃ c > 0, (s.heading r t).1 = c * (Real.sin t + 2 * sz * s.kIn * (r * Real.sin t) * Real.cos t) ∧
      (s.heading r t).2.1 = c * (Real.cos t - 2 * sz * s.kIn * (r * Real.sin t) * Real.sin t) := by
  unfold Jet.heading
  rw [if_pos h]
  dsimp only
  rw [← hsz]
  obtain ⟨a, ha⟩ : ∃ a, a = Real.sin t + 2 * sz * s.kIn * (r * Real.sin t) * Real.cos t := ⟨_, rfl⟩
  obtain ⟨b, hb⟩ : ∃ b, b = Real.cos t - 2 * sz * s.kIn * (r * Real.sin t) * Real.sin t := ⟨_, rfl⟩
  have hpos : 0 < a * a + b * b := by
    have e : a * a + b * b = 1 + (2 * sz * s.kIn * (r * Real.sin t)) ^ 2 := by
      rw [ha, hb]
      linear_combination (1 + (2 * sz * s.kIn * (r * Real.sin t)) ^ 2) * Real.sin_sq_add_cos_sq t
    rw [e]; positivity
  rw [← ha, ← hb]
  have h1p := Real.sqrt_pos.2 hpos
  generalize √(a * a + b * b) = n at *
  have h2 : 0 < √(1 + s.ratio * (a / n) * (s.ratio * (a / n))) := Real.sqrt_pos.2 (by linarith [mul_self_nonneg (s.ratio * (a / n))])
  generalize √(1 + s.ratio * (a / n) * (s.ratio * (a / n))) = m at *
  exact ⟨1 / (n * m), by positivity, by field_simp, by field_simp⟩

/-- The observer without angular momentum. -/
noncomputable def zamo (tt pp tp : ℝ) : Vec := ![√(-pp / (tt * pp - tp * tp)), 0, 0, -√(-pp / (tt * pp - tp * tp)) * tp / pp]

theorem zamo_ok {g : Tensor} {tt rr hh pp tp : ℝ} (h : Outside g tt rr hh pp tp) (hp : 0 < pp) : IsZamo g (zamo tt pp tp) := by
  obtain ⟨rfl, hr, hh0, hd⟩ := h
  have hd' : tt * pp - tp * tp < 0 := by nlinarith
  have hq : 0 < -pp / (tt * pp - tp * tp) := div_pos_of_neg_of_neg (by linarith) hd'
  have hs := Real.sq_sqrt hq.le
  have hsp := Real.sqrt_pos.2 hq
  refine ⟨⟨hsp, ?_⟩, rfl, rfl, ?_⟩
  · rw [← scalarProd_eq, sp_circ]
    simp only [zamo, Matrix.cons_val_zero, Matrix.cons_val_one, Matrix.cons_val]
    generalize √(-pp / (tt * pp - tp * tp)) = q at *
    have e : tt * q * q + tp * (q * (-q * tp / pp) + -q * tp / pp * q) + pp * (-q * tp / pp) * (-q * tp / pp) =
        q ^ 2 * (tt * pp - tp * tp) / pp := by
      field_simp
      ring
    rw [show tt * q * q + tp * (q * (-q * tp / pp) + -q * tp / pp * q) + pp * (-q * tp / pp) * (-q * tp / pp) + rr * 0 * 0 + hh * 0 * 0 =
      tt * q * q + tp * (q * (-q * tp / pp) + -q * tp / pp * q) + pp * (-q * tp / pp) * (-q * tp / pp) by ring, e, hs]
    rw [div_mul_cancel₀ _ hd'.ne, neg_div, div_self hp.ne']
  · simp only [lower, Fin.sum_univ_four, circ30, circ31, circ32, circ33, zamo, Matrix.cons_val_zero, Matrix.cons_val_one, Matrix.cons_val]
    field_simp
    ring

theorem dir_sq (s : Jet) (r : ℝ) : s.dir r * s.dir r = 1 := by
  unfold Jet.dir; split_ifs <;> norm_num

/-- The velocity of the jet before the test of the norm. -/
noncomputable def Jet.flow (s : Jet) (rr hh pp : ℝ) (w pos : Vec) : Vec := fun i => s.gamma * (w i + √(s.gamma * s.gamma - 1) / s.gamma *
    (![0, s.dir (pos 1) * (s.heading (pos 1) (pos 2)).1 / √rr, s.dir (pos 1) * (s.heading (pos 1) (pos 2)).2.1 / √hh,
      (s.heading (pos 1) (pos 2)).2.2 / √pp] : Vec) i)

theorem flow_sp {g : Tensor} {tt rr hh pp tp : ℝ} (h : Outside g tt rr hh pp tp) (hp : 0 < pp) {s : Jet} (hg : 1 ≤ s.gamma * s.gamma) (pos : Vec) :
    scalarProd g (s.flow rr hh pp (zamo tt pp tp) pos) (s.flow rr hh pp (zamo tt pp tp) pos) = -1 ∧
    lorentz g (zamo tt pp tp) (s.flow rr hh pp (zamo tt pp tp) pos) = s.gamma ∧
    scalarProd g (s.flow rr hh pp (zamo tt pp tp) pos) (outward g) =
      s.gamma * (√(s.gamma * s.gamma - 1) / s.gamma) * (s.dir (pos 1) * (s.heading (pos 1) (pos 2)).1) ∧
    scalarProd g (s.flow rr hh pp (zamo tt pp tp) pos) (poleward g) =
      s.gamma * (√(s.gamma * s.gamma - 1) / s.gamma) * (s.dir (pos 1) * (s.heading (pos 1) (pos 2)).2.1) ∧
    scalarProd g (s.flow rr hh pp (zamo tt pp tp) pos) (eastward g) =
      s.gamma * (√(s.gamma * s.gamma - 1) / s.gamma) * (s.heading (pos 1) (pos 2)).2.2 := by
  obtain ⟨z0, z1, z2, z3⟩ := zamo_ok h hp
  have hu := heading_unit s (pos 1) (pos 2)
  have hd := dir_sq s (pos 1)
  have g0 : s.gamma ≠ 0 := by rintro e; rw [e] at hg; norm_num at hg
  have hv : (√(s.gamma * s.gamma - 1) / s.gamma) * (√(s.gamma * s.gamma - 1) / s.gamma) * (s.gamma * s.gamma) = s.gamma * s.gamma - 1 := by
    rw [div_mul_div_comm, Real.mul_self_sqrt (by linarith)]
    field_simp
  have hz := z0.unit
  obtain ⟨rfl, hr, hh0, hdet⟩ := h
  rw [← scalarProd_eq, sp_circ] at hz
  simp only [lower, Fin.sum_univ_four, circ30, circ31, circ32, circ33] at z3
  have r1 : rr * (1 / √rr) * (1 / √rr) = 1 := by
    rw [mul_assoc, div_mul_div_comm, Real.mul_self_sqrt hr.le]; field_simp
  have r2 : hh * (1 / √hh) * (1 / √hh) = 1 := by
    rw [mul_assoc, div_mul_div_comm, Real.mul_self_sqrt hh0.le]; field_simp
  have r3 : pp * (1 / √pp) * (1 / √pp) = 1 := by
    rw [mul_assoc, div_mul_div_comm, Real.mul_self_sqrt hp.le]; field_simp
  simp only [lorentz, sp_circ, outward, poleward, eastward, Jet.flow, circ11, circ22, circ33, Matrix.cons_val_zero, Matrix.cons_val_one, Matrix.cons_val]
  rw [z1, z2] at *
  rw [div_eq_mul_one_div _ √rr, div_eq_mul_one_div _ √hh, div_eq_mul_one_div _ √pp]
  generalize 1 / √rr = a at *
  generalize 1 / √hh = b at *
  generalize 1 / √pp = c at *
  generalize √(s.gamma * s.gamma - 1) / s.gamma = V at *
  generalize (s.heading (pos 1) (pos 2)).1 = x at *
  generalize (s.heading (pos 1) (pos 2)).2.1 = y at *
  generalize (s.heading (pos 1) (pos 2)).2.2 = w at *
  generalize s.dir (pos 1) = d at *
  generalize zamo tt pp tp 0 = q0 at *
  generalize zamo tt pp tp 3 = q3 at *
  generalize s.gamma = G at *
  refine ⟨?_, ?_, ?_, ?_, ?_⟩
  · linear_combination G ^ 2 * hz + 2 * G ^ 2 * V * w * c * z3 + G ^ 2 * V ^ 2 * (x ^ 2 * d ^ 2 * r1 + y ^ 2 * d ^ 2 * r2 + w ^ 2 * r3) +
      G ^ 2 * V ^ 2 * (x ^ 2 + y ^ 2) * hd + G ^ 2 * V ^ 2 * hu + hv
  · linear_combination -G * hz - G * V * w * c * z3
  · linear_combination G * V * d * x * r1
  · linear_combination G * V * d * y * r2
  · linear_combination G * V * w * r3 + G * c * z3

/-- What `getVelocity` computes. -/
theorem getVelocity_eq {g : Tensor} {tt rr hh pp tp : ℝ} (h : Outside g tt rr hh pp tp) (hp : 0 < pp) {s : Jet} (hg : 1 ≤ s.gamma * s.gamma)
    (pos : Vec) : s.getVelocity g pos = .ok (s.flow rr hh pp (zamo tt pp tp) pos) := by
  have hsp := (flow_sp h hp hg pos).1
  obtain ⟨rfl, hr, hh0, hdet⟩ := h
  have hd' : tt * pp - tp * tp < 0 := by nlinarith
  unfold Jet.getVelocity
  simp only [circ00, circ33, circ03, circ11, circ22]
  refine (if_neg (by
    rintro (h | h | h | h | ⟨-, h⟩) <;> linarith)).trans ?_
  have e : (![s.gamma * √(-pp / (tt * pp - tp * tp)),
      s.dir (pos 1) *
        (s.gamma * (√(s.gamma * s.gamma - 1) / s.gamma * (s.heading (pos 1) (pos 2)).1 / √rr)),
      s.dir (pos 1) *
        (s.gamma * (√(s.gamma * s.gamma - 1) / s.gamma * (s.heading (pos 1) (pos 2)).2.1 / √hh)),
      s.gamma * (-√(-pp / (tt * pp - tp * tp)) * tp / pp + √(s.gamma * s.gamma - 1) / s.gamma * (s.heading (pos 1) (pos 2)).2.2 / √pp)] : Vec) =
      s.flow rr hh pp (zamo tt pp tp) pos := by
    funext i
    fin_cases i <;>
      simp only [Jet.flow, zamo, Fin.zero_eta, Fin.mk_one, Fin.reduceFinMk, Matrix.cons_val_zero, Matrix.cons_val_one, Matrix.cons_val] <;> ring
  exact (if_neg (by rw [e, hsp]; norm_num)).trans (congrArg Out.ok e)

end Gyoto.JetFlow
