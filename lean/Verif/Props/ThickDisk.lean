import Verif.Lemmas.ThickDisk
import Verif.Props.SphAcc
import Verif.Props.DeformedTorus
import Verif.Props.Jet
import Mathlib.Analysis.Real.Pi.Bounds

/-! # C127. The velocity of the thick disk -/

namespace Gyoto.Thick

open Gyoto.MetricAlg Gyoto.KerrBL Gyoto.Spacetime
open Gyoto.Transfer (Out)
open Gyoto.SphAcc (lower_circ)

variable {g up : Tensor} {tt rr hh pp tp : ℝ} {pos : Vec}

/-! ## Any stationary, axisymmetric spacetime -/

/-- Two observers with the same radial, polar and angular velocities are one. -/
theorem same_observer {u v : Vec} (hg : g = circ tt rr hh pp tp) (hr : 0 < rr) (hu : IsObserver g u) (hv : IsObserver g v) (h1 : u 1 = v 1)
    (h2 : u 2 = 0) (h2' : v 2 = 0) (h3 : u 3 / u 0 = v 3 / v 0) : u = v := by
  have a := hu.unit
  have b := hv.unit
  rw [hg, SphAcc.sp_circ] at a b
  have u0 := hu.future
  have v0 := hv.future
  obtain ⟨O, hO⟩ : ∃ O, O = u 3 / u 0 := ⟨_, rfl⟩
  have eu : u 3 = O * u 0 := by rw [hO]; field_simp
  have ev : v 3 = O * v 0 := by rw [hO, h3]; field_simp
  rw [eu, h1, h2] at a
  rw [ev, h2'] at b
  obtain ⟨N, hN⟩ : ∃ N, N = tt + pp * O ^ 2 + 2 * tp * O := ⟨_, rfl⟩
  have b' : N * v 0 ^ 2 = -1 - rr * v 1 ^ 2 := by rw [hN]; linear_combination b
  have e : N * (u 0 ^ 2 - v 0 ^ 2) = 0 := by rw [hN]; linear_combination a - b
  have e0 : u 0 = v 0 := by
    rcases mul_eq_zero.1 e with h | h
    · exfalso
      rw [h] at b'
      have := mul_nonneg hr.le (sq_nonneg (v 1))
      linarith
    · have : (u 0 - v 0) * (u 0 + v 0) = 0 := by linear_combination h
      rcases mul_eq_zero.1 this with h | h <;> linarith
  funext i
  fin_cases i
  · exact e0
  · exact h1
  · exact h2.trans h2'.symm
  · show u 3 = v 3
    rw [eu, ev, e0]

theorem between (h : Place g up tt rr hh pp tp) {s : Disk} (hrho : 0 ≤ pos 1 * Real.sin (pos 2))
    (hK : 0 < pp + 2 * tp * ell pos + tt * ell pos ^ 2) (hw : up 0 0 ≤ -1) (hb0 : 0 ≤ s.beta) (hb1 : s.beta ≤ 1) :
    ∃ v c f, s.getVelocity g up pos = .ok v ∧ Circles g (ell pos) c ∧ Falls g f ∧ Between g s.alpha s.beta c f v := by
  obtain ⟨e, o⟩ := velocity_eq h (s := s) hrho hK hw hb0 hb1
  obtain ⟨-, oc⟩ := velocity_eq h (s := { s with alpha := 1, beta := 1 }) hrho hK hw zero_le_one le_rfl
  obtain ⟨-, of⟩ := velocity_eq h (s := { s with alpha := 0, beta := 0 }) hrho hK hw le_rfl zero_le_one
  obtain ⟨e0, -⟩ := rate_neg h.ppp h.det hK hb0 hb1
  have g00 : g 0 0 = tt := by rw [h.eq]; rfl
  have g33 : g 3 3 = pp := by rw [h.eq]; rfl
  have g03 : g 0 3 = tp := by rw [h.eq]; rfl
  obtain ⟨c, hc⟩ : ∃ c, c = mixed { s with alpha := 1, beta := 1 } g up pos := ⟨_, rfl⟩
  obtain ⟨f, hf⟩ : ∃ f, f = mixed { s with alpha := 0, beta := 0 } g up pos := ⟨_, rfl⟩
  have c1 : c 1 = 0 := by rw [hc, mixed_1]; simp
  have c2 : c 2 = 0 := by rw [hc]; rfl
  have c3 : c 3 = -(tp + tt * ell pos) / (pp + tp * ell pos) * c 0 := by rw [hc, mixed_3, g00, g33, g03]; simp [rate]
  have f1 : f 1 = -√((-1 - up 0 0) * up 1 1) := by rw [hf, mixed_1]; simp
  have f2 : f 2 = 0 := by rw [hf]; rfl
  have f3 : f 3 = -tp / pp * f 0 := by rw [hf, mixed_3, g00, g33, g03]; simp [rate]
  rw [← hc] at oc
  rw [← hf] at of
  have hc0 := oc.future
  have hf0 := of.future
  have hpp := h.ppp
  obtain ⟨lc0, -, -, lc3⟩ := lower_circ tt rr hh pp tp c
  obtain ⟨lf0, -, -, lf3⟩ := lower_circ tt rr hh pp tp f
  have hv0 := o.future
  refine ⟨_, c, f, e, ⟨oc, c1, c2, ?_⟩, ⟨of, ?_, f2, ?_, ?_⟩, ⟨o, ?_, rfl, ?_⟩⟩
  · rw [h.eq, lc0, lc3, c3]; field_simp; ring
  · rw [f1]; simpa using Real.sqrt_nonneg _
  · -- the energy
    have hu := of.unit
    rw [h.eq, SphAcc.sp_circ, f1, f2, f3, neg_sq, Real.sq_sqrt (mul_nonneg (by linarith) (by rw [h.u11]; exact (one_div_pos.2 h.prr).le)), h.u00, h.u11] at hu
    have hrr := h.prr.ne'
    obtain ⟨D, hD⟩ : ∃ D, D = tt * pp - tp ^ 2 := ⟨_, rfl⟩
    have hd := h.det
    rw [← hD] at hu hd
    have hsq : (f 0 * (D / pp)) ^ 2 = 1 := by
      have e1 : tt * f 0 ^ 2 + rr * ((-1 - pp / D) * (1 / rr)) + hh * 0 ^ 2 + pp * (-tp / pp * f 0) ^ 2 + 2 * tp * f 0 * (-tp / pp * f 0) =
          f 0 ^ 2 * (D / pp) - 1 - pp / D := by
        rw [hD]; rw [hD] at hd; have := hd.ne; field_simp; ring
      rw [e1] at hu
      have e2 : f 0 ^ 2 * (D / pp) = pp / D := by linarith
      have := hd.ne
      calc (f 0 * (D / pp)) ^ 2 = f 0 ^ 2 * (D / pp) * (D / pp) := by ring
        _ = 1 := by rw [e2]; field_simp
    have hneg : f 0 * (D / pp) < 0 := mul_neg_of_pos_of_neg hf0 (div_neg_of_neg_of_pos hd hpp)
    have : f 0 * (D / pp) = -1 := by
      have : (f 0 * (D / pp) - 1) * (f 0 * (D / pp) + 1) = 0 := by linear_combination hsq
      rcases mul_eq_zero.1 this with h | h <;> linarith
    rw [h.eq, lf0, f3, ← this, hD]
    field_simp
    ring
  · rw [h.eq, lf3, f3]; field_simp; ring
  · rw [c1, f1, mixed_1]; ring
  · rw [mixed_3, c3, f3, g00, g33, g03]
    rw [mul_div_cancel_right₀ _ hv0.ne', mul_div_cancel_right₀ _ hc0.ne', mul_div_cancel_right₀ _ hf0.ne']
    unfold rate
    ring

/-! ## Kerr -/

/-- Outside of the horizon of a black hole, off the axis. -/
structure Near (a : ℝ) (pos : Vec) : Prop where
  spin : |a| ≤ 1
  r : 1 + √(1 - a ^ 2) < pos 1
  sin : 0 < Real.sin (pos 2)

theorem Near.one (h : Near a pos) : 1 < pos 1 := by
  have := h.r
  have := Real.sqrt_nonneg (1 - a ^ 2)
  linarith

theorem Near.delta (h : Near a pos) : 0 < pos 1 * pos 1 - 2 * pos 1 + a * a := by
  have ha : 0 ≤ 1 - a ^ 2 := by have := h.spin; rw [abs_le] at this; nlinarith
  have h1 := Real.sq_sqrt ha
  have h2 := h.r
  have h3 := Real.sqrt_nonneg (1 - a ^ 2)
  nlinarith

theorem Near.place (h : Near a pos) : Place (gmunu a pos) (gmunuUp a pos) (gmunu a pos 0 0) (gmunu a pos 1 1) (gmunu a pos 2 2) (gmunu a pos 3 3)
    (gmunu a pos 0 3) := by
  have hr : 0 < pos 1 := by linarith [h.one]
  obtain ⟨o, hpp, -, hrr⟩ := JetFlow.kerr_out hr h.delta h.sin.ne'
  have i := DefTorus.inv (SphAcc.sigma_pos (a := a) hr).ne' h.delta.ne' h.sin.ne'
  have d := o.det
  refine ⟨o.eq, hrr, hpp, d, ?_, ?_, ?_, ?_⟩
  · rw [eq_div_iff d.ne]; linear_combination gmunu a pos 3 3 * i.e1 - gmunu a pos 0 3 * i.e2
  · rw [eq_div_iff d.ne]; linear_combination gmunu a pos 0 0 * i.e2 - gmunu a pos 0 3 * i.e1
  · rw [eq_div_iff d.ne]; linear_combination gmunu a pos 0 0 * i.e4 - gmunu a pos 0 3 * i.e3
  · rw [eq_div_iff hrr.ne']; exact i.e5

/-- The angular momentum per energy is at most half the radius times the sine. -/
theorem ell_le (h : Near a pos) : 0 ≤ ell pos ∧ ell pos ≤ pos 1 / 2 * Real.sin (pos 2) := by
  have hr : 0 < pos 1 := by linarith [h.one]
  have hrho : 0 < pos 1 * Real.sin (pos 2) := mul_pos hr h.sin
  obtain ⟨rho, hrh⟩ : ∃ rho, rho = pos 1 * Real.sin (pos 2) := ⟨_, rfl⟩
  have e : ell pos = √rho ^ 3 / (rho + 1) := by
    unfold ell
    rw [← hrh, Orbits.pow_three_half (by rw [hrh]; exact hrho.le)]
  rw [← hrh] at hrho
  have hs := Real.sqrt_nonneg rho
  have hq := Real.sq_sqrt hrho.le
  refine ⟨by rw [e]; positivity, ?_⟩
  rw [e, show pos 1 / 2 * Real.sin (pos 2) = rho / 2 by rw [hrh]; ring, div_le_iff₀ (by linarith)]
  have : √rho ^ 3 = rho * √rho := by rw [pow_succ, hq]
  rw [this]
  nlinarith [sq_nonneg (√rho - 1)]

theorem slow_aux {r a s m : ℝ} (hr : 1 < r) (ha1 : -1 ≤ a) (ha2 : a ≤ 1) (s0 : 0 ≤ s) (s1 : s ≤ 1) (m0 : 0 ≤ m) (m1 : m ≤ r / 2) :
    0 < (r ^ 2 + a ^ 2 - a * m * s) ^ 2 - (r * r - 2 * r + a * a) * (a * s - m) ^ 2 := by
  obtain ⟨w, hw⟩ : ∃ w, w = a * s := ⟨_, rfl⟩
  have w1 : w ≤ 1 := by
    have := mul_nonneg s0 (sub_nonneg.2 ha2)
    linarith
  have w2 : w ^ 2 ≤ a ^ 2 := by
    rw [hw, mul_pow]
    have := mul_nonneg (sq_nonneg a) (show 0 ≤ 1 - s ^ 2 by nlinarith only [s0, s1])
    linarith
  have ea : a * m * s = m * w := by rw [hw]; ring
  rw [ea, ← hw]
  have q0 := sq_nonneg a
  have mr : m * w ≤ m := by have := mul_nonneg m0 (sub_nonneg.2 w1); linarith
  have rr : r < r ^ 2 := by nlinarith only [hr]
  have hX : 0 < r ^ 2 + a ^ 2 - m * w := by linarith
  have hX1 : r * (w - m) ≤ r ^ 2 + a ^ 2 - m * w := by
    have h1 : 0 ≤ m * (r - w) := mul_nonneg m0 (by linarith)
    have h2 : 0 ≤ r * (r - w) := mul_nonneg (by linarith) (by linarith)
    linarith
  have hX2 : -(r * (w - m)) ≤ r ^ 2 + a ^ 2 - m * w := by
    have h0 : 0 ≤ r * (r / 2 - m) := mul_nonneg (by linarith) (by linarith)
    have h1 : 0 ≤ r ^ 2 / 2 + w ^ 2 + (r - m) * w := by
      have p : (r - m) ^ 2 ≤ r ^ 2 := by
        have := mul_nonneg m0 (show 0 ≤ 2 * r - m by linarith)
        linarith
      linarith [sq_nonneg ((r - m) + 2 * w), sq_nonneg ((r - m) + w), sq_nonneg (r - m), sq_nonneg w]
    linarith
  have hd : r * r - 2 * r + a * a < r ^ 2 := by nlinarith only [hr, ha1, ha2]
  have hXY : (r * (w - m)) ^ 2 ≤ (r ^ 2 + a ^ 2 - m * w) ^ 2 := by
    apply sq_le_sq'
    · linarith
    · exact hX1
  rcases eq_or_ne (w - m) 0 with h0 | h0
  · rw [h0]; have := pow_pos hX 2; linarith
  · have h2 : 0 < (w - m) ^ 2 := by positivity
    have := mul_pos h2 (sub_pos.2 hd)
    linarith

/-- The circles are slower than light everywhere outside the horizon. -/
theorem kerr_slow (h : Near a pos) : 0 < gmunu a pos 3 3 + 2 * gmunu a pos 0 3 * ell pos + gmunu a pos 0 0 * ell pos ^ 2 := by
  obtain ⟨l0, l1⟩ := ell_le h
  have hone := h.one
  have hsin := h.sin
  have hs1 := Real.sin_le_one (pos 2)
  have hdel := h.delta
  have hS := SphAcc.sigma_pos (a := a) (p := pos) (by linarith)
  have hsc := Real.sin_sq_add_cos_sq (pos 2)
  have e00 : gmunu a pos 0 0 = -1 + 2 * pos 1 / (pos 1 * pos 1 + a * a * (Real.cos (pos 2) * Real.cos (pos 2))) := rfl
  have e33 : gmunu a pos 3 3 = (pos 1 * pos 1 + a * a + 2 * pos 1 * (a * a) * (Real.sin (pos 2) * Real.sin (pos 2)) /
      (pos 1 * pos 1 + a * a * (Real.cos (pos 2) * Real.cos (pos 2)))) * (Real.sin (pos 2) * Real.sin (pos 2)) := rfl
  have e03 : gmunu a pos 0 3 = -2 * a * pos 1 * (Real.sin (pos 2) * Real.sin (pos 2)) /
      (pos 1 * pos 1 + a * a * (Real.cos (pos 2) * Real.cos (pos 2))) := rfl
  obtain ⟨ha1, ha2⟩ := abs_le.1 h.spin
  rw [e00, e33, e03]
  generalize Real.cos (pos 2) = c at *
  generalize Real.sin (pos 2) = s at *
  generalize pos 1 = r at *
  obtain ⟨m, hm⟩ : ∃ m, m = ell pos / s := ⟨_, rfl⟩
  have hl : ell pos = m * s := by rw [hm]; field_simp
  have m0 : 0 ≤ m := by rw [hm]; positivity
  have m1 : m ≤ r / 2 := by rw [hm, div_le_iff₀ hsin]; exact l1
  rw [hl]
  have key : (r * r + a * a + 2 * r * (a * a) * (s * s) / (r * r + a * a * (c * c))) * (s * s) +
      2 * (-2 * a * r * (s * s) / (r * r + a * a * (c * c))) * (m * s) + (-1 + 2 * r / (r * r + a * a * (c * c))) * (m * s) ^ 2 =
      ((r ^ 2 + a ^ 2 - a * m * s) ^ 2 - (r * r - 2 * r + a * a) * (a * s - m) ^ 2) * s ^ 2 / (r * r + a * a * (c * c)) := by
    obtain ⟨S, hSe⟩ : ∃ S, S = r * r + a * a * (c * c) := ⟨_, rfl⟩
    have hS' : S = r ^ 2 + a ^ 2 - a ^ 2 * s ^ 2 := by rw [hSe]; linear_combination a ^ 2 * hsc
    rw [← hSe] at hS ⊢
    field_simp
    rw [hS']
    ring
  rw [key]
  exact div_pos (mul_pos (slow_aux hone ha1 ha2 hsin.le hs1 m0 m1) (by positivity)) hS

theorem kerr_rest (h : Near a pos) : gmunuUp a pos 0 0 ≤ -1 := by
  obtain ⟨-, w, -, g⟩ := SphAcc.kerr_inv (a := a) (p := pos) (by linarith [h.one]) h.delta.ne'
  have hrr := h.place.prr
  have : 0 ≤ (-1 - gmunuUp a pos 0 0) * gmunu a pos 1 1 := by
    rw [w]
    have := h.one
    positivity
  have := nonneg_of_mul_nonneg_left this hrr
  linarith

/-- C127. Everywhere outside the horizon of a Kerr black hole, for all parameters between 0 and 1, the gas moves with a velocity between that of gas
that circles with the angular momentum `ρ^(3/2)/(ρ+1)` and that of gas that falls from rest at infinity; it is never refused. -/
theorem kerr_velocity {a : ℝ} (h : Near a pos) (s : Disk) (hb0 : 0 ≤ s.beta) (hb1 : s.beta ≤ 1) :
    ∃ v c f, s.getVelocity (gmunu a pos) (gmunuUp a pos) pos = .ok v ∧
      Circles (gmunu a pos) ((pos 1 * Real.sin (pos 2)) ^ (1.5 : ℝ) / (pos 1 * Real.sin (pos 2) + 1)) c ∧ Falls (gmunu a pos) f ∧
      Between (gmunu a pos) s.alpha s.beta c f v :=
  between h.place (mul_pos (by linarith [h.one]) h.sin).le (kerr_slow h) (kerr_rest h) hb0 hb1

/-- The circling and the falling observers are the only ones. -/
theorem circles_unique (h : Near a pos) {l : ℝ} {c c' : Vec} (hc : Circles (gmunu a pos) l c) (hc' : Circles (gmunu a pos) l c') : c = c' := by
  have p := h.place
  obtain ⟨a0, -, -, a3⟩ := lower_circ (gmunu a pos 0 0) (gmunu a pos 1 1) (gmunu a pos 2 2) (gmunu a pos 3 3) (gmunu a pos 0 3) c
  obtain ⟨b0, -, -, b3⟩ := lower_circ (gmunu a pos 0 0) (gmunu a pos 1 1) (gmunu a pos 2 2) (gmunu a pos 3 3) (gmunu a pos 0 3) c'
  rw [← p.eq] at a0 a3 b0 b3
  have m := hc.momentum
  have m' := hc'.momentum
  have u := hc.unit
  have u' := hc'.unit
  have f := hc.future
  have f' := hc'.future
  rw [p.eq, SphAcc.sp_circ, hc.r, hc.theta] at u
  rw [p.eq, SphAcc.sp_circ, hc'.r, hc'.theta] at u'
  rw [a0, a3] at m
  rw [b0, b3] at m'
  refine same_observer p.eq p.prr hc.toIsObserver hc'.toIsObserver (hc.r.trans hc'.r.symm) hc.theta hc'.theta ?_
  have d := p.det
  generalize gmunu a pos 0 0 = tt at *
  generalize gmunu a pos 3 3 = pp at *
  generalize gmunu a pos 0 3 = tp at *
  rw [div_eq_div_iff f.ne' f'.ne']
  have k1 : (pp + l * tp) * c 3 = -(tp + l * tt) * c 0 := by linear_combination m
  have k2 : (pp + l * tp) * c' 3 = -(tp + l * tt) * c' 0 := by linear_combination m'
  have hz : (pp + l * tp) * (c 3 * c' 0 - c' 3 * c 0) = 0 := by linear_combination c' 0 * k1 - c 0 * k2
  rcases mul_eq_zero.1 hz with h0 | h0
  · exfalso
    rw [h0, zero_mul] at k1
    have h1 : tp + l * tt = 0 := by
      rcases mul_eq_zero.1 k1.symm with h | h
      · linarith
      · linarith
    have : tt * pp - tp ^ 2 = 0 := by linear_combination tt * h0 - tp * h1
    linarith
  · linarith

theorem falls_unique (h : Near a pos) {f f' : Vec} (hf : Falls (gmunu a pos) f) (hf' : Falls (gmunu a pos) f') : f = f' := by
  have p := h.place
  obtain ⟨a0, -, -, a3⟩ := lower_circ (gmunu a pos 0 0) (gmunu a pos 1 1) (gmunu a pos 2 2) (gmunu a pos 3 3) (gmunu a pos 0 3) f
  obtain ⟨b0, -, -, b3⟩ := lower_circ (gmunu a pos 0 0) (gmunu a pos 1 1) (gmunu a pos 2 2) (gmunu a pos 3 3) (gmunu a pos 0 3) f'
  rw [← p.eq] at a0 a3 b0 b3
  have u := hf.unit
  have u' := hf'.unit
  rw [p.eq, SphAcc.sp_circ, hf.theta] at u
  rw [p.eq, SphAcc.sp_circ, hf'.theta] at u'
  have e := hf.energy
  have e' := hf'.energy
  have m := hf.momentum
  have m' := hf'.momentum
  rw [a0] at e; rw [b0] at e'; rw [a3] at m; rw [b3] at m'
  have d := p.det
  have hr := p.prr
  have r1 := hf.r
  have r2 := hf'.r
  have g1 := hf.theta
  have g2 := hf'.theta
  generalize gmunu a pos 0 0 = tt at *
  generalize gmunu a pos 3 3 = pp at *
  generalize gmunu a pos 0 3 = tp at *
  generalize gmunu a pos 1 1 = rr at *
  have q0 : f 0 = f' 0 := by
    have : (tt * pp - tp ^ 2) * (f 0 - f' 0) = 0 := by linear_combination pp * e - pp * e' - tp * m + tp * m'
    rcases mul_eq_zero.1 this with h | h <;> linarith
  have q3 : f 3 = f' 3 := by
    have : (tt * pp - tp ^ 2) * (f 3 - f' 3) = 0 := by linear_combination tt * m - tt * m' - tp * e + tp * e'
    rcases mul_eq_zero.1 this with h | h <;> linarith
  have q1 : f 1 = f' 1 := by
    rw [q0, q3] at u
    have : rr * (f 1 ^ 2 - f' 1 ^ 2) = 0 := by linear_combination u - u'
    have : f 1 ^ 2 = f' 1 ^ 2 := by
      rcases mul_eq_zero.1 this with h | h <;> linarith
    have := abs_eq_abs.2 (sq_eq_sq_iff_eq_or_eq_neg.1 this)
    rw [abs_of_nonpos r1, abs_of_nonpos r2] at this
    linarith
  funext i
  fin_cases i
  · exact q0
  · exact q1
  · exact g1.trans g2.symm
  · exact q3

/-- C127. With both parameters 1, the default, the gas circles; with both 0 it falls as in the spherical accretion flow, freely. -/
theorem kerr_ends {a : ℝ} (h : Near a pos) (s : Disk) :
    (s.alpha = 1 → s.beta = 1 → ∃ v, s.getVelocity (gmunu a pos) (gmunuUp a pos) pos = .ok v ∧
      Circles (gmunu a pos) ((pos 1 * Real.sin (pos 2)) ^ (1.5 : ℝ) / (pos 1 * Real.sin (pos 2) + 1)) v) ∧
    (s.alpha = 0 → s.beta = 0 → ∃ v, s.getVelocity (gmunu a pos) (gmunuUp a pos) pos = .ok v ∧ Falls (gmunu a pos) v ∧
      SphAcc.getVelocity (gmunu a pos) (gmunuUp a pos) = .ok v) := by
  have p := h.place
  constructor <;> intro ha hb
  · obtain ⟨v, c, f, e, hc, hf, hv⟩ := kerr_velocity h s (by rw [hb]; norm_num) (by rw [hb])
    have : v = c := same_observer p.eq p.prr hv.toIsObserver hc.toIsObserver (by rw [hv.r, ha]; ring) hv.theta hc.theta (by rw [hv.rate, hb]; ring)
    exact ⟨v, e, this ▸ hc⟩
  · obtain ⟨v, c, f, e, hc, hf, hv⟩ := kerr_velocity h s (by rw [hb]) (by rw [hb]; norm_num)
    have hvf : v = f := same_observer p.eq p.prr hv.toIsObserver hf.toIsObserver (by rw [hv.r, ha]; ring) hv.theta hf.theta (by rw [hv.rate, hb]; ring)
    refine ⟨v, e, hvf ▸ hf, ?_⟩
    have o : SphAcc.Outside a pos := ⟨by linarith [h.one], h.delta⟩
    obtain ⟨w, ew, hw⟩ := SphAcc.kerr_observer o
    obtain ⟨w', ew', -, w0, w3, w2, w1⟩ := SphAcc.kerr_velocity (a := a) (p := pos) (by linarith [h.one]) h.delta.ne'
    have : w' = w := by rw [ew'] at ew; exact Out.ok.inj ew
    subst this
    rw [ew', falls_unique h ⟨hw, w1.le, w2, w0, w3⟩ (hvf ▸ hf)]

/-- C127. A smaller first parameter makes the gas fall faster; it never moves outwards. -/
theorem kerr_inflow {a : ℝ} (h : Near a pos) (s : Disk) (hb0 : 0 ≤ s.beta) (hb1 : s.beta ≤ 1) (ha : s.alpha ≤ 1) :
    ∃ v, s.getVelocity (gmunu a pos) (gmunuUp a pos) pos = .ok v ∧ v 1 ≤ 0 ∧ (s.alpha < 1 → v 1 < 0) := by
  obtain ⟨v, c, f, e, hc, hf, hv⟩ := kerr_velocity h s hb0 hb1
  obtain ⟨w, ew, hw⟩ := SphAcc.kerr_observer (a := a) (p := pos) ⟨by linarith [h.one], h.delta⟩
  obtain ⟨w', ew', -, w0, w3, w2, w1⟩ := SphAcc.kerr_velocity (a := a) (p := pos) (by linarith [h.one]) h.delta.ne'
  have : w' = w := by rw [ew'] at ew; exact Out.ok.inj ew
  subst this
  have hf1 : f 1 < 0 := by rw [falls_unique h hf ⟨hw, w1.le, w2, w0, w3⟩]; exact w1
  refine ⟨v, e, ?_, fun h' => ?_⟩ <;> rw [hv.r, hc.r] <;> nlinarith

/-! ## The parameters -/

/-- C127. Parameters between 0 and 1 are taken and given back. -/
theorem veloParam_kept (s : Disk) {x y : ℝ} (hx : 0 ≤ x) (hx' : x ≤ 1) (hy : 0 ≤ y) (hy' : y ≤ 1) :
    (s.call (.veloParam [x, y])).2 = false ∧ (s.call (.veloParam [x, y])).1.veloParam = [x, y] := by
  refine ⟨?_, rfl⟩
  simp only [Disk.call, decide_eq_false_iff_not]
  rintro (h | h | h | h) <;> linarith

/-- C127 (negation). Parameters out of this range raise an error but stay in the object: gas for which an `alpha` of 2 was refused flows out. -/
theorem refused_wrong {a : ℝ} (h : Near a pos) (s : Disk) (hb0 : 0 ≤ s.beta) (hb1 : s.beta ≤ 1) :
    ∃ t, s.call (.veloParam [2, s.beta]) = (t, true) ∧ t.veloParam = [2, s.beta] ∧
      ∃ v, t.getVelocity (gmunu a pos) (gmunuUp a pos) pos = .ok v ∧ 0 < v 1 := by
  refine ⟨{ s with alpha := 2 }, by simp [Disk.call], rfl, ?_⟩
  obtain ⟨v, c, f, e, hc, hf, hv⟩ := kerr_velocity h { s with alpha := 2 } hb0 hb1
  obtain ⟨w, ew, hw⟩ := SphAcc.kerr_observer (a := a) (p := pos) ⟨by linarith [h.one], h.delta⟩
  obtain ⟨w', ew', -, w0, w3, w2, w1⟩ := SphAcc.kerr_velocity (a := a) (p := pos) (by linarith [h.one]) h.delta.ne'
  have : w' = w := by rw [ew'] at ew; exact Out.ok.inj ew
  subst this
  have hf1 : f 1 < 0 := by rw [falls_unique h hf ⟨hw, w1.le, w2, w0, w3⟩]; exact w1
  refine ⟨v, e, ?_⟩
  rw [hv.r, hc.r]
  show 0 < 2 * 0 + (1 - 2) * f 1
  linarith

/-! ## Cartesian coordinates -/

/-- C127 (negation). `x` and `y` are taken for a radius and an angle: in flat space with Cartesian coordinates, at `x = 1`, `y = π/2`, the gas that
should circle about the axis moves along it at half the speed of light. -/
theorem cartesian_wrong (s : Disk) (hb : s.beta = 1) (t z : ℝ) :
    s.getVelocity flat flat ![t, 1, Real.pi / 2, z] = .ok ![√(4 / 3), 0, 0, 1 / 2 * √(4 / 3)] := by
  have pl : Place flat flat (-1) 1 1 1 0 := by
    refine ⟨?_, by norm_num, by norm_num, by norm_num, ?_, ?_, ?_, ?_⟩
    · ext i j; fin_cases i <;> fin_cases j <;> simp [flat, circ]
    all_goals simp [flat]
  have p2 : (![t, 1, Real.pi / 2, z] : Vec) 1 * Real.sin ((![t, 1, Real.pi / 2, z] : Vec) 2) = 1 := by
    show 1 * Real.sin (Real.pi / 2) = 1
    rw [Real.sin_pi_div_two, mul_one]
  have hl : ell ![t, 1, Real.pi / 2, z] = 1 / 2 := by
    unfold ell
    rw [p2, Real.one_rpow]
    norm_num
  obtain ⟨e, -⟩ := velocity_eq pl (s := s) (pos := ![t, 1, Real.pi / 2, z]) (by rw [p2]; norm_num) (by rw [hl]; norm_num) (by simp [flat])
    (by rw [hb]; norm_num) hb.le
  rw [e]
  congr 1
  have e00 : flat 0 0 = -1 := rfl
  have e11 : flat 1 1 = 1 := rfl
  have e33 : flat 3 3 = 1 := rfl
  have e03 : flat 0 3 = 0 := rfl
  have hr : rate (-1) 1 0 (1 / 2) 1 = 1 / 2 := by norm_num [rate]
  unfold mixed
  simp only [e00, e11, e33, e03, hl, hb, hr]
  norm_num

/-- C127 (negation). Where `x` times the sine of `y` is negative the velocity is refused, although the gas is everywhere. -/
theorem cartesian_throws (s : Disk) (g up : Tensor) {pos : Vec} (h : pos 1 * Real.sin (pos 2) < 0) :
    s.getVelocity g up pos = .throws ∧ s.delta pos < 0 := by
  refine ⟨?_, by norm_num [Disk.delta]⟩
  unfold Disk.getVelocity
  exact if_pos h

/-! ## Examples -/

/-- A black hole of spin 0.9, at the radius 3, above the plane. -/
theorem ex_near : Near 0.9 ![0, 3, 1, 0] := by
  refine ⟨by norm_num [abs_le], ?_, ?_⟩
  · have : √(1 - 0.9 ^ 2) < 2 := by rw [Real.sqrt_lt' (by norm_num)]; norm_num
    show 1 + √(1 - 0.9 ^ 2) < 3
    linarith
  · show 0 < Real.sin 1
    exact Real.sin_pos_of_pos_of_lt_pi one_pos (by linarith [Real.pi_gt_three])

/-- Example of `kerr_velocity`, `kerr_ends` and `kerr_inflow`. -/
example : (∃ v, Disk.new.getVelocity (gmunu 0.9 ![0, 3, 1, 0]) (gmunuUp 0.9 ![0, 3, 1, 0]) ![0, 3, 1, 0] = .ok v ∧ v 1 = 0) ∧
    ∃ v, (Disk.new.call (.veloParam [0.5, 0.25])).1.getVelocity (gmunu 0.9 ![0, 3, 1, 0]) (gmunuUp 0.9 ![0, 3, 1, 0]) ![0, 3, 1, 0] = .ok v ∧ v 1 < 0 := by
  constructor
  · obtain ⟨v, e, h⟩ := (kerr_ends ex_near .new).1 rfl rfl
    exact ⟨v, e, h.r⟩
  · obtain ⟨v, e, -, h⟩ := kerr_inflow ex_near (Disk.new.call (.veloParam [0.5, 0.25])).1 (by norm_num [Disk.call]) (by norm_num [Disk.call])
      (by norm_num [Disk.call])
    exact ⟨v, e, h (by norm_num [Disk.call])⟩

/-- Example of `refused_wrong`. -/
example : ∃ t, Disk.new.call (.veloParam [2, 1]) = (t, true) ∧ ∃ v, t.getVelocity (gmunu 0.9 ![0, 3, 1, 0]) (gmunuUp 0.9 ![0, 3, 1, 0])
    ![0, 3, 1, 0] = .ok v ∧ 0 < v 1 := by
  obtain ⟨t, e, -, h⟩ := refused_wrong ex_near .new (by norm_num [Disk.new]) (by norm_num [Disk.new])
  exact ⟨t, e, h⟩

/-- Example of `veloParam_kept` and `cartesian_throws`. -/
example : (Disk.new.call (.veloParam [0.5, 0.25])).1.veloParam = [0.5, 0.25] ∧ Disk.new.getVelocity flat flat ![0, 1, -1, 0] = .throws := by
  refine ⟨(veloParam_kept .new (by norm_num) (by norm_num) (by norm_num) (by norm_num)).2, (cartesian_throws .new flat flat ?_).1⟩
  show 1 * Real.sin (-1) < 0
  rw [Real.sin_neg]
  have := Real.sin_pos_of_pos_of_lt_pi one_pos (by linarith [Real.pi_gt_three])
  linarith

end Gyoto.Thick
