import Verif.Lemmas.SphAcc
import Verif.Lemmas.Synch
import Verif.Props.Slab
import Verif.Props.KerrBL
import Verif.Props.KerrKS
import Verif.Props.ThermalSynch

/-! # C112. The spherical accretion flow -/

namespace Gyoto.SphAcc

open Gyoto.MetricAlg Gyoto.KerrBL Gyoto.Spacetime Gyoto.Plasma
open Gyoto.Transfer (Out)
open Gyoto.Synch
open Gyoto.USphere (Kind)
open Filter Topology

/-! ## The velocity -/

/-- Outside of the horizon. -/
structure Outside (a : ℝ) (p : Vec) : Prop where
  r : 0 < p 1
  delta : 0 < p 1 * p 1 - 2 * p 1 + a * a

theorem sigma_pos {a : ℝ} {p : Vec} (h : 0 < p 1) : 0 < p 1 * p 1 + a * a * (Real.cos (p 2) * Real.cos (p 2)) := by
  have : 0 ≤ a * a * (Real.cos (p 2) * Real.cos (p 2)) := mul_nonneg (mul_self_nonneg _) (mul_self_nonneg _)
  nlinarith

theorem kerr_inv {a : ℝ} {p : Vec} (hr : 0 < p 1) (hd : p 1 * p 1 - 2 * p 1 + a * a ≠ 0) :
    Inv (gmunu a p 0 0) (gmunu a p 1 1) (gmunu a p 3 3) (gmunu a p 0 3) (gmunuUp a p) ∧
    (-1 - gmunuUp a p 0 0) * gmunu a p 1 1 = 2 * p 1 * (p 1 ^ 2 + a ^ 2) / (p 1 * p 1 - 2 * p 1 + a * a) ^ 2 ∧
    (-1 - gmunuUp a p 0 0) * gmunuUp a p 1 1 = 2 * p 1 * (p 1 ^ 2 + a ^ 2) / (p 1 * p 1 + a * a * (Real.cos (p 2) * Real.cos (p 2))) ^ 2 ∧
    gmunu a p 1 1 = (p 1 * p 1 + a * a * (Real.cos (p 2) * Real.cos (p 2))) / (p 1 * p 1 - 2 * p 1 + a * a) := by
  have h1 := Real.sin_sq_add_cos_sq (p 2)
  have hs := (sigma_pos (a := a) hr).ne'
  have e11 : gmunu a p 1 1 = (p 1 * p 1 + a * a * (Real.cos (p 2) * Real.cos (p 2))) / (p 1 * p 1 - 2 * p 1 + a * a) := rfl
  have u11 : gmunuUp a p 1 1 = (p 1 * p 1 - 2 * p 1 + a * a) / (p 1 * p 1 + a * a * (Real.cos (p 2) * Real.cos (p 2))) := rfl
  have e00 : gmunu a p 0 0 = -1 + 2 * p 1 / (p 1 * p 1 + a * a * (Real.cos (p 2) * Real.cos (p 2))) := rfl
  have e03 : gmunu a p 0 3 = -2 * a * p 1 * (Real.sin (p 2) * Real.sin (p 2)) / (p 1 * p 1 + a * a * (Real.cos (p 2) * Real.cos (p 2))) := rfl
  have e33 : gmunu a p 3 3 = (p 1 * p 1 + a * a + 2 * p 1 * (a * a) * (Real.sin (p 2) * Real.sin (p 2)) /
    (p 1 * p 1 + a * a * (Real.cos (p 2) * Real.cos (p 2)))) * (Real.sin (p 2) * Real.sin (p 2)) := rfl
  have u00 : gmunuUp a p 0 0 = -((p 1 * p 1 + a * a) * (p 1 * p 1 + a * a) - a * a * (p 1 * p 1 - 2 * p 1 + a * a) * (Real.sin (p 2) * Real.sin (p 2))) /
    ((p 1 * p 1 - 2 * p 1 + a * a) * (p 1 * p 1 + a * a * (Real.cos (p 2) * Real.cos (p 2)))) := rfl
  have u03 : gmunuUp a p 0 3 = -2 * a * p 1 / ((p 1 * p 1 + a * a * (Real.cos (p 2) * Real.cos (p 2))) * (p 1 * p 1 - 2 * p 1 + a * a)) := rfl
  have hc : Real.sin (p 2) * Real.sin (p 2) = 1 - Real.cos (p 2) * Real.cos (p 2) := by nlinarith
  rw [hc] at e03 e33 u00
  generalize Real.cos (p 2) * Real.cos (p 2) = c at *
  generalize p 1 = r at *
  obtain ⟨S, hS⟩ : ∃ S, S = r * r + a * a * c := ⟨_, rfl⟩
  obtain ⟨d, hdd⟩ : ∃ d, d = r * r - 2 * r + a * a := ⟨_, rfl⟩
  rw [← hS] at hs e11 u11 e00 e03 e33 u00 u03
  rw [← hdd] at hd e11 u11 u00 u03
  rw [← hS, ← hdd]
  refine ⟨⟨?_, ?_, ?_⟩, ?_, ?_, e11⟩
  · rw [u00, e00, u03, e03]; field_simp; grind
  · rw [u00, e03, u03, e33]; field_simp; grind
  · rw [u11, e11]; field_simp
  · rw [u00, e11]; field_simp; grind
  · rw [u00, u11]; field_simp; grind

theorem kerr_flow {a : ℝ} {p : Vec} (hr : 0 < p 1) (hd : p 1 * p 1 - 2 * p 1 + a * a ≠ 0) :
    getVelocity (gmunu a p) (gmunuUp a p) = .ok (flow (gmunuUp a p)) ∧
    sp (gmunu a p) (flow (gmunuUp a p)) (flow (gmunuUp a p)) = -1 ∧ lower (gmunu a p) (flow (gmunuUp a p)) 0 = -1 ∧
    lower (gmunu a p) (flow (gmunuUp a p)) 3 = 0 ∧ flow (gmunuUp a p) 2 = 0 ∧ flow (gmunuUp a p) 1 < 0 := by
  obtain ⟨i, -, w, -⟩ := kerr_inv hr hd
  have hs := sigma_pos (a := a) hr
  have hw : 0 < (-1 - gmunuUp a p 0 0) * gmunuUp a p 1 1 := by rw [w]; positivity
  obtain ⟨a1, a2, a3, a4⟩ := flow_unit (hh := gmunu a p 2 2) i hw.le
  have e : circ (gmunu a p 0 0) (gmunu a p 1 1) (gmunu a p 2 2) (gmunu a p 3 3) (gmunu a p 0 3) = gmunu a p := rfl
  rw [e] at a1 a2 a3 a4
  refine ⟨a1, a2, a3, a4, rfl, ?_⟩
  show -√((-1 - gmunuUp a p 0 0) * gmunuUp a p 1 1) < 0
  rw [neg_neg_iff_pos]
  exact Real.sqrt_pos.2 hw

/-- C112. Around a Kerr black hole, for any spin and at any place but a horizon, inside of it too, the velocity is a unit vector with the energy
and the angular momentum of a body that falls from rest at infinity, points inwards, and keeps its inclination. -/
theorem kerr_velocity {a : ℝ} {p : Vec} (hr : 0 < p 1) (hd : p 1 * p 1 - 2 * p 1 + a * a ≠ 0) : ∃ v, getVelocity (gmunu a p) (gmunuUp a p) = .ok v ∧
    sp (gmunu a p) v v = -1 ∧ lower (gmunu a p) v 0 = -1 ∧ lower (gmunu a p) v 3 = 0 ∧ v 2 = 0 ∧ v 1 < 0 := ⟨_, kerr_flow hr hd⟩

/-- C112. Outside of the horizon it points to the future. -/
theorem kerr_observer {a : ℝ} {p : Vec} (h : Outside a p) : ∃ v, getVelocity (gmunu a p) (gmunuUp a p) = .ok v ∧ IsObserver (gmunu a p) v := by
  obtain ⟨i, w, -, g⟩ := kerr_inv h.r h.delta.ne'
  have hr := h.r
  have hd := h.delta
  have hs := sigma_pos (a := a) hr
  obtain ⟨a1, a2, -⟩ := flow_facts (hh := gmunu a p 2 2) i (by rw [g]; positivity) (by rw [w]; positivity)
  exact ⟨_, a1, a2⟩

/-- Example: between the horizons of a black hole of spin 4/5, and above its equator. -/
example : ∃ v, getVelocity (gmunu 0.8 ![0, 1, 1, 0]) (gmunuUp 0.8 ![0, 1, 1, 0]) = .ok v ∧
    sp (gmunu 0.8 ![0, 1, 1, 0]) v v = -1 ∧ lower (gmunu 0.8 ![0, 1, 1, 0]) v 0 = -1 ∧ lower (gmunu 0.8 ![0, 1, 1, 0]) v 3 = 0 ∧ v 2 = 0 ∧ v 1 < 0 :=
  kerr_velocity (by simp) (by simp; norm_num)

/-- C112. That gas is in free fall, off the axis. -/
theorem kerr_falls {a : ℝ} {p : Vec} (h : Outside a p) (hsin : Real.sin (p 2) ≠ 0) : ∃ v : Vec → Vec,
    (∀ᶠ q in 𝓝 p, getVelocity (gmunu a q) (gmunuUp a q) = .ok (v q)) ∧ FallsFreely (gmunu a) v p := by
  have hout : ∀ᶠ q in 𝓝 p, Outside a q ∧ Real.sin (q 2) ≠ 0 := by
    have c1 : Continuous fun q : Vec => q 1 := continuous_apply 1
    have c2 : Continuous fun q : Vec => q 1 * q 1 - 2 * q 1 + a * a := by fun_prop
    have c3 : Continuous fun q : Vec => Real.sin (q 2) := Real.continuous_sin.comp (continuous_apply 2)
    filter_upwards [(c1.tendsto p).eventually (lt_mem_nhds h.r), (c2.tendsto p).eventually (lt_mem_nhds h.delta),
      (c3.tendsto p).eventually (isOpen_ne.mem_nhds hsin)] with q h1 h2 h3
    exact ⟨⟨h1, h2⟩, h3⟩
  obtain ⟨D, hD, -⟩ := christoffel_ok (a := a) (sigma_pos h.r).ne' h.delta.ne' hsin
  refine ⟨fun q => flow (gmunuUp a q), ?_, ?_⟩
  · filter_upwards [hout] with q hq using (kerr_flow hq.1.r hq.1.delta.ne').1
  · refine falls_of_radial (W := fun r => 2 * r * (r ^ 2 + a ^ 2) / (r * r - 2 * r + a * a) ^ 2) (tt := fun q => gmunu a q 0 0)
      (rr := fun q => gmunu a q 1 1) (hh := fun q => gmunu a q 2 2) (pp := fun q => gmunu a q 3 3) (tp := fun q => gmunu a q 0 3)
      (fun q => rfl) hD ?_ ?_
    · filter_upwards [hout] with q hq
      obtain ⟨-, w, -, r⟩ := kerr_inv hq.1.r hq.1.delta.ne'
      have hs := sigma_pos (a := a) hq.1.r
      exact ⟨up_inverse hs.ne' hq.1.delta.ne' hq.2, by rw [r]; exact div_pos hs hq.1.delta, w⟩
    · have := h.r
      have := h.delta
      positivity

/-- Example: spin 1/2, radius 4, well above the equator. -/
example : ∃ v : Vec → Vec, (∀ᶠ q in 𝓝 ![0, 4, Real.pi / 6, 1], getVelocity (gmunu (1 / 2) q) (gmunuUp (1 / 2) q) = .ok (v q)) ∧
    FallsFreely (gmunu (1 / 2)) v ![0, 4, Real.pi / 6, 1] :=
  kerr_falls ⟨by simp, by simp; norm_num⟩ (by simp)

/-- C112. So it is in every static, spherical metric in which a body at rest is attracted. -/
theorem static_falls {N R : ℝ → ℝ} {N' R' : ℝ} {p : Vec} (hN : HasDerivAt N N' (p 1)) (hR : HasDerivAt R R' (p 1))
    (hp : ∀ᶠ r in 𝓝 (p 1), 0 < N r ∧ N r < 1 ∧ 0 < R r ∧ r ≠ 0) (hsin : Real.sin (p 2) ≠ 0) (up : Vec → Tensor)
    (hup : ∀ q, up q = circ (-1 / N (q 1)) (1 / R (q 1)) (1 / q 1 ^ 2) (1 / (q 1 ^ 2 * Real.sin (q 2) ^ 2)) 0) :
    ∃ v : Vec → Vec, (∀ᶠ q in 𝓝 p, getVelocity (circ (-N (q 1)) (R (q 1)) (q 1 ^ 2) (q 1 ^ 2 * Real.sin (q 2) ^ 2) 0) (up q) = .ok (v q)) ∧
      FallsFreely (fun q => circ (-N (q 1)) (R (q 1)) (q 1 ^ 2) (q 1 ^ 2 * Real.sin (q 2) ^ 2) 0) v p := by
  have hnear : ∀ᶠ q in 𝓝 p, (0 < N (q 1) ∧ N (q 1) < 1 ∧ 0 < R (q 1) ∧ q 1 ≠ 0) ∧ Real.sin (q 2) ≠ 0 := by
    have c1 : Continuous fun q : Vec => q 1 := continuous_apply 1
    have c3 : Continuous fun q : Vec => Real.sin (q 2) := Real.continuous_sin.comp (continuous_apply 2)
    filter_upwards [(c1.tendsto p).eventually hp, (c3.tendsto p).eventually (isOpen_ne.mem_nhds hsin)] with q h1 h3
    exact ⟨h1, h3⟩
  have hinv : ∀ q : Vec, (0 < N (q 1) ∧ N (q 1) < 1 ∧ 0 < R (q 1) ∧ q 1 ≠ 0) → Real.sin (q 2) ≠ 0 →
      up q * circ (-N (q 1)) (R (q 1)) (q 1 ^ 2) (q 1 ^ 2 * Real.sin (q 2) ^ 2) 0 = 1 := by
    rintro q ⟨h1, -, h3, h4⟩ h5
    have h1' := h1.ne'
    have h3' := h3.ne'
    rw [hup]
    ext i j
    rw [Matrix.mul_apply, Fin.sum_univ_four, Matrix.one_apply]
    fin_cases i <;> fin_cases j <;> simp [h1', h3', h4]
    field_simp
  have hW : ∀ q : Vec, (0 < N (q 1) ∧ N (q 1) < 1 ∧ 0 < R (q 1) ∧ q 1 ≠ 0) →
      (-1 - up q 0 0) * R (q 1) = (1 / N (q 1) - 1) * R (q 1) := fun q h => by rw [hup]; simp; left; ring
  refine ⟨fun q => flow (up q), ?_, ?_⟩
  · filter_upwards [hnear] with q hq
    obtain ⟨i, -⟩ := inv_of_mul (hinv q hq.1 hq.2)
    refine (flow_facts i hq.1.2.2.1 ?_).1
    rw [hW q hq.1]
    obtain ⟨h1, h2, h3, -⟩ := hq.1
    refine mul_nonneg ?_ h3.le
    rw [sub_nonneg, le_div_iff₀ h1]
    linarith
  · have hr := hasDerivAt_id (p 1)
    have hD := isPartial_circ (tt := fun r _ => -N r) (rr := fun r _ => R r) (hh := fun r _ => r ^ 2) (pp := fun r θ => r ^ 2 * Real.sin θ ^ 2)
      (tp := fun _ _ => 0) (pos := p) hN.neg hR ((hasDerivAt_id (p 1)).pow 2) (((hasDerivAt_id (p 1)).pow 2).mul_const (Real.sin (p 2) ^ 2))
      (hasDerivAt_const _ _) (hasDerivAt_const _ _) (hasDerivAt_const _ _) (hasDerivAt_const _ _)
      (((Real.hasDerivAt_sin (p 2)).pow 2).const_mul (p 1 ^ 2)) (hasDerivAt_const _ _)
    refine falls_of_radial (W := fun r => (1 / N r - 1) * R r) (tt := fun q => -N (q 1)) (rr := fun q => R (q 1)) (hh := fun q => q 1 ^ 2)
      (pp := fun q => q 1 ^ 2 * Real.sin (q 2) ^ 2) (tp := fun _ => 0) (fun q => rfl) hD ?_ ?_
    · filter_upwards [hnear] with q hq
      exact ⟨hinv q hq.1 hq.2, hq.1.2.2.1, hW q hq.1⟩
    · obtain ⟨h1, h2, h3, -⟩ := hp.self_of_nhds
      refine mul_pos ?_ h3
      rw [sub_pos, lt_div_iff₀ h1]
      linarith

/-- C112 (negation). The code takes the second coordinate for the radius whatever the metric. Far from a black hole in Cartesian coordinates, on
the second axis, what it returns passes its test of the norm; but the gas does not fall, it goes across the radius. -/
theorem cartesian_wrong {y : ℝ} (h : 250 ≤ y) : ∃ v, getVelocity (KerrKS.gmunu 0 ![0, 0, y, 0]) (KerrKS.gmunuUp 0 ![0, 0, y, 0]) = .ok v ∧
    v 1 < 0 ∧ v 2 = 0 ∧ v 3 = 0 := by
  have hy : 0 < y := by linarith
  have htau : KerrKS.tauOf 0 ![0, 0, y, 0] = y ^ 2 := by simp [KerrKS.tauOf]; ring
  have hrho : KerrKS.rhoOf 0 ![0, 0, y, 0] = y ^ 2 := by
    unfold KerrKS.rhoOf
    rw [htau]
    simp only [mul_zero, zero_mul, add_zero]
    rw [Real.sqrt_mul_self (by positivity)]
  have hr2 : KerrKS.r2Of 0 ![0, 0, y, 0] = y ^ 2 := by unfold KerrKS.r2Of; rw [htau, hrho]; ring
  have hr : KerrKS.rOf 0 ![0, 0, y, 0] = y := by unfold KerrKS.rOf; rw [hr2, Real.sqrt_sq hy.le]
  have hreg : 0 < KerrKS.r2Of 0 ![0, 0, y, 0] := by rw [hr2]; positivity
  obtain ⟨f, hf⟩ : ∃ f, f = KerrKS.fOf 0 ![0, 0, y, 0] := ⟨_, rfl⟩
  have hf' : f = 2 / y := by
    rw [hf]; unfold KerrKS.fOf; simp only; rw [hr, hr2]; simp only [mul_zero, zero_mul, add_zero]; field_simp
  have k0 : KerrKS.kOf 0 ![0, 0, y, 0] 0 = 1 := rfl
  have k1 : KerrKS.kOf 0 ![0, 0, y, 0] 1 = 0 := by
    show (KerrKS.rOf 0 ![0, 0, y, 0] * 0 + 0 * y) / _ = 0
    simp
  have k3 : KerrKS.kOf 0 ![0, 0, y, 0] 3 = 0 := by
    show (0 : ℝ) / _ = 0
    simp
  have up0 : KerrKS.gmunuUp 0 ![0, 0, y, 0] 0 0 = -1 - f := by rw [KerrKS.up_eq hreg, k0, ← hf]; simp [KerrKS.eta]
  have up1 : KerrKS.gmunuUp 0 ![0, 0, y, 0] 1 1 = 1 := by rw [KerrKS.up_eq hreg, k1, ← hf]; simp [KerrKS.eta]
  have up3 : KerrKS.gmunuUp 0 ![0, 0, y, 0] 0 3 = 0 := by rw [KerrKS.up_eq hreg, k3, ← hf]; simp [KerrKS.eta]
  have g00 : KerrKS.gmunu 0 ![0, 0, y, 0] 0 0 = f - 1 := by rw [KerrKS.gmunu_eq, k0, ← hf]; simp [KerrKS.eta]; ring
  have g11 : KerrKS.gmunu 0 ![0, 0, y, 0] 1 1 = 1 := by rw [KerrKS.gmunu_eq, k1, ← hf]; simp [KerrKS.eta]
  have g01 : KerrKS.gmunu 0 ![0, 0, y, 0] 0 1 = 0 := by rw [KerrKS.gmunu_eq, k1, ← hf]; simp [KerrKS.eta]
  have g10 : KerrKS.gmunu 0 ![0, 0, y, 0] 1 0 = 0 := by rw [KerrKS.gmunu_eq, k1, ← hf]; simp [KerrKS.eta]
  have f0 : 0 < f := by rw [hf']; positivity
  have f1 : f ≤ 0.008 := by rw [hf', div_le_iff₀ hy]; linarith
  refine ⟨![1 + f, -√f, 0, 0], ?_, ?_, rfl, rfl⟩
  · have hq : (-1 - (-1 - f)) * 1 = f := by ring
    unfold getVelocity
    simp only [up0, up1, up3, hq]
    rw [if_neg (not_lt.2 f0.le)]
    have ev : (![-(-1 - f), -√f, 0, -0] : Vec) = ![1 + f, -√f, 0, 0] := by simp; ring
    rw [ev]
    have en : scalarProd (KerrKS.gmunu 0 ![0, 0, y, 0]) ![1 + f, -√f, 0, 0] ![1 + f, -√f, 0, 0] + 1 = f ^ 2 + f ^ 3 := by
      have hs := Real.sq_sqrt f0.le
      simp only [scalarProd, Fin.sum_univ_four, g00, g11, g01, g10]
      simp
      linear_combination hs
    rw [en, if_neg]
    rw [abs_of_pos (by positivity)]
    nlinarith
  · show -√f < 0
    rw [neg_neg_iff_pos]
    exact Real.sqrt_pos.2 f0

/-- Example: a thousand units of length away. -/
example : ∃ v, getVelocity (KerrKS.gmunu 0 ![0, 0, 1000, 0]) (KerrKS.gmunuUp 0 ![0, 0, 1000, 0]) = .ok v ∧ v 1 < 0 ∧ v 2 = 0 ∧ v 3 = 0 :=
  cartesian_wrong (by norm_num)

/-! ## The light -/

/-- What can be made of a new object by its setters and by earlier calls, at any place, for any metric. -/
inductive Reach : Acc → Prop
  | new : Reach .new
  | call {s : Acc} (h : Reach s) (c : Call) : Reach (s.call c)
  | ask {s s' : Acc} {b : Bessel} {L ds r : ℝ} {nus : List ℝ} {out : List (ℝ × ℝ)} (h : Reach s)
      (e : s.radiativeQ b L ds r nus = .ok (s', out)) : Reach s'

theorem Reach.inStep {s : Acc} (h : Reach s) : s.synch.InStep := by
  induction h with
  | new => exact black_body_in_step []
  | call _ c ih => cases c <;> exact ih
  | @ask s s' b L ds r nus out _ e ih =>
    unfold Acc.radiativeQ at e
    by_cases hc : r = 0 ∨ s.rin / r ≤ 0 ∨ s.field2 r < 0
    · rw [if_pos hc] at e; cases e
    · rw [if_neg hc] at e
      obtain ⟨⟨t, ja⟩, e1, e⟩ := bind_inv e
      obtain ⟨o, -, e⟩ := bind_inv e
      simp only [Out.ok.injEq, Prod.mk.injEq] at e
      rw [← e.1]
      exact radiativeQ_inStep (run_inStep ih _) e1

/-- The settings of the object, without what earlier calls left in its spectrum. -/
def Same (s t : Acc) : Prop := { s with synch := Thermal.new } = ({ t with synch := Thermal.new } : Acc)

/-- C112. What is returned depends on the settings only, and not on what was asked before. -/
theorem history {s t : Acc} (hs : Reach s) (ht : Reach t) (h : Same s t) (b : Bessel) (L ds r : ℝ) (nus : List ℝ) :
    s.radiativeQ b L ds r nus = t.radiativeQ b L ds r nus := by
  obtain ⟨a1, a2, a3, a4, a5, a6, a7, x⟩ := s
  obtain ⟨b1, b2, b3, b4, b5, b6, b7, y⟩ := t
  simp only [Same, Acc.mk.injEq, and_true] at h
  obtain ⟨rfl, rfl, rfl, rfl, rfl, rfl, rfl⟩ := h
  have hx : x.InStep := hs.inStep
  have hy : y.InStep := ht.inStep
  have key : ∀ l : List ThermalCall, ∀ T n k c kk, l = [.temperature T, .numberdensityCGS n, .averaged true, .angle k, .cyclotronFreq c, .besselK2 kk] →
      x.run l = y.run l := by
    rintro l T n k c kk rfl
    unfold Thermal.InStep at hx hy
    simp [Thermal.run, Thermal.call, hx, hy, Gyoto.SpectrumKinds.BlackBody.call]
  unfold Acc.radiativeQ
  have e := key (Acc.settings ⟨a1, a2, a3, a4, a5, a6, a7, x⟩ b r) _ _ _ _ _ rfl
  have e' : x.run (Acc.settings ⟨a1, a2, a3, a4, a5, a6, a7, x⟩ b r) = y.run (Acc.settings ⟨a1, a2, a3, a4, a5, a6, a7, y⟩ b r) := e
  simp only [e']
  rfl

/-- C112. Density and temperature are power laws, given at the inner radius. -/
theorem power_laws {s : Acc} (h : 0 < s.rin) : s.density s.rin = s.n0 ∧ s.temperature s.rin = s.T0 ∧ ∀ r k, 0 < r → 0 < k →
    s.density (k * r) = k ^ (-s.slope) * s.density r ∧ s.temperature (k * r) = k ^ (-s.slopeT) * s.temperature r := by
  have one : s.rin / s.rin = 1 := div_self h.ne'
  have key : ∀ r k e : ℝ, 0 < r → 0 < k → (s.rin / (k * r)) ^ e = k ^ (-e) * (s.rin / r) ^ e := by
    intro r k e hr hk
    rw [show s.rin / (k * r) = k⁻¹ * (s.rin / r) by field_simp, Real.mul_rpow (by positivity) (by positivity), Real.inv_rpow hk.le,
      Real.rpow_neg hk.le]
  unfold Acc.density Acc.temperature
  refine ⟨by rw [one]; simp, by rw [one]; simp, fun r k hr hk => ⟨?_, ?_⟩⟩
  · rw [key r k _ hr hk]; ring
  · rw [key r k _ hr hk]; ring

/-- C112. The density given, in electrons per cubic metre, is that at the inner radius: a cube of a centimetre there holds a millionth of it. -/
theorem density_given (s : Acc) (x : ℝ) (h : 0 < s.rin) : (s.call (.numberDensity x)).density s.rin * 100 ^ 3 = x := by
  have := (power_laws (s := s.call (.numberDensity x)) h).1
  change (s.call (.numberDensity x)).density s.rin = _ at this
  rw [this]
  show x * 1e-6 * 100 ^ 3 = x
  norm_num
  ring

/-- C112 (negation). The header says that the temperature goes as the distance to the power `temperatureSlope_`: a positive slope makes it
decrease instead. -/
theorem slope_wrong : ∃ s : Acc, 0 < s.slopeT ∧ s.temperature (2 * s.rin) < s.temperature s.rin := by
  refine ⟨.new, by norm_num [Acc.new], ?_⟩
  have h : 0 < Acc.new.rin := by norm_num [Acc.new]
  obtain ⟨-, e, p⟩ := power_laws h
  rw [(p _ 2 h (by norm_num)).2, e]
  norm_num [Acc.new, Real.rpow_neg_one]

/-- C112 (negation). The header says that the parameter is the magnetic pressure over the energy of the protons at rest: the pressure, the square
of the field over 8π, is half of that. -/
theorem magnetization_wrong {s : Acc} {r : ℝ} (hd : 0 < s.density r) (hs : 0 < s.sigma) :
    √(s.field2 r) ^ 2 / (8 * Real.pi) / (s.density r * protonMassCGS * cCGS ^ 2) = s.sigma / 2 := by
  have h0 : 0 ≤ s.field2 r := by unfold Acc.field2 protonMassCGS cCGS; positivity
  rw [Real.sq_sqrt h0]
  unfold Acc.field2
  have : protonMassCGS ≠ 0 := by norm_num [protonMassCGS]
  have : cCGS ≠ 0 := by norm_num [cCGS]
  have := Real.pi_pos.ne'
  field_simp
  norm_num

/-- C112. The gas is everywhere outside of the inner radius, and nowhere else. -/
theorem inside_iff (s : Acc) (k : Kind) (p : Vec) : s.delta k p < 0 ↔ s.rin < radius k p := by
  unfold Acc.delta
  exact sub_neg

/-- Where the flow is hot and magnetised. -/
structure Hot (s : Acc) (r : ℝ) : Prop where
  out : 0 < r
  rin : 0 < s.rin
  n0 : 0 < s.n0
  T0 : 0 < s.T0
  sigma : 0 < s.sigma
  hot : 0.01 ≤ s.temperature r * boltzmannCGS / (electronMassCGS * c2CGS)

theorem Hot.density {s : Acc} {r : ℝ} (h : Hot s r) : 0 < s.density r := by
  have := h.out; have := h.rin; have := h.n0
  unfold Acc.density
  positivity

theorem Hot.field {s : Acc} {r : ℝ} (h : Hot s r) : 0 < s.field2 r := by
  have := h.density; have := h.sigma; have := Real.pi_pos
  unfold Acc.field2 protonMassCGS cCGS
  positivity

theorem Hot.ready {s : Acc} {r : ℝ} (h : Hot s r) (hs : Reach s) (b : Bessel) : (s.synch.run (s.settings b r)).Ready ∧
    (s.synch.run (s.settings b r)).T = s.temperature r ∧ (s.synch.run (s.settings b r)).averaged = true ∧ 0 < (s.synch.run (s.settings b r)).n := by
  have hB : 0 < √(s.field2 r) := Real.sqrt_pos.2 h.field
  have := Real.pi_pos
  refine ⟨⟨run_inStep hs.inStep _, h.hot, ?_, fun e => ?_⟩, rfl, rfl, h.density⟩
  · show 0 < chargeCGS * √(s.field2 r) / (2 * Real.pi * electronMassCGS * cCGS)
    unfold chargeCGS electronMassCGS cCGS
    positivity
  · exact absurd (show true = false from e) (by simp)

/-- The coefficients of the gas, in terms of the emission. -/
theorem Hot.coefs {s : Acc} {r : ℝ} (h : Hot s r) (hs : Reach s) (b : Bessel) {nus : List ℝ} (hn : ∀ nu ∈ nus, 0 < nu) :
    ∃ t : Thermal, ∃ a : ℝ → ℝ, (s.synch.run (s.settings b r)).radiativeQ nus =
      .ok (t, nus.map fun nu => (a nu * planck (2 * planckOverC2) planckOverBoltzmann (s.temperature r) nu, a nu)) ∧ ∀ nu ∈ nus, 0 < a nu := by
  obtain ⟨hr, hT, ha, hn0⟩ := h.ready hs b
  obtain ⟨u, hu⟩ : ∃ u, u = s.synch.run (s.settings b r) := ⟨_, rfl⟩
  rw [← hu] at hr hT ha hn0
  rw [← hu]
  obtain ⟨t, -, e⟩ := each_eq (f := Thermal.pass) (P := fun t => ∃ θ, t = u.at θ) (g := fun nu => (u.outs b nu 0, u.outs b nu 4)) (A := fun nu => 0 < nu)
    (by
      rintro _ ⟨θ, rfl⟩ nu hnu
      have h' : (u.at θ).Ready := ⟨hr.step, hr.hot, hr.nu0, fun e => absurd (ha.symm.trans e) (by simp)⟩
      refine ⟨u.at (Real.pi - 0.01), ⟨_, rfl⟩, ?_⟩
      rw [h'.pass b hnu]
      simp [Thermal.at, ha, Thermal.outs]) u ⟨u.angle, rfl⟩ nus hn
  refine ⟨t, fun nu => u.outs b nu 4, ?_, fun nu hnu => ?_⟩
  · unfold Thermal.radiativeQ
    rw [if_neg (not_lt.2 hr.hot), e]
    congr 2
    refine List.map_congr_left fun nu hnu => ?_
    congr 1
    rw [← hT]
    exact (outs_kirchhoff hr (hn nu hnu) b).symm
  · exact outs_pos hr ha hn0 (hn nu hnu) b

theorem slabs_map {x : ℝ} {nus : List ℝ} {g h : ℝ → ℝ × ℝ} (e : ∀ nu ∈ nus, slab (g nu).1 (g nu).2 x = .ok (h nu)) :
    slabs x (nus.map g) = .ok (nus.map h) := by
  induction nus with
  | nil => rfl
  | cons nu l ih =>
    have e0 := e nu (by simp)
    have el := ih fun nu hnu => e nu (by simp [hnu])
    rw [List.map_cons, List.map_cons]
    rcases hg : g nu with ⟨j, a⟩
    rw [hg] at e0
    simp only [slabs, e0, el, bind_ok]

theorem Hot.guard {s : Acc} {r : ℝ} (h : Hot s r) : ¬(r = 0 ∨ s.rin / r ≤ 0 ∨ s.field2 r < 0) := by
  have := h.out; have := h.rin; have := h.field
  have : 0 < s.rin / r := by positivity
  rintro (h | h | h) <;> linarith

/-- C112. With self-absorption, the gas sends out that fraction of the light of a black body of its temperature that does not pass it: never more
than a black body, and always some. -/
theorem self_absorbed {s : Acc} {r : ℝ} (h : Hot s r) (hs : Reach s) (hself : s.selfAbs = true) (b : Bessel) {L ds : ℝ} (hL : 0 < L) (hds : 0 < ds)
    {nus : List ℝ} (hn : ∀ nu ∈ nus, 0 < nu) (hB : ∀ nu ∈ nus, planck (2 * planckOverC2) planckOverBoltzmann (s.temperature r) nu < 2 ^ 53) :
    ∃ s', ∃ T : ℝ → ℝ, s.radiativeQ b L ds r nus = .ok (s', nus.map fun nu =>
      (planck (2 * planckOverC2) planckOverBoltzmann (s.temperature r) nu * (1 - T nu), T nu)) ∧ ∀ nu ∈ nus, 0 < T nu ∧ T nu < 1 := by
  obtain ⟨t, a, e, apos⟩ := h.coefs hs b hn
  have hp : 0 < ds * L := by positivity
  have hT := h.T0; have hr := h.out; have hri := h.rin
  have Tpos : 0 < s.temperature r := by unfold Acc.temperature; positivity
  refine ⟨{ s with synch := t }, fun nu => Real.exp (-a nu * (ds * L)), ?_, fun nu hnu => ⟨Real.exp_pos _, ?_⟩⟩
  · unfold Acc.radiativeQ
    rw [if_neg h.guard, e, bind_ok]
    simp only [List.map_map, Function.comp_def, hself, if_true]
    rw [slabs_map (h := fun nu => (planck (2 * planckOverC2) planckOverBoltzmann (s.temperature r) nu * (1 - Real.exp (-a nu * (ds * L))),
      Real.exp (-a nu * (ds * L)))), bind_ok]
    intro nu hnu
    have B0 : 0 < planck (2 * planckOverC2) planckOverBoltzmann (s.temperature r) nu := planck_pos Tpos (hn nu hnu)
    exact slab_source_eq (apos nu hnu) B0.le hp.le (hB nu hnu)
  · rw [Real.exp_lt_one_iff]
    nlinarith [apos nu hnu]

/-- C112. Without self-absorption all light passes, and the gas adds what it emits along the path: as much as if it were twice thinner on a path
twice as long. -/
theorem not_absorbed {s : Acc} {r : ℝ} (h : Hot s r) (hs : Reach s) (hself : s.selfAbs = false) (b : Bessel) {nus : List ℝ} (hn : ∀ nu ∈ nus, 0 < nu) :
    ∃ s', ∃ j : ℝ → ℝ, (∀ nu ∈ nus, 0 < j nu) ∧ ∀ L ds, 0 ≤ L → 0 ≤ ds → (∀ nu ∈ nus, j nu * (ds * L) < 2 ^ 53) →
      s.radiativeQ b L ds r nus = .ok (s', nus.map fun nu => (j nu * (ds * L), 1)) := by
  obtain ⟨t, a, e, apos⟩ := h.coefs hs b hn
  have hT := h.T0; have hr := h.out; have hri := h.rin
  have Tpos : 0 < s.temperature r := by unfold Acc.temperature; positivity
  refine ⟨{ s with synch := t }, fun nu => a nu * planck (2 * planckOverC2) planckOverBoltzmann (s.temperature r) nu,
    fun nu hnu => mul_pos (apos nu hnu) (planck_pos Tpos (hn nu hnu)), fun L ds hL hds hb => ?_⟩
  have hp : 0 ≤ ds * L := by positivity
  unfold Acc.radiativeQ
  rw [if_neg h.guard, e, bind_ok]
  simp only [List.map_map, Function.comp_def, hself]
  rw [slabs_map (h := fun nu => (a nu * planck (2 * planckOverC2) planckOverBoltzmann (s.temperature r) nu * (ds * L), 1)), bind_ok]
  intro nu hnu
  have j0 := (mul_pos (apos nu hnu) (planck_pos Tpos (hn nu hnu))).le
  simp only [Bool.false_eq_true, if_false]
  rw [slab_ok j0 hp]
  · simp [inten]
  · simpa [inten] using hb nu hnu
  · norm_num

/-- C112. Below a hundredth of the energy of an electron at rest, the gas is dark and transparent. -/
theorem cold_flow {s : Acc} {r : ℝ} (hr : 0 < r) (hri : 0 < s.rin) (hf : 0 ≤ s.field2 r)
    (hc : s.temperature r * boltzmannCGS / (electronMassCGS * c2CGS) < 0.01) (b : Bessel) (L ds : ℝ) (nus : List ℝ) :
    ∃ s', s.radiativeQ b L ds r nus = .ok (s', nus.map fun _ => (0, 1)) := by
  have hq : 0 < s.rin / r := by positivity
  refine ⟨{ s with synch := s.synch.run (s.settings b r) }, ?_⟩
  unfold Acc.radiativeQ
  rw [if_neg (by rintro (h | h | h) <;> linarith), (cold_is_dark (s := s.synch.run (s.settings b r)) hc b nus).1, bind_ok]
  simp only [List.map_map, Function.comp_def]
  rw [slabs_map (h := fun _ => (0, 1)), bind_ok]
  intro nu _
  simp [slab]
  norm_num

/-- C112 (negation). A gas without a magnetic field emits no synchrotron light; the code divides by the cyclotron frequency instead. -/
theorem unmagnetised_wrong {s : Acc} {r : ℝ} (hs : Reach s) (hr : 0 < r) (hri : 0 < s.rin) (hsig : s.sigma = 0)
    (hc : 0.01 ≤ s.temperature r * boltzmannCGS / (electronMassCGS * c2CGS)) (b : Bessel) (L ds : ℝ) {nu : ℝ} (hn : 0 < nu) (nus : List ℝ) :
    s.radiativeQ b L ds r (nu :: nus) = .ub := by
  have hq : 0 < s.rin / r := by positivity
  have hf : s.field2 r = 0 := by unfold Acc.field2; rw [hsig]; ring
  obtain ⟨u, hu⟩ : ∃ u, u = s.synch.run (s.settings b r) := ⟨_, rfl⟩
  have h0 : u.nu0 = 0 := by
    rw [hu]
    show chargeCGS * √(s.field2 r) / (2 * Real.pi * electronMassCGS * cCGS) = 0
    rw [hf]; simp
  have hav : u.averaged = true := by rw [hu]; rfl
  have hth : 0.01 ≤ u.theta := by rw [hu]; exact hc
  have hst : u.InStep := by rw [hu]; exact run_inStep hs.inStep _
  have e : u.radiativeQ (nu :: nus) = .ub := no_field h0 hav hth hst hn nus
  unfold Acc.radiativeQ
  rw [if_neg (by rintro (h | h | h) <;> linarith), ← hu, e]
  rfl

theorem new_temperature : Acc.new.temperature 4 = 5e9 := by
  unfold Acc.temperature Acc.new
  simp only [Real.rpow_one]
  norm_num

/-- A new object is hot and magnetised at a radius of 4. -/
theorem new_hot : Hot .new 4 := by
  refine ⟨by norm_num, by norm_num [Acc.new], by norm_num [Acc.new], by norm_num [Acc.new], by norm_num [Acc.new], ?_⟩
  rw [new_temperature]
  norm_num [boltzmannCGS, electronMassCGS, c2CGS]

/-- Example: two frequencies, a path of a tenth of the unit of length; and the same after a call at another place and another setting. -/
example (b : Bessel) : ∃ s', ∃ T : ℝ → ℝ, Acc.new.radiativeQ b 1e10 0.1 4 [2.3e11, 3.4e11] = .ok (s', ([2.3e11, 3.4e11] : List ℝ).map fun nu =>
      (planck (2 * planckOverC2) planckOverBoltzmann (Acc.new.temperature 4) nu * (1 - T nu), T nu)) ∧
      ∀ nu ∈ ([2.3e11, 3.4e11] : List ℝ), 0 < T nu ∧ T nu < 1 := by
  refine self_absorbed new_hot .new rfl b (by norm_num) (by norm_num) ?_ ?_
  · intro nu h; simp at h; rcases h with rfl | rfl <;> norm_num
  · have key : ∀ nu : ℝ, 1e11 ≤ nu → nu ≤ 1e12 → planck (2 * planckOverC2) planckOverBoltzmann 5e9 nu < 2 ^ 53 := by
      intro nu h1 h2
      have e := Real.add_one_le_exp (planckOverBoltzmann * nu / 5e9)
      have e1 : 1e-10 ≤ planckOverBoltzmann * nu / 5e9 := by
        unfold planckOverBoltzmann; rw [le_div_iff₀ (by norm_num)]; linarith
      unfold planck
      rw [div_lt_iff₀ (by linarith)]
      have : nu ^ 3 ≤ 1e12 ^ 3 := pow_le_pow_left₀ (by linarith) h2 3
      unfold planckOverC2
      norm_num at *
      linarith
    rw [new_temperature]
    intro nu h; simp at h; rcases h with rfl | rfl <;> exact key _ (by norm_num) (by norm_num)

/-- Example: a setting and a call before, undone by a setting, leave no trace. -/
example (b : Bessel) (s' : Acc) (out : List (ℝ × ℝ)) (e : (Acc.new.call (.innerRadius 3)).radiativeQ b 1e10 0.1 6 [1e11] = .ok (s', out))
    (h : Same (s'.call (.innerRadius 2)) .new) :
    (s'.call (.innerRadius 2)).radiativeQ b 1e10 0.1 4 [2.3e11] = Acc.new.radiativeQ b 1e10 0.1 4 [2.3e11] :=
  history (.call (.ask (.call .new _) e) _) .new h b _ _ _ _

/-- Example: far away the gas of a new object is cold. -/
example (b : Bessel) : ∃ s', Acc.new.radiativeQ b 1e10 0.1 4e6 [2.3e11] = .ok (s', ([2.3e11] : List ℝ).map fun _ => (0, 1)) := by
  refine cold_flow (by norm_num) (by norm_num [Acc.new]) ?_ ?_ b _ _ _
  · have := Real.pi_pos
    unfold Acc.field2 Acc.density Acc.new protonMassCGS cCGS
    positivity
  · unfold Acc.temperature Acc.new boltzmannCGS electronMassCGS c2CGS
    simp only [Real.rpow_one]
    norm_num

/-- Example: an unmagnetised flow. -/
example (b : Bessel) : (Acc.new.call (.magnetization 0)).radiativeQ b 1e10 0.1 4 [2.3e11] = .ub := by
  refine unmagnetised_wrong (.call .new _) (by norm_num) (by norm_num [Acc.new, Acc.call]) rfl ?_ b _ _ (by norm_num) []
  have : (Acc.new.call (.magnetization 0)).temperature 4 = 5e9 := new_temperature
  rw [this]
  norm_num [boltzmannCGS, electronMassCGS, c2CGS]

end Gyoto.SphAcc
