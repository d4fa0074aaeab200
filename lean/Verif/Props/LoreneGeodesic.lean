import Verif.Props.LoreneMotion
import Verif.Lemmas.Three1Geodesic
import Mathlib.Analysis.Calculus.FDeriv.Prod
import Mathlib.Analysis.Calculus.Deriv.Prod
import Mathlib.Analysis.Calculus.Deriv.Comp

/-!
# C138: in a circular numerical metric, the 3+1 motion is that of a geodesic
-/

namespace Gyoto.Lorene

open Gyoto.MetricAlg Gyoto.Spacetime Gyoto.Three1 Gyoto.KerrBL

/-- The state changes at the rate that `diff` says. -/
def Evolves (s : Slice) (y : ℝ → State31) (t : ℝ) : Prop :=
  HasDerivAt (fun τ => (y τ).energy) (s.diffCirc (y t)).energy t ∧ (∀ i, HasDerivAt (fun τ => (y τ).x i) ((s.diffCirc (y t)).x i) t) ∧
    ∀ i, HasDerivAt (fun τ => (y τ).v i) ((s.diffCirc (y t)).v i) t

/-- A field is differentiable as a function of radius and colatitude (more than having partial derivatives). -/
def Smooth (f : Scal) (p : Vec) : Prop := DifferentiableAt ℝ (fun q : ℝ × ℝ => flat f q.1 q.2) (p 1, p 2)

/-- Derivative of an axisymmetric field along a curve. -/
theorem along {f : Scal} {p : Vec} (hs : Smooth f p) (ha : Axisymmetric f) (hf : IsField f p) {r th : ℝ → ℝ} {t r' th' : ℝ} (hr : HasDerivAt r r' t)
    (hth : HasDerivAt th th' t) (er : r t = p 1) (eth : th t = p 2) :
    HasDerivAt (fun τ => flat f (r τ) (th τ)) (f.dr (p 1) (p 2) (p 3) * r' + f.dt (p 1) (p 2) (p 3) * th') t := by
  obtain ⟨L, hL⟩ := hs
  have e1 : L (1, 0) = f.dr (p 1) (p 2) (p 3) := by
    have h1 : HasDerivAt (fun x : ℝ => (x, p 2)) ((1 : ℝ), (0 : ℝ)) (p 1) := (hasDerivAt_id _).prodMk (hasDerivAt_const _ _)
    have h2 : HasDerivAt (fun x => flat f x (p 2)) (L (1, 0)) (p 1) := HasFDerivAt.comp_hasDerivAt (f := fun x : ℝ => (x, p 2)) (p 1) hL h1
    exact h2.unique (flat_dr ha hf)
  have e2 : L (0, 1) = f.dt (p 1) (p 2) (p 3) := by
    have h1 : HasDerivAt (fun x : ℝ => (p 1, x)) ((0 : ℝ), (1 : ℝ)) (p 2) := (hasDerivAt_const _ _).prodMk (hasDerivAt_id _)
    have h2 : HasDerivAt (fun x => flat f (p 1) x) (L (0, 1)) (p 2) := HasFDerivAt.comp_hasDerivAt (f := fun x : ℝ => (p 1, x)) (p 2) hL h1
    exact h2.unique (flat_dt ha hf)
  have hc : HasDerivAt (fun τ => (r τ, th τ)) (r', th') t := hr.prodMk hth
  have hL' : HasFDerivAt (fun q : ℝ × ℝ => flat f q.1 q.2) L (r t, th t) := by rw [er, eth]; exact hL
  have h3 : HasDerivAt (fun τ => flat f (r τ) (th τ)) (L (r', th')) t := HasFDerivAt.comp_hasDerivAt (f := fun τ => (r τ, th τ)) t hL' hc
  refine h3.congr_deriv ?_
  have : ((r', th') : ℝ × ℝ) = r' • ((1 : ℝ), (0 : ℝ)) + th' • ((0 : ℝ), (1 : ℝ)) := by simp
  rw [this, map_add, map_smul, map_smul, e1, e2, smul_eq_mul, smul_eq_mul]
  ring

set_option maxHeartbeats 1000000 in
/-- **C138.** A solution of the equations of motion of a circular slice, converted to a position and a four-velocity with the lapse and shift of
`computeNBeta`, is a geodesic of `gmunu`: for photons and particles, off the axis. -/
theorem diff_geodesic (s : Slice) (y : ℝ → State31) (c : ℝ → Coord) (t : ℝ) (hs : Evolves s y t)
    (hc : ∀ᶠ τ in nhds t, ∃ dtau, from31 s.nBeta 0 τ (y τ) = some (c τ, dtau))
    (h : Circular s ![t, (y t).x 0, (y t).x 1, (y t).x 2]) (hK : IsExtrinsic s ![t, (y t).x 0, (y t).x 1, (y t).x 2])
    (sN : Smooth s.lapse ![t, (y t).x 0, (y t).x 1, (y t).x 2]) (sb : Smooth (s.shift 2) ![t, (y t).x 0, (y t).x 1, (y t).x 2]) :
    FollowsGeodesic (s.christoffel (c t).pos) c t := by
  obtain ⟨N, hNdef⟩ : ∃ N : ℝ → ℝ, N = fun τ => flat s.lapse ((y τ).x 0) ((y τ).x 1) := ⟨_, rfl⟩
  obtain ⟨b, hbdef⟩ : ∃ b : ℝ → ℝ, b = fun τ => 1 / ((y τ).x 0 * Real.sin ((y τ).x 1)) * flat (s.shift 2) ((y τ).x 0) ((y τ).x 1) := ⟨_, rfl⟩
  have hconv' : ∀ τ, (∃ dtau, from31 s.nBeta 0 τ (y τ) = some (c τ, dtau)) → N τ ≠ 0 ∧ (y τ).energy ≠ 0 ∧ (c τ).pos = ![τ, (y τ).x 0, (y τ).x 1, (y τ).x 2] ∧
      (c τ).vel = ![(y τ).energy / N τ, (y τ).energy / N τ * (N τ * (y τ).v 0), (y τ).energy / N τ * (N τ * (y τ).v 1),
        (y τ).energy / N τ * (N τ * (y τ).v 2 - b τ)] := by
    intro τ hcτ
    obtain ⟨dtau, hh⟩ := hcτ
    have e1 : (s.nBeta (Fin.cons (0 + τ) (y τ).x : Vec)).1 = N τ := by rw [hNdef]; exact h.axiLapse _ _ _ _
    have e2 : (s.nBeta (Fin.cons (0 + τ) (y τ).x : Vec)).2 = ![0, 0, b τ] := by
      rw [hbdef]
      funext i
      match i with
      | 0 => exact (h.noShift _ _ _).1
      | 1 =>
        show 1 / (y τ).x 0 * (s.shift 1).val ((y τ).x 0) ((y τ).x 1) ((y τ).x 2) = 0
        rw [(h.noShift _ _ _).2, mul_zero]
      | 2 =>
        show 1 / ((y τ).x 0 * Real.sin ((y τ).x 1)) * (s.shift 2).val ((y τ).x 0) ((y τ).x 1) ((y τ).x 2) = _
        rw [flat_eq h.axiShift]
        rfl
    unfold from31 at hh
    dsimp only at hh
    rw [e1, e2] at hh
    by_cases h0 : N τ = 0 ∨ (y τ).energy = 0
    · rw [if_pos h0] at hh; cases hh
    rw [if_neg h0] at hh
    rw [not_or] at h0
    simp only [Option.some.injEq, Prod.mk.injEq] at hh
    obtain ⟨hh, -⟩ := hh
    refine ⟨h0.1, h0.2, ?_, ?_⟩
    · rw [← hh, zero_add]
      funext i
      match i with
      | 0 => rfl
      | 1 => rfl
      | 2 => rfl
      | 3 => rfl
    · rw [← hh]
      funext i
      match i with
      | 0 => rfl
      | 1 =>
        show (N τ * (y τ).v 0 - 0) * ((y τ).energy / N τ) = (y τ).energy / N τ * (N τ * (y τ).v 0)
        ring
      | 2 =>
        show (N τ * (y τ).v 1 - 0) * ((y τ).energy / N τ) = (y τ).energy / N τ * (N τ * (y τ).v 1)
        ring
      | 3 =>
        show (N τ * (y τ).v 2 - b τ) * ((y τ).energy / N τ) = (y τ).energy / N τ * (N τ * (y τ).v 2 - b τ)
        ring
  have hconv := hc.mono hconv'
  obtain ⟨dE, dx, dv⟩ := hs
  obtain ⟨hN, hE, hpos, hvel⟩ := hconv.self_of_nhds
  rw [← hpos] at h hK sN sb
  have hp1 : (c t).pos 1 = (y t).x 0 := by rw [hpos]; rfl
  have hp2 : (c t).pos 2 = (y t).x 1 := by rw [hpos]; rfl
  have hp3 : (c t).pos 3 = (y t).x 2 := by rw [hpos]; rfl
  have hC := christoffel_is_connection s (c t).pos h hK
  obtain ⟨htr, htt, hhr, hht, hpr, hpt, hxr, hxt⟩ := gmunu_partials h
  have hpart := isPartial_circ (tt := fun r t => -(flat s.lapse r t) ^ 2 + flat (s.gcov 2 2) r t * flat (s.shift 2) r t ^ 2) (rr := flat (s.gcov 0 0))
    (hh := fun r t => r ^ 2 * flat (s.gcov 1 1) r t) (pp := fun r t => (r * Real.sin t) ^ 2 * flat (s.gcov 2 2) r t)
    (tp := fun r t => r * Real.sin t * flat (s.gcov 2 2) r t * flat (s.shift 2) r t)
    htr (flat_dr (h.axiGcov 0) (h.gcov 0)) hhr hpr hxr htt (flat_dt (h.axiGcov 0) (h.gcov 0)) hht hpt hxt
  have hmet := gmunu_circ h (c t).pos
  have em : s.gmunu = fun q => circ
      (-(flat s.lapse (q 1) (q 2)) ^ 2 + flat (s.gcov 2 2) (q 1) (q 2) * flat (s.shift 2) (q 1) (q 2) ^ 2)
      (flat (s.gcov 0 0) (q 1) (q 2)) (q 1 ^ 2 * flat (s.gcov 1 1) (q 1) (q 2))
      ((q 1 * Real.sin (q 2)) ^ 2 * flat (s.gcov 2 2) (q 1) (q 2))
      (q 1 * Real.sin (q 2) * flat (s.gcov 2 2) (q 1) (q 2) * flat (s.shift 2) (q 1) (q 2)) := funext (gmunu_circ h)
  rw [← em] at hpart
  obtain ⟨k1, k2⟩ := extrinsic h hK
  obtain ⟨r0, s0⟩ := h.offAxis
  have i0 := h.inverse 0
  have i1 := h.inverse 1
  have i2 := h.inverse 2
  have d1 : HasDerivAt (fun τ => (y τ).x 0) (N t * (y t).v 0) t := (dx 0).congr_deriv (by
    show s.lapse.val _ _ _ * (y t).v 0 = _
    rw [hNdef, flat_eq h.axiLapse])
  have d2 : HasDerivAt (fun τ => (y τ).x 1) (N t * (y t).v 1) t := (dx 1).congr_deriv (by
    show s.lapse.val _ _ _ * (y t).v 1 = _
    rw [hNdef, flat_eq h.axiLapse])
  have d3 : HasDerivAt (fun τ => (y τ).x 2) (N t * (y t).v 2 - b t) t := (dx 2).congr_deriv (by
    show s.lapse.val _ _ _ * (y t).v 2 - 1 / ((y t).x 0 * Real.sin ((y t).x 1)) * (s.shift 2).val _ _ _ = _
    rw [hNdef, hbdef, flat_eq h.axiLapse, flat_eq h.axiShift])
  have dN := along sN h.axiLapse h.lapse d1 d2 hp1.symm hp2.symm
  have dB := along sb h.axiShift h.shift d1 d2 hp1.symm hp2.symm
  have dS : HasDerivAt (fun τ => (y τ).x 0 * Real.sin ((y τ).x 1)) _ t := d1.mul d2.sin
  have hrs : (y t).x 0 * Real.sin ((y t).x 1) ≠ 0 := by rw [← hp1, ← hp2]; exact mul_ne_zero r0 s0
  have db0 := ((hasDerivAt_const t (1 : ℝ)).div dS hrs).mul dB
  have db := db0.congr_of_eventuallyEq (f₁ := b) (Filter.Eventually.of_forall fun τ => by rw [hbdef]; rfl)
  rw [← hNdef] at dN
  -- all in terms of numbers
  have eN : flat s.lapse ((c t).pos 1) ((c t).pos 2) = N t := by rw [hp1, hp2, hNdef]
  obtain ⟨B, hB⟩ : ∃ B, B = flat (s.shift 2) ((c t).pos 1) ((c t).pos 2) := ⟨_, rfl⟩
  have eb : b t = 1 / ((c t).pos 1 * Real.sin ((c t).pos 2)) * B := by rw [hB, hp1, hp2, hbdef]
  obtain ⟨Br, hBr⟩ : ∃ z, z = (s.shift 2).dr ((c t).pos 1) ((c t).pos 2) ((c t).pos 3) := ⟨_, rfl⟩
  obtain ⟨Bt, hBt⟩ : ∃ z, z = (s.shift 2).dt ((c t).pos 1) ((c t).pos 2) ((c t).pos 3) := ⟨_, rfl⟩
  obtain ⟨Nr, hNr⟩ : ∃ z, z = s.lapse.dr ((c t).pos 1) ((c t).pos 2) ((c t).pos 3) := ⟨_, rfl⟩
  obtain ⟨Nt, hNt⟩ : ∃ z, z = s.lapse.dt ((c t).pos 1) ((c t).pos 2) ((c t).pos 3) := ⟨_, rfl⟩
  obtain ⟨g0, hg0⟩ : ∃ z, z = flat (s.gcov 0 0) ((c t).pos 1) ((c t).pos 2) := ⟨_, rfl⟩
  obtain ⟨g1, hg1⟩ : ∃ z, z = flat (s.gcov 1 1) ((c t).pos 1) ((c t).pos 2) := ⟨_, rfl⟩
  obtain ⟨g2, hg2⟩ : ∃ z, z = flat (s.gcov 2 2) ((c t).pos 1) ((c t).pos 2) := ⟨_, rfl⟩
  obtain ⟨g0r, hg0r⟩ : ∃ z, z = (s.gcov 0 0).dr ((c t).pos 1) ((c t).pos 2) ((c t).pos 3) := ⟨_, rfl⟩
  obtain ⟨g0t, hg0t⟩ : ∃ z, z = (s.gcov 0 0).dt ((c t).pos 1) ((c t).pos 2) ((c t).pos 3) := ⟨_, rfl⟩
  obtain ⟨g1r, hg1r⟩ : ∃ z, z = (s.gcov 1 1).dr ((c t).pos 1) ((c t).pos 2) ((c t).pos 3) := ⟨_, rfl⟩
  obtain ⟨g1t, hg1t⟩ : ∃ z, z = (s.gcov 1 1).dt ((c t).pos 1) ((c t).pos 2) ((c t).pos 3) := ⟨_, rfl⟩
  obtain ⟨g2r, hg2r⟩ : ∃ z, z = (s.gcov 2 2).dr ((c t).pos 1) ((c t).pos 2) ((c t).pos 3) := ⟨_, rfl⟩
  obtain ⟨g2t, hg2t⟩ : ∃ z, z = (s.gcov 2 2).dt ((c t).pos 1) ((c t).pos 2) ((c t).pos 3) := ⟨_, rfl⟩
  obtain ⟨u0, hu0⟩ : ∃ z, z = (s.gcon 0 0).val ((c t).pos 1) ((c t).pos 2) ((c t).pos 3) := ⟨_, rfl⟩
  obtain ⟨u1, hu1⟩ : ∃ z, z = (s.gcon 1 1).val ((c t).pos 1) ((c t).pos 2) ((c t).pos 3) := ⟨_, rfl⟩
  obtain ⟨u2, hu2⟩ : ∃ z, z = (s.gcon 2 2).val ((c t).pos 1) ((c t).pos 2) ((c t).pos 3) := ⟨_, rfl⟩
  obtain ⟨K1, hK1⟩ : ∃ z, z = (s.kij 0 2).val ((c t).pos 1) ((c t).pos 2) ((c t).pos 3) := ⟨_, rfl⟩
  obtain ⟨K2, hK2⟩ : ∃ z, z = (s.kij 1 2).val ((c t).pos 1) ((c t).pos 2) ((c t).pos 3) := ⟨_, rfl⟩
  obtain ⟨r, hr⟩ : ∃ z, z = (c t).pos 1 := ⟨_, rfl⟩
  obtain ⟨S, hS⟩ : ∃ z, z = Real.sin ((c t).pos 2) := ⟨_, rfl⟩
  obtain ⟨C, hCc⟩ : ∃ z, z = Real.cos ((c t).pos 2) := ⟨_, rfl⟩
  obtain ⟨E, hEe⟩ : ∃ z, z = (y t).energy := ⟨_, rfl⟩
  obtain ⟨V1, hV1⟩ : ∃ z, z = (y t).v 0 := ⟨_, rfl⟩
  obtain ⟨V2, hV2⟩ : ∃ z, z = (y t).v 1 := ⟨_, rfl⟩
  obtain ⟨V3, hV3⟩ : ∃ z, z = (y t).v 2 := ⟨_, rfl⟩
  simp only [flat_eq h.axiLapse, flat_eq (h.axiGcov _), flat_eq h.axiShift] at k1 k2 i0 i1 i2
  rw [eN, ← hK1, ← hg2, ← hBr, ← hB, ← hr] at k1
  rw [eN, ← hK2, ← hg2, ← hBt, ← hB, ← hr, ← hS, ← hCc] at k2
  rw [← hg0, ← hu0] at i0
  rw [← hg1, ← hu1] at i1
  rw [← hg2, ← hu2] at i2
  rw [← hr] at r0
  rw [← hS] at s0
  have g00 : g0 ≠ 0 := left_ne_zero_of_mul_eq_one i0
  have g10 : g1 ≠ 0 := left_ne_zero_of_mul_eq_one i1
  have g20 : g2 ≠ 0 := left_ne_zero_of_mul_eq_one i2
  have u0' : u0 = 1 / g0 := by field_simp; linear_combination i0
  have u1' : u1 = 1 / g1 := by field_simp; linear_combination i1
  have u2' : u2 = 1 / g2 := by field_simp; linear_combination i2
  obtain ⟨n, hn⟩ : ∃ z, z = N t := ⟨_, rfl⟩
  rw [← hn] at hN k1 k2
  have K1' : K1 = g2 * (r * Br - B) / (2 * n * r) := by field_simp; linear_combination k1
  have K2' : K2 = g2 * (S * Bt - C * B) / (2 * n * r * S) := by field_simp; linear_combination k2
  -- rates of change
  obtain ⟨dN', hdN'⟩ : ∃ z, z = Nr * (n * V1) + Nt * (n * V2) := ⟨_, rfl⟩
  obtain ⟨br, hbr⟩ : ∃ z, z = Br / (r * S) - B / (r ^ 2 * S) := ⟨_, rfl⟩
  obtain ⟨bt, hbt⟩ : ∃ z, z = Bt / (r * S) - C * B / (r * S ^ 2) := ⟨_, rfl⟩
  obtain ⟨db', hdb'⟩ : ∃ z, z = br * (n * V1) + bt * (n * V2) := ⟨_, rfl⟩
  have dN : HasDerivAt N dN' t := dN.congr_deriv (by rw [hdN', hNr, hNt, hn, hV1, hV2])
  have db : HasDerivAt b db' t := db.congr_deriv (by
    simp only [← hp1, ← hp2, ← hn, ← hV1, ← hV2, ← hB, ← hBr, ← hBt, Pi.div_apply, Pi.mul_apply]
    simp only [← hr, ← hS, ← hCc]
    rw [hdb', hbr, hbt]
    field_simp
    ring)
  have geo := geodesic31 (N := n) (Nr := Nr) (Nt := Nt) (b := b t) (br := br) (bt := bt) (g1 := g0) (g1r := g0r) (g1t := g0t) (g2 := r ^ 2 * g1)
    (g2r := 2 * r * g1 + r ^ 2 * g1r) (g2t := r ^ 2 * g1t) (g3 := (r * S) ^ 2 * g2) (g3r := 2 * r * S ^ 2 * g2 + (r * S) ^ 2 * g2r)
    (g3t := 2 * r ^ 2 * S * C * g2 + (r * S) ^ 2 * g2t) (V1 := V1) (V2 := V2) (V3 := V3) (E := E) (K1 := r * S * K1) (K2 := r ^ 2 * S * K2)
    (dE := (s.diffCirc (y t)).energy) (dV1 := (s.diffCirc (y t)).v 0) (dV2 := (s.diffCirc (y t)).v 1) (dV3 := (s.diffCirc (y t)).v 2)
    hN g00 (mul_ne_zero (pow_ne_zero 2 r0) g10) (mul_ne_zero (pow_ne_zero 2 (mul_ne_zero r0 s0)) g20)
    (by rw [K1', hbr]; field_simp) (by rw [K2', hbt]; field_simp) hdN' hdb'
    (by
      simp only [Slice.diffCirc, ← hp1, ← hp2, ← hp3, flat_eq h.axiLapse, eN, ← hn, ← hK1, ← hK2, ← hNr, ← hNt, ← hEe, ← hV1, ← hV2, ← hV3]
      simp only [← hr, ← hS]
      ring)
    (by
      simp only [Slice.diffCirc, Matrix.cons_val, ← hp1, ← hp2, ← hp3, flat_eq h.axiLapse, flat_eq (h.axiGcov _), eN, ← hn, ← hK1, ← hK2, ← hNr, ← hNt, ← hV1, ← hV2, ← hV3, ← hu0, ← hg0r, ← hg0t, ← hg1r, ← hg1, ← hg2, ← hg2r, u0']
      simp only [← hr, ← hS, ← hCc]
      ring)
    (by
      simp only [Slice.diffCirc, Matrix.cons_val, ← hp1, ← hp2, ← hp3, flat_eq h.axiLapse, flat_eq (h.axiGcov _), eN, ← hn, ← hK1, ← hK2, ← hNr, ← hNt, ← hV1, ← hV2, ← hV3, ← hu1, ← hg0t, ← hg1r, ← hg1t, ← hg1, ← hg2, ← hg2t, u1']
      simp only [← hr, ← hS, ← hCc]
      field_simp
      ring)
    (by
      simp only [Slice.diffCirc, Matrix.cons_val, ← hp1, ← hp2, ← hp3, flat_eq h.axiLapse, flat_eq h.axiShift, flat_eq (h.axiGcov _), eN, ← hn, ← hK1, ← hK2, ← hNr, ← hNt, ← hV1, ← hV2, ← hV3, ← hu2, ← hg2, ← hg2r, ← hg2t, ← hB, ← hBr, ← hBt, hbr, hbt, u2']
      simp only [← hr, ← hS, ← hCc]
      field_simp
      ring)
  have hmet' : s.gmunu (c t).pos = metric31 n (b t) g0 (r ^ 2 * g1) ((r * S) ^ 2 * g2) := by
    rw [hmet, metric31, eN, ← hg0, ← hg1, ← hg2, ← hB, eb, ← hn, ← hr, ← hS]
    congr 1
    · field_simp
    · field_simp
  have hpart' : IsPartial s.gmunu (c t).pos ![0, dmetric31 n (b t) ((r * S) ^ 2 * g2) Nr br g0r (2 * r * g1 + r ^ 2 * g1r) (2 * r * S ^ 2 * g2 + (r * S) ^ 2 * g2r),
      dmetric31 n (b t) ((r * S) ^ 2 * g2) Nt bt g0t (r ^ 2 * g1t) (2 * r ^ 2 * S * C * g2 + (r * S) ^ 2 * g2t), 0] := by
    refine Eq.mp ?_ hpart
    congr 1
    simp only [eN, ← hn, ← hg0, ← hg1, ← hg2, ← hg0r, ← hg0t, ← hg1r, ← hg1t, ← hg2r, ← hg2t, ← hB, ← hBr, ← hBt, ← hNr, ← hNt]
    simp only [← hr, ← hS, ← hCc]
    have e1 : circ (-(2 * n * Nr) + (g2r * B ^ 2 + g2 * (2 * B * Br))) g0r (2 * r * g1 + r ^ 2 * g1r) (2 * r * S ^ 2 * g2 + (r * S) ^ 2 * g2r)
        ((S * g2 + r * S * g2r) * B + r * S * g2 * Br) =
        dmetric31 n (b t) ((r * S) ^ 2 * g2) Nr br g0r (2 * r * g1 + r ^ 2 * g1r) (2 * r * S ^ 2 * g2 + (r * S) ^ 2 * g2r) := by
      rw [dmetric31, eb, hbr, ← hr, ← hS]
      congr 1
      · field_simp
        ring
      · field_simp
        ring
    have e2 : circ (-(2 * n * Nt) + (g2t * B ^ 2 + g2 * (2 * B * Bt))) g0t (r ^ 2 * g1t) (2 * r ^ 2 * S * C * g2 + (r * S) ^ 2 * g2t)
        ((r * C * g2 + r * S * g2t) * B + r * S * g2 * Bt) =
        dmetric31 n (b t) ((r * S) ^ 2 * g2) Nt bt g0t (r ^ 2 * g1t) (2 * r ^ 2 * S * C * g2 + (r * S) ^ 2 * g2t) := by
      rw [dmetric31, eb, hbt, ← hr, ← hS]
      congr 1
      · field_simp
        ring
      · field_simp
        ring
    rw [e1, e2]
  have hinv : ∀ w : Vec, (∀ α, ∑ β, s.gmunu (c t).pos α β * w β = 0) → ∀ α, w α = 0 := by
    intro w hw
    rw [hmet'] at hw
    have w0 := hw 0
    have w1 := hw 1
    have w2 := hw 2
    have w3 := hw 3
    simp only [Fin.sum_univ_four, metric31, circ00, circ01, circ02, circ03, circ10, circ11, circ12, circ13, circ20, circ21, circ22, circ23, circ30, circ31, circ32,
      circ33] at w0 w1 w2 w3
    have z1 : w 1 = 0 := by
      have : g0 * w 1 = 0 := by linear_combination w1
      exact (mul_eq_zero.1 this).resolve_left g00
    have z2 : w 2 = 0 := by
      have : r ^ 2 * g1 * w 2 = 0 := by linear_combination w2
      exact (mul_eq_zero.1 this).resolve_left (mul_ne_zero (pow_ne_zero 2 r0) g10)
    have z0 : w 0 = 0 := by
      have : n ^ 2 * w 0 = 0 := by linear_combination -w0 + b t * w3
      exact (mul_eq_zero.1 this).resolve_left (pow_ne_zero 2 hN)
    have z3 : w 3 = 0 := by
      have : (r * S) ^ 2 * g2 * w 3 = 0 := by rw [z0, z1, z2] at w3; linear_combination w3
      exact (mul_eq_zero.1 this).resolve_left (mul_ne_zero (pow_ne_zero 2 (mul_ne_zero r0 s0)) g20)
    intro α
    match α with
    | 0 => exact z0
    | 1 => exact z1
    | 2 => exact z2
    | 3 => exact z3
  have hNt0 : N t ≠ 0 := by rw [← hn]; exact hN
  have dT := dE.div dN hNt0
  have dk1 := dT.mul (dN.mul (dv 0))
  have dk2 := dT.mul (dN.mul (dv 1))
  have dk3 := dT.mul ((dN.mul (dv 2)).sub db)
  have hvel0 : (c t).vel 0 ≠ 0 := by rw [hvel]; exact div_ne_zero hE hNt0
  have hv : ∀ α, (fun τ => (c τ).vel α) =ᶠ[nhds t] fun τ => (![(y τ).energy / N τ, (y τ).energy / N τ * (N τ * (y τ).v 0),
      (y τ).energy / N τ * (N τ * (y τ).v 1), (y τ).energy / N τ * (N τ * (y τ).v 2 - b τ)] : Vec) α :=
    fun α => hconv.mono fun τ h => congrFun h.2.2.2 α
  have hx : ∀ α, (fun τ => (c τ).pos α) =ᶠ[nhds t] fun τ => (![τ, (y τ).x 0, (y τ).x 1, (y τ).x 2] : Vec) α :=
    fun α => hconv.mono fun τ h => congrFun h.2.2.1 α
  obtain ⟨dT', hdT'⟩ : ∃ z, z = ((s.diffCirc (y t)).energy * N t - (y t).energy * dN') / N t ^ 2 := ⟨_, rfl⟩
  have geo' := geo
  dsimp only at geo'
  rw [hEe, hV1, hV2, hV3, hn] at geo'
  simp only [← hdT'] at geo'
  refine ⟨hvel0, ?_, ![dT', dT' * (N t * (y t).v 0) + (y t).energy / N t * (dN' * (y t).v 0 + N t * (s.diffCirc (y t)).v 0),
    dT' * (N t * (y t).v 1) + (y t).energy / N t * (dN' * (y t).v 1 + N t * (s.diffCirc (y t)).v 1),
    dT' * (N t * (y t).v 2 - b t) + (y t).energy / N t * (dN' * (y t).v 2 + N t * (s.diffCirc (y t)).v 2 - db')], ?_, ?_⟩
  · intro α
    refine HasDerivAt.congr_of_eventuallyEq ?_ (hx α)
    rw [hvel]
    have hT : (y t).energy / N t ≠ 0 := div_ne_zero hE hNt0
    match α with
    | 0 => exact (hasDerivAt_id t).congr_deriv (div_self hT).symm
    | 1 => exact d1.congr_deriv (mul_div_cancel_left₀ _ hT).symm
    | 2 => exact d2.congr_deriv (mul_div_cancel_left₀ _ hT).symm
    | 3 => exact d3.congr_deriv (mul_div_cancel_left₀ _ hT).symm
  · intro α
    refine HasDerivAt.congr_of_eventuallyEq ?_ (hv α)
    match α with
    | 0 => rw [← hdT'] at dT; exact dT
    | 1 => exact dk1.congr_deriv (by rw [hdT']; rfl)
    | 2 => exact dk2.congr_deriv (by rw [hdT']; rfl)
    | 3 => exact dk3.congr_deriv (by rw [hdT']; rfl)
  · have low := fun A α => lowered hpart' hC A (c t).vel α
    intro α
    refine hinv (fun α => (c t).vel 0 * (![_, _, _, _] : Vec) α + ∑ μ, ∑ ν, s.christoffel (c t).pos α μ ν * (c t).vel μ * (c t).vel ν) ?_ α
    intro α
    refine (low (fun α => (c t).vel 0 * (![_, _, _, _] : Vec) α) α).trans ?_
    rw [hmet', hvel, hn]
    exact geo' α

/-- **C138 (both branches).** In a slice without radial and polar shift, without off-diagonal components and without dependence on the longitude, both
branches of `diff` give the same. -/
theorem branches_agree (s : Slice) (y : State31)
    (hs : ∀ i, i ≠ 2 → ∀ r th ph, (s.shift i).val r th ph = 0 ∧ (s.shift i).dr r th ph = 0 ∧ (s.shift i).dt r th ph = 0)
    (hp : ∀ r th ph, s.lapse.stdp r th ph = 0 ∧ (∀ i, (s.shift i).stdp r th ph = 0) ∧ ∀ i j, (s.gcov i j).stdp r th ph = 0)
    (hg : ∀ i j, i ≠ j → ∀ r th ph, (s.gcov i j).val r th ph = 0 ∧ (s.gcov i j).dr r th ph = 0 ∧ (s.gcov i j).dt r th ph = 0 ∧ (s.gcon i j).val r th ph = 0)
    (hk : ∀ r th ph, (∀ i, (s.kij i i).val r th ph = 0) ∧ (s.kij 0 1).val r th ph = 0) : s.diffGen y = s.diffCirc y := by
  have a0 := fun r th ph => hs 0 (by decide) r th ph
  have a1 := fun r th ph => hs 1 (by decide) r th ph
  have g01 := fun r th ph => hg 0 1 (by decide) r th ph
  have g02 := fun r th ph => hg 0 2 (by decide) r th ph
  have g12 := fun r th ph => hg 1 2 (by decide) r th ph
  have p0 := fun r th ph => (hp r th ph).1
  have p1 := fun i r th ph => (hp r th ph).2.1 i
  have p2 := fun i j r th ph => (hp r th ph).2.2 i j
  have k0 := fun i r th ph => (hk r th ph).1 i
  have k1 := fun r th ph => (hk r th ph).2
  have eE : (s.diffGen y).energy = (s.diffCirc y).energy := by
    simp only [Slice.diffGen, Slice.diffCirc, p0, k0, k1]
    ring
  have ex : (s.diffGen y).x = (s.diffCirc y).x := by
    simp only [Slice.diffGen, Slice.diffCirc, (a0 _ _ _).1, (a1 _ _ _).1, mul_zero, sub_zero]
  have ev : (s.diffGen y).v = (s.diffCirc y).v := by
    funext i
    match i with
    | 0 =>
      simp only [Slice.diffGen, Slice.diffCirc, Matrix.cons_val, p0, p1, p2, k0, k1, (a0 _ _ _).1, (a0 _ _ _).2.1, (a0 _ _ _).2.2, (a1 _ _ _).1, (a1 _ _ _).2.1, (a1 _ _ _).2.2,
        (g01 _ _ _).1, (g01 _ _ _).2.1, (g01 _ _ _).2.2.1, (g01 _ _ _).2.2.2, (g02 _ _ _).1, (g02 _ _ _).2.1, (g02 _ _ _).2.2.1, (g02 _ _ _).2.2.2,
        (g12 _ _ _).1, (g12 _ _ _).2.1, (g12 _ _ _).2.2.1, (g12 _ _ _).2.2.2]
      ring
    | 1 =>
      simp only [Slice.diffGen, Slice.diffCirc, Matrix.cons_val, p0, p1, p2, k0, k1, (a0 _ _ _).1, (a0 _ _ _).2.1, (a0 _ _ _).2.2, (a1 _ _ _).1, (a1 _ _ _).2.1, (a1 _ _ _).2.2,
        (g01 _ _ _).1, (g01 _ _ _).2.1, (g01 _ _ _).2.2.1, (g01 _ _ _).2.2.2, (g02 _ _ _).1, (g02 _ _ _).2.1, (g02 _ _ _).2.2.1, (g02 _ _ _).2.2.2,
        (g12 _ _ _).1, (g12 _ _ _).2.1, (g12 _ _ _).2.2.1, (g12 _ _ _).2.2.2]
      ring
    | 2 =>
      simp only [Slice.diffGen, Slice.diffCirc, Matrix.cons_val, p0, p1, p2, k0, k1, (a0 _ _ _).1, (a0 _ _ _).2.1, (a0 _ _ _).2.2, (a1 _ _ _).1, (a1 _ _ _).2.1, (a1 _ _ _).2.2,
        (g01 _ _ _).1, (g01 _ _ _).2.1, (g01 _ _ _).2.2.1, (g01 _ _ _).2.2.2, (g02 _ _ _).1, (g02 _ _ _).2.1, (g02 _ _ _).2.2.1, (g02 _ _ _).2.2.2,
        (g12 _ _ _).1, (g12 _ _ _).2.1, (g12 _ _ _).2.2.1, (g12 _ _ _).2.2.2]
      ring
  cases hA : s.diffGen y
  cases hB : s.diffCirc y
  rw [hA, hB] at eE ex ev
  simp only at eE ex ev
  rw [eE, ex, ev]

/-- The same star, followed: from the solution of the 3+1 equations to a geodesic of the rotating frame. -/
example (Ω r th : ℝ) (r0 : r ≠ 0) (s0 : Real.sin th ≠ 0) :
    FollowsGeodesic ((rotatingFrame Ω).christoffel ![0, r, th, -Ω * 0]) (fun τ => ⟨![τ, r, th, -Ω * τ], ![1, 0, 0, -Ω]⟩) 0 := by
  obtain ⟨h, hK⟩ := rotatingFrame_circular Ω ![0, r, th, -Ω * 0] r0 s0
  refine diff_geodesic (rotatingFrame Ω) (fun τ => ⟨1, ![r, th, -Ω * τ], ![0, 0, 0]⟩) (fun τ => ⟨![τ, r, th, -Ω * τ], ![1, 0, 0, -Ω]⟩) 0 ⟨?_, fun i => ?_, fun i => ?_⟩
    (Filter.Eventually.of_forall fun τ => ⟨1 / 1 * τ, ?_⟩) h hK ?_ ?_
  · refine (hasDerivAt_const (0 : ℝ) (1 : ℝ)).congr_deriv ?_
    simp [Slice.diffCirc, rotatingFrame, const]
  · match i with
    | 0 => exact (hasDerivAt_const _ _).congr_deriv (mul_zero _).symm
    | 1 => exact (hasDerivAt_const _ _).congr_deriv (mul_zero _).symm
    | 2 =>
      refine ((hasDerivAt_id (0 : ℝ)).const_mul (-Ω)).congr_deriv ?_
      show -Ω * 1 = 1 * 0 - 1 / (r * Real.sin th) * (Ω * r * Real.sin th)
      field_simp
      ring
  · match i with
    | 0 => exact (hasDerivAt_const _ _).congr_deriv (by simp [Slice.diffCirc, rotatingFrame, const])
    | 1 => exact (hasDerivAt_const _ _).congr_deriv (by simp [Slice.diffCirc, rotatingFrame, const])
    | 2 => exact (hasDerivAt_const _ _).congr_deriv (by simp [Slice.diffCirc, rotatingFrame, const])
  · unfold from31
    dsimp only
    rw [if_neg (by show ¬ ((1 : ℝ) = 0 ∨ (1 : ℝ) = 0); norm_num)]
    congr 3
    · funext i
      match i with
      | 0 => exact zero_add _
      | 1 => rfl
      | 2 => rfl
      | 3 => rfl
    · funext i
      match i with
      | 0 => exact div_one _
      | 1 =>
        show ((1 : ℝ) * 0 - 0) * (1 / 1) = 0
        norm_num
      | 2 =>
        show ((1 : ℝ) * 0 - 1 / r * 0) * (1 / 1) = 0
        norm_num
      | 3 =>
        show ((1 : ℝ) * 0 - 1 / (r * Real.sin th) * (Ω * r * Real.sin th)) * (1 / 1) = -Ω
        field_simp
        ring
  · exact differentiableAt_const (c := (1 : ℝ))
  · show DifferentiableAt ℝ (fun q : ℝ × ℝ => Ω * q.1 * Real.sin q.2) (r, th)
    exact (differentiableAt_fst.const_mul Ω).mul differentiableAt_snd.sin

end Gyoto.Lorene
