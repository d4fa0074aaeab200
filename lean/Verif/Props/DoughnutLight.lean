import Verif.Props.DoughnutGas
import Verif.Props.DoughnutKerr
import Verif.Props.ThickLight
import Verif.Props.Brems
import Verif.Props.Jet

/-!
# C133: the gas of the tori of Kerr, and the light of the Polish doughnut
-/

namespace Gyoto.Doughnut

open Gyoto.MetricAlg Gyoto.KerrBL Gyoto.Orbits Gyoto.Spacetime
open Gyoto.Transfer (Out)
open Gyoto.SphAcc (Outside sigma_pos protonMassCGS slabs slab slabs_map slab_source_eq planck_pos)
open Gyoto.Synch
open Gyoto.Plasma (planck)
open Gyoto.HotSpot (rest_of_orth rest_u rest_rest restPart_eq cauchy direction_smul)

section
variable {a l : ℝ} {p : Vec}

/-- The potential where gas can turn. -/
theorem pot_eq (h : Outside a p) (hs : Real.sin (p 2) ≠ 0) {u : Vec} (hu : Turns (gmunu a p) l u) :
    kerrPotential a p l = 1 / 2 * Real.log ((gmunu a p 3 3 + 2 * l * gmunu a p 0 3 + l * l * gmunu a p 0 0) /
      (gmunu a p 0 3 * gmunu a p 0 3 - gmunu a p 0 0 * gmunu a p 3 3)) := by
  rw [kerr_potential (regular h hs) h.r hu.rotating hu.momentum]
  obtain ⟨e0, e3⟩ := kerr_lower a p u
  have hl := hu.momentum
  rw [e0, e3] at hl
  have hn := hu.rotating.unit
  rw [sp_eq, hu.rotating.r, hu.rotating.theta] at hn
  have hA := area_pos h hs
  obtain ⟨k, hD, -⟩ := turning hA (by linear_combination hn) hl
  rw [← e0] at k
  generalize lower (gmunu a p) u 0 = E at *
  generalize gmunu a p 3 3 + 2 * l * gmunu a p 0 3 + l * l * gmunu a p 0 0 = D at *
  rw [← k]
  have hE0 : E ^ 2 ≠ 0 := by
    intro z; rw [z, zero_mul] at k; linarith
  have : D / (E ^ 2 * D) = (E ^ 2)⁻¹ := by field_simp
  rw [this, Real.log_inv, Real.log_pow, Real.log_abs]
  push_cast
  ring

/-- Away from the plane of the equator the gas is less bound. -/
theorem pot_le (h : Outside a p) (hs : Real.sin (p 2) ≠ 0) (hl : a ^ 2 ≤ l ^ 2) {u : Vec} (hu : Turns (gmunu a p) l u) :
    0 < dee a l (p 1) ∧ kerrPotential a p l ≤ kerrPotential a ![0, p 1, Real.pi / 2, 0] l := by
  have hD := (turns_iff h hs l).1 ⟨u, hu⟩
  have hA := area_pos h hs
  have hp := pot_eq h hs hu
  have r0 := h.r
  have hd := h.delta
  have hS := sigma_pos (a := a) h.r
  rw [det_eq (sigma_pos h.r).ne'] at hp
  rw [gmunu_00, gmunu_03, gmunu_33] at hD hp
  have hq : 0 < Real.sin (p 2) * Real.sin (p 2) := mul_self_pos.2 hs
  have hq1 : Real.sin (p 2) * Real.sin (p 2) ≤ 1 := by nlinarith only [Real.sin_sq_add_cos_sq (p 2), sq_nonneg (Real.cos (p 2))]
  have hc : Real.cos (p 2) * Real.cos (p 2) = 1 - Real.sin (p 2) * Real.sin (p 2) := by nlinarith only [Real.sin_sq_add_cos_sq (p 2)]
  rw [hc] at hD hp hS
  obtain ⟨q, hqe⟩ : ∃ q, q = Real.sin (p 2) * Real.sin (p 2) := ⟨_, rfl⟩
  rw [← hqe] at hD hp hS hq hq1
  obtain ⟨r, hr⟩ : ∃ r, r = p 1 := ⟨_, rfl⟩
  rw [← hr] at hD hp hS hd r0 ⊢
  obtain ⟨S, hSe⟩ : ∃ S, S = r * r + a * a * (1 - q) := ⟨_, rfl⟩
  rw [← hSe] at hD hp hS
  obtain ⟨d, hde⟩ : ∃ d, d = r * r - 2 * r + a * a := ⟨_, rfl⟩
  rw [← hde] at hd
  obtain ⟨N, hN⟩ : ∃ N, N = (r * r + a * a) ^ 2 - a * a * q * d - 4 * l * a * r - l * l * d / q + l * l * (a * a) := ⟨_, rfl⟩
  obtain ⟨Z, hZ⟩ : ∃ Z, Z = (r * r + a * a + 2 * r * (a * a) * q / S) * q + 2 * l * (-2 * a * r * q / S) + l * l * (-1 + 2 * r / S) := ⟨_, rfl⟩
  have hNZ : Z = N * q / S := by
    rw [hZ, hN]
    field_simp
    rw [hSe, hde]
    ring
  rw [← hde] at hp
  have hD' : 0 < Z := by rw [hZ]; linarith only [hD]
  have hp' : kerrPotential a p l = 1 / 2 * Real.log (Z / (d * q)) := by
    rw [hp, hZ]
  have N0 : 0 < N := by
    by_contra hcon
    have : N * q / S ≤ 0 := div_nonpos_of_nonpos_of_nonneg (mul_nonpos_of_nonpos_of_nonneg (not_lt.1 hcon) hq.le) hS.le
    linarith
  have hN1 : r * dee a l r - N = d * (1 - q) * (l ^ 2 / q - a ^ 2) := by
    rw [hN]
    unfold dee
    field_simp
    rw [hde]
    ring
  have hlq : a ^ 2 ≤ l ^ 2 / q := by
    rw [le_div_iff₀ hq]
    nlinarith only [hl, hq1, hq, sq_nonneg a]
  have hge : N ≤ r * dee a l r := by
    have := mul_nonneg (mul_nonneg hd.le (sub_nonneg.2 hq1)) (sub_nonneg.2 hlq)
    linarith
  have dee0 : 0 < dee a l r := pos_of_mul_pos_right (lt_of_lt_of_le N0 hge) r0.le
  have hSr : r * r ≤ S := by
    rw [hSe]
    have := mul_nonneg (mul_self_nonneg a) (sub_nonneg.2 hq1)
    linarith
  refine ⟨dee0, ?_⟩
  have hd2 : d = r ^ 2 - 2 * r + a ^ 2 := by rw [hde]; ring
  rw [plane_eq r0 (by rw [← hd2]; exact hd) dee0, hp', hNZ]
  have e1 : N * q / S / (d * q) = N / (S * d) := by field_simp
  have e2 : ratio a l r = r * dee a l r / (r * r * d) := by
    unfold ratio
    rw [← hd2]
    field_simp
  rw [e1, e2]
  have : N / (S * d) ≤ r * dee a l r / (r * r * d) := by
    rw [div_le_div_iff₀ (by positivity) (by positivity)]
    have := mul_le_mul hge (mul_le_mul_of_nonneg_right hSr hd.le) (by positivity) (by positivity)
    linarith
  have := Real.log_le_log (by positivity) this
  linarith

/-- A free orbit beyond the smallest bound one keeps more than 1/√3 of the energy at rest. -/
theorem free_bound {e w : ℝ} (e0 : 0 < e) (e1 : e ≤ 1) (hw : 1 + e ≤ w) : 0 < ratio (1 - e ^ 2) (ellW (1 - e ^ 2) w) (w ^ 2) ∧
    ratio (1 - e ^ 2) (ellW (1 - e ^ 2) w) (w ^ 2) ≤ 3 := by
  have h1 := den_pos e0 hw
  have h2 := slow_pos e0 hw
  have h3 := horizon_pos e0 hw
  have w1 : 1 < w := by linarith
  obtain ⟨a, ha⟩ : ∃ a, a = 1 - e ^ 2 := ⟨_, rfl⟩
  have a0 : 0 ≤ a := by rw [ha]; nlinarith
  have a1 : a < 1 := by rw [ha]; nlinarith
  rw [← ha] at h1 h2 h3 ⊢
  obtain ⟨F, hF⟩ : ∃ F, F = w ^ 3 - 2 * w + a := ⟨_, rfl⟩
  have h3' : 0 < (w ^ 2) ^ 2 - 2 * w ^ 2 + a ^ 2 := by linarith
  have key : ratio a (ellW a w) (w ^ 2) = w ^ 3 * (w ^ 3 - 3 * w + 2 * a) / (w ^ 3 - 2 * w + a) ^ 2 := by
    unfold ratio dee ellW
    rw [← hF]
    rw [← hF] at h1
    rw [div_eq_div_iff (by positivity) (by positivity)]
    field_simp
    rw [hF]
    ring
  rw [key]
  refine ⟨by positivity, ?_⟩
  rw [div_le_iff₀ (by positivity)]
  have q : 0 ≤ (w - 1) ^ 3 * (2 * w ^ 3 + 6 * w ^ 2 + 3 * w - 3) := by
    have : 0 ≤ 2 * w ^ 3 + 6 * w ^ 2 + 3 * w - 3 := by nlinarith only [w1, pow_pos (show 0 < w by linarith) 3, sq_nonneg w]
    have : 0 ≤ (w - 1) ^ 3 := pow_nonneg (by linarith) 3
    positivity
  have t : 0 ≤ (1 - a) * (12 * w - 4 * w ^ 3 - 3 * a - 3) + (w - 1) ^ 3 * (2 * w ^ 3 + 6 * w ^ 2 + 3 * w - 3) := by
    rcases le_or_gt 3 (2 * w ^ 2) with c | c
    · have e : 3 * ((1 - a) * (12 * w - 4 * w ^ 3 - 3 * a - 3) + (w - 1) ^ 3 * (2 * w ^ 3 + 6 * w ^ 2 + 3 * w - 3)) =
          (3 * a + 2 * w ^ 3 - 6 * w) ^ 2 + w ^ 4 * (2 * w ^ 2 - 3) := by ring
      have := mul_nonneg (pow_nonneg (show 0 ≤ w by linarith) 4) (show 0 ≤ 2 * w ^ 2 - 3 by linarith)
      have := sq_nonneg (3 * a + 2 * w ^ 3 - 6 * w)
      linarith
    · have : 6 * w ≤ 12 * w - 4 * w ^ 3 := by nlinarith only [c, w1]
      have := mul_nonneg (show 0 ≤ 1 - a by linarith) (show 0 ≤ 12 * w - 4 * w ^ 3 - 3 * a - 3 by linarith)
      linarith
  linarith only [t, (show 3 * (w ^ 3 - 2 * w + a) ^ 2 - w ^ 3 * (w ^ 3 - 3 * w + 2 * a) =
    (1 - a) * (12 * w - 4 * w ^ 3 - 3 * a - 3) + (w - 1) ^ 3 * (2 * w ^ 3 + 6 * w ^ 2 + 3 * w - 3) by ring)]

/-- The torus that fills its lobe, in Kerr: where it is and how deep. -/
theorem depth {unit : ℝ} {s : Torus} (h0 : 0 ≤ a) (h1 : a < 1) (hf : Filled (kerrHole a unit) s) (l0 : 0 < s.lam) :
    ∃ c c' Ws Wc, s.rin = some c ∧ s.centre = some c' ∧ s.Ws = some Ws ∧ s.Wc = some Wc ∧ 0 < Ws ∧ Wc ≤ Real.log 3 / 2 ∧ kerrRmb a ≤ c ∧ kerrRms a ≤ c' ∧
      ∀ p u, Outside a p → Real.sin (p 2) ≠ 0 → c ≤ p 1 → Turns (gmunu a p) s.l0 u → Ws < kerrPotential a p s.l0 → kerrPotential a p s.l0 ≤ Real.log 3 / 2 := by
  have hb := hf.below
  obtain ⟨rk, rc, c, c', L, hc, hc', ⟨k1, k2, -⟩, k1', k2', -⟩ := searches h0 h1 l0 (by linarith) hf.l0
  have e1 : s.rin = some c := hf.rin.trans hc
  have e2 : s.centre = some c' := hf.centre.trans hc'
  obtain ⟨e, e0, e1', ha, hmb, -⟩ := spin h0 h1
  -- the depth at the centre
  have hrc : kerrRmb a ≤ rc := (L.cusp.1.trans (L.cusp.2.trans L.centre.1)).le
  obtain ⟨x1, x2, x3⟩ := sqrt_range e0 (show (1 + e) ^ 2 ≤ rc by rw [← hmb]; exact hrc)
  have hcen : kerrPotential a ![0, rc, Real.pi / 2, 0] s.l0 ≤ Real.log 3 / 2 := by
    have hz := horizon_pos e0 x1
    rw [← ha] at hz
    have hd : 0 < rc ^ 2 - 2 * rc + a ^ 2 := by rw [x3]; linarith
    have hl : s.l0 = ellW a √rc := by rw [← L.free.2, kerrL_eq x2.le]
    obtain ⟨b1, b2⟩ := free_bound e0 e1' x1
    rw [← ha, ← hl, ← x3] at b1 b2
    have hdee : 0 < dee a s.l0 rc := by
      have hm : ratio a s.l0 rc * (rc * (rc ^ 2 - 2 * rc + a ^ 2)) = dee a s.l0 rc := div_mul_cancel₀ _ (mul_pos x2 hd).ne'
      rw [← hm]
      exact mul_pos b1 (mul_pos x2 hd)
    rw [plane_eq x2 hd hdee]
    have := Real.log_le_log b1 b2
    linarith
  -- in the plane
  have hpl : ∀ r, rk ≤ r → kerrPotential a ![0, r, Real.pi / 2, 0] s.l0 ≤ kerrPotential a ![0, rc, Real.pi / 2, 0] s.l0 := by
    intro r hr
    have hkc : rk ≤ rc := (L.cusp.2.trans L.centre.1).le
    rcases le_or_gt r rc with h | h
    · exact L.up.monotoneOn ⟨hr, h⟩ ⟨hkc, le_rfl⟩ h
    · exact L.away.antitoneOn (Set.mem_Ici.2 le_rfl) (Set.mem_Ici.2 h.le) h.le
  have hW : 0 < kerrPotential a ![0, c, Real.pi / 2, 0] s.l0 := by
    rcases lt_or_eq_of_le k1 with h | h
    · exact L.bound c h
    · rw [← h]
      have := L.down (show kerrRmb a ∈ _ from ⟨le_rfl, L.cusp.1.le⟩) (show rk ∈ _ from ⟨L.cusp.1.le, le_rfl⟩) L.cusp.1
      exact (L.bound rk L.cusp.1).trans this
  refine ⟨c, c', kerrPotential a ![0, c, Real.pi / 2, 0] s.l0, kerrPotential a ![0, c', Real.pi / 2, 0] s.l0, e1, e2, ?_, ?_, hW, ?_, k1, k1', ?_⟩
  · rw [hf.Ws, e1]; rfl
  · rw [hf.Wc, e2]; rfl
  · exact (hpl c' (L.cusp.2.le.trans k1')).trans hcen
  · intro p u ho hs hr hu hin
    have hl2 : a ^ 2 ≤ s.l0 ^ 2 := by
      have := ellW_gt e0 e1' x1
      rw [← ha, ← kerrL_eq x2.le, L.free.2] at this
      nlinarith only [this, h0]
    have hle := (pot_le ho hs hl2 hu).2
    have hk : rk ≤ p 1 := by
      by_contra hcon
      rw [not_le] at hcon
      have := L.down.antitoneOn (show c ∈ _ from ⟨k1, hr.trans hcon.le⟩) (show p 1 ∈ _ from ⟨k1.trans hr, hcon.le⟩) hr
      linarith only [this, hle, hin]
    exact hle.trans ((hpl _ hk).trans hcen)

/-- **C133** In Kerr, everywhere in a torus that fills its lobe there is gas of positive density, temperature and field. -/
theorem gas_everywhere {unit x : ℝ} {s : Torus} (h0 : 0 ≤ a) (h1 : a < 1) (hf : Filled (kerrHole a unit) s) (l0 : 0 < s.lam) (hm : s.magnetization = -1)
    (hE : 0 < s.enthalpy) (hT : 0 < s.temperature) (hb : 0 < s.beta) (hg : ∀ Ws Wc, s.Ws = some Ws → s.Wc = some Wc → Ws < Wc) (ho : Outside a p)
    (hs : Real.sin (p 2) ≠ 0) (hx : s.delta (kerrHole a unit) p = .num x) (x0 : x < 0) :
    ∃ c Ws Wc G, s.centre = some c ∧ s.Ws = some Ws ∧ s.Wc = some Wc ∧ 0 < (kerrPotential a p s.l0 - Ws) * (1 / (Wc - Ws)) ∧
      s.gas (Wc - Ws) (area (gmunu a ![0, c, Real.pi / 2, 0])) (area (gmunu a p)) ((kerrPotential a p s.l0 - Ws) * (1 / (Wc - Ws))) = .num G ∧
      0 < G.n ∧ 0 < G.T ∧ 0 < G.B := by
  obtain ⟨c, c', Ws, Wc, e1, e2, e3, e4, w0, w1, k1, k2, deep⟩ := depth h0 h1 hf l0
  have hgap := hg Ws Wc e3 e4
  have e5 : ∃ cu, s.cusp = some cu := by
    rw [hf.cusp, e1]
    split_ifs
    · exact ⟨_, rfl⟩
    · exact ⟨_, rfl⟩
  obtain ⟨cu, e5⟩ := e5
  obtain ⟨i1, i2, u, hu, i3⟩ := (inside_iff ho hs e1 e5 e3).1 ⟨x, hx, x0⟩
  rw [← kerr_potential (regular ho hs) ho.r hu.rotating hu.momentum] at i3
  have hd := deep p u ho hs i1 hu i3
  have hl3 : Real.log 3 < 2 := by
    have := Real.log_le_sub_one_of_pos (show (0 : ℝ) < 3 / 2 by norm_num)
    have h2 : Real.log 3 = Real.log (3 / 2) + Real.log 2 := by rw [← Real.log_mul (by norm_num) (by norm_num)]; norm_num
    have := Real.log_two_lt_d9
    linarith
  obtain ⟨e, ee0, ee1, ha, hmb, -⟩ := spin h0 h1
  have hcm : (1 + e) ^ 2 ≤ c' := by
    rw [← hmb]
    obtain ⟨rk, rc, L⟩ := lobe h0 h1 l0 (by linarith [hf.below])
    exact (L.cusp.1.trans L.cusp.2).le.trans k2
  obtain ⟨x1, x2, x3⟩ := sqrt_range ee0 hcm
  have hz := horizon_pos ee0 x1
  rw [← ha] at hz
  have hoc : Outside a ![0, c', Real.pi / 2, 0] := by
    refine ⟨x2, ?_⟩
    show 0 < c' * c' - 2 * c' + a * a
    have : √c' ^ 4 = c' ^ 2 := by rw [show √c' ^ 4 = (√c' ^ 2) ^ 2 by ring, ← x3]
    rw [this, ← x3] at hz
    linarith
  have hA := area_pos ho hs
  have hAc := area_pos hoc (by show Real.sin (Real.pi / 2) ≠ 0; simp)
  have hw : 0 < (kerrPotential a p s.l0 - Ws) * (1 / (Wc - Ws)) := mul_pos (by linarith) (one_div_pos.2 (by linarith))
  have hwD : (kerrPotential a p s.l0 - Ws) * (1 / (Wc - Ws)) * (Wc - Ws) = kerrPotential a p s.l0 - Ws := by
    have : Wc - Ws ≠ 0 := by linarith
    field_simp
  obtain ⟨G, hG, g⟩ := gas_there (D := Wc - Ws) hm hE hT hb (by linarith) hAc hA hw (by linarith) (by rw [hwD]; linarith)
  exact ⟨c', Ws, Wc, G, e2, e3, e4, hw, hG, g⟩

/-- **C133** The field is at rest with the gas and has the strength computed. -/
theorem field_frame {s : Torus} {u : Vec} (ho : Outside a p) (hs : Real.sin (p 2) ≠ 0) (hu : Turns (gmunu a p) s.l0 u) (B : ℝ) :
    sp (gmunu a p) (s.bvec (gmunu a p) B) u = 0 ∧ sp (gmunu a p) (s.bvec (gmunu a p) B) (s.bvec (gmunu a p) B) = B ^ 2 := by
  have hD := (turns_iff ho hs s.l0).1 ⟨u, hu⟩
  have hl := hu.momentum
  obtain ⟨e0, e3⟩ := kerr_lower a p u
  rw [e0, e3] at hl
  have hsq := Real.sq_sqrt hD.le
  have hs0 := (Real.sqrt_pos.2 hD).ne'
  unfold Torus.bvec
  obtain ⟨R, hR⟩ : ∃ R, R = √(gmunu a p 3 3 + 2 * s.l0 * gmunu a p 0 3 + s.l0 * s.l0 * gmunu a p 0 0) := ⟨_, rfl⟩
  rw [← hR] at hsq hs0 ⊢
  rw [sp_eq, sp_eq]
  constructor
  · show gmunu a p 0 0 * (B / R * s.l0) * u 0 + gmunu a p 1 1 * 0 * u 1 + gmunu a p 2 2 * 0 * u 2 + gmunu a p 3 3 * (B / R) * u 3 +
        gmunu a p 0 3 * (B / R * s.l0) * u 3 + gmunu a p 0 3 * (B / R) * u 0 = 0
    linear_combination (B / R) * hl
  · show gmunu a p 0 0 * (B / R * s.l0) * (B / R * s.l0) + gmunu a p 1 1 * 0 * 0 + gmunu a p 2 2 * 0 * 0 + gmunu a p 3 3 * (B / R) * (B / R) +
        gmunu a p 0 3 * (B / R * s.l0) * (B / R) + gmunu a p 0 3 * (B / R) * (B / R * s.l0) = B ^ 2
    field_simp
    linear_combination (-B ^ 2) * hsq

/-- The arguments of the angle. -/
theorem angle_frame {s : Torus} {u k : Vec} {B : ℝ} (ho : Outside a p) (hs : Real.sin (p 2) ≠ 0) (hu : Turns (gmunu a p) s.l0 u)
    (hk : sp (gmunu a p) k k = 0) (hE : sp (gmunu a p) k u < 0) (hB : 0 < B) :
    let e : Vec := k + sp (gmunu a p) k u • u
    0 < sp (gmunu a p) e e ∧ ∃ x, x = sp (gmunu a p) e (s.bvec (gmunu a p) B) / (√(sp (gmunu a p) e e) * B) ∧ -1 ≤ x ∧ x ≤ 1 ∧
      IsAngle (gmunu a p) u k (s.bvec (gmunu a p) B) (Real.arccos x) := by
  obtain ⟨hout, -⟩ := JetFlow.kerr_out ho.r ho.delta hs
  have hun := hu.rotating.unit
  have L := hout.lorentzian hu.rotating.r hu.rotating.theta (by rw [scalarProd_eq]; exact hun)
  obtain ⟨f1, f2⟩ := field_frame ho hs hu B
  generalize s.bvec (gmunu a p) B = b at *
  generalize gmunu a p = g at *
  intro e
  have he : e = restPart g u k := (restPart_eq g u k).symm
  have hl : sp g e e = sp g k u ^ 2 := by rw [he, rest_rest L.1 hun, hk]; ring
  have hl0 : 0 < sp g k u ^ 2 := sq_pos_of_neg hE
  have hsq : √(sp g e e) = -sp g k u := by rw [hl, Real.sqrt_sq_eq_abs, abs_of_neg hE]
  refine ⟨by rw [hl]; exact hl0, _, rfl, ?_⟩
  have hb : restPart g u b = b := rest_of_orth f1
  have hbb : √(sp g b b) = B := by rw [f2, Real.sqrt_sq hB.le]
  have hdir : sp g e b = -sp g k u * sp g (Spacetime.direction g u k) b := by rw [he, direction_smul hE.ne, sp_smul_left]
  have hx : sp g e b / (√(sp g e e) * B) = sp g (Spacetime.direction g u k) b / B := by
    rw [hdir, hsq]
    have : sp g k u ≠ 0 := hE.ne
    field_simp
  have hle : |sp g e b / (√(sp g e e) * B)| ≤ 1 := by
    have hc := cauchy L (a := e) (b := b) (by rw [he]; exact rest_u hun k) f1
    have hp : 0 < √(sp g e e) * B := by rw [hsq]; exact mul_pos (by linarith) hB
    rw [abs_div, abs_of_pos hp, div_le_one hp]
    refine abs_le_of_sq_le_sq ?_ hp.le
    rw [mul_pow, Real.sq_sqrt (by rw [hl]; exact hl0.le), ← f2]
    exact hc
  obtain ⟨h1, h2⟩ := abs_le.1 hle
  refine ⟨h1, h2, Real.arccos_nonneg _, Real.arccos_le_pi _, ?_⟩
  rw [Real.cos_arccos h1 h2, hb, scalarProd_eq, scalarProd_eq, hbb, hx]
  field_simp

/-- **C133** Where there is gas, the light is computed for the angle between the light and the field as the gas sees it; a light along the field is refused. -/
theorem shines {s : Torus} {b : Bessels} {unit dsem c Ws Wc d : ℝ} {u k : Vec} {G : Gas} {nus : List ℝ} (ho : Outside a p) (hs : Real.sin (p 2) ≠ 0)
    (ha : s.adaf = false) (e1 : s.centre = some c) (e3 : s.Ws = some Ws) (e4 : s.Wc = some Wc) (e5 : s.dW = some (some d))
    (hw : 0 < (kerrPotential a p s.l0 - Ws) * d)
    (hG : s.gas (Wc - Ws) (area (gmunu a ![0, c, Real.pi / 2, 0])) (area (gmunu a p)) ((kerrPotential a p s.l0 - Ws) * d) = .num G) (hB : 0 < G.B)
    (hu : Turns (gmunu a p) s.l0 u) (hk : sp (gmunu a p) k k = 0) (hE : sp (gmunu a p) k u < 0) :
    ∃ θ, IsAngle (gmunu a p) u k (s.bvec (gmunu a p) G.B) θ ∧
      s.radiativeQ b (kerrHole a unit) dsem p k p nus = if Real.sin θ = 0 then .throws else s.shine b unit dsem G.n G.T G.B θ nus := by
  obtain ⟨he, x, hx, h1, h2, hθ⟩ := angle_frame ho hs hu hk hE hB
  refine ⟨_, hθ, ?_⟩
  have hD := (turns_iff ho hs s.l0).1 ⟨u, hu⟩
  have hv := (velocity_kerr (unit := unit) ho hs ha).1 u hu
  have hp : (kerrHole a unit).pot ![0, p 1, p 2, 0] s.l0 = kerrPotential a p s.l0 := rfl
  have hg : (kerrHole a unit).g = gmunu a := rfl
  unfold Torus.radiativeQ
  simp only [ha, e5, e3, e1, e4, hp, hg, hv, bind_ok, scalarProd_eq, Option.bind_eq_bind, Option.bind_some]
  have hh : height ((kerrPotential a p s.l0 - Ws) * d) = .ok ((kerrPotential a p s.l0 - Ws) * d) := by
    unfold height
    rw [if_neg (not_le.2 hw)]
  rw [hh]
  simp only [bind_ok, hG]
  have hxx : ¬ (x < -1 ∨ 1 < x) := by rintro (h | h) <;> linarith
  rw [if_neg (not_le.2 he), if_neg (not_le.2 hD), if_neg hB.ne', ← hx, if_neg hxx]
  rfl

/-! ### The light of a thermal torus -/

/-- The coefficients of a thermal spectrum, averaged over the angles or not, in terms of the light of a black body. -/
theorem synch_coefs {v : Thermal} (hr : v.Ready) (hn0 : 0 < v.n) (b : Bessel) {nus : List ℝ} (hn : ∀ nu ∈ nus, 0 < nu) :
    ∃ t : Thermal, ∃ α : ℝ → ℝ, v.radiativeQ nus =
      .ok (t, nus.map fun nu => (α nu * planck (2 * planckOverC2) planckOverBoltzmann v.T nu, α nu)) ∧ ∀ nu ∈ nus, 0 < α nu := by
  by_cases ha : v.averaged = true
  · exact Thick.thermal_coefs hr ha hn0 b hn
  have ha : v.averaged = false := by simpa using ha
  obtain ⟨t, -, e⟩ := each_eq (f := Thermal.pass) (P := fun t => t = v) (g := fun nu => (v.outs b nu 0, v.outs b nu 4)) (A := fun nu => 0 < nu)
    (by
      rintro _ rfl nu hnu
      refine ⟨_, rfl, ?_⟩
      rw [hr.pass b hnu, if_pos ha]) v rfl nus hn
  refine ⟨t, fun nu => v.outs b nu 4, ?_, fun nu hnu => ?_⟩
  · unfold Thermal.radiativeQ
    rw [if_neg (not_lt.2 hr.hot), e]
    congr 2
    refine List.map_congr_left fun nu hnu => ?_
    congr 1
    exact (SphAcc.outs_kirchhoff hr (hn nu hnu) b).symm
  · show 0 < v.outs b nu 4
    unfold Thermal.outs
    rw [if_pos ha, toSI_a _ (by decide), vals_four]
    have q : 0 < planck (2 * planckOverC2) planckOverBoltzmann v.T nu := planck_pos (temp_pos hr.theta_pos) (hn nu hnu)
    exact mul_pos (div_pos (SphAcc.jVal_pos (hr.lit ha (hn nu hnu)) hn0) (div_pos q (by norm_num [inuToSI]))) (by norm_num [anuToSI])

theorem brems_coefs {f : Brems} (h : f.InStep) (hT : 0 < f.T) (hn0 : f.n ≠ 0) {nus : List ℝ} (hn : ∀ nu ∈ nus, 0 < nu) :
    ∃ α : ℝ → ℝ, Brems.all f nus = .ok (nus.map fun nu => (α nu * planck (2 * planckOverC2) planckOverBoltzmann f.T nu, α nu)) ∧ ∀ nu ∈ nus, 0 < α nu := by
  have key : ∀ nu : ℝ, ∃ α : ℝ, 0 < nu → f.pass nu = .ok (α * planck (2 * planckOverC2) planckOverBoltzmann f.T nu, α) ∧ 0 < α := by
    intro nu
    by_cases h' : 0 < nu
    · obtain ⟨j, α, e, -, p, k⟩ := brems_kirchhoff h hT hn0 h'
      exact ⟨α, fun _ => ⟨by rw [e, k], p⟩⟩
    · exact ⟨0, fun q => absurd q h'⟩
  choose α hα using key
  refine ⟨α, ?_, fun nu hnu => (hα nu (hn nu hnu)).2⟩
  induction nus with
  | nil => rfl
  | cons nu l ih =>
    rw [Brems.all, (hα nu (hn nu (by simp))).1, bind_ok, ih fun x hx => hn x (by simp [hx]), bind_ok]
    rfl

/-- What the light of a thermal torus needs: spectra in step, no electrons outside of the thermal distribution, gas that is hot and in a field. -/
structure Warm (s : Torus) (G : Gas) : Prop where
  step : s.synch.InStep
  free : s.ff.InStep
  thermal : s.deltaPL = 0
  hot : 0.01 ≤ thetaE G.T
  field : 1e-5 ≤ G.B
  dense : 0 < G.n

theorem temp_of_theta {T : ℝ} (h : 0.01 ≤ thetaE T) : 0 < T := by
  by_contra hc
  have : thetaE T ≤ 0 := by
    unfold thetaE boltzmannCGS electronMassCGS c2CGS
    exact div_nonpos_of_nonpos_of_nonneg (by nlinarith) (by norm_num)
  norm_num at h
  linarith

/-- **C133** The gas of a thermal torus sends out, at each frequency, that fraction of the light of a black body of its temperature that it absorbs: with the
bremsstrahlung or without, for one direction of the field or averaged over all. -/
theorem thermal_light {s : Torus} {b : Bessels} {G : Gas} {θ unit dsem : ℝ} {nus : List ℝ} (h : Warm s G)
    (hθ : s.synch.averaged = false → 0 < θ ∧ θ < Real.pi) (hL : 0 < unit) (hd : 0 < dsem) (hn : ∀ nu ∈ nus, 0 < nu)
    (hB : ∀ nu ∈ nus, planck (2 * planckOverC2) planckOverBoltzmann G.T nu < 2 ^ 53) :
    ∃ s', ∃ T : ℝ → ℝ, s.shine b unit dsem G.n G.T G.B θ nus = .ok (s', nus.map fun nu =>
      (planck (2 * planckOverC2) planckOverBoltzmann G.T nu * (1 - T nu), T nu)) ∧ (∀ nu ∈ nus, 0 < T nu ∧ T nu < 1) ∧
      s' = { s with synch := s'.synch, ff := s'.ff } := by
  have Tpos := temp_of_theta h.hot
  have Bpos : 0 < G.B := lt_of_lt_of_le (by norm_num) h.field
  have hp : 0 < dsem * unit := by positivity
  have npi := Real.pi_pos
  obtain ⟨t, α, e, apos⟩ := synch_coefs (v := s.synch.run [.temperature G.T, .numberdensityCGS G.n, .angle θ, .cyclotronFreq (cyclotron G.B),
      .besselK2 (b.k2 (1 / thetaE G.T))])
    ⟨SphAcc.run_inStep h.step _, by
        have := h.hot
        show (0.01 : ℝ) ≤ G.T * boltzmannCGS / (electronMassCGS * c2CGS)
        rwa [mul_comm G.T],
      by
        show 0 < chargeCGS * G.B / (2 * Real.pi * electronMassCGS * cCGS)
        unfold chargeCGS electronMassCGS cCGS
        positivity, hθ⟩ (show 0 < G.n from h.dense) ⟨b.k1, b.k1, b.k2⟩ hn
  replace e : (s.synch.run [.temperature G.T, .numberdensityCGS G.n, .angle θ, .cyclotronFreq (cyclotron G.B),
      .besselK2 (b.k2 (1 / thetaE G.T))]).radiativeQ nus =
      .ok (t, nus.map fun nu => (α nu * planck (2 * planckOverC2) planckOverBoltzmann G.T nu, α nu)) := e
  have main : ∃ f : Brems, ∃ γ : ℝ → ℝ, s.coefs b G.n G.T G.B θ nus =
      .ok ({ s with synch := t, ff := f }, nus.map fun nu => (γ nu * planck (2 * planckOverC2) planckOverBoltzmann G.T nu, γ nu)) ∧
      ∀ nu ∈ nus, 0 < γ nu := by
    by_cases hb : s.brems = true
    · obtain ⟨β, e', bpos⟩ := brems_coefs (f := (s.ff.temperature G.T).numberdensityCGS G.n) (brems_in_step.2.2 _ (brems_in_step.2.1 _ h.free _) _)
        (show 0 < G.T from Tpos) (show G.n ≠ 0 from h.dense.ne') hn
      refine ⟨(s.ff.temperature G.T).numberdensityCGS G.n, fun nu => α nu + β nu, ?_, fun nu hnu => add_pos (apos nu hnu) (bpos nu hnu)⟩
      unfold Torus.coefs
      simp only [e, bind_ok, h.thermal, hb, if_true, ne_eq, not_true_eq_false, if_false, lt_irrefl]
      rw [e', bind_ok]
      congr 2
      unfold addUp
      rw [List.zipWith_map, List.zipWith_self]
      refine List.map_congr_left fun nu _ => ?_
      show (_ * planck (2 * planckOverC2) planckOverBoltzmann G.T nu + _ * planck (2 * planckOverC2) planckOverBoltzmann G.T nu, _) = _
      rw [← add_mul]
    · have hb : s.brems = false := by simpa using hb
      refine ⟨s.ff, α, ?_, apos⟩
      unfold Torus.coefs
      simp only [e, bind_ok, h.thermal, hb, ne_eq, not_true_eq_false, if_false, lt_irrefl]
      rfl
  obtain ⟨f, γ, em, gpos⟩ := main
  refine ⟨{ s with synch := t, ff := f }, fun nu => Real.exp (-γ nu * (dsem * unit)), ?_, fun nu hnu => ⟨Real.exp_pos _, ?_⟩, rfl⟩
  · unfold Torus.shine
    have h5 : thetaE G.T > 1e-5 := lt_of_lt_of_le (by norm_num) h.hot
    rw [if_neg (not_not.2 h5), if_neg (not_lt.2 h.field), em, bind_ok]
    simp only
    rw [slabs_map (h := fun nu => (planck (2 * planckOverC2) planckOverBoltzmann G.T nu * (1 - Real.exp (-γ nu * (dsem * unit))),
      Real.exp (-γ nu * (dsem * unit)))), bind_ok]
    intro nu hnu
    exact slab_source_eq (gpos nu hnu) (planck_pos Tpos (hn nu hnu)).le hp.le (hB nu hnu)
  · rw [Real.exp_lt_one_iff]
    nlinarith [gpos nu hnu]

/-- **C133** From the torus to the light: inside a torus that fills its lobe in Kerr the gas is that of `gas_everywhere`, the light meets the field at the
angle the gas sees, and a thermal gas that is hot enough and in a field strong enough radiates by Kirchhoff's law. -/
theorem torus_light {unit x dsem : ℝ} {s : Torus} {b : Bessels} {k : Vec} {nus : List ℝ} (h0 : 0 ≤ a) (h1 : a < 1) (hf : Filled (kerrHole a unit) s)
    (l0 : 0 < s.lam) (hm : s.magnetization = -1) (hE : 0 < s.enthalpy) (hT : 0 < s.temperature) (hb : 0 < s.beta)
    (hg : ∀ Ws Wc, s.Ws = some Ws → s.Wc = some Wc → Ws < Wc ∧ s.dW = some (some (1 / (Wc - Ws)))) (ho : Outside a p)
    (hs : Real.sin (p 2) ≠ 0) (hx : s.delta (kerrHole a unit) p = .num x) (x0 : x < 0) (ha : s.adaf = false) (hL : 0 < unit) (hd : 0 < dsem)
    (hn : ∀ nu ∈ nus, 0 < nu) :
    ∃ G u, Turns (gmunu a p) s.l0 u ∧ 0 < G.n ∧ 0 < G.T ∧ 0 < G.B ∧ (Warm s G → sp (gmunu a p) k k = 0 → sp (gmunu a p) k u < 0 →
      (∀ nu ∈ nus, planck (2 * planckOverC2) planckOverBoltzmann G.T nu < 2 ^ 53) →
      ∃ θ, IsAngle (gmunu a p) u k (s.bvec (gmunu a p) G.B) θ ∧
        (Real.sin θ = 0 → s.radiativeQ b (kerrHole a unit) dsem p k p nus = .throws) ∧
        (Real.sin θ ≠ 0 → ∃ s', ∃ T : ℝ → ℝ, s.radiativeQ b (kerrHole a unit) dsem p k p nus = .ok (s', nus.map fun nu =>
          (planck (2 * planckOverC2) planckOverBoltzmann G.T nu * (1 - T nu), T nu)) ∧ ∀ nu ∈ nus, 0 < T nu ∧ T nu < 1)) := by
  obtain ⟨c, Ws, Wc, G, e1, e3, e4, hw, hG, n0, T0, B0⟩ := gas_everywhere h0 h1 hf l0 hm hE hT hb (fun _ _ q r => (hg _ _ q r).1) ho hs hx x0
  obtain ⟨r, er⟩ : ∃ r, s.rin = some r := by
    cases hr : s.rin with
    | none => have := hf.Ws; rw [hr, e3] at this; simp at this
    | some r => exact ⟨r, rfl⟩
  obtain ⟨cu, e5⟩ : ∃ cu, s.cusp = some cu := by
    rw [hf.cusp, er]
    split_ifs <;> exact ⟨_, rfl⟩
  obtain ⟨-, -, u, hu, -⟩ := (inside_iff ho hs er e5 e3).1 ⟨x, hx, x0⟩
  refine ⟨G, u, hu, n0, T0, B0, fun hwarm hk hE' hB => ?_⟩
  obtain ⟨θ, hθ, e⟩ := shines (b := b) (unit := unit) (dsem := dsem) (nus := nus) ho hs ha e1 e3 e4 (hg _ _ e3 e4).2 hw hG B0 hu hk hE'
  refine ⟨θ, hθ, fun hz => by rw [e, if_pos hz], fun hz => ?_⟩
  rw [e, if_neg hz]
  have r1 : θ ≠ 0 := fun q => hz (by rw [q, Real.sin_zero])
  have r2 : θ ≠ Real.pi := fun q => hz (by rw [q, Real.sin_pi])
  obtain ⟨s', T, h1, h2, -⟩ := thermal_light (b := b) (unit := unit) (dsem := dsem) hwarm
    (fun _ => ⟨lt_of_le_of_ne hθ.1 r1.symm, lt_of_le_of_ne hθ.2.1 r2⟩) hL hd hn hB
  exact ⟨s', T, h1, h2⟩

/-! ### Where there is no light -/

/-- C133. Before `Lambda` or `AngMomRinner` is given with a metric, the light is computed with a member that nothing has set. -/
theorem unset_gap_wrong (b : Bessels) (h : Hole) (dsem : ℝ) (k q : Vec) (nus : List ℝ) : Torus.new.radiativeQ b h dsem p k q nus = .ub ∧
    ∀ s : Torus, s.dW = none → s.adaf = false → s.radiativeQ b h dsem p k q nus = .ub := by
  have key : ∀ s : Torus, s.dW = none → s.adaf = false → s.radiativeQ b h dsem p k q nus = .ub := by
    intro s e1 e2
    unfold Torus.radiativeQ
    simp [e1, e2]
  exact ⟨key _ rfl rfl, key⟩

/-- C133. With the default `Beta` of 0, which `Impact` accepts though it refuses 1, the torus is dark and transparent: its gas is not a number. -/
theorem default_beta_wrong {s : Torus} {b : Bessels} {unit dsem c Ws Wc d : ℝ} {u k : Vec} {nus : List ℝ} (ho : Outside a p) (hs : Real.sin (p 2) ≠ 0)
    (ha : s.adaf = false) (hb : s.beta = 0) (hav : s.averaged = false) (hE : 0 < s.enthalpy) (hc : 0 < area (gmunu a ![0, c, Real.pi / 2, 0]))
    (e1 : s.centre = some c) (e3 : s.Ws = some Ws) (e4 : s.Wc = some Wc) (e5 : s.dW = some (some d)) (hw : 0 < (kerrPotential a p s.l0 - Ws) * d)
    (hu : Turns (gmunu a p) s.l0 u) (hk : sp (gmunu a p) k k = 0) (hE' : sp (gmunu a p) k u < 0) :
    s.radiativeQ b (kerrHole a unit) dsem p k p nus = .ok (s, dark nus) ∧ s.path (kerrHole a unit) p = .standard ∧ Torus.new.beta = 0 := by
  refine ⟨?_, ?_, rfl⟩
  · obtain ⟨he, -⟩ := angle_frame ho hs hu hk hE' one_pos
    have hv := (velocity_kerr (unit := unit) ho hs ha).1 u hu
    have hp : (kerrHole a unit).pot ![0, p 1, p 2, 0] s.l0 = kerrPotential a p s.l0 := rfl
    have hg : (kerrHole a unit).g = gmunu a := rfl
    have hA : 0 < area (gmunu a p) := area_pos ho hs
    unfold Torus.radiativeQ
    simp only [ha, e5, e3, e1, e4, hp, hg, hv, bind_ok, scalarProd_eq, Option.bind_eq_bind, Option.bind_some]
    have hh : height ((kerrPotential a p s.l0 - Ws) * d) = .ok ((kerrPotential a p s.l0 - Ws) * d) := by
      unfold height
      rw [if_neg (not_le.2 hw)]
    have hG : s.gas (Wc - Ws) (area (gmunu a ![0, c, Real.pi / 2, 0])) (area (gmunu a p)) ((kerrPotential a p s.l0 - Ws) * d) = .nan := by
      unfold Torus.gas
      rw [if_neg (by rintro (h | h | h) <;> linarith)]
      simp [Torus.kappas, hav, hb]
    rw [hh]
    simp only [bind_ok, hG]
    rw [if_neg (not_le.2 he)]
    rfl
  · unfold Torus.path
    rw [if_neg (by rw [hb]; norm_num)]
    simp [ha]

/-- C133. Electrons outside of the thermal distribution count only with a positive fraction: with a negative one their coefficients are computed and left
out. -/
theorem negative_fraction_wrong {s : Torus} {b : Bessels} {n T B θ : ℝ} {nus : List ℝ} {s' : Torus} {l : List (ℝ × ℝ)} (h : s.deltaPL < 0)
    (e : s.coefs b n T B θ nus = .ok (s', l)) : ∃ s'', ({ s with deltaPL := 0 } : Torus).coefs b n T B θ nus = .ok (s'', l) := by
  unfold Torus.coefs at e ⊢
  obtain ⟨⟨t, ja⟩, e1, e⟩ := SphAcc.bind_inv e
  obtain ⟨⟨pl, jp⟩, -, e⟩ := SphAcc.bind_inv e
  obtain ⟨jb, e2, e⟩ := SphAcc.bind_inv e
  simp only [Out.ok.injEq, Prod.mk.injEq] at e
  refine ⟨{ s with deltaPL := 0, synch := t, ff := if s.brems then (s.ff.temperature T).numberdensityCGS n else s.ff }, ?_⟩
  simp only [e1, bind_ok, ne_eq, not_true_eq_false, if_false, lt_irrefl, gt_iff_lt]
  rw [e2, bind_ok, ← e.2, if_neg (not_lt.2 h.le)]

/-- C133. The flow of Yuan and Broderick is refused unless the emission is averaged over the angles. -/
theorem flow_needs_average {s : Torus} (b : Bessels) (h : Hole) (dsem : ℝ) (k q : Vec) (nus : List ℝ) (ha : s.adaf = true) (hv : s.averaged = false) :
    s.radiativeQ b h dsem p k q nus = .throws := by
  unfold Torus.radiativeQ
  simp [ha, hv]

/-- Example: hot gas, `T = 10¹¹ K`, a million electrons per cubic centimetre, ten gauss, with bremsstrahlung, at 10¹¹ Hz. -/
example (b : Bessels) : ∃ s', ∃ T : ℝ → ℝ, ({ Torus.new with brems := true } : Torus).shine b 1 1 1e6 1e11 10 1 [1e11] = .ok (s', [1e11].map fun nu =>
      (planck (2 * planckOverC2) planckOverBoltzmann 1e11 nu * (1 - T nu), T nu)) ∧ (∀ nu ∈ [(1e11 : ℝ)], 0 < T nu ∧ T nu < 1) := by
  obtain ⟨s', T, h1, h2, -⟩ := thermal_light (s := { Torus.new with brems := true }) (b := b) (G := ⟨1e6, 1e11, 10⟩) (θ := 1) (unit := 1) (dsem := 1)
    (nus := [1e11]) ⟨by simp [Torus.new, Thermal.InStep, Thermal.new, Gyoto.SpectrumKinds.BlackBody.new], brems_in_step.1, rfl, by norm_num [thetaE, boltzmannCGS, electronMassCGS, c2CGS], by norm_num, by norm_num⟩
    (fun _ => ⟨one_pos, by linarith [Real.pi_gt_three]⟩) one_pos one_pos (by simp; norm_num)
    (by
      intro nu hnu
      simp only [List.mem_singleton] at hnu
      subst hnu
      exact Thick.planck_small (by norm_num) (by norm_num) (by norm_num) (by norm_num))
  exact ⟨s', T, h1, h2⟩

end

end Gyoto.Doughnut
