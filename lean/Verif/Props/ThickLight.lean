import Verif.Props.ThickDisk
import Verif.Props.PolarSpot

/-! # C128. The gas of the thick disk, and its light -/

namespace Gyoto.Thick

open Gyoto.MetricAlg Gyoto.Plasma
open Gyoto.Transfer (Out)
open Gyoto.Synch
open Gyoto.USphere (Kind)
open Gyoto.JetFlow (radius cyl)
open Gyoto.SphAcc (slab slabs protonMassCGS slabs_map bind_inv run_inStep radiativeQ_inStep slab_source_eq planck_pos inten slab_ok)

/-! ## The gas -/

/-- C128. The gas is everywhere. Its density is a power of the radius, given in the equatorial plane at the inner radius, times a Gaussian of the height
over the distance to the axis; its temperature a power of the radius. -/
theorem gas {s : Disk} {p : Vec} (hin : 0 < s.rin) (hs : s.thick ≠ 0) (hr : 0 < p 1) (hsin : Real.sin (p 2) ≠ 0) :
    s.delta p < 0 ∧
    s.density .spherical p = some (s.n0 * (p 1 / s.rin) ^ (-s.slope) * Real.exp (-(Real.cos (p 2) / Real.sin (p 2)) ^ 2 / (2 * s.thick ^ 2))) ∧
    s.temperature .spherical p = s.T0 * (p 1 / s.rin) ^ (-s.slopeT) := by
  have key : ∀ e : ℝ, (s.rin / p 1) ^ e = (p 1 / s.rin) ^ (-e) := by
    intro e
    rw [Real.rpow_neg (by positivity), ← Real.inv_rpow (by positivity), inv_div]
  refine ⟨by norm_num [Disk.delta], ?_, ?_⟩
  · unfold Disk.density Disk.profile
    have hq : 0 < s.rin / p 1 := by positivity
    have hrad : radius .spherical p = p 1 := rfl
    have hcyl : cyl .spherical p = p 1 * Real.sin (p 2) := rfl
    have hz : height .spherical p = p 1 * Real.cos (p 2) := rfl
    rw [hrad, hcyl, hz, if_neg (by rintro (h | h) <;> linarith), if_neg (mul_ne_zero hs (mul_ne_zero hr.ne' hsin)), Option.map_some, key]
    congr 3
    field_simp
  · unfold Disk.temperature
    rw [show radius .spherical p = p 1 from rfl, key]

/-- C128. The density in Cartesian coordinates is that of the same point in spherical ones. -/
theorem gas_cartesian {s : Disk} {r th ph t : ℝ} (hr : 0 ≤ r) (hsin : 0 ≤ Real.sin th) :
    s.density .cartesian ![t, r * Real.sin th * Real.cos ph, r * Real.sin th * Real.sin ph, r * Real.cos th] = s.density .spherical ![t, r, th, ph] ∧
    s.temperature .cartesian ![t, r * Real.sin th * Real.cos ph, r * Real.sin th * Real.sin ph, r * Real.cos th] =
      s.temperature .spherical ![t, r, th, ph] := by
  have h1 := Real.sin_sq_add_cos_sq th
  have h2 := Real.sin_sq_add_cos_sq ph
  have e1 : radius .cartesian ![t, r * Real.sin th * Real.cos ph, r * Real.sin th * Real.sin ph, r * Real.cos th] = r := by
    show √(r * Real.sin th * Real.cos ph * (r * Real.sin th * Real.cos ph) + r * Real.sin th * Real.sin ph * (r * Real.sin th * Real.sin ph) +
      r * Real.cos th * (r * Real.cos th)) = r
    rw [show r * Real.sin th * Real.cos ph * (r * Real.sin th * Real.cos ph) + r * Real.sin th * Real.sin ph * (r * Real.sin th * Real.sin ph) +
      r * Real.cos th * (r * Real.cos th) = r ^ 2 by linear_combination r ^ 2 * Real.sin th ^ 2 * h2 + r ^ 2 * h1]
    exact Real.sqrt_sq hr
  have e2 : cyl .cartesian ![t, r * Real.sin th * Real.cos ph, r * Real.sin th * Real.sin ph, r * Real.cos th] = r * Real.sin th := by
    show √(r * Real.sin th * Real.cos ph * (r * Real.sin th * Real.cos ph) + r * Real.sin th * Real.sin ph * (r * Real.sin th * Real.sin ph)) =
      r * Real.sin th
    rw [show r * Real.sin th * Real.cos ph * (r * Real.sin th * Real.cos ph) + r * Real.sin th * Real.sin ph * (r * Real.sin th * Real.sin ph) =
      (r * Real.sin th) ^ 2 by linear_combination r ^ 2 * Real.sin th ^ 2 * h2]
    exact Real.sqrt_sq (mul_nonneg hr hsin)
  have e3 : height .cartesian ![t, r * Real.sin th * Real.cos ph, r * Real.sin th * Real.sin ph, r * Real.cos th] = r * Real.cos th := rfl
  unfold Disk.density Disk.temperature
  rw [e1, e2, e3]
  exact ⟨rfl, rfl⟩

/-- C128. On the axis there is no gas. -/
theorem axis_empty {s : Disk} {r t ph : ℝ} (hin : 0 < s.rin) (hr : 0 < r) : s.density .spherical ![t, r, 0, ph] = some 0 := by
  have hq : 0 < s.rin / r := by positivity
  unfold Disk.density Disk.profile
  have hrad : radius .spherical ![t, r, 0, ph] = r := rfl
  have hcyl : cyl .spherical ![t, r, 0, ph] = 0 := by show r * Real.sin 0 = 0; simp
  have hz : height .spherical ![t, r, 0, ph] = r := by show r * Real.cos 0 = r; simp
  rw [hrad, hcyl, hz, if_neg (by rintro (h | h) <;> linarith), if_pos (by ring), if_neg hr.ne']
  simp

/-- C128. A density is given back as it was given, per cubic metre. -/
theorem density_kept (s : Disk) (x : ℝ) : (s.call (.numberDensity x)).1.numberDensity = x := by
  unfold Disk.numberDensity Disk.call
  norm_num
  ring

/-- C128 (negation). The pressure of the magnetic field over the energy at rest of the protons is half the parameter, and not the parameter as
`include/GyotoThickDisk.h:75` says. -/
theorem magnetization_wrong {s : Disk} {n : ℝ} (hd : 0 < n) (hs : 0 < s.sigma) :
    √(s.field2 n) ^ 2 / (8 * Real.pi) / (n * protonMassCGS * cCGS ^ 2) = s.sigma / 2 := by
  have hp := Real.pi_pos
  have h0 : 0 ≤ s.field2 n := by unfold Disk.field2 protonMassCGS cCGS; positivity
  have h1 : protonMassCGS ≠ 0 := by norm_num [protonMassCGS]
  have h2 : cCGS ≠ 0 := by norm_num [cCGS]
  rw [Real.sq_sqrt h0]
  unfold Disk.field2
  field_simp
  norm_num

/-! ## The light -/

/-- What can be made of a new object by its setters and by earlier calls, at any place. -/
inductive Reach : Disk → Prop
  | new : Reach .new
  | call {s : Disk} (h : Reach s) (c : Call) : Reach (s.call c).1
  | ask {s s' : Disk} {b : Bessel} {L ds : ℝ} {k : Kind} {p : Vec} {nus : List ℝ} {out : List (ℝ × ℝ)} (h : Reach s)
      (e : s.radiativeQ b L ds k p nus = .ok (s', out)) : Reach s'

theorem call_synch (s : Disk) (c : Call) : (s.call c).1.synch = s.synch := by
  unfold Disk.call
  split <;> rfl

theorem Reach.inStep {s : Disk} (h : Reach s) : s.synch.InStep := by
  induction h with
  | new => exact black_body_in_step []
  | call _ c ih => rw [call_synch]; exact ih
  | @ask s s' b L ds k p nus out _ e ih =>
    unfold Disk.radiativeQ at e
    rcases hd : s.density k p with _ | n
    · rw [hd] at e; cases e
    · simp only [hd] at e
      by_cases hc : s.field2 n < 0
      · rw [if_pos hc] at e; cases e
      · rw [if_neg hc] at e
        obtain ⟨⟨t, ja⟩, e1, e⟩ := bind_inv e
        obtain ⟨o, -, e⟩ := bind_inv e
        simp only [Out.ok.injEq, Prod.mk.injEq] at e
        rw [← e.1]
        by_cases hn : n < s.n0 / 1e10
        · rw [if_pos hn] at e1
          simp only [Out.ok.injEq, Prod.mk.injEq] at e1
          rw [← e1.1]
          exact run_inStep ih _
        · rw [if_neg hn] at e1
          exact radiativeQ_inStep (run_inStep ih _) e1

/-- The settings of the object, without what earlier calls left in its spectrum. -/
def Same (s t : Disk) : Prop := { s with synch := Thermal.new } = ({ t with synch := Thermal.new } : Disk)

/-- C128. What is returned depends on the settings only, and not on what was asked before. -/
theorem history {s t : Disk} (hs : Reach s) (ht : Reach t) (h : Same s t) (b : Bessel) (L ds : ℝ) (k : Kind) (p : Vec) (nus : List ℝ) :
    s.radiativeQ b L ds k p nus = t.radiativeQ b L ds k p nus := by
  obtain ⟨x, a1, a2, a3, a4, a5, a6, a7, a8, a9, a10⟩ := s
  obtain ⟨y, b1, b2, b3, b4, b5, b6, b7, b8, b9, b10⟩ := t
  simp only [Same, Disk.mk.injEq, true_and] at h
  obtain ⟨rfl, rfl, rfl, rfl, rfl, rfl, rfl, rfl, rfl, rfl⟩ := h
  have hx : x.InStep := hs.inStep
  have hy : y.InStep := ht.inStep
  have key : ∀ l : List ThermalCall, ∀ T n k c kk, l = [.temperature T, .numberdensityCGS n, .averaged true, .angle k, .cyclotronFreq c, .besselK2 kk] →
      x.run l = y.run l := by
    rintro l T n k c kk rfl
    unfold Thermal.InStep at hx hy
    simp [Thermal.run, Thermal.call, hx, hy, Gyoto.SpectrumKinds.BlackBody.call]
  unfold Disk.radiativeQ
  have hd : Disk.density ⟨x, a1, a2, a3, a4, a5, a6, a7, a8, a9, a10⟩ k p = Disk.density ⟨y, a1, a2, a3, a4, a5, a6, a7, a8, a9, a10⟩ k p := rfl
  rw [hd]
  rcases Disk.density ⟨y, a1, a2, a3, a4, a5, a6, a7, a8, a9, a10⟩ k p with _ | n
  · rfl
  · have e := key (Disk.settings ⟨x, a1, a2, a3, a4, a5, a6, a7, a8, a9, a10⟩ b
      (Disk.temperature ⟨x, a1, a2, a3, a4, a5, a6, a7, a8, a9, a10⟩ k p) n) _ _ _ _ _ rfl
    have e' : x.run (Disk.settings ⟨x, a1, a2, a3, a4, a5, a6, a7, a8, a9, a10⟩ b
      (Disk.temperature ⟨x, a1, a2, a3, a4, a5, a6, a7, a8, a9, a10⟩ k p) n) = y.run (Disk.settings ⟨y, a1, a2, a3, a4, a5, a6, a7, a8, a9, a10⟩ b
      (Disk.temperature ⟨y, a1, a2, a3, a4, a5, a6, a7, a8, a9, a10⟩ k p) n) := e
    simp only [e']
    rfl

/-- Where the gas is hot and magnetised, and not too thin. -/
structure Hot (s : Disk) (k : Kind) (p : Vec) (n : ℝ) : Prop where
  here : s.density k p = some n
  n0 : 0 < s.n0
  dense : s.n0 / 1e10 ≤ n
  sigma : 0 < s.sigma
  hot : 0.01 ≤ s.temperature k p * boltzmannCGS / (electronMassCGS * c2CGS)

theorem Hot.pos {s : Disk} {k : Kind} {p : Vec} {n : ℝ} (h : Hot s k p n) : 0 < n ∧ 0 < s.field2 n ∧ 0 < s.temperature k p := by
  have hn : 0 < n := by
    have := h.n0
    have := h.dense
    have : 0 < s.n0 / 1e10 := by positivity
    linarith
  refine ⟨hn, ?_, ?_⟩
  · have := h.sigma; have := Real.pi_pos
    unfold Disk.field2 protonMassCGS cCGS
    positivity
  · have h := h.hot
    by_contra hc
    have : s.temperature k p * boltzmannCGS / (electronMassCGS * c2CGS) ≤ 0 :=
      div_nonpos_of_nonpos_of_nonneg (mul_nonpos_of_nonpos_of_nonneg (not_lt.1 hc) (by norm_num [boltzmannCGS]))
        (by norm_num [electronMassCGS, c2CGS])
    linarith

/-- The coefficients of a thermal spectrum averaged over the angles, in terms of the light of a black body. -/
theorem thermal_coefs {u : Thermal} (hr : u.Ready) (ha : u.averaged = true) (hn0 : 0 < u.n) (b : Bessel) {nus : List ℝ} (hn : ∀ nu ∈ nus, 0 < nu) :
    ∃ t : Thermal, ∃ a : ℝ → ℝ, u.radiativeQ nus =
      .ok (t, nus.map fun nu => (a nu * planck (2 * planckOverC2) planckOverBoltzmann u.T nu, a nu)) ∧ ∀ nu ∈ nus, 0 < a nu := by
  obtain ⟨t, -, e⟩ := each_eq (f := Thermal.pass) (P := fun t => ∃ θ, t = u.at θ) (g := fun nu => (u.outs b nu 0, u.outs b nu 4)) (A := fun nu => 0 < nu)
    (by
      rintro _ ⟨θ, rfl⟩ nu hnu
      have h' : (u.at θ).Ready := ⟨hr.step, hr.hot, hr.nu0, fun e => absurd (ha.symm.trans e) (by simp)⟩
      refine ⟨u.at (Real.pi - 0.01), ⟨_, rfl⟩, ?_⟩
      rw [h'.pass b hnu]
      simp [Thermal.at, ha, Thermal.outs]) u ⟨u.angle, rfl⟩ nus hn
  refine ⟨t, fun nu => u.outs b nu 4, ?_, fun nu hnu => SphAcc.outs_pos hr ha hn0 (hn nu hnu) b⟩
  unfold Thermal.radiativeQ
  rw [if_neg (not_lt.2 hr.hot), e]
  congr 2
  refine List.map_congr_left fun nu hnu => ?_
  congr 1
  exact (SphAcc.outs_kirchhoff hr (hn nu hnu) b).symm

theorem Hot.coefs {s : Disk} {k : Kind} {p : Vec} {n : ℝ} (h : Hot s k p n) (hs : Reach s) (b : Bessel) {nus : List ℝ} (hn : ∀ nu ∈ nus, 0 < nu) :
    ∃ t : Thermal, ∃ a : ℝ → ℝ, (s.synch.run (s.settings b (s.temperature k p) n)).radiativeQ nus =
      .ok (t, nus.map fun nu => (a nu * planck (2 * planckOverC2) planckOverBoltzmann (s.temperature k p) nu, a nu)) ∧ ∀ nu ∈ nus, 0 < a nu := by
  have hB : 0 < √(s.field2 n) := Real.sqrt_pos.2 h.pos.2.1
  have := Real.pi_pos
  refine thermal_coefs (u := s.synch.run (s.settings b (s.temperature k p) n)) ⟨run_inStep hs.inStep _, h.hot, ?_, fun e => ?_⟩ rfl h.pos.1 b hn
  · show 0 < chargeCGS * √(s.field2 n) / (2 * Real.pi * electronMassCGS * cCGS)
    unfold chargeCGS electronMassCGS cCGS
    positivity
  · exact absurd (show true = false from e) (by simp)

/-- C128. With self-absorption, the gas sends out that fraction of the light of a black body of its temperature that does not pass it: never more
than a black body, and always some. -/
theorem self_absorbed {s : Disk} {k : Kind} {p : Vec} {n : ℝ} (h : Hot s k p n) (hs : Reach s) (hself : s.selfAbs = true) (b : Bessel) {L ds : ℝ}
    (hL : 0 < L) (hds : 0 < ds) {nus : List ℝ} (hn : ∀ nu ∈ nus, 0 < nu)
    (hB : ∀ nu ∈ nus, planck (2 * planckOverC2) planckOverBoltzmann (s.temperature k p) nu < 2 ^ 53) :
    ∃ s', ∃ T : ℝ → ℝ, s.radiativeQ b L ds k p nus = .ok (s', nus.map fun nu =>
      (planck (2 * planckOverC2) planckOverBoltzmann (s.temperature k p) nu * (1 - T nu), T nu)) ∧ ∀ nu ∈ nus, 0 < T nu ∧ T nu < 1 := by
  obtain ⟨t, a, e, apos⟩ := h.coefs hs b hn
  have hp : 0 < ds * L := by positivity
  obtain ⟨npos, fpos, Tpos⟩ := h.pos
  refine ⟨{ s with synch := t }, fun nu => Real.exp (-a nu * (ds * L)), ?_, fun nu hnu => ⟨Real.exp_pos _, ?_⟩⟩
  · unfold Disk.radiativeQ
    simp only [h.here]
    rw [if_neg (not_lt.2 fpos.le), if_neg (not_lt.2 h.dense), e, bind_ok]
    simp only [List.map_map, Function.comp_def, hself, if_true]
    rw [slabs_map (h := fun nu => (planck (2 * planckOverC2) planckOverBoltzmann (s.temperature k p) nu * (1 - Real.exp (-a nu * (ds * L))),
      Real.exp (-a nu * (ds * L)))), bind_ok]
    intro nu hnu
    have B0 : 0 < planck (2 * planckOverC2) planckOverBoltzmann (s.temperature k p) nu := planck_pos Tpos (hn nu hnu)
    exact slab_source_eq (apos nu hnu) B0.le hp.le (hB nu hnu)
  · rw [Real.exp_lt_one_iff]
    nlinarith [apos nu hnu]

/-- C128. Without self-absorption all light passes, and the gas adds what it emits along the path. -/
theorem not_absorbed {s : Disk} {k : Kind} {p : Vec} {n : ℝ} (h : Hot s k p n) (hs : Reach s) (hself : s.selfAbs = false) (b : Bessel) {nus : List ℝ}
    (hn : ∀ nu ∈ nus, 0 < nu) :
    ∃ s', ∃ j : ℝ → ℝ, (∀ nu ∈ nus, 0 < j nu) ∧ ∀ L ds, 0 ≤ L → 0 ≤ ds → (∀ nu ∈ nus, j nu * (ds * L) < 2 ^ 53) →
      s.radiativeQ b L ds k p nus = .ok (s', nus.map fun nu => (j nu * (ds * L), 1)) := by
  obtain ⟨t, a, e, apos⟩ := h.coefs hs b hn
  obtain ⟨npos, fpos, Tpos⟩ := h.pos
  refine ⟨{ s with synch := t }, fun nu => a nu * planck (2 * planckOverC2) planckOverBoltzmann (s.temperature k p) nu,
    fun nu hnu => mul_pos (apos nu hnu) (planck_pos Tpos (hn nu hnu)), fun L ds hL hds hb => ?_⟩
  have hp : 0 ≤ ds * L := by positivity
  unfold Disk.radiativeQ
  simp only [h.here]
  rw [if_neg (not_lt.2 fpos.le), if_neg (not_lt.2 h.dense), e, bind_ok]
  simp only [List.map_map, Function.comp_def, hself]
  rw [slabs_map (h := fun nu => (a nu * planck (2 * planckOverC2) planckOverBoltzmann (s.temperature k p) nu * (ds * L), 1)), bind_ok]
  intro nu hnu
  have j0 := (mul_pos (apos nu hnu) (planck_pos Tpos (hn nu hnu))).le
  simp only [Bool.false_eq_true, if_false]
  rw [slab_ok j0 hp]
  · simp [inten]
  · simpa [inten] using hb nu hnu
  · norm_num

/-- C128. Gas ten billion times thinner than at the inner radius is dark and transparent, polarised or not: in particular that on the axis. -/
theorem thin_dark {s : Disk} {k : Kind} {p : Vec} {n : ℝ} (hd : s.density k p = some n) (h0 : 0 ≤ n) (hsig : 0 ≤ s.sigma) (hn : n < s.n0 / 1e10)
    (b : Bessel) (L ds chi theta : ℝ) (nus : List ℝ) :
    (∃ s', s.radiativeQ b L ds k p nus = .ok (s', nus.map fun _ => (0, 1))) ∧
    ∃ s', s.radiativeQP b chi theta L k p nus = .ok (s', nus.map fun _ => (0, 1)) := by
  have hpi := Real.pi_pos
  have hf : ∀ m, 0 ≤ m → ¬ s.field2 m < 0 := by
    intro m hm
    rw [not_lt]
    unfold Disk.field2 protonMassCGS cCGS
    positivity
  constructor
  · refine ⟨{ s with synch := s.synch.run (s.settings b (s.temperature k p) n) }, ?_⟩
    unfold Disk.radiativeQ
    simp only [hd]
    rw [if_neg (hf n h0), if_pos hn, bind_ok]
    simp only [List.map_map, Function.comp_def]
    rw [slabs_map (h := fun _ => (0, 1)), bind_ok]
    intro nu _
    simp [SphAcc.slab]
    norm_num
  · obtain ⟨m, hm⟩ : ∃ m, m = if radius k p < s.rin then 0 else n := ⟨_, rfl⟩
    have hm0 : 0 ≤ m ∧ m < s.n0 / 1e10 := by
      rw [hm]
      split_ifs
      · exact ⟨le_rfl, by linarith⟩
      · exact ⟨h0, hn⟩
    have hdP : s.densityP k p = some m := by unfold Disk.densityP; rw [hd, hm]; rfl
    refine ⟨{ s with synch := s.synch.run (s.settingsP b (s.temperature k p) m theta) }, ?_⟩
    unfold Disk.radiativeQP
    simp only [hdP]
    rw [if_neg (hf m hm0.1), if_pos hm0.2, bind_ok]
    simp only
    have := HotSpot.empty_steps chi L nus
    have e : (nus.map fun _ => (0 : Fin 11 → ℝ)) = nus.map fun _ _ => 0 := rfl
    rw [e] at this
    rw [this, bind_ok]

/-- C128. The light of the polarised computation is that of plasma with the temperature, the density and the magnetic field of the gas (C108, C116). -/
theorem polarised_plasma {s : Disk} {k : Kind} {p : Vec} {n : ℝ} (h : Hot s k p n) (hs : Reach s) (hin : s.rin ≤ radius k p) (b : Bessel)
    {chi theta L : ℝ} (h0 : 0 < theta) (hpi : theta < Real.pi) {nus : List ℝ} (hn : ∀ nu ∈ nus, 0 < nu)
    (hb : b.k2 (1 / (s.temperature k p * boltzmannCGS / (electronMassCGS * c2CGS))) ≠ 0) :
    ∃ u : Thermal, u.Ready ∧ u.T = s.temperature k p ∧ u.n = n ∧ u.angle = theta ∧ u.averaged = false ∧
      u.nu0 = chargeCGS * √(4 * Real.pi * s.sigma * protonMassCGS * cCGS * cCGS * n) / (2 * Real.pi * electronMassCGS * cCGS) ∧
      s.radiativeQP b chi theta L k p nus = bind (HotSpot.steps chi L (nus.map (u.outs b))) fun out => .ok ({ s with synch := u }, out) := by
  obtain ⟨npos, fpos, Tpos⟩ := h.pos
  have hp := Real.pi_pos
  have hB : 0 < √(s.field2 n) := Real.sqrt_pos.2 fpos
  have hr : (s.synch.run (s.settingsP b (s.temperature k p) n theta)).Ready := by
    refine ⟨run_inStep hs.inStep _, h.hot, ?_, fun _ => ⟨h0, hpi⟩⟩
    show 0 < chargeCGS * √(s.field2 n) / (2 * Real.pi * electronMassCGS * cCGS)
    unfold chargeCGS electronMassCGS cCGS
    positivity
  refine ⟨s.synch.run (s.settingsP b (s.temperature k p) n theta), hr, rfl, rfl, rfl, rfl, rfl, ?_⟩
  obtain ⟨t, ht, e⟩ := polarised_results hr (by exact hb) hn
  have ht' : t = s.synch.run (s.settingsP b (s.temperature k p) n theta) := by
    rcases ht with h | ⟨h, -⟩
    · exact h
    · exact absurd (show false = true from h) (by simp)
  have hdP : s.densityP k p = some n := by
    unfold Disk.densityP
    rw [h.here, Option.map_some, if_neg (not_lt.2 hin)]
  unfold Disk.radiativeQP
  simp only [hdP]
  rw [if_neg (not_lt.2 fpos.le), if_neg (not_lt.2 h.dense), e, bind_ok, ht']

/-- C128 (negation). Below the inner radius the same gas is dark for polarised light and shines for unpolarised light. -/
theorem inner_wrong {s : Disk} {k : Kind} {p : Vec} {n : ℝ} (h : Hot s k p n) (hs : Reach s) (hself : s.selfAbs = true) (hin : radius k p < s.rin)
    (b : Bessel) {L ds : ℝ} (hL : 0 < L) (hds : 0 < ds) (chi theta : ℝ) {nu : ℝ} (hn : 0 < nu)
    (hB : planck (2 * planckOverC2) planckOverBoltzmann (s.temperature k p) nu < 2 ^ 53) :
    (∃ s' I T, s.radiativeQ b L ds k p [nu] = .ok (s', [(I, T)]) ∧ 0 < I ∧ T < 1) ∧
    ∃ s', s.radiativeQP b chi theta (ds * L) k p [nu] = .ok (s', [(0, 1)]) := by
  constructor
  · obtain ⟨s', T, e, hT⟩ := self_absorbed h hs hself b hL hds (nus := [nu]) (by simpa using hn) (by simpa using hB)
    obtain ⟨t0, t1⟩ := hT nu (by simp)
    exact ⟨s', _, _, e, mul_pos (planck_pos h.pos.2.2 hn) (by linarith), t1⟩
  · have hdP : s.densityP k p = some 0 := by
      unfold Disk.densityP
      rw [h.here, Option.map_some, if_pos hin]
    have hn0 := h.n0
    refine ⟨{ s with synch := s.synch.run (s.settingsP b (s.temperature k p) 0 theta) }, ?_⟩
    unfold Disk.radiativeQP
    simp only [hdP]
    rw [if_neg (by unfold Disk.field2; simp), if_pos (by positivity), bind_ok]
    simp only
    have := HotSpot.empty_steps chi (ds * L) [nu]
    have e : ([nu].map fun _ => (0 : Fin 11 → ℝ)) = [nu].map fun _ _ => 0 := rfl
    rw [e] at this
    rw [this, bind_ok]
    rfl

/-- C128 (negation). For polarised light the choice of not using self-absorption changes nothing. -/
theorem polarised_absorption_wrong (s : Disk) (b : Bessel) (chi theta L : ℝ) (k : Kind) (p : Vec) (nus : List ℝ) {s' : Disk} {out}
    (e : s.radiativeQP b chi theta L k p nus = .ok (s', out)) (x : Bool) :
    (s.call (.useSelfAbsorption x)).1.radiativeQP b chi theta L k p nus = .ok ((s'.call (.useSelfAbsorption x)).1, out) := by
  have hd : (s.call (.useSelfAbsorption x)).1.densityP k p = s.densityP k p := rfl
  unfold Disk.radiativeQP at e ⊢
  rw [hd]
  rcases hn : s.densityP k p with _ | n
  · rw [hn] at e; cases e
  · simp only [hn] at e ⊢
    have hf : (s.call (.useSelfAbsorption x)).1.field2 n = s.field2 n := rfl
    rw [hf]
    by_cases hc : s.field2 n < 0
    · rw [if_pos hc] at e; cases e
    · rw [if_neg hc] at e ⊢
      obtain ⟨⟨t, vs⟩, e1, e⟩ := bind_inv e
      obtain ⟨o, e2, e⟩ := bind_inv e
      simp only [Out.ok.injEq, Prod.mk.injEq] at e
      have e1' : (if n < (s.call (.useSelfAbsorption x)).1.n0 / 1e10 then .ok ((s.call (.useSelfAbsorption x)).1.synch.run
          ((s.call (.useSelfAbsorption x)).1.settingsP b ((s.call (.useSelfAbsorption x)).1.temperature k p) n theta), nus.map fun _ _ => 0)
        else ((s.call (.useSelfAbsorption x)).1.synch.run ((s.call (.useSelfAbsorption x)).1.settingsP b
          ((s.call (.useSelfAbsorption x)).1.temperature k p) n theta)).radiativeQP b nus) = .ok (t, vs) := e1
      rw [e1', bind_ok]
      simp only
      rw [e2, bind_ok, ← e.1, ← e.2]
      rfl

/-! ## Examples -/

theorem new_gas {r : ℝ} (hr : 0 < r) : Disk.new.density .spherical ![0, r, Real.pi / 2, 0] = some ((2 / r) ^ 2) ∧
    Disk.new.temperature .spherical ![0, r, Real.pi / 2, 0] = 1e10 * (2 / r) := by
  obtain ⟨-, h1, h2⟩ := gas (s := .new) (p := ![0, r, Real.pi / 2, 0]) (by norm_num [Disk.new]) (by norm_num [Disk.new]) hr
    (by show Real.sin (Real.pi / 2) ≠ 0; simp)
  have hr' : r / 2 ≠ 0 := by positivity
  rw [h1, h2]
  show some (1 * (r / 2) ^ (-(2 : ℝ)) * Real.exp (-(Real.cos (Real.pi / 2) / Real.sin (Real.pi / 2)) ^ 2 / (2 * 1 ^ 2))) = _ ∧
    1e10 * (r / 2) ^ (-(1 : ℝ)) = _
  rw [Real.rpow_neg (by positivity), Real.rpow_neg (by positivity), Real.rpow_one]
  constructor
  · simp only [Real.cos_pi_div_two, Real.rpow_ofNat]
    rw [← inv_pow, inv_div]
    simp
  · rw [inv_div]

/-- A new object is hot in the equatorial plane, inside and outside of its inner radius. -/
theorem new_hot {r : ℝ} (hr : 0 < r) (h4 : r ≤ 4) : Hot .new .spherical ![0, r, Real.pi / 2, 0] ((2 / r) ^ 2) := by
  have h : (1 : ℝ) / 2 ≤ 2 / r := by rw [div_le_div_iff₀ (by norm_num) hr]; linarith
  refine ⟨(new_gas hr).1, by norm_num [Disk.new], ?_, by norm_num [Disk.new], ?_⟩
  · have : (Disk.new.n0) = 1 := rfl
    rw [this]
    norm_num
    nlinarith
  · rw [(new_gas hr).2, le_div_iff₀ (by norm_num [electronMassCGS, c2CGS])]
    norm_num [boltzmannCGS, electronMassCGS, c2CGS]
    linarith

theorem planck_small {nu T : ℝ} (h1 : 1e11 ≤ nu) (h2 : nu ≤ 1e12) (hT : 1e9 ≤ T) (hT' : T ≤ 1e11) :
    planck (2 * planckOverC2) planckOverBoltzmann T nu < 2 ^ 53 := by
  have e := Real.add_one_le_exp (planckOverBoltzmann * nu / T)
  have e1 : 1e-11 ≤ planckOverBoltzmann * nu / T := by
    unfold planckOverBoltzmann; rw [le_div_iff₀ (by linarith)]; norm_num at *; linarith
  unfold planck
  rw [div_lt_iff₀ (by linarith)]
  have : nu ^ 3 ≤ 1e12 ^ 3 := pow_le_pow_left₀ (by linarith) h2 3
  unfold planckOverC2
  norm_num at *
  linarith

/-- Example: the light of a new object at a radius of 4. -/
example (b : Bessel) : ∃ s', ∃ T : ℝ → ℝ, Disk.new.radiativeQ b 1e10 0.1 .spherical ![0, 4, Real.pi / 2, 0] [2.3e11] =
      .ok (s', ([2.3e11] : List ℝ).map fun nu =>
        (planck (2 * planckOverC2) planckOverBoltzmann (Disk.new.temperature .spherical ![0, 4, Real.pi / 2, 0]) nu * (1 - T nu), T nu)) ∧
      ∀ nu ∈ ([2.3e11] : List ℝ), 0 < T nu ∧ T nu < 1 := by
  refine self_absorbed (new_hot (by norm_num) le_rfl) .new rfl b (by norm_num) (by norm_num) ?_ ?_
  · intro nu h; simp at h; subst h; norm_num
  · intro nu h; simp at h; subst h
    rw [(new_gas (by norm_num)).2]
    exact planck_small (by norm_num) (by norm_num) (by norm_num) (by norm_num)

/-- Example: halfway to the inner radius. -/
example (b : Bessel) : (∃ s' I T, Disk.new.radiativeQ b 1e10 0.1 .spherical ![0, 1, Real.pi / 2, 0] [2.3e11] = .ok (s', [(I, T)]) ∧ 0 < I ∧ T < 1) ∧
    ∃ s', Disk.new.radiativeQP b 0.2 1 (0.1 * 1e10) .spherical ![0, 1, Real.pi / 2, 0] [2.3e11] = .ok (s', [(0, 1)]) := by
  refine inner_wrong (new_hot (by norm_num) (by norm_num)) .new rfl ?_ b (by norm_num) (by norm_num) _ _ (by norm_num) ?_
  · show (1 : ℝ) < 2
    norm_num
  · rw [(new_gas (by norm_num)).2]
    exact planck_small (by norm_num) (by norm_num) (by norm_num) (by norm_num)

/-- Example: the axis is dark. -/
example (b : Bessel) : ∃ s', Disk.new.radiativeQ b 1e10 0.1 .spherical ![0, 5, 0, 0] [2.3e11] = .ok (s', ([2.3e11] : List ℝ).map fun _ => (0, 1)) :=
  (thin_dark (axis_empty (by norm_num [Disk.new]) (by norm_num)) le_rfl (by norm_num [Disk.new]) (by norm_num [Disk.new]) b _ _ 0 0 _).1

/-- Example: without self-absorption; and a setting and a call before, undone by a setting, leave no trace. -/
example (b : Bessel) : ∃ s', ∃ j : ℝ → ℝ, (∀ nu ∈ ([2.3e11] : List ℝ), 0 < j nu) ∧ ∀ L ds, 0 ≤ L → 0 ≤ ds →
    (∀ nu ∈ ([2.3e11] : List ℝ), j nu * (ds * L) < 2 ^ 53) →
    (Disk.new.call (.useSelfAbsorption false)).1.radiativeQ b L ds .spherical ![0, 4, Real.pi / 2, 0] [2.3e11] =
      .ok (s', ([2.3e11] : List ℝ).map fun nu => (j nu * (ds * L), 1)) := by
  have h := new_hot (r := 4) (by norm_num) le_rfl
  have h' : Hot (Disk.new.call (.useSelfAbsorption false)).1 .spherical ![0, 4, Real.pi / 2, 0] ((2 / 4) ^ 2) :=
    ⟨h.here, h.n0, h.dense, h.sigma, h.hot⟩
  exact not_absorbed h' (.call .new _) rfl b (by intro nu h; simp at h; subst h; norm_num)

example (b : Bessel) (s' : Disk) (out : List (ℝ × ℝ)) (p : Vec)
    (e : (Disk.new.call (.innerRadius 3)).1.radiativeQ b 1e10 0.1 .spherical p [1e11] = .ok (s', out)) (h : Same (s'.call (.innerRadius 2)).1 .new) :
    (s'.call (.innerRadius 2)).1.radiativeQ b 1e10 0.1 .spherical p [2.3e11] = Disk.new.radiativeQ b 1e10 0.1 .spherical p [2.3e11] :=
  history (.call (.ask (.call .new _) e) _) .new h b _ _ _ _ _

/-- Example: the density falls with the square of the radius and with the height. -/
example : Disk.new.density .spherical ![0, 4, Real.pi / 4, 0] = some (1 * (4 / 2) ^ (-2 : ℝ) * Real.exp (-(1 / 2))) := by
  obtain ⟨-, h1, -⟩ := gas (s := .new) (p := ![0, 4, Real.pi / 4, 0]) (by norm_num [Disk.new]) (by norm_num [Disk.new]) (by norm_num)
    (by show Real.sin (Real.pi / 4) ≠ 0; simp)
  rw [h1]
  show some (1 * (4 / 2) ^ (-2 : ℝ) * Real.exp (-(Real.cos (Real.pi / 4) / Real.sin (Real.pi / 4)) ^ 2 / (2 * 1 ^ 2))) = _
  rw [Real.cos_pi_div_four, Real.sin_pi_div_four, div_self (by positivity)]
  norm_num

end Gyoto.Thick
