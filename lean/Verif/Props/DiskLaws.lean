import Verif.Model.DiskLaws
import Verif.Spec.Synch
import Verif.Spec.HitQuantities
import Verif.Lemmas.Synch
import Mathlib.MeasureTheory.Integral.Bochner.Set
import Mathlib.MeasureTheory.Measure.Lebesgue.Basic
import Mathlib.Tactic.FieldSimp
import Mathlib.Tactic.Positivity

/-! Property C136: the light of the thin disks with a law of their own. -/

namespace Gyoto.DiskLaws

open Gyoto.ThinDisk Gyoto.Synch
open Gyoto.SpectrumKinds (BlackBody BBCall)
open Gyoto.Transfer (Out)
open Gyoto.Plasma (planck)
open Gyoto.HitQ (observed)

/-! ## Specification -/

/-- What can be done to a disk with a power law of the temperature. -/
inductive PLCall where
  | slope (x : ℝ)
  | Tinner (x : ℝ)
  | rin (x : ℝ)
  | emission (kind : Kind) (p : ℕ → ℝ) (nu : ℝ)

/-- One of these things; an evaluation without a value is where the history ends. -/
noncomputable def PLDisk.act (s : PLDisk) : PLCall → Option PLDisk
  | .slope x => some { s with slope := x }
  | .Tinner x => some { s with Tinner := x }
  | .rin x => some { s with rin := x }
  | .emission kind p nu => match s.emission kind p nu with
    | .ok r => some r.1
    | _ => none

/-- The last value given, or the first one. -/
def lastSet (f : PLCall → Option ℝ) (x : ℝ) : List PLCall → ℝ
  | [] => x
  | c :: l => lastSet f ((f c).getD x) l

def PLCall.slope? : PLCall → Option ℝ | .slope x => some x | _ => none
def PLCall.Tinner? : PLCall → Option ℝ | .Tinner x => some x | _ => none
def PLCall.rin? : PLCall → Option ℝ | .rin x => some x | _ => none

/-! ## The disk with a power law of the temperature -/

theorem pl_keeps {l : List PLCall} : ∀ {s s' : PLDisk}, l.foldlM PLDisk.act s = some s' → s.bb.cst = 2 * planckOverC2 → s.bb.colorcor = 1 →
    s.bb.colorcorm4 = 1 →
    s'.slope = lastSet PLCall.slope? s.slope l ∧ s'.Tinner = lastSet PLCall.Tinner? s.Tinner l ∧ s'.rin = lastSet PLCall.rin? s.rin l ∧
      s'.bb.cst = 2 * planckOverC2 ∧ s'.bb.colorcor = 1 ∧ s'.bb.colorcorm4 = 1 := by
  induction l with
  | nil =>
    intro s s' h h1 h2 h3
    simp only [List.foldlM_nil] at h
    obtain rfl : s = s' := by simpa using h
    exact ⟨rfl, rfl, rfl, h1, h2, h3⟩
  | cons c l ih =>
    intro s s' h h1 h2 h3
    rw [List.foldlM_cons] at h
    rcases ha : s.act c with _ | s1
    · rw [ha] at h
      simp at h
    rw [ha] at h
    replace h : l.foldlM PLDisk.act s1 = some s' := h
    cases c with
    | slope x =>
      obtain rfl : _ = s1 := by simpa [PLDisk.act] using ha
      exact ih (s := { s with slope := x }) h h1 h2 h3
    | Tinner x =>
      obtain rfl : _ = s1 := by simpa [PLDisk.act] using ha
      exact ih (s := { s with Tinner := x }) h h1 h2 h3
    | rin x =>
      obtain rfl : _ = s1 := by simpa [PLDisk.act] using ha
      exact ih (s := { s with rin := x }) h h1 h2 h3
    | emission kind p nu =>
      simp only [PLDisk.act, PLDisk.emission] at ha
      rcases hT : s.temperature (projectedRadius kind p) with _ | T
      · rw [hT] at ha
        simp at ha
      rw [hT] at ha
      dsimp only at ha
      rcases he : (s.bb.call (.temperature T)).eval planckOverBoltzmann nu with _ | x
      · rw [he] at ha
        simp at ha
      rw [he] at ha
      obtain rfl : _ = s1 := by simpa using ha
      exact ih (s := { s with bb := s.bb.call (.temperature T) }) h (by simpa [BlackBody.call] using h1) (by simpa [BlackBody.call] using h2)
        (by simpa [BlackBody.call] using h3)

theorem bb_at {b : BlackBody} (h1 : b.cst = 2 * planckOverC2) (h2 : b.colorcor = 1) (h3 : b.colorcorm4 = 1) {T nu : ℝ} (hT : 0 < T) (hn : 0 < nu) :
    (b.call (.temperature T)).eval planckOverBoltzmann nu = some (planck (2 * planckOverC2) planckOverBoltzmann T nu) := by
  refine (bb_eval (b := b.call (.temperature T)) ?_ hT hn).1
  cases b
  simp only at h1 h2 h3
  subst h1 h2 h3
  rfl

/-- Whatever was set and evaluated before, in whatever order and at whatever places: with the last inner radius, the last inner temperature (both positive) and
the last slope, the disk sends at each radius the light of a black body at the temperature `Tinner (r / rin)^slope`; this is the inner temperature at the inner
radius. An evaluation that succeeds changes none of the three. -/
theorem pl_light {l : List PLCall} {s : PLDisk} (h : l.foldlM PLDisk.act PLDisk.new = some s) {kind : Kind} {p : ℕ → ℝ} {nu a T0 r0 : ℝ}
    (ha : a = lastSet PLCall.slope? 0 l) (hT : T0 = lastSet PLCall.Tinner? 1 l) (hr : r0 = lastSet PLCall.rin? 0 l) (hT0 : 0 < T0) (hr0 : 0 < r0)
    (hn : 0 < nu) (hp : 0 < projectedRadius kind p) :
    ∃ s', s.emission kind p nu = .ok (s', planck (2 * planckOverC2) planckOverBoltzmann (T0 * (projectedRadius kind p / r0) ^ a) nu) ∧
      s'.slope = a ∧ s'.Tinner = T0 ∧ s'.rin = r0 ∧ (projectedRadius kind p = r0 → T0 * (projectedRadius kind p / r0) ^ a = T0) := by
  obtain ⟨e1, e2, e3, e4, e5, e6⟩ := pl_keeps h rfl rfl rfl
  have e1 : s.slope = a := e1.trans ha.symm
  have e2 : s.Tinner = T0 := e2.trans hT.symm
  have e3 : s.rin = r0 := e3.trans hr.symm
  have ht : s.temperature (projectedRadius kind p) = some (T0 * (projectedRadius kind p / r0) ^ a) := by
    unfold PLDisk.temperature
    rw [e1, e2, e3]
    by_cases h0 : a = 0
    · rw [if_pos h0, h0, Real.rpow_zero, mul_one]
    · rw [if_neg h0, if_neg (by push Not; exact ⟨hr0, hp⟩)]
  have hpos : 0 < T0 * (projectedRadius kind p / r0) ^ a := mul_pos hT0 (Real.rpow_pos_of_pos (div_pos hp hr0) _)
  refine ⟨{ s with bb := s.bb.call (.temperature (T0 * (projectedRadius kind p / r0) ^ a)) }, ?_, e1, e2, e3, ?_⟩
  · simp only [PLDisk.emission, ht]
    rw [bb_at e4 e5 e6 hpos hn]
  · intro hq
    rw [hq, div_self hr0.ne', Real.one_rpow, mul_one]

/-- The light at a radius is the light of the inner edge with the frequencies multiplied by `q = (r / rin)^slope`, and `q³` times as intense: all radii send the
same spectrum up to these factors. -/
theorem pl_scaling {l : List PLCall} {s : PLDisk} (h : l.foldlM PLDisk.act PLDisk.new = some s) {kind : Kind} {p p0 : ℕ → ℝ} {nu a T0 r0 : ℝ}
    (ha : a = lastSet PLCall.slope? 0 l) (hT : T0 = lastSet PLCall.Tinner? 1 l) (hr : r0 = lastSet PLCall.rin? 0 l) (hT0 : 0 < T0) (hr0 : 0 < r0)
    (hn : 0 < nu) (hp : 0 < projectedRadius kind p) (hp0 : projectedRadius kind p0 = r0) :
    ∃ s1 s2 x, s.emission kind p0 nu = .ok (s1, x) ∧ 0 < x ∧
      s.emission kind p (nu * (projectedRadius kind p / r0) ^ a) = .ok (s2, ((projectedRadius kind p / r0) ^ a) ^ 3 * x) := by
  have hq : 0 < (projectedRadius kind p / r0) ^ a := Real.rpow_pos_of_pos (div_pos hp hr0) _
  obtain ⟨s1, h1, -, -, -, h1'⟩ := pl_light h (kind := kind) (p := p0) ha hT hr hT0 hr0 hn (by rw [hp0]; exact hr0)
  obtain ⟨s2, h2, -⟩ := pl_light h (kind := kind) (p := p) ha hT hr hT0 hr0 (mul_pos hn hq) hp
  rw [h1' hp0] at h1
  refine ⟨s1, s2, _, h1, ?_, ?_⟩
  · exact (bb_eval (b := ⟨T0, 2 * planckOverC2, 1 / T0, 1, 1⟩) rfl hT0 hn).2
  · rw [h2]
    congr 2
    generalize (projectedRadius kind p / r0) ^ a = q at hq
    unfold planck
    have : planckOverBoltzmann * (nu * q) / (T0 * q) = planckOverBoltzmann * nu / T0 := by
      have hT0' := hT0.ne'
      have hq' := hq.ne'
      field_simp
    rw [this]
    ring

/-- As the object is built, no radius has been given and a slope other than 0 gives no temperature: the inner radius is 0 and the temperature is the power of
an infinite ratio. -/
theorem pl_default_wrong {x : ℝ} (hx : x ≠ 0) (kind : Kind) (p : ℕ → ℝ) (nu : ℝ) :
    ∃ s, [PLCall.slope x].foldlM PLDisk.act PLDisk.new = some s ∧ s.emission kind p nu = .ub := by
  refine ⟨{ PLDisk.new with slope := x }, rfl, ?_⟩
  have : ({ PLDisk.new with slope := x } : PLDisk).temperature (projectedRadius kind p) = none := by
    have h0 : (PLDisk.new.rin ≤ 0 ∨ projectedRadius kind p ≤ 0) := Or.inl (le_refl 0)
    unfold PLDisk.temperature
    rw [if_neg hx]
    exact if_pos h0
  simp only [PLDisk.emission, this]

/-- With a slope of -1/2 and an inner radius of 6, after an evaluation: half of the inner temperature at 24. -/
example : ∃ s, [PLCall.slope (-(1 / 2)), .rin 6, .Tinner 1e7, .emission .spherical (fun _ => 6) 1e17].foldlM PLDisk.act PLDisk.new = some s ∧
    ∃ s', s.emission .spherical (fun _ => 24) 1e17 = .ok (s', planck (2 * planckOverC2) planckOverBoltzmann (1e7 * (1 / 2)) 1e17) := by
  obtain ⟨s1, h1, -⟩ := pl_light (l := [PLCall.slope (-(1 / 2)), .rin 6, .Tinner 1e7]) rfl (kind := .spherical) (p := fun _ => 6) (nu := 1e17)
    rfl rfl rfl (by norm_num [lastSet, PLCall.Tinner?]) (by norm_num [lastSet, PLCall.rin?]) (by norm_num) (by norm_num [projectedRadius])
  have hf : [PLCall.slope (-(1 / 2)), .rin 6, .Tinner 1e7, .emission .spherical (fun _ => 6) 1e17].foldlM PLDisk.act PLDisk.new = some s1 := by
    have : (({ ({ ({ PLDisk.new with slope := -(1 / 2) } : PLDisk) with rin := 6 } : PLDisk) with Tinner := 1e7 } : PLDisk).act
      (.emission .spherical (fun _ => 6) 1e17)) = some s1 := by
      simp only [PLDisk.act]
      rw [h1]
    simp only [List.foldlM_cons, List.foldlM_nil]
    show (PLDisk.act _ _ >>= fun s => pure s) = some s1
    rw [show _ = some s1 from this]
    rfl
  obtain ⟨s', h', -⟩ := pl_light hf (kind := .spherical) (p := fun _ => 24) (nu := 1e17) rfl rfl rfl (by norm_num [lastSet, PLCall.Tinner?])
    (by norm_num [lastSet, PLCall.rin?]) (by norm_num) (by norm_num [projectedRadius])
  refine ⟨s1, hf, s', ?_⟩
  rw [h']
  congr 3
  simp only [lastSet, PLCall.Tinner?, PLCall.rin?, PLCall.slope?, Option.getD, projectedRadius]
  congr 1
  rw [show (24 : ℝ) / 6 = 2 ^ (2 : ℝ) by norm_num, ← Real.rpow_mul (by norm_num)]
  norm_num [Real.rpow_neg_one]

/-! ## The grid of temperatures -/

/-- A grid read as temperatures sends the black body of the local temperature where there is one, and nothing where the grid has none; read as intensities, it sends
them as they are. With radiative transfer nothing is ever returned. -/
theorem bb_grid {s : BBDisk} (h1 : s.bb.cst = 2 * planckOverC2) (h2 : s.bb.colorcor = 1) (h3 : s.bb.colorcorm4 = 1) {base nu : ℝ} (hb : 0 ≤ base)
    (hn : 0 < nu) :
    (s.radtransf = true → s.emission base nu = .throws) ∧
    (s.radtransf = false → s.spectral = false → s.emission base nu = .ok (s, base)) ∧
    (s.radtransf = false → s.spectral = true → ∃ s', s'.bb.cst = 2 * planckOverC2 ∧ s'.bb.colorcor = 1 ∧ s'.bb.colorcorm4 = 1 ∧
      s'.spectral = true ∧ s'.radtransf = false ∧
      s.emission base nu = .ok (s', if base = 0 then 0 else planck (2 * planckOverC2) planckOverBoltzmann base nu)) := by
  have key : base ≠ 0 → (s.bb.call (.temperature base)).eval planckOverBoltzmann nu = some (planck (2 * planckOverC2) planckOverBoltzmann base nu) :=
    fun h => bb_at h1 h2 h3 (lt_of_le_of_ne hb (Ne.symm h)) hn
  refine ⟨fun hr => ?_, fun hr hs => ?_, fun hr hs => ?_⟩
  · unfold BBDisk.emission
    by_cases hs : s.spectral = true
    · rw [if_neg (by simpa using hs)]
      by_cases h0 : base = 0
      · rw [if_pos h0]
        simp [hr]
      · rw [if_neg h0]
        simp only [key h0, hr]
        simp
    · rw [if_pos hs]
      simp [hr]
  · unfold BBDisk.emission
    rw [if_pos (by simp [hs])]
    simp [hr]
  · by_cases h0 : base = 0
    · refine ⟨s, h1, h2, h3, hs, hr, ?_⟩
      unfold BBDisk.emission
      rw [if_neg (by simpa using hs), if_pos h0, if_pos h0]
      simp [hr]
    · refine ⟨{ s with bb := s.bb.call (.temperature base) }, h1, h2, h3, hs, hr, ?_⟩
      unfold BBDisk.emission
      rw [if_neg (by simpa using hs), if_neg h0, if_neg h0]
      simp only [key h0, hr]
      simp

/-! ## The iron line -/

/-- The line is a box around its frequency, one hundredth of it on each side, as high as the power of the radius; nothing below the cut. -/
theorem line_band {s : Line} {kind : Kind} {p : ℕ → ℝ} (hp : 0 < projectedRadius kind p) (nu : ℝ) :
    s.emission kind p nu ≠ 0 ↔ s.cut ≤ projectedRadius kind p ∧ 0.99 * s.freq ≤ nu ∧ nu ≤ 1.01 * s.freq := by
  unfold Line.emission
  have h0 : projectedRadius kind p ^ (-s.index) ≠ 0 := (Real.rpow_pos_of_pos hp _).ne'
  simp only
  by_cases h1 : projectedRadius kind p < s.cut
  · rw [if_pos h1]
    constructor
    · intro h
      exact absurd rfl h
    · rintro ⟨h, -⟩
      exact absurd h1 (not_lt.2 h)
  rw [if_neg h1]
  by_cases h2 : |nu - s.freq| > s.freq / 100
  · rw [if_pos h2]
    constructor
    · intro h
      exact absurd rfl h
    · rintro ⟨-, h3, h4⟩
      exact absurd h2 (not_lt.2 (abs_le.2 ⟨by linarith, by linarith⟩))
  · rw [if_neg h2]
    have := abs_le.1 (not_lt.1 h2)
    exact ⟨fun _ => ⟨not_lt.1 h1, by linarith [this.1], by linarith [this.2]⟩, fun _ => h0⟩

/-- Over all frequencies the line sends a fiftieth of its frequency times the power of the radius: lines at different frequencies do not carry the same light. -/
theorem line_total {s : Line} {kind : Kind} {p : ℕ → ℝ} (hf : 0 ≤ s.freq) :
    ∫ nu : ℝ, s.emission kind p nu = if projectedRadius kind p < s.cut then 0 else s.freq / 50 * projectedRadius kind p ^ (-s.index) := by
  by_cases h1 : projectedRadius kind p < s.cut
  · rw [if_pos h1]
    simp [Line.emission, h1]
  · rw [if_neg h1]
    have e : s.emission kind p = Set.indicator (Set.Icc (s.freq - s.freq / 100) (s.freq + s.freq / 100)) fun _ => projectedRadius kind p ^ (-s.index) := by
      funext nu
      unfold Line.emission
      simp only
      rw [if_neg h1]
      by_cases h2 : |nu - s.freq| > s.freq / 100
      · rw [if_pos h2, Set.indicator_of_notMem]
        rintro ⟨h3, h4⟩
        exact absurd h2 (not_lt.2 (abs_le.2 ⟨by linarith, by linarith⟩))
      · rw [if_neg h2, Set.indicator_of_mem]
        have := abs_le.1 (not_lt.1 h2)
        exact ⟨by linarith [this.1], by linarith [this.2]⟩
    rw [e, MeasureTheory.integral_indicator_const _ measurableSet_Icc, Real.volume_real_Icc_of_le (by linarith), smul_eq_mul]
    ring

/-- Without a unit the frequency is an energy in keV; the value is given back. -/
theorem line_keV_partial (s : Line) (v : ℝ) : (s.setFreq v).freq = v * perKeV ∧ (s.setFreq v).getFreq = v := by
  refine ⟨rfl, ?_⟩
  show v * perKeV / perKeV = v
  exact mul_div_cancel_right₀ _ (by norm_num [perKeV])

/-- With a unit the value is converted to hertz and then multiplied again by the hertz of one keV: the line is never where it was asked, except at zero. What is read
with the same unit hides it. -/
theorem line_unit_wrong (s : Line) {toHz fromHz : ℝ → ℝ} (hinv : ∀ x, fromHz (toHz x) = x) {v : ℝ} (hv : toHz v ≠ 0) :
    (s.setFreqUnit toHz v).freq ≠ toHz v ∧ (s.setFreqUnit toHz v).freq = perKeV * toHz v ∧ (s.setFreqUnit toHz v).getFreqUnit fromHz = v := by
  have hk : (1 : ℝ) < perKeV := by norm_num [perKeV]
  have e : (s.setFreqUnit toHz v).freq = perKeV * toHz v := mul_comm _ _
  refine ⟨?_, e, ?_⟩
  · rw [e]
    intro h
    have : (perKeV - 1) * toHz v = 0 := by linarith
    rcases mul_eq_zero.1 this with h | h
    · linarith
    · exact hv h
  · show fromHz ((s.setFreq (toHz v)).getFreq) = v
    rw [(line_keV_partial s (toHz v)).2, hinv]

/-- A line asked at 6.4 keV as 6400 eV, and as a number of keV, does not send at the same frequencies: no frequency of the one is a frequency of the other. -/
theorem line_two_ways_wrong (s : Line) {kind : Kind} {p : ℕ → ℝ} (hp : 0 < projectedRadius kind p) {toHz : ℝ → ℝ} {v : ℝ} (hv : 0 < v)
    (hz : ∀ x, toHz x = x / 1000 * perKeV) (nu : ℝ) :
    ¬ ((s.setFreqUnit toHz (1000 * v)).emission kind p nu ≠ 0 ∧ (s.setFreq v).emission kind p nu ≠ 0) := by
  rintro ⟨h1, h2⟩
  obtain ⟨-, h1, -⟩ := (line_band hp nu).1 h1
  obtain ⟨-, -, h2⟩ := (line_band hp nu).1 h2
  have e1 : (s.setFreqUnit toHz (1000 * v)).freq = v * perKeV * perKeV := by
    show toHz (1000 * v) * perKeV = _
    rw [hz]
    ring
  have e2 : (s.setFreq v).freq = v * perKeV := rfl
  rw [e1] at h1
  rw [e2] at h2
  have hk : (100 : ℝ) < perKeV := by norm_num [perKeV]
  have : 0 < v * perKeV := mul_pos hv (by linarith)
  nlinarith only [h1, h2, this, hk]

/-- A line at 6.4 keV with index 3, at radius 2: an eighth at its centre, nothing two hundredths away. -/
example : ((⟨3, 0, 1⟩ : Line).setFreq 6.4).emission .spherical (fun _ => 2) (6.4 * perKeV) = 1 / 8 ∧
    ((⟨3, 0, 1⟩ : Line).setFreq 6.4).emission .spherical (fun _ => 2) (6.4 * 1.02 * perKeV) = 0 := by
  have h8 : (2 : ℝ) ^ (-(3 : ℝ)) = 1 / 8 := by
    rw [Real.rpow_neg (by norm_num), show (3 : ℝ) = ((3 : ℕ) : ℝ) by norm_num, Real.rpow_natCast]
    norm_num
  constructor
  · unfold Line.emission Line.setFreq projectedRadius
    simp only
    rw [if_neg (by norm_num), if_neg (by norm_num [perKeV]), h8]
  · by_contra h
    have := (line_band (by norm_num [projectedRadius]) _).1 h
    norm_num [Line.setFreq, perKeV] at this

/-! ## Bolometric emission -/

/-- What a hit sends to the observer, and what it lets pass. -/
noncomputable def layer (h : Hit) : ℝ × ℝ := (h.emitted * (1 / h.ggredm1) ^ 4, h.passed)

/-- When only the redshift, the date, the point of impact (without a transported basis) and the bolometric intensity are asked: over any succession of hits, what is
added is what an observer behind a filter `T` receives from these layers, each intensity multiplied by the fourth power of the redshift factor; the photon keeps what
all of them let pass; the redshift and the date are those of the last hit. -/
theorem bolometric : ∀ (l : List Hit) (d : Asked) (T u : ℝ), d.intensity = false → d.binspectrum = false → d.spectrum = false → d.user4 = some u →
    (d.impact = true → ∀ h ∈ l, h.basis = false) →
    ∃ d', processAll l (some d) T = (true, T * (l.map Hit.passed).prod, some d') ∧ d'.user4 = some (u + T * observed (l.map layer)) ∧
      (∀ h, l.getLast? = some h → d'.redshift = d.redshift.map (fun _ => 1 / h.ggredm1) ∧ d'.time = d.time.map (fun _ => h.date)) := by
  intro l
  induction l with
  | nil =>
    intro d T u _ _ _ hu _
    exact ⟨d, by simp [processAll], by simp [hu, observed], by simp⟩
  | cons h l ih =>
    intro d T u h1 h2 h3 hu hb
    have hbase : ¬ (d.impact = true ∧ h.basis = true) := by
      rintro ⟨hi, hh⟩
      rw [hb hi h (by simp)] at hh
      exact absurd hh (by simp)
    obtain ⟨d', e1, e2, e3⟩ := ih (⟨d.redshift.map fun _ => 1 / h.ggredm1, d.time.map fun _ => h.date, d.impact, d.intensity,
      some (u + h.emitted * T * (1 / h.ggredm1 * (1 / h.ggredm1) * (1 / h.ggredm1) * (1 / h.ggredm1))), d.binspectrum, d.spectrum⟩ : Asked) (T * h.passed)
      (u + h.emitted * T * (1 / h.ggredm1 * (1 / h.ggredm1) * (1 / h.ggredm1) * (1 / h.ggredm1))) h1 h2 h3 rfl
      (fun hi x hx => hb hi x (by simp [hx]))
    refine ⟨d', ?_, ?_, ?_⟩
    · have hp : process h (some d) T = (true, T * h.passed, some ⟨d.redshift.map fun _ => 1 / h.ggredm1, d.time.map fun _ => h.date, d.impact, d.intensity,
          some (u + h.emitted * T * (1 / h.ggredm1 * (1 / h.ggredm1) * (1 / h.ggredm1) * (1 / h.ggredm1))), d.binspectrum, d.spectrum⟩) := by
        unfold process
        simp only
        rw [if_neg hbase, if_neg (by simp [h1]), if_neg (by simp [h2]), if_neg (by simp [h3]), hu]
        rfl
      rw [processAll, hp]
      simp only
      rw [e1, List.map_cons, List.prod_cons, mul_assoc]
    · rw [e2, List.map_cons]
      show some _ = some (u + T * ((layer h).1 + (layer h).2 * observed (l.map layer)))
      unfold layer
      simp only
      congr 1
      ring
    · intro x hx
      rcases l with _ | ⟨y, l⟩
      · obtain rfl : h = x := by simpa using hx
        simp only [processAll, Prod.mk.injEq, Option.some.injEq] at e1
        obtain ⟨-, -, rfl⟩ := e1
        exact ⟨rfl, rfl⟩
      · have := e3 x (by rwa [List.getLast?_cons_cons] at hx)
        refine ⟨this.1.trans ?_, this.2.trans ?_⟩
        · simp only [Option.map_map]
          rfl
        · simp only [Option.map_map]
          rfl

/-- An intensity per frequency, a spectrum or a binned spectrum is always refused. -/
theorem bolometric_refuses (h : Hit) (d : Asked) (T : ℝ) (hd : d.intensity = true ∨ d.binspectrum = true ∨ d.spectrum = true) :
    (process h (some d) T).1 = false ∧ (process h (some d) T).2.1 = T := by
  unfold process
  simp only
  by_cases h1 : d.impact = true ∧ h.basis = true
  · rw [if_pos h1]
    exact ⟨rfl, rfl⟩
  rw [if_neg h1]
  by_cases h2 : d.intensity = true
  · rw [if_pos h2]
    exact ⟨rfl, rfl⟩
  rw [if_neg h2]
  by_cases h3 : d.binspectrum = true
  · rw [if_pos h3]
    exact ⟨rfl, rfl⟩
  rw [if_neg h3]
  by_cases h4 : d.spectrum = true
  · rw [if_pos h4]
    exact ⟨rfl, rfl⟩
  · rcases hd with hd | hd | hd
    · exact absurd hd h2
    · exact absurd hd h3
    · exact absurd hd h4

/-- A refused spectrum has already added the bolometric intensity, without taking what the layer absorbs: asking again adds it twice. -/
theorem bolometric_refused_wrong : ∃ (h : Hit) (d : Asked), (process h (some d) 1).1 = false ∧ (process h (some d) 1).2.2.bind Asked.user4 = some 1 ∧
    d.user4 = some 0 ∧ (process h (process h (some d) 1).2.2 1).2.2.bind Asked.user4 = some 2 := by
  refine ⟨⟨1, 0, 1, 0, false⟩, ⟨none, none, false, false, some 0, false, true⟩, ?_, ?_, rfl, ?_⟩
  · simp [process]
  · norm_num [process]
  · norm_num [process]

/-- Two layers, the first half transparent and shifted by 2. -/
example : ∃ d', processAll [⟨2, 0, 16, 1 / 2, false⟩, ⟨1, 5, 3, 0, false⟩] (some ⟨some 0, some 0, true, false, some 0, false, false⟩) 1 = (true, 0, some d') ∧
    d'.user4 = some (5 / 2) ∧ d'.redshift = some 1 ∧ d'.time = some 5 := by
  obtain ⟨d', e1, e2, e3⟩ := bolometric [⟨2, 0, 16, 1 / 2, false⟩, ⟨1, 5, 3, 0, false⟩] ⟨some 0, some 0, true, false, some 0, false, false⟩ 1 0 rfl rfl rfl rfl
    (by simp)
  refine ⟨d', ?_, ?_, ?_⟩
  · rw [e1]
    norm_num
  · rw [e2]
    norm_num [layer, observed]
  · have := e3 ⟨1, 5, 3, 0, false⟩ rfl
    norm_num at this
    exact this

end Gyoto.DiskLaws
