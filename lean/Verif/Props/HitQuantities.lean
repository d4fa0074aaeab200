import Verif.Lemmas.HitQuantities
import Verif.Spec.HitQuantities
import Verif.Props.Transfer

/-!
# C100: what the hits of a ray add to the requested quantities

* Intensity, spectrum, binned spectrum and Stokes parameters are what is observed from the succession of layers met by the ray.
* Which requests succeed; what requests do to one another.
* When the ray stops behind an opaque object; from which hit the redshift and the date come.
-/

namespace Gyoto.HitQ

open Gyoto.Emission (Mueller)
open Gyoto.Transfer

/-! ### Succession of calls -/

/-- Transmissions, matrices and quantities. -/
structure Abs where
  T0 : ℝ
  T : Nat → ℝ
  M : Nat → Mueller
  d : Data

noncomputable def next (s : Setup) (p : Spectro) (a : Abs) (h : Hit) : Abs :=
  ⟨newT0 s h a.d a.T0, newT s p h a.d a.T, newM s h a.d a.M, newData s p h a.d a.T0 a.T a.M⟩

/-- Same quantities requested, in the same units, with the same layout. -/
structure Like (d d' : Data) : Prop where
  redshift : d'.redshift.isSome = d.redshift.isSome
  time : d'.time.isSome = d.time.isSome
  impact : d'.impact.isSome = d.impact.isSome
  intensity : d'.intensity.isSome = d.intensity.isSome
  binspectrum : d'.binspectrum.isSome = d.binspectrum.isSome
  spectrum : d'.spectrum.isSome = d.spectrum.isSome
  stokesQ : d'.stokesQ.isSome = d.stokesQ.isSome
  stokesU : d'.stokesU.isSome = d.stokesU.isSome
  stokesV : d'.stokesV.isSome = d.stokesV.isSome
  offset : d'.offset = d.offset
  ci : d'.intensityConverter = d.intensityConverter
  cb : d'.binspectrumConverter = d.binspectrumConverter
  cs : d'.spectrumConverter = d.spectrumConverter

theorem Like.polar {d d' : Data} (h : Like d d') : d'.polarAsked = d.polarAsked := by
  simp only [Data.polarAsked, h.spectrum, h.stokesQ, h.stokesU, h.stokesV]

theorem Like.freq {d d' : Data} (h : Like d d') : d'.freqAsked = d.freqAsked := by
  simp only [Data.freqAsked, h.redshift, h.time, h.impact, h.intensity, h.binspectrum]

theorem newData_like (s : Setup) (p : Spectro) (h : Hit) (d : Data) (T0 : ℝ) (T : Nat → ℝ) (M : Nat → Mueller) :
    Like d (newData s p h d T0 T M) := by
  constructor <;> first | rfl | (unfold newData; cases e : s.transport <;> simp)

/-- The requests can be served: no impact coordinates with parallel transport, and the array `spectrum` is there if a Stokes
parameter is requested without parallel transport. -/
structure Served (s : Setup) (d : Data) (hs : List Hit) : Prop where
  impact : ∀ h ∈ hs, d.impact = none ∨ h.size ≤ 8
  spectrum : s.transport = true ∨ d.polarAsked = false ∨ d.spectrum.isSome

theorem run_eq {s : Setup} {p : Spectro} (hs : s.spr = some p) (hn : p.mid.length < noIndex) (M0 : Mueller) (l : List Hit) :
    ∀ a : Abs, Served s a.d l → run s l (mkRay p.mid.length a.T0 M0 a.T a.M, a.d) =
      .ok (mkRay p.mid.length (l.foldl (next s p) a).T0 M0 (l.foldl (next s p) a).T (l.foldl (next s p) a).M,
        (l.foldl (next s p) a).d) := by
  induction l with
  | nil => intro a _; rfl
  | cons h l ih =>
    intro a hv
    have hi : ¬ a.d.Pending ∨ h.size ≤ 8 := by
      rcases hv.impact h (by simp) with e | e
      · left
        rintro ⟨v, hv', -⟩
        rw [e] at hv'
        cases hv'
      · exact Or.inr e
    rw [run, process_eq s p h a.d hs hn hi hv.spectrum, bind_ok, List.foldl_cons]
    refine ih (next s p a h) ⟨fun h' hm => ?_, ?_⟩
    · rcases hv.impact h' (by simp [hm]) with e | e
      · left
        show Option.map _ a.d.impact = none
        rw [e]
        rfl
      · exact Or.inr e
    · have L := newData_like s p h a.d a.T0 a.T a.M
      rcases hv.spectrum with e | e | e
      · exact Or.inl e
      · exact Or.inr (Or.inl (L.polar.trans e))
      · right; right
        show (newData s p h a.d a.T0 a.T a.M).spectrum.isSome = true
        rw [L.spectrum]
        exact e

/-! ### Layers -/

/-- Observed over emitted frequency. -/
noncomputable def Hit.factor (s : Setup) (h : Hit) : ℝ := 1 / h.ggredm1 s.noredshift

/-- Layer at the frequency of the observer: what the object emits at the corresponding frequency, times the cube of the factor
(`I_ν/ν³` is the same for all); what it lets through. -/
noncomputable def intLayer (s : Setup) (h : Hit) : ℝ × ℝ :=
  (h.emission (s.freqObs / h.factor s) (h.dsem s.noredshift) * h.factor s ^ 3,
    h.transmission (s.freqObs / h.factor s) (h.dsem s.noredshift))

/-- Layer in channel `j`, according to `radiativeQ`. -/
noncomputable def specLayer (s : Setup) (j : Nat) (h : Hit) : ℝ × ℝ :=
  ((h.radiativeQ (s.nuem h) (h.dsem s.noredshift) j).1 * h.factor s ^ 3, (h.radiativeQ (s.nuem h) (h.dsem s.noredshift) j).2)

/-- Layer in channel `j`, integrated over the channel: one more factor, for the width of the channel. -/
noncomputable def binLayer (s : Setup) (p : Spectro) (j : Nat) (h : Hit) : ℝ × ℝ :=
  (h.integrateEmission (p.bounds.map (· / h.factor s)) (h.dsem s.noredshift) j * h.factor s ^ 4,
    h.transmission (p.mid.getD j 0 / h.factor s) (h.dsem s.noredshift))

/-- Layer in channel `j` with polarisation. -/
noncomputable def polLayer (s : Setup) (j : Nat) (h : Hit) : Stokes × Mueller :=
  (h.factor s ^ 3 • (h.radiativeQPolar (s.nuem h) (h.dsem s.noredshift) j).1,
    (h.radiativeQPolar (s.nuem h) (h.dsem s.noredshift) j).2)

theorem convert_prop {c : Option (ℝ → ℝ)} (hc : Proportional c) : ∃ k, ∀ x, convert c x = k * x := by
  rcases c with _ | f
  · exact ⟨1, fun x => by simp [convert]⟩
  · exact hc

theorem convert_add {c : Option (ℝ → ℝ)} (hc : Proportional c) (x y : ℝ) : convert c (x + y) = convert c x + convert c y := by
  obtain ⟨k, hk⟩ := convert_prop hc
  rw [hk, hk, hk]
  ring

theorem convert_zero {c : Option (ℝ → ℝ)} (hc : Proportional c) : convert c 0 = 0 := by
  obtain ⟨k, hk⟩ := convert_prop hc
  rw [hk]
  ring

variable {s : Setup} {p : Spectro}

theorem div_factor (x : ℝ) (h : Hit) : x / h.factor s = x * h.ggredm1 s.noredshift := by
  unfold Hit.factor
  rw [one_div, div_inv_eq_mul]

/-- Elements `j*offset` of an array, for the channels `j < n`. -/
structure Received (n off : Nat) (A A' : Nat → ℝ) (x : Nat → ℝ) : Prop where
  at_ : ∀ j, j < n → A' (j * off) = A (j * off) + x j
  other : ∀ m, (∀ j, j < n → m ≠ j * off) → A' m = A m

theorem received_addAll {n off : Nat} (hoff : 0 < off) (A inc : Nat → ℝ) : Received n off A (addAll off inc 0 n A) inc :=
  ⟨fun j hj => addAll_at hoff n 0 A j (by omega) (by omega), fun m hm => addAll_other n 0 A m fun j _ hj => hm j (by omega)⟩

theorem Received.trans {n off : Nat} {A A' A'' x x' : Nat → ℝ} (h : Received n off A A' x) (h' : Received n off A' A'' x') :
    Received n off A A'' (fun j => x j + x' j) :=
  ⟨fun j hj => by rw [h'.at_ j hj, h.at_ j hj, add_assoc], fun m hm => by rw [h'.other m hm, h.other m hm]⟩

theorem Received.congr {n off : Nat} {A A' x x' : Nat → ℝ} (h : Received n off A A' x) (e : ∀ j, j < n → x j = x' j) :
    Received n off A A' x' :=
  ⟨fun j hj => by rw [h.at_ j hj, e j hj], h.other⟩

theorem received_zero {n off : Nat} (A : Nat → ℝ) : Received n off A A (fun _ => 0) := ⟨fun _ _ => by simp, fun _ _ => rfl⟩

theorem fold_spectrum (ht : s.transport = false) (l : List Hit) : ∀ (a : Abs) (S : Nat → ℝ), a.d.spectrum = some S →
    0 < a.d.offset → Proportional a.d.spectrumConverter →
    ∃ S', (l.foldl (next s p) a).d.spectrum = some S' ∧ Received p.mid.length a.d.offset S S'
      (fun j => convert a.d.spectrumConverter (a.T j * observed (l.map (specLayer s j)))) := by
  induction l with
  | nil =>
    intro a S hS _ hc
    exact ⟨S, hS, (received_zero S).congr fun j _ => by simp [observed, convert_zero hc]⟩
  | cons h l ih =>
    intro a S hS hoff hc
    have e1 : (next s p a h).d.spectrum =
        some (addAll a.d.offset (plainInc s h a.d.spectrumConverter a.T) 0 p.mid.length S) := by
      simp [next, newData, hS, ht]
    obtain ⟨S', h1, h2⟩ := ih (next s p a h) _ e1 hoff hc
    refine ⟨S', h1, ((received_addAll hoff S _).trans h2).congr fun j hj => ?_⟩
    have hT : (next s p a h).T j = a.T j * tauAt s h j := by
      show newT s p h a.d a.T j = _
      simp [newT, hS, ht]
    show plainInc s h a.d.spectrumConverter a.T j + convert a.d.spectrumConverter _ = _
    rw [plainInc, ← convert_add hc, hT, List.map_cons, observed]
    congr 1
    simp only [specLayer, Hit.factor, tauAt]
    ring

theorem fold_intensity (l : List Hit) : ∀ (a : Abs) (v : ℝ), a.d.intensity = some v → Proportional a.d.intensityConverter →
    (l.foldl (next s p) a).d.intensity =
      some (v + convert a.d.intensityConverter (a.T0 * observed (l.map (intLayer s)))) := by
  induction l with
  | nil =>
    intro a v hv hc
    simp [observed, convert_zero hc, hv]
  | cons h l ih =>
    intro a v hv hc
    have e1 : (next s p a h).d.intensity = some (v + intInc s h a.d.intensityConverter a.T0) := by
      simp [next, newData, hv]
    rw [List.foldl_cons, ih (next s p a h) _ e1 hc]
    have hT : (next s p a h).T0 = a.T0 * h.transmission (s.freqObs * h.ggredm1 s.noredshift) (h.dsem s.noredshift) := by
      show newT0 s h a.d a.T0 = _
      simp [newT0, Data.freqAsked, hv]
    show some (v + intInc s h a.d.intensityConverter a.T0 + convert a.d.intensityConverter _) = _
    rw [intInc, add_assoc, ← convert_add hc, hT, List.map_cons, observed]
    simp only [intLayer, div_factor]
    simp only [Hit.factor]
    congr 3
    ring

/-- `transmission` and `radiativeQ` of the object agree (they do when one of them is the default method, C27). -/
def Coherent (s : Setup) (p : Spectro) (h : Hit) : Prop :=
  ∀ j, j < p.mid.length → (h.radiativeQ (s.nuem h) (h.dsem s.noredshift) j).2 =
    h.transmission (p.mid.getD j 0 * h.ggredm1 s.noredshift) (h.dsem s.noredshift)

theorem bounds_eq (h : Hit) : p.bounds.map (· / h.factor s) = p.bounds.map (· * h.ggredm1 s.noredshift) :=
  List.map_congr_left fun x _ => div_factor x h

theorem fold_bin (l : List Hit) : ∀ (a : Abs) (B : Nat → ℝ), a.d.binspectrum = some B →
    (a.d.spectrum = none ∨ s.transport = false ∧ ∀ h ∈ l, Coherent s p h) →
    0 < a.d.offset → Proportional a.d.binspectrumConverter →
    ∃ B', (l.foldl (next s p) a).d.binspectrum = some B' ∧ Received p.mid.length a.d.offset B B'
      (fun j => convert a.d.binspectrumConverter (a.T j * observed (l.map (binLayer s p j)))) := by
  induction l with
  | nil =>
    intro a B hB _ _ hc
    exact ⟨B, hB, (received_zero B).congr fun j _ => by simp [observed, convert_zero hc]⟩
  | cons h l ih =>
    intro a B hB hsp hoff hc
    have e1 : (next s p a h).d.binspectrum =
        some (addAll a.d.offset (binInc s h a.d.binspectrumConverter (binI s p h) a.T) 0 p.mid.length B) := by
      simp [next, newData, hB]
    have hsp' : (next s p a h).d.spectrum = none ∨ s.transport = false ∧ ∀ h ∈ l, Coherent s p h := by
      rcases hsp with e | e
      · left
        show Option.map _ a.d.spectrum = none
        rw [e]
        rfl
      · exact Or.inr ⟨e.1, fun h' hm => e.2 h' (by simp [hm])⟩
    obtain ⟨B', h1, h2⟩ := ih (next s p a h) _ e1 hsp' hoff hc
    refine ⟨B', h1, ((received_addAll hoff B _).trans h2).congr fun j hj => ?_⟩
    have hT : (next s p a h).T j = a.T j * fracAt s p h j := by
      show newT s p h a.d a.T j = _
      rcases e : a.d.spectrum with _ | S
      · simp [newT, hB, e]
      · rcases hsp with e' | e'
        · rw [e] at e'; cases e'
        · have := e'.2 h (by simp) j hj
          simp only [newT, e, e'.1, Option.isSome_some, if_true, tauAt, this, fracAt]
          rfl
    show binInc s h a.d.binspectrumConverter (binI s p h) a.T j + convert a.d.binspectrumConverter _ = _
    rw [binInc, ← convert_add hc, hT, List.map_cons, observed]
    congr 1
    simp only [binLayer, bounds_eq, div_factor, binI, fracAt]
    simp only [Hit.factor]
    ring

/-- The array of one Stokes parameter; 0 is `spectrum`. -/
def Data.stokes (d : Data) : Fin 4 → Option (Nat → ℝ) := ![d.spectrum, d.stokesQ, d.stokesU, d.stokesV]

theorem fold_stokes (ht : s.transport = true) (m : Fin 4) (l : List Hit) : ∀ (a : Abs) (S : Nat → ℝ), a.d.stokes m = some S →
    0 < a.d.offset → Proportional a.d.spectrumConverter →
    ∃ S', (l.foldl (next s p) a).d.stokes m = some S' ∧ Received p.mid.length a.d.offset S S'
      (fun j => convert a.d.spectrumConverter ((a.M j).mulVec (observedStokes (l.map (polLayer s j))) m)) := by
  induction l with
  | nil =>
    intro a S hS _ hc
    exact ⟨S, hS, (received_zero S).congr fun j _ => by simp [observedStokes, convert_zero hc]⟩
  | cons h l ih =>
    intro a S hS hoff hc
    have e1 : (next s p a h).d.stokes m = some (addAll a.d.offset
        (polarInc s h a.d.spectrumConverter (outAt s h p.mid.length a.M) m) 0 p.mid.length S) := by
      fin_cases m <;> simp_all [next, newData, Data.stokes]
    have hp : a.d.polarAsked = true := by
      unfold Data.polarAsked
      fin_cases m <;> simp_all [Data.stokes]
    obtain ⟨S', h1, h2⟩ := ih (next s p a h) _ e1 hoff hc
    refine ⟨S', h1, ((received_addAll hoff S _).trans h2).congr fun j hj => ?_⟩
    have hM : (next s p a h).M j = a.M j * (polAt s h j).2 := by
      show newM s h a.d a.M j = _
      simp [newM, hp, ht]
    show polarInc s h a.d.spectrumConverter (outAt s h p.mid.length a.M) m j + convert a.d.spectrumConverter _ = _
    have ho : (outAt s h p.mid.length a.M).getD j 0 = (a.M j).mulVec (polAt s h j).1 := by
      simp [outAt, List.getD_eq_getElem?_getD, hj]
    rw [polarInc, ← convert_add hc, hM, List.map_cons, observedStokes, ho]
    congr 1
    rw [Matrix.mulVec_add, Pi.add_apply, Matrix.mulVec_mulVec]
    simp only [polLayer, polAt]
    rw [Matrix.mulVec_smul, Pi.smul_apply, smul_eq_mul]
    simp only [Hit.factor]
    ring

/-! ### C100: what is observed -/

/-- A ray about to be followed, with `n` channels. -/
def fresh (n : Nat) : Ray := mkRay n 1 1 (fun _ => 1) (fun _ => 1)

/-- What `Photon::hit` does first (`lib/Photon.C:297-298`). -/
theorem reset_fresh {r : Ray} {n : Nat} (h : Ready r n) : resetTransmissionMatrix (resetTransmission r) = fresh n := by
  obtain ⟨l, hl, hln⟩ := h.trans
  obtain ⟨m, hm, hmn⟩ := h.mats
  simp [resetTransmissionMatrix, resetTransmission, h.spectro, hl, hm, fresh, mkRay, hln, hmn]

/-- **C100.** Without parallel transport the spectrum requested is increased, in each channel, by what is observed of the
succession of layers; nothing else is written in the array. -/
theorem spectrum_observed (hs : s.spr = some p) (hn : p.mid.length < noIndex) (ht : s.transport = false) (l : List Hit) (d : Data)
    (hv : Served s d l) (S : Nat → ℝ) (hS : d.spectrum = some S) (hoff : 0 < d.offset) (hc : Proportional d.spectrumConverter) :
    ∃ r d' S', run s l (fresh p.mid.length, d) = .ok (r, d') ∧ d'.spectrum = some S' ∧ Received p.mid.length d.offset S S'
      (fun j => convert d.spectrumConverter (observed (l.map (specLayer s j)))) := by
  obtain ⟨S', h1, h2⟩ := fold_spectrum (p := p) ht l ⟨1, fun _ => 1, fun _ => 1, d⟩ S hS hoff hc
  exact ⟨_, _, S', run_eq hs hn 1 l ⟨1, fun _ => 1, fun _ => 1, d⟩ hv, h1, by simpa using h2⟩

/-- **C100.** With parallel transport, the spectrum and each Stokes parameter requested are increased, in each channel, by what is
observed of the succession of polarised layers. -/
theorem stokes_observed (hs : s.spr = some p) (hn : p.mid.length < noIndex) (ht : s.transport = true) (l : List Hit) (d : Data)
    (hv : Served s d l) (m : Fin 4) (S : Nat → ℝ) (hS : d.stokes m = some S) (hoff : 0 < d.offset)
    (hc : Proportional d.spectrumConverter) :
    ∃ r d' S', run s l (fresh p.mid.length, d) = .ok (r, d') ∧ d'.stokes m = some S' ∧ Received p.mid.length d.offset S S'
      (fun j => convert d.spectrumConverter (observedStokes (l.map (polLayer s j)) m)) := by
  obtain ⟨S', h1, h2⟩ := fold_stokes (p := p) ht m l ⟨1, fun _ => 1, fun _ => 1, d⟩ S hS hoff hc
  exact ⟨_, _, S', run_eq hs hn 1 l ⟨1, fun _ => 1, fun _ => 1, d⟩ hv, h1, by simpa using h2⟩

/-- **C100.** The binned spectrum is increased, in each channel, by what is observed of the succession of layers integrated over the
channel, if the spectrum is not requested too or if there is no parallel transport. -/
theorem bin_observed_partial (hs : s.spr = some p) (hn : p.mid.length < noIndex) (l : List Hit) (d : Data) (hv : Served s d l)
    (B : Nat → ℝ) (hB : d.binspectrum = some B) (hsp : d.spectrum = none ∨ s.transport = false ∧ ∀ h ∈ l, Coherent s p h)
    (hoff : 0 < d.offset) (hc : Proportional d.binspectrumConverter) :
    ∃ r d' B', run s l (fresh p.mid.length, d) = .ok (r, d') ∧ d'.binspectrum = some B' ∧ Received p.mid.length d.offset B B'
      (fun j => convert d.binspectrumConverter (observed (l.map (binLayer s p j)))) := by
  obtain ⟨B', h1, h2⟩ := fold_bin (p := p) l ⟨1, fun _ => 1, fun _ => 1, d⟩ B hB hsp hoff hc
  exact ⟨_, _, B', run_eq hs hn 1 l ⟨1, fun _ => 1, fun _ => 1, d⟩ hv, h1, by simpa using h2⟩

/-- Without spectrometer. -/
noncomputable def bareData (s : Setup) (h : Hit) (d : Data) (T0 : ℝ) : Data :=
  newData s ⟨[], []⟩ h d T0 (fun _ => 1) (fun _ => 1)

theorem process_bare (hs : s.spr = none) (h : Hit) (r : Ray) (d : Data) (hi : ¬ d.Pending ∨ h.size ≤ 8) (hb : d.binspectrum = none) :
    process s h (r, d) = .ok ({ r with freqobs := newT0 s h d r.freqobs }, bareData s h d r.freqobs) := by
  have hnb : s.nb = 0 := by simp [Setup.nb, hs]
  unfold process
  rw [scalars_eq s h _ d hi, bind_ok, intensity_eq, bind_ok]
  simp only [bin, hb, bind_ok]
  have hsp : ∀ x : State, spectral s h x = .ok x := by
    intro x
    unfold spectral
    rw [hnb]
    by_cases h1 : x.2.polarAsked = true
    · by_cases h2 : s.transport = true
      · simp [h1, h2, transferFrom, channels]
      · simp [h1, h2, channels]
    · simp [h1]
  rw [hsp, bind_ok]
  have hfr : ∀ r : Ray, ∀ d' : Data, d'.freqAsked = d.freqAsked → freq s h (r, d') =
      .ok ({ r with freqobs := newT0 s h d r.freqobs }, d') := by
    intro r d' hd
    unfold freq newT0
    rw [hd]
    by_cases hf : d.freqAsked = true
    · simp [hf, transmit_freq]
    · simp [hf]
  rw [hfr _ _ (by simp [Data.freqAsked, hb])]
  simp only [Out.ok.injEq, Prod.mk.injEq, true_and]
  have hz : ∀ (off : Nat) (inc : Nat → ℝ), addAll off inc 0 0 = id := fun _ _ => rfl
  simp [bareData, newData, hz, hb]

/-- **C100.** Whatever the spectrometer and the other quantities, the intensity is increased by what is observed of the succession of
layers at the frequency of the observer. -/
theorem intensity_observed (l : List Hit) (d : Data) (hv : Served s d l) (v : ℝ) (hI : d.intensity = some v)
    (hc : Proportional d.intensityConverter) (r : Ray) (hr : r.freqobs = 1)
    (hspr : (s.spr = none ∧ d.binspectrum = none) ∨ ∃ p, s.spr = some p ∧ p.mid.length < noIndex ∧ r = fresh p.mid.length) :
    ∃ r' d', run s l (r, d) = .ok (r', d') ∧
      d'.intensity = some (v + convert d.intensityConverter (observed (l.map (intLayer s)))) := by
  rcases hspr with ⟨h0, hb⟩ | ⟨p, hp, hn, rfl⟩
  · have gen : ∀ (l : List Hit) (r : Ray) (d : Data) (v : ℝ), (∀ h ∈ l, d.impact = none ∨ h.size ≤ 8) → d.binspectrum = none →
        d.intensity = some v → Proportional d.intensityConverter →
        ∃ r' d', run s l (r, d) = .ok (r', d') ∧
          d'.intensity = some (v + convert d.intensityConverter (r.freqobs * observed (l.map (intLayer s)))) := by
      intro l
      induction l with
      | nil =>
        intro r d v _ _ hI hc
        exact ⟨r, d, rfl, by simp [observed, convert_zero hc, hI]⟩
      | cons h l ih =>
        intro r d v hi hb hI hc
        have hi' : ¬ d.Pending ∨ h.size ≤ 8 := by
          rcases hi h (by simp) with e | e
          · left
            rintro ⟨w, hw, -⟩
            rw [e] at hw
            cases hw
          · exact Or.inr e
        obtain ⟨r', d', h1, h2⟩ := ih { r with freqobs := newT0 s h d r.freqobs } (bareData s h d r.freqobs)
          (v + intInc s h d.intensityConverter r.freqobs) (fun h' hm => by
            rcases hi h' (by simp [hm]) with e | e
            · left
              show Option.map _ d.impact = none
              rw [e]; rfl
            · exact Or.inr e)
          (by show Option.map _ d.binspectrum = none; rw [hb]; rfl)
          (by show Option.map _ d.intensity = _; rw [hI]; rfl) hc
        refine ⟨r', d', ?_, ?_⟩
        · rw [run, process_bare h0 h r d hi' hb, bind_ok]
          exact h1
        · rw [h2]
          have hT : newT0 s h d r.freqobs =
              r.freqobs * h.transmission (s.freqObs * h.ggredm1 s.noredshift) (h.dsem s.noredshift) := by
            simp [newT0, Data.freqAsked, hI]
          show some (v + intInc s h d.intensityConverter r.freqobs + convert d.intensityConverter
            (newT0 s h d r.freqobs * _)) = _
          rw [intInc, add_assoc, ← convert_add hc, hT, List.map_cons, observed]
          simp only [intLayer, div_factor]
          simp only [Hit.factor]
          congr 3
          ring
    obtain ⟨r', d', h1, h2⟩ := gen l r d v hv.impact hb hI hc
    exact ⟨r', d', h1, by rw [h2, hr, one_mul]⟩
  · refine ⟨_, _, run_eq hp hn 1 l ⟨1, fun _ => 1, fun _ => 1, d⟩ hv, ?_⟩
    have := fold_intensity (s := s) (p := p) l ⟨1, fun _ => 1, fun _ => 1, d⟩ v hI hc
    simpa using this

/-! ### C100: what goes wrong in the binned spectrum -/

/-- **C100, refuted part.** With parallel transport, when the spectrum is requested too, the binned spectrum is the sum of what all
layers emit: nothing absorbs. -/
theorem bin_unabsorbed_wrong (hs : s.spr = some p) (hn : p.mid.length < noIndex) (ht : s.transport = true) (l : List Hit) (d : Data)
    (hv : Served s d l) (B S : Nat → ℝ) (hB : d.binspectrum = some B) (hS : d.spectrum = some S)
    (hoff : 0 < d.offset) (hc : Proportional d.binspectrumConverter) :
    ∃ r d' B', run s l (fresh p.mid.length, d) = .ok (r, d') ∧ d'.binspectrum = some B' ∧ Received p.mid.length d.offset B B'
      (fun j => convert d.binspectrumConverter (l.map fun h => (binLayer s p j h).1).sum) := by
  have gen : ∀ (l : List Hit) (a : Abs) (B : Nat → ℝ), a.d.binspectrum = some B → a.d.spectrum.isSome →
      a.T = (fun _ => 1) → 0 < a.d.offset → Proportional a.d.binspectrumConverter →
      ∃ B', (l.foldl (next s p) a).d.binspectrum = some B' ∧ Received p.mid.length a.d.offset B B'
        (fun j => convert a.d.binspectrumConverter (l.map fun h => (binLayer s p j h).1).sum) := by
    intro l
    induction l with
    | nil =>
      intro a B hB _ _ _ hc
      exact ⟨B, hB, (received_zero B).congr fun j _ => by simp [convert_zero hc]⟩
    | cons h l ih =>
      intro a B hB hS hT hoff hc
      have e1 : (next s p a h).d.binspectrum =
          some (addAll a.d.offset (binInc s h a.d.binspectrumConverter (binI s p h) a.T) 0 p.mid.length B) := by
        simp [next, newData, hB]
      obtain ⟨B', h1, h2⟩ := ih (next s p a h) _ e1 ((newData_like s p h a.d a.T0 a.T a.M).spectrum.trans hS)
        (by funext j; show newT s p h a.d a.T j = 1; simp [newT, hS, ht, hT]) hoff hc
      refine ⟨B', h1, ((received_addAll hoff B _).trans h2).congr fun j hj => ?_⟩
      show binInc s h a.d.binspectrumConverter (binI s p h) a.T j + convert a.d.binspectrumConverter _ = _
      rw [binInc, ← convert_add hc, hT, List.map_cons, List.sum_cons]
      congr 1
      simp only [binLayer, bounds_eq, binI]
      simp only [Hit.factor]
      ring
  obtain ⟨B', h1, h2⟩ := gen l ⟨1, fun _ => 1, fun _ => 1, d⟩ B hB (by simp [hS]) rfl hoff hc
  exact ⟨_, _, B', run_eq hs hn 1 l ⟨1, fun _ => 1, fun _ => 1, d⟩ hv, h1, h2⟩

/-! ### C100: which requests are served -/

/-- **C100, refuted part.** A Stokes parameter requested without the spectrum and without parallel transport: a null pointer is
written through at the first hit (with at least one channel). -/
theorem null_spectrum_wrong (hs : s.spr = some p) (hn : p.mid.length < noIndex) (h0 : 0 < p.mid.length) (ht : s.transport = false)
    (h : Hit) (d : Data) (hi : ¬ d.Pending ∨ h.size ≤ 8) (hS : d.spectrum = none) (hp : d.polarAsked = true)
    (T0 : ℝ) (M0 : Mueller) (T : Nat → ℝ) (M : Nat → Mueller) :
    process s h (mkRay p.mid.length T0 M0 T M, d) = .ub := by
  unfold process
  rw [scalars_eq s h _ d hi, bind_ok, intensity_eq, bind_ok, bin_eq s p h _ hs hn, bind_ok]
  obtain ⟨k, hk⟩ : ∃ k, p.mid.length = k + 1 := ⟨p.mid.length - 1, by omega⟩
  have : ∀ (T' : Nat → ℝ) (d' : Data), d'.spectrum = none → d'.polarAsked = true →
      spectral s h (mkRay p.mid.length T0 M0 T' M, d') = .ub := by
    intro T' d' h1 h2
    unfold spectral
    rw [if_pos h2, if_neg (by simp [ht]), nb_eq hs, hk, channels]
    have : getTransmission (mkRay (k + 1) T0 M0 T' M) 0 = .ok (T' 0) := by
      rw [← hk]
      exact get_mkRay hn h0
    simp only [plainBody, this, bind_ok, h1, bind_ub]
  rw [this]
  · rfl
  · exact hS
  · simpa [Data.polarAsked] using hp

/-- **C100.** With a spectrometer of at least one channel, a call succeeds exactly when no impact coordinates are to be written for a
transported basis, and no Stokes parameter is requested without either parallel transport or the spectrum. -/
theorem served_iff (hs : s.spr = some p) (hn : p.mid.length < noIndex) (h0 : 0 < p.mid.length) (h : Hit) (d : Data)
    (T0 : ℝ) (M0 : Mueller) (T : Nat → ℝ) (M : Nat → Mueller) :
    (∃ x, process s h (mkRay p.mid.length T0 M0 T M, d) = .ok x) ↔
      (¬ d.Pending ∨ h.size ≤ 8) ∧ (s.transport = true ∨ d.polarAsked = false ∨ d.spectrum.isSome) := by
  constructor
  · rintro ⟨x, hx⟩
    have h1 : ¬ d.Pending ∨ h.size ≤ 8 := by
      by_contra hc
      push Not at hc
      unfold process at hx
      rw [scalars_throws s h _ d hc.1 hc.2] at hx
      cases hx
    refine ⟨h1, ?_⟩
    by_contra hc
    push Not at hc
    rw [null_spectrum_wrong hs hn h0 (by simpa using hc.1) h d h1 (by simpa using hc.2.2) (by simpa using hc.2.1)] at hx
    cases hx
  · rintro ⟨h1, h2⟩
    exact ⟨_, process_eq s p h d hs hn h1 h2⟩

/-- **C100.** Without spectrometer, a binned spectrum is refused, and nothing is written in the spectrum and Stokes parameters. -/
theorem no_spectrometer (hs : s.spr = none) (h : Hit) (r : Ray) (d : Data) (hi : ¬ d.Pending ∨ h.size ≤ 8) :
    (d.binspectrum.isSome → process s h (r, d) = .throws) ∧
    (d.binspectrum = none → ∃ r' d', process s h (r, d) = .ok (r', d') ∧ d'.stokes = d.stokes) := by
  constructor
  · intro hb
    obtain ⟨B, hB⟩ := Option.isSome_iff_exists.1 hb
    unfold process
    rw [scalars_eq s h _ d hi, bind_ok, intensity_eq, bind_ok]
    simp [bin, hB, hs]
  · intro hb
    refine ⟨_, _, process_bare hs h r d hi hb, ?_⟩
    have hz : ∀ (off : Nat) (inc : Nat → ℝ), addAll off inc 0 0 = id := fun _ _ => rfl
    simp [Data.stokes, bareData, newData, hz]

/-! ### C100: redshift, date, impact coordinates -/

/-- **C100.** The redshift and the date are those of the last hit processed, the impact coordinates those of the first. -/
theorem which_hit (hs : s.spr = some p) (hn : p.mid.length < noIndex) (l : List Hit) (first last : Hit) (d : Data)
    (hv : Served s d (first :: l)) (hlast : (first :: l).getLast? = some last) (x t : ℝ) (v : Fin 16 → ℝ)
    (hx : d.redshift = some x) (ht : d.time = some t) (hw : d.impact = some v) (h0 : v 0 = dblMax) (h1 : first.obj 0 ≠ dblMax) :
    ∃ r d', run s (first :: l) (fresh p.mid.length, d) = .ok (r, d') ∧
      d'.redshift = some (last.factor s) ∧ d'.time = some (last.ph 0) ∧ d'.impact = some first.impact := by
  refine ⟨_, _, run_eq hs hn 1 (first :: l) ⟨1, fun _ => 1, fun _ => 1, d⟩ hv, ?_⟩
  have gen : ∀ (l : List Hit) (a : Abs), a.d.redshift.isSome → a.d.time.isSome → ∀ last, l.getLast? = some last →
      (l.foldl (next s p) a).d.redshift = some (last.factor s) ∧ (l.foldl (next s p) a).d.time = some (last.ph 0) := by
    intro l
    induction l with
    | nil => intro a _ _ last h; cases h
    | cons h l ih =>
      intro a h1 h2 last hl
      have L := newData_like s p h a.d a.T0 a.T a.M
      rcases l with _ | ⟨h', l⟩
      · simp only [List.getLast?_singleton, Option.some.injEq] at hl
        subst hl
        obtain ⟨x, hx⟩ := Option.isSome_iff_exists.1 h1
        obtain ⟨t, ht⟩ := Option.isSome_iff_exists.1 h2
        simp [next, newData, hx, ht, Hit.factor]
      · exact ih (next s p a h) (L.redshift.trans h1) (L.time.trans h2) last (by simpa using hl)
  have gen2 : ∀ (l : List Hit) (a : Abs) (v : Fin 16 → ℝ), a.d.impact = some v → v 0 ≠ dblMax →
      (l.foldl (next s p) a).d.impact = some v := by
    intro l
    induction l with
    | nil => intro a v h _; exact h
    | cons h l ih =>
      intro a v hv hne
      refine ih (next s p a h) v ?_ hne
      simp [next, newData, hv, hne]
  obtain ⟨e1, e2⟩ := gen (first :: l) ⟨1, fun _ => 1, fun _ => 1, d⟩ (by simp [hx]) (by simp [ht]) last hlast
  refine ⟨e1, e2, gen2 l _ first.impact ?_ ?_⟩
  · simp [next, newData, hw, h0]
  · simpa [Hit.impact] using h1

/-! ### C100: stopping behind an opaque object -/

/-- Nothing passes, at any frequency. -/
structure Opaque (h : Hit) : Prop where
  transmission : ∀ nu ds, h.transmission nu ds = 0
  radiativeQ : ∀ nu ds j, (h.radiativeQ nu ds j).2 = 0
  polar : ∀ nu ds j, (h.radiativeQPolar nu ds j).2 = 0

theorem max_map_range (n : Nat) (h0 : 0 < n) (c : ℝ) (hc : 0 ≤ c) (f : Nat → ℝ) (hf : ∀ i, i < n → f i = c) :
    maxLoop ((List.range n).map f) 0 = c := by
  have e : (List.range n).map f = List.replicate n c := by
    rw [List.eq_replicate_iff]
    refine ⟨by simp, fun b hb => ?_⟩
    obtain ⟨i, hi, rfl⟩ := List.mem_map.1 hb
    exact hf i (List.mem_range.1 hi)
  have gen : ∀ (m : Nat) (a : ℝ), a = 0 ∨ a = c → maxLoop (List.replicate m c) a = if m = 0 then a else c := by
    intro m
    induction m with
    | zero => intro a _; simp [maxLoop]
    | succ m ih =>
      intro a ha
      rw [List.replicate_succ, maxLoop]
      have : (if c > a then c else a) = c := by
        rcases ha with rfl | rfl
        · split_ifs with h
          · rfl
          · exact le_antisymm hc (not_lt.1 h)
        · simp
      rw [this, ih c (Or.inr rfl)]
      simp
  rw [e, gen n 0 (Or.inl rfl), if_neg (by omega)]

/-- **C100.** After an opaque hit the ray stops exactly when a quantity which updates the transmission consulted is requested: without
parallel transport the spectrum or the binned spectrum, with it the spectrum or a Stokes parameter. -/
theorem opaque_stops_iff (hs : s.spr = some p) (hn : p.mid.length < noIndex) (h0 : 0 < p.mid.length) (h : Hit) (ho : Opaque h)
    (d : Data) (hv : Served s d [h]) :
    ∃ r d', process s h (fresh p.mid.length, d) = .ok (r, d') ∧
      (getTransmissionMax r s.transport < limit ↔
        if s.transport then d.polarAsked = true else d.spectrum.isSome ∨ d.binspectrum.isSome) := by
  have hi : ¬ d.Pending ∨ h.size ≤ 8 := by
    rcases hv.impact h (by simp) with e | e
    · left
      rintro ⟨w, hw, -⟩
      rw [e] at hw
      cases hw
    · exact Or.inr e
  refine ⟨_, _, process_eq s p h d hs hn hi hv.spectrum, ?_⟩
  have l0 : (0 : ℝ) < limit := by norm_num [limit]
  have l1 : ¬ (1 : ℝ) < limit := by norm_num [limit]
  cases ht : s.transport with
  | true =>
    have e : getTransmissionMax (mkRay p.mid.length (newT0 s h d 1) 1 (newT s p h d fun _ => 1) (newM s h d fun _ => 1)) true =
        maxLoop ((List.range p.mid.length).map fun j => newM s h d (fun _ => 1) j 0 0) 0 := by
      simp [getTransmissionMax, mkRay, Function.comp_def]
    rw [e]
    by_cases hp : d.polarAsked = true
    · rw [max_map_range _ h0 0 le_rfl _ fun i _ => by simp [newM, ht, hp, polAt, ho.polar]]
      simp [l0, hp]
    · rw [max_map_range _ h0 1 zero_le_one _ fun i _ => by simp [newM, hp]]
      simp [l1, hp]
  | false =>
    have e : getTransmissionMax (mkRay p.mid.length (newT0 s h d 1) 1 (newT s p h d fun _ => 1) (newM s h d fun _ => 1)) false =
        maxLoop ((List.range p.mid.length).map (newT s p h d fun _ => 1)) 0 := by
      simp [getTransmissionMax, mkRay]
    rw [e]
    by_cases hq : d.spectrum.isSome ∨ d.binspectrum.isSome
    · rw [max_map_range _ h0 0 le_rfl _ fun i _ => by
        unfold newT
        rcases hq with hq | hq
        · simp [hq, ht, tauAt, ho.radiativeQ]
        · by_cases h1 : d.spectrum.isSome = true
          · simp [h1, ht, tauAt, ho.radiativeQ]
          · simp [h1, hq, fracAt, ho.transmission]]
      simp [l0, hq]
    · have hq' := hq
      push Not at hq'
      rw [max_map_range _ h0 1 zero_le_one _ fun i _ => by simp [newT, hq'.1, hq'.2]]
      simp [l1, hq'.1, hq'.2]

/-- **C100.** What is behind an opaque object has no effect when one of these quantities is requested. -/
theorem opaque_hides_partial (hs : s.spr = some p) (hn : p.mid.length < noIndex) (h0 : 0 < p.mid.length) (h : Hit) (ho : Opaque h)
    (d : Data) (hv : Served s d [h])
    (hq : if s.transport then d.polarAsked = true else d.spectrum.isSome ∨ d.binspectrum.isSome) (behind : List (List Hit)) :
    trace s ([h] :: behind) (fresh p.mid.length, d) = process s h (fresh p.mid.length, d) := by
  obtain ⟨r, d', h1, h2⟩ := opaque_stops_iff hs hn h0 h ho d hv
  rw [trace, run, h1, bind_ok, run, bind_ok, if_pos (h2.2 hq)]

/-- **C100, refuted part.** In a scene with a spectrometer, when only scalar quantities are requested, the ray goes through opaque
objects: the redshift and the date are those of the last hit, however many opaque surfaces hide it. -/
theorem hidden_redshift_wrong (hs : s.spr = some p) (hn : p.mid.length < noIndex) (h0 : 0 < p.mid.length) (d : Data)
    (hp : d.polarAsked = false) (hb : d.binspectrum = none) (hI : d.impact = none) (x t : ℝ) (hx : d.redshift = some x)
    (ht : d.time = some t) (l : List Hit) (last : Hit) :
    ∃ r d', trace s ((l ++ [last]).map fun h => [h]) (fresh p.mid.length, d) = .ok (r, d') ∧
      d'.redshift = some (last.factor s) ∧ d'.time = some (last.ph 0) := by
  have l1 : ¬ (1 : ℝ) < limit := by norm_num [limit]
  have gen : ∀ (l : List Hit) (T0 : ℝ) (d : Data), d.polarAsked = false → d.binspectrum = none → d.impact = none →
      d.redshift.isSome → d.time.isSome →
      ∃ r d', trace s ((l ++ [last]).map fun h => [h]) (mkRay p.mid.length T0 1 (fun _ => 1) (fun _ => 1), d) = .ok (r, d') ∧
        d'.redshift = some (last.factor s) ∧ d'.time = some (last.ph 0) := by
    have one : ∀ (h : Hit) (T0 : ℝ) (d : Data), d.polarAsked = false → d.binspectrum = none → d.impact = none →
        process s h (mkRay p.mid.length T0 1 (fun _ => 1) (fun _ => 1), d) =
          .ok (mkRay p.mid.length (newT0 s h d T0) 1 (fun _ => 1) (fun _ => 1),
            newData s p h d T0 (fun _ => 1) (fun _ => 1)) := by
      intro h T0 d hp hb hI
      have hsp : d.spectrum = none := by
        simp only [Data.polarAsked, Bool.or_eq_false_iff, Option.isSome_eq_false_iff, Option.isNone_iff_eq_none] at hp
        exact hp.1.1.1
      rw [process_eq s p h d hs hn (Or.inl (by rintro ⟨w, hw, -⟩; rw [hI] at hw; cases hw)) (Or.inr (Or.inl hp))]
      have e1 : (newT s p h d fun _ => 1) = fun _ => 1 := by funext j; simp [newT, hsp, hb]
      have e2 : (newM s h d fun _ => 1) = fun _ => 1 := by funext j; simp [newM, hp]
      rw [e1, e2]
    have nostop : ∀ T0 : ℝ, ¬ getTransmissionMax (mkRay p.mid.length T0 1 (fun _ => 1) (fun _ => 1)) s.transport < limit := by
      intro T0
      cases hst : s.transport with
      | true =>
        have e : getTransmissionMax (mkRay p.mid.length T0 1 (fun _ => 1) (fun _ => 1)) true =
            maxLoop ((List.range p.mid.length).map fun _ => (1 : ℝ)) 0 := by
          simp [getTransmissionMax, mkRay]
        rw [e, max_map_range _ h0 1 zero_le_one _ fun _ _ => rfl]
        exact l1
      | false =>
        have e : getTransmissionMax (mkRay p.mid.length T0 1 (fun _ => 1) (fun _ => 1)) false =
            maxLoop ((List.range p.mid.length).map fun _ => (1 : ℝ)) 0 := by
          simp [getTransmissionMax, mkRay]
        rw [e, max_map_range _ h0 1 zero_le_one _ fun _ _ => rfl]
        exact l1
    intro l
    induction l with
    | nil =>
      intro T0 d hp hb hI hr ht
      obtain ⟨x, hx⟩ := Option.isSome_iff_exists.1 hr
      obtain ⟨t, ht⟩ := Option.isSome_iff_exists.1 ht
      simp only [List.nil_append, List.map_cons, List.map_nil, trace, run, one last T0 d hp hb hI, bind_ok, nostop, if_false]
      exact ⟨_, _, rfl, by simp [newData, hx, Hit.factor], by simp [newData, ht]⟩
    | cons h l ih =>
      intro T0 d hp hb hI hr ht
      have L := newData_like s p h d T0 (fun _ => 1) (fun _ => 1)
      simp only [List.cons_append, List.map_cons, trace, run, one h T0 d hp hb hI, bind_ok, nostop, if_false]
      refine ih _ _ (L.polar.trans hp) ?_ ?_ (L.redshift.trans hr) (L.time.trans ht)
      · show Option.map _ d.binspectrum = none
        rw [hb]; rfl
      · show Option.map _ d.impact = none
        rw [hI]; rfl
  exact gen l 1 d hp hb hI (by simp [hx]) (by simp [ht])

/-- Without spectrometer the ray does stop. -/
theorem opaque_stops_bare (hs : s.spr = none) (h : Hit) (ho : Opaque h) (r : Ray) (hr : r.spectro = none) (d : Data)
    (hi : ¬ d.Pending ∨ h.size ≤ 8) (hb : d.binspectrum = none)
    (hf : d.redshift.isSome ∨ d.time.isSome ∨ d.impact.isSome ∨ d.intensity.isSome) (behind : List (List Hit)) :
    trace s ([h] :: behind) (r, d) = process s h (r, d) := by
  rw [trace, run, process_bare hs h r d hi hb, bind_ok, run, bind_ok, if_pos]
  have hf' : d.freqAsked = true := by
    rcases hf with e | e | e | e <;> simp [Data.freqAsked, e]
  have : newT0 s h d r.freqobs = 0 := by simp [newT0, hf', ho.transmission]
  simp only [this]
  norm_num [getTransmissionMax, hr, limit]

/-! ### C100: the length of a layer and the transmission at the frequency of the observer -/

/-- **C100.** The length handed over to the object is that of the displacement of the photon during the layer, in the frame of the
emitter: minus the scalar product of the velocity of the emitter and of the displacement, whatever the parameter of the photon. -/
theorem layer_length (h : Hit) (hp : h.ph 4 ≠ 0) (δ : Fin 4 → ℝ) (c : ℝ)
    (hδ : δ = fun i => c * (![h.ph 4, h.ph 5, h.ph 6, h.ph 7] : Fin 4 → ℝ) i) (h0 : δ 0 = h.dt) :
    h.dsem false = -(MetricAlg.scalarProd h.g ![h.obj 4, h.obj 5, h.obj 6, h.obj 7] δ) := by
  have hc : c * h.ph 4 = h.dt := by rw [← h0, hδ]; rfl
  have hd : h.dt / h.ph 4 = c := by rw [← hc]; field_simp
  subst hδ
  rw [Hit.dsem, hd, Hit.ggredm1, if_neg (by simp)]
  simp only [MetricAlg.scalarProd, Fin.sum_univ_four, Matrix.cons_val]
  ring

/-- **C100.** A hit multiplies the transmission at the frequency of the observer by that of the layer at the frequency of the emitter
exactly when the redshift, the date, the impact coordinates, the intensity or the binned spectrum is requested. -/
theorem transmission_updated (hs : s.spr = some p) (hn : p.mid.length < noIndex) (h : Hit) (d : Data) (hv : Served s d [h]) :
    ∃ r d', process s h (fresh p.mid.length, d) = .ok (r, d') ∧
      ((d.redshift.isSome ∨ d.time.isSome ∨ d.impact.isSome ∨ d.intensity.isSome ∨ d.binspectrum.isSome) →
        getTransmission r noIndex = .ok (h.transmission (s.freqObs * h.ggredm1 s.noredshift) (h.dsem s.noredshift))) ∧
      (¬ (d.redshift.isSome ∨ d.time.isSome ∨ d.impact.isSome ∨ d.intensity.isSome ∨ d.binspectrum.isSome) →
        getTransmission r noIndex = .ok 1) := by
  have hi : ¬ d.Pending ∨ h.size ≤ 8 := by
    rcases hv.impact h (by simp) with e | e
    · left
      rintro ⟨w, hw, -⟩
      rw [e] at hw
      cases hw
    · exact Or.inr e
  refine ⟨_, _, process_eq s p h d hs hn hi hv.spectrum, fun hq => ?_, fun hq => ?_⟩
  · have hf : d.freqAsked = true := by
      rcases hq with e | e | e | e | e <;> simp [Data.freqAsked, e]
    simp [getTransmission, mkRay, newT0, hf]
  · have hf : d.freqAsked = false := by
      push Not at hq
      obtain ⟨h1, h2, h3, h4, h5⟩ := hq
      simp only [Data.freqAsked, Bool.or_eq_false_iff]
      simp only [Bool.not_eq_true] at h1 h2 h3 h4 h5
      exact ⟨⟨⟨⟨h1, h2⟩, h3⟩, h4⟩, h5⟩
    simp [getTransmission, mkRay, newT0, hf]

/-! ### Examples -/

/-- A static layer seen by a photon of energy `E` for the emitter (flat space): emits 8, lets half through. -/
noncomputable def exHit (E : ℝ) : Hit where
  size := 8
  ph := ![-3, 0, 0, 0, E, E, 0, 0]
  obj := ![-3, 0, 0, 0, 1, 0, 0, 0]
  dt := 0
  g := !![-1, 0, 0, 0; 0, 1, 0, 0; 0, 0, 1, 0; 0, 0, 0, 1]
  emission := fun _ _ => 8
  transmission := fun _ _ => 1 / 2
  integrateEmission := fun _ _ _ => 16
  radiativeQ := fun _ _ _ => (8, 1 / 2)
  radiativeQPolar := fun _ _ _ => (![8, 0, 0, 0], (1 / 2 : ℝ) • 1)

theorem exHit_gm1 (E : ℝ) : (exHit E).ggredm1 false = E := by
  simp [Hit.ggredm1, exHit, MetricAlg.scalarProd, Fin.sum_univ_four]

/-- Two layers of redshift 1/2: 1 + 1/2. -/
example : observed ([exHit 2, exHit 2].map (intLayer ⟨false, 1, false, none⟩)) = 3 / 2 := by
  simp only [List.map_cons, List.map_nil, observed, intLayer, Hit.factor, exHit_gm1]
  norm_num [exHit]

/-- All quantities but the impact coordinates. -/
noncomputable def exData : Data where
  redshift := some 0
  time := some 0
  impact := none
  intensity := some 0
  binspectrum := some fun _ => 0
  spectrum := some fun _ => 0
  stokesQ := none
  stokesU := none
  stokesV := none
  offset := 3
  intensityConverter := none
  binspectrumConverter := none
  spectrumConverter := none

theorem exServed (s : Setup) : Served s exData [exHit 2, exHit 1] := ⟨fun _ _ => Or.inl rfl, Or.inr (Or.inr rfl)⟩

/-- Spectrum of two channels: 1 + 8/2 in each, three numbers apart. -/
example : ∃ r d' S', run ⟨false, 1, false, some ⟨[1, 2], [1, 2, 3]⟩⟩ [exHit 2, exHit 1] (fresh 2, exData) = .ok (r, d') ∧
    d'.spectrum = some S' ∧ S' 0 = 5 ∧ S' 3 = 5 ∧ S' 1 = 0 := by
  obtain ⟨r, d', S', h1, h2, h3⟩ := spectrum_observed (s := ⟨false, 1, false, some ⟨[1, 2], [1, 2, 3]⟩⟩) (p := ⟨[1, 2], [1, 2, 3]⟩) rfl
    (by norm_num [noIndex]) rfl [exHit 2, exHit 1] exData (exServed _) (fun _ => 0) rfl (by norm_num [exData]) trivial
  refine ⟨r, d', S', h1, h2, ?_, ?_, ?_⟩
  · have := h3.at_ 0 (by norm_num)
    simp only [List.map_cons, List.map_nil, observed, specLayer, Hit.factor, exHit_gm1, convert, exData] at this
    norm_num [exHit] at this
    exact this
  · have := h3.at_ 1 (by norm_num)
    simp only [List.map_cons, List.map_nil, observed, specLayer, Hit.factor, exHit_gm1, convert, exData] at this
    norm_num [exHit] at this
    exact this
  · exact h3.other 1 fun j hj => by
      simp only [exData]
      omega

/-- Binned spectrum of the same: 16/16 + 16/2 without parallel transport, 16/16 + 16 with it. -/
example : (∃ r d' B', run ⟨false, 1, false, some ⟨[1, 2], [1, 2, 3]⟩⟩ [exHit 2, exHit 1] (fresh 2, exData) = .ok (r, d') ∧
      d'.binspectrum = some B' ∧ B' 0 = 9) ∧
    ∃ r d' B', run ⟨false, 1, true, some ⟨[1, 2], [1, 2, 3]⟩⟩ [exHit 2, exHit 1] (fresh 2, exData) = .ok (r, d') ∧
      d'.binspectrum = some B' ∧ B' 0 = 17 := by
  constructor
  · obtain ⟨r, d', B', h1, h2, h3⟩ := bin_observed_partial (s := ⟨false, 1, false, some ⟨[1, 2], [1, 2, 3]⟩⟩)
      (p := ⟨[1, 2], [1, 2, 3]⟩) rfl (by norm_num [noIndex]) [exHit 2, exHit 1] exData (exServed _) (fun _ => 0) rfl
      (Or.inr ⟨rfl, fun h hm => by
        simp only [List.mem_cons, List.not_mem_nil, or_false] at hm
        rcases hm with rfl | rfl <;> intro j _ <;> rfl⟩) (by norm_num [exData]) trivial
    refine ⟨r, d', B', h1, h2, ?_⟩
    have := h3.at_ 0 (by norm_num)
    simp only [List.map_cons, List.map_nil, observed, binLayer, Hit.factor, exHit_gm1, convert, exData] at this
    norm_num [exHit] at this
    exact this
  · obtain ⟨r, d', B', h1, h2, h3⟩ := bin_unabsorbed_wrong (s := ⟨false, 1, true, some ⟨[1, 2], [1, 2, 3]⟩⟩)
      (p := ⟨[1, 2], [1, 2, 3]⟩) rfl (by norm_num [noIndex]) rfl [exHit 2, exHit 1] exData (exServed _) (fun _ => 0) (fun _ => 0) rfl
      rfl (by norm_num [exData]) trivial
    refine ⟨r, d', B', h1, h2, ?_⟩
    have := h3.at_ 0 (by norm_num)
    simp only [List.map_cons, List.map_nil, List.sum_cons, List.sum_nil, binLayer, Hit.factor, exHit_gm1, convert, exData] at this
    norm_num [exHit] at this
    exact this

/-- The same, opaque. -/
noncomputable def exWall (E : ℝ) : Hit :=
  { exHit E with
    transmission := fun _ _ => 0
    radiativeQ := fun _ _ _ => (8, 0)
    radiativeQPolar := fun _ _ _ => (![8, 0, 0, 0], 0) }

theorem exWall_opaque (E : ℝ) : Opaque (exWall E) := ⟨fun _ _ => rfl, fun _ _ _ => rfl, fun _ _ _ => rfl⟩

/-- A wall of redshift 1/2 hides a wall of redshift 1/4, of which the redshift is returned when there is a spectrometer. -/
example : ∃ r d', trace ⟨false, 1, false, some ⟨[1], [0, 2]⟩⟩ [[exWall 2], [exWall 4]]
      (fresh 1, { exData with binspectrum := none, spectrum := none }) = .ok (r, d') ∧ d'.redshift = some (1 / 4) := by
  obtain ⟨r, d', h1, h2, -⟩ := hidden_redshift_wrong (s := ⟨false, 1, false, some ⟨[1], [0, 2]⟩⟩) (p := ⟨[1], [0, 2]⟩) rfl
    (by norm_num [noIndex]) (by norm_num) { exData with binspectrum := none, spectrum := none } rfl rfl rfl 0 0 rfl rfl
    [exWall 2] (exWall 4)
  refine ⟨r, d', h1, h2.trans ?_⟩
  have : (exWall 4).ggredm1 false = 4 := exHit_gm1 4
  simp [Hit.factor, this]

/-- A layer crossed during 3 by a photon of momentum (2, 2, 0, 0), seen by an emitter at rest: 3, not the 3/2 of the parameter. -/
example : ({ exHit 2 with dt := 3 } : Hit).dsem false = 3 := by
  obtain ⟨h, hh⟩ : ∃ h : Hit, h = { exHit 2 with dt := 3 } := ⟨_, rfl⟩
  have p4 : h.ph 4 = 2 := by rw [hh]; rfl
  have p5 : h.ph 5 = 2 := by rw [hh]; rfl
  have p6 : h.ph 6 = 0 := by rw [hh]; rfl
  have p7 : h.ph 7 = 0 := by rw [hh]; rfl
  have o4 : h.obj 4 = 1 := by rw [hh]; rfl
  have o5 : h.obj 5 = 0 := by rw [hh]; rfl
  have o6 : h.obj 6 = 0 := by rw [hh]; rfl
  have o7 : h.obj 7 = 0 := by rw [hh]; rfl
  have hg : h.g = !![-1, 0, 0, 0; 0, 1, 0, 0; 0, 0, 1, 0; 0, 0, 0, 1] := by rw [hh]; rfl
  rw [← hh, layer_length h (by rw [p4]; norm_num) ![3, 3, 0, 0] (3 / 2) (by
    rw [p4, p5, p6, p7]; funext i; fin_cases i <;> norm_num) (by rw [hh]; rfl), hg, o4, o5, o6, o7]
  simp [MetricAlg.scalarProd, Fin.sum_univ_four]

/-- The redshift alone is enough. -/
example : ∃ r d', process ⟨false, 1, false, some ⟨[1], [0, 2]⟩⟩ (exHit 2)
      (fresh 1, { exData with time := none, intensity := none, binspectrum := none, spectrum := none }) = .ok (r, d') ∧
    getTransmission r noIndex = .ok (1 / 2) := by
  obtain ⟨r, d', h1, h2, -⟩ := transmission_updated (s := ⟨false, 1, false, some ⟨[1], [0, 2]⟩⟩) (p := ⟨[1], [0, 2]⟩) rfl
    (by norm_num [noIndex]) (exHit 2) { exData with time := none, intensity := none, binspectrum := none, spectrum := none }
    ⟨fun _ _ => Or.inl rfl, Or.inr (Or.inl rfl)⟩
  exact ⟨r, d', h1, h2 (Or.inl rfl)⟩

end Gyoto.HitQ
