import Verif.Model.HitQuantities
import Mathlib.Tactic.Ring
import Mathlib.Tactic.Linarith
import Mathlib.Data.List.Basic

/-! Effect of each part of `processHitQuantities`. -/

namespace Gyoto.HitQ

open Gyoto.Emission (Mueller)
open Gyoto.Transfer

@[simp] theorem bind_ok {α β : Type} (a : α) (f : α → Out β) : Out.bind (.ok a) f = f a := rfl
@[simp] theorem bind_throws {α β : Type} (f : α → Out β) : Out.bind .throws f = .throws := rfl
@[simp] theorem bind_ub {α β : Type} (f : α → Out β) : Out.bind .ub f = .ub := rfl

/-- A ray with `n` channels: transmissions `T0` (frequency of the observer) and `T i`, matrices `M i`. -/
def mkRay (n : Nat) (T0 : ℝ) (M0 : Mueller) (T : Nat → ℝ) (M : Nat → Mueller) : Ray :=
  ⟨T0, M0, some n, some ((List.range n).map T), some ((List.range n).map M)⟩

theorem mkRay_congr {n : Nat} {T0 : ℝ} {M0 : Mueller} {T T' : Nat → ℝ} {M M' : Nat → Mueller}
    (hT : ∀ i, i < n → T i = T' i) (hM : ∀ i, i < n → M i = M' i) : mkRay n T0 M0 T M = mkRay n T0 M0 T' M' := by
  have e1 : (List.range n).map T = (List.range n).map T' := List.map_congr_left fun i hi => hT i (List.mem_range.1 hi)
  have e2 : (List.range n).map M = (List.range n).map M' := List.map_congr_left fun i hi => hM i (List.mem_range.1 hi)
  simp only [mkRay, e1, e2]

variable {n : Nat} {T0 : ℝ} {M0 : Mueller} {T : Nat → ℝ} {M : Nat → Mueller}

theorem get_mkRay (hn : n < noIndex) {i : Nat} (hi : i < n) : getTransmission (mkRay n T0 M0 T M) i = .ok (T i) := by
  have h1 : i ≠ noIndex := by omega
  have h2 : ¬ n ≤ i := by omega
  simp [getTransmission, mkRay, h1, h2, hi]

theorem get_freq (r : Ray) : getTransmission r noIndex = .ok r.freqobs := by simp [getTransmission]

theorem set_map_range {α : Type} (f : Nat → α) (n i : Nat) (a : α) :
    ((List.range n).map f).set i a = (List.range n).map (Function.update f i a) := by
  apply List.ext_getElem?
  intro k
  rw [List.getElem?_set]
  by_cases e : i = k
  · subst e
    by_cases hk : i < n
    · simp [hk]
    · simp [hk]
  · have : k ≠ i := fun h => e h.symm
    by_cases hk : k < n
    · simp [e, hk, Function.update_of_ne this]
    · simp [e, hk]

theorem transmit_mkRay (hn : n < noIndex) {i : Nat} (hi : i < n) (t : ℝ) :
    transmit (mkRay n T0 M0 T M) i t = .ok (mkRay n T0 M0 (Function.update T i (T i * t)) M) := by
  have h1 : i ≠ noIndex := by omega
  have h2 : ¬ n ≤ i := by omega
  simp [transmit, mkRay, h1, h2, hi, set_map_range]

theorem transmit_freq (r : Ray) (t : ℝ) : transmit r noIndex t = .ok { r with freqobs := r.freqobs * t } := by simp [transmit]

theorem transmitMatrix_mkRay (hn : n < noIndex) {i : Nat} (hi : i < n) (o : Mueller) :
    transmitMatrix (mkRay n T0 M0 T M) i o = .ok (mkRay n T0 M0 T (Function.update M i (M i * o))) := by
  have h1 : i ≠ noIndex := by omega
  have h2 : ¬ n ≤ i := by omega
  simp [transmitMatrix, mkRay, h1, h2, hi, set_map_range]

/-- `Photon::transfer` from channel `i` on. -/
theorem transferFrom_mkRay (hn : n < noIndex) (q : Nat → Stokes × Mueller) (k i : Nat) (hk : i + k = n) (M : Nat → Mueller) :
    transferFrom (mkRay n T0 M0 T M) i ((List.range' i k).map q) =
      .ok ((List.range' i k).map fun j => (M j).mulVec (q j).1,
        mkRay n T0 M0 T fun j => if i ≤ j ∧ j < n then M j * (q j).2 else M j) := by
  induction k generalizing i M with
  | zero =>
    simp only [List.range'_zero, List.map_nil, transferFrom, Out.ok.injEq, Prod.mk.injEq, true_and]
    refine mkRay_congr (fun _ _ => rfl) fun j hj => ?_
    rw [if_neg (by omega)]
  | succ k ih =>
    have hi : i < n := by omega
    simp only [List.range'_succ, List.map_cons]
    rw [show q i = ((q i).1, (q i).2) from rfl, transferFrom]
    have hm : (mkRay n T0 M0 T M).mats = some ((List.range n).map M) := rfl
    simp only [hm, List.getElem?_map, List.getElem?_range hi, Option.map_some, transmitMatrix_mkRay hn hi]
    rw [ih (i + 1) (by omega)]
    simp only [Out.ok.injEq, Prod.mk.injEq, List.cons.injEq, true_and]
    refine ⟨List.map_congr_left fun j hj => ?_, mkRay_congr (fun _ _ => rfl) fun j hj => ?_⟩
    · have : j ≠ i := by
        have := (List.mem_range'_1.1 hj).1
        omega
      rw [Function.update_of_ne this]
    · by_cases e : j = i
      · subst e
        rw [if_neg (by omega), if_pos (by omega), Function.update_self]
      · rw [Function.update_of_ne e]
        by_cases hj' : i + 1 ≤ j ∧ j < n
        · rw [if_pos hj', if_pos (by omega)]
        · rw [if_neg hj', if_neg (by omega)]

/-! ### Arrays -/

/-- The array after a loop which has added `inc j` to element `j*off`, for `j` in `i, …, i+k-1`. -/
def addAll (off : Nat) (inc : Nat → ℝ) (i : Nat) : Nat → (Nat → ℝ) → Nat → ℝ
  | 0, f => f
  | k + 1, f => addAll off inc (i + 1) k (Function.update f (i * off) (f (i * off) + inc i))

theorem addAll_congr {off : Nat} {inc inc' : Nat → ℝ} (k : Nat) : ∀ i (f : Nat → ℝ), (∀ j, i ≤ j → j < i + k → inc j = inc' j) →
    addAll off inc i k f = addAll off inc' i k f := by
  induction k with
  | zero => intro i f _; rfl
  | succ k ih =>
    intro i f h
    rw [addAll, addAll, h i (le_refl _) (by omega)]
    exact ih _ _ fun j h1 h2 => h j (by omega) (by omega)

/-- Elements which are not multiples of the offset, or belong to other channels, are left alone. -/
theorem addAll_other {off : Nat} {inc : Nat → ℝ} (k : Nat) : ∀ i (f : Nat → ℝ) m, (∀ j, i ≤ j → j < i + k → m ≠ j * off) →
    addAll off inc i k f m = f m := by
  induction k with
  | zero => intro i f m _; rfl
  | succ k ih =>
    intro i f m h
    rw [addAll, ih _ _ _ fun j h1 h2 => h j (by omega) (by omega), Function.update_of_ne (h i (le_refl _) (by omega))]

/-- The element of channel `j` is increased once. -/
theorem addAll_at {off : Nat} (hoff : 0 < off) {inc : Nat → ℝ} (k : Nat) : ∀ i (f : Nat → ℝ) j, i ≤ j → j < i + k →
    addAll off inc i k f (j * off) = f (j * off) + inc j := by
  induction k with
  | zero => intro i f j h1 h2; omega
  | succ k ih =>
    intro i f j h1 h2
    rw [addAll]
    by_cases e : j = i
    · subst e
      rw [addAll_other, Function.update_self]
      intro j' h3 h4 h5
      have := Nat.eq_of_mul_eq_mul_right hoff h5
      omega
    · rw [ih _ _ j (by omega) (by omega), Function.update_of_ne]
      intro h5
      exact e (Nat.eq_of_mul_eq_mul_right hoff h5)

/-! ### The parts -/

/-- What `binspectrum` receives for a channel. -/
noncomputable def binInc (s : Setup) (h : Hit) (c : Option (ℝ → ℝ)) (I T : Nat → ℝ) (j : Nat) : ℝ :=
  convert c (I j * T j * (1 / h.ggredm1 s.noredshift) * (1 / h.ggredm1 s.noredshift) * (1 / h.ggredm1 s.noredshift)
    * (1 / h.ggredm1 s.noredshift))

theorem bin_loop (s : Setup) (h : Hit) (mid : List ℝ) (I : Nat → ℝ) (hn : n < noIndex) (k : Nat) :
    ∀ (i : Nat) (T : Nat → ℝ) (d : Data) (B : Nat → ℝ), i + k ≤ n → d.binspectrum = some B →
      channels (binBody s h mid I) i k (mkRay n T0 M0 T M, d) =
        .ok (mkRay n T0 M0 (fun j => if i ≤ j ∧ j < i + k ∧ d.spectrum = none then
            T j * h.transmission (mid.getD j 0 * h.ggredm1 s.noredshift) (h.dsem s.noredshift) else T j) M,
          { d with binspectrum := some (addAll d.offset (binInc s h d.binspectrumConverter I T) i k B) }) := by
  induction k with
  | zero =>
    intro i T d B _ hB
    simp only [channels, Out.ok.injEq, Prod.mk.injEq]
    refine ⟨mkRay_congr (fun j _ => ?_) fun _ _ => rfl, ?_⟩
    · rw [if_neg (by omega)]
    · rw [addAll, ← hB]
  | succ k ih =>
    intro i T d B hk hB
    have hi : i < n := by omega
    rw [channels]
    simp only [binBody, get_mkRay hn hi, bind_ok]
    by_cases hs : d.spectrum = none
    · rw [if_pos (by simp [hs]), transmit_mkRay hn hi, bind_ok, bind_ok]
      rw [ih (i + 1) _ _ (Function.update B (i * d.offset) (B (i * d.offset) + binInc s h d.binspectrumConverter I T i)) (by omega)
        (by simp [hB, addTo, binInc])]
      simp only [Out.ok.injEq, Prod.mk.injEq]
      refine ⟨mkRay_congr (fun j _ => ?_) fun _ _ => rfl, ?_⟩
      · by_cases e : j = i
        · subst e
          rw [if_neg (by omega), if_pos ⟨le_refl _, by omega, hs⟩, Function.update_self]
        · rw [Function.update_of_ne e]
          by_cases hj : i + 1 ≤ j ∧ j < i + 1 + k
          · rw [if_pos ⟨hj.1, hj.2, hs⟩, if_pos ⟨by omega, by omega, hs⟩]
          · rw [if_neg (fun h => hj ⟨h.1, h.2.1⟩), if_neg (fun h => hj ⟨by omega, by omega⟩)]
      · rw [addAll]
        congr 2
        apply addAll_congr
        intro j h1 h2
        unfold binInc
        rw [Function.update_of_ne (by omega)]
    · rw [if_neg (by simpa using hs), bind_ok]
      rw [ih (i + 1) _ _ (Function.update B (i * d.offset) (B (i * d.offset) + binInc s h d.binspectrumConverter I T i)) (by omega)
        (by simp [hB, addTo, binInc])]
      simp only [Out.ok.injEq, Prod.mk.injEq]
      refine ⟨mkRay_congr (fun j _ => ?_) fun _ _ => rfl, rfl⟩
      rw [if_neg (fun h => hs h.2.2), if_neg (fun h => hs h.2.2)]

/-- What `spectrum` receives for a channel without polarisation. -/
noncomputable def plainInc (s : Setup) (h : Hit) (c : Option (ℝ → ℝ)) (T : Nat → ℝ) (j : Nat) : ℝ :=
  convert c ((h.radiativeQ (s.nuem h) (h.dsem s.noredshift) j).1 * T j * (1 / h.ggredm1 s.noredshift)
    * (1 / h.ggredm1 s.noredshift) * (1 / h.ggredm1 s.noredshift))

theorem plain_loop (s : Setup) (h : Hit) (hn : n < noIndex) (k : Nat) :
    ∀ (i : Nat) (T : Nat → ℝ) (d : Data) (S : Nat → ℝ), i + k ≤ n → d.spectrum = some S →
      channels (plainBody s h) i k (mkRay n T0 M0 T M, d) =
        .ok (mkRay n T0 M0 (fun j => if i ≤ j ∧ j < i + k then
            T j * (h.radiativeQ (s.nuem h) (h.dsem s.noredshift) j).2 else T j) M,
          { d with spectrum := some (addAll d.offset (plainInc s h d.spectrumConverter T) i k S) }) := by
  induction k with
  | zero =>
    intro i T d S _ hS
    simp only [channels, Out.ok.injEq, Prod.mk.injEq]
    refine ⟨mkRay_congr (fun j _ => ?_) fun _ _ => rfl, ?_⟩
    · rw [if_neg (by omega)]
    · rw [addAll, ← hS]
  | succ k ih =>
    intro i T d S hk hS
    have hi : i < n := by omega
    rw [channels]
    simp only [plainBody, get_mkRay hn hi, bind_ok, hS, transmit_mkRay hn hi]
    rw [ih (i + 1) _ _ (Function.update S (i * d.offset) (S (i * d.offset) + plainInc s h d.spectrumConverter T i)) (by omega)
      (by simp [addTo, plainInc])]
    simp only [Out.ok.injEq, Prod.mk.injEq]
    refine ⟨mkRay_congr (fun j _ => ?_) fun _ _ => rfl, ?_⟩
    · by_cases e : j = i
      · subst e
        rw [if_neg (by omega), if_pos ⟨le_refl _, by omega⟩, Function.update_self]
      · rw [Function.update_of_ne e]
        by_cases hj : i + 1 ≤ j ∧ j < i + 1 + k
        · rw [if_pos hj, if_pos ⟨by omega, by omega⟩]
        · rw [if_neg hj, if_neg (fun h => hj ⟨by omega, by omega⟩)]
    · rw [addAll]
      congr 2
      apply addAll_congr
      intro j h1 h2
      unfold plainInc
      rw [Function.update_of_ne (by omega)]

/-- What a polarised array receives for a channel; `m` is 0 for `spectrum`, 1, 2, 3 for the others. -/
noncomputable def polarInc (s : Setup) (h : Hit) (c : Option (ℝ → ℝ)) (out : List Stokes) (m : Fin 4) (j : Nat) : ℝ :=
  convert c ((out.getD j 0) m * (1 / h.ggredm1 s.noredshift * (1 / h.ggredm1 s.noredshift) * (1 / h.ggredm1 s.noredshift)))

theorem polar_loop (s : Setup) (h : Hit) (out : List Stokes) (r : Ray) (k : Nat) :
    ∀ (i : Nat) (d : Data), channels (polarBody s h out) i k (r, d) =
      .ok (r, { d with
        spectrum := d.spectrum.map (addAll d.offset (polarInc s h d.spectrumConverter out 0) i k)
        stokesQ := d.stokesQ.map (addAll d.offset (polarInc s h d.spectrumConverter out 1) i k)
        stokesU := d.stokesU.map (addAll d.offset (polarInc s h d.spectrumConverter out 2) i k)
        stokesV := d.stokesV.map (addAll d.offset (polarInc s h d.spectrumConverter out 3) i k) }) := by
  induction k with
  | zero =>
    intro i d
    have : ∀ inc, addAll d.offset inc i 0 = id := fun _ => rfl
    simp [channels, this]
  | succ k ih =>
    intro i d
    rw [channels]
    simp only [polarBody, bind_ok]
    rw [ih]
    have aux : ∀ (a : Option (Nat → ℝ)) (inc : Nat → ℝ), (addTo a (i * d.offset) (inc i)).map (addAll d.offset inc (i + 1) k) =
        a.map (addAll d.offset inc i (k + 1)) := by
      intro a inc
      cases a <;> rfl
    simp only [Out.ok.injEq, Prod.mk.injEq, true_and]
    congr 1
    · exact aux _ (polarInc s h d.spectrumConverter out 0)
    · exact aux _ (polarInc s h d.spectrumConverter out 1)
    · exact aux _ (polarInc s h d.spectrumConverter out 2)
    · exact aux _ (polarInc s h d.spectrumConverter out 3)

/-! ### One call -/

/-- `I` of `binspectrum`. -/
noncomputable def binI (s : Setup) (p : Spectro) (h : Hit) : Nat → ℝ :=
  h.integrateEmission (p.bounds.map (· * h.ggredm1 s.noredshift)) (h.dsem s.noredshift)

/-- Fraction passing in channel `j` according to `transmission`. -/
noncomputable def fracAt (s : Setup) (p : Spectro) (h : Hit) (j : Nat) : ℝ :=
  h.transmission (p.mid.getD j 0 * h.ggredm1 s.noredshift) (h.dsem s.noredshift)

/-- Fraction passing in channel `j` according to `radiativeQ`. -/
noncomputable def tauAt (s : Setup) (h : Hit) (j : Nat) : ℝ := (h.radiativeQ (s.nuem h) (h.dsem s.noredshift) j).2

/-- Stokes parameters and matrix of channel `j`. -/
noncomputable def polAt (s : Setup) (h : Hit) (j : Nat) : Stokes × Mueller :=
  h.radiativeQPolar (s.nuem h) (h.dsem s.noredshift) j

noncomputable def newT (s : Setup) (p : Spectro) (h : Hit) (d : Data) (T : Nat → ℝ) (j : Nat) : ℝ :=
  if d.spectrum.isSome then (if s.transport then T j else T j * tauAt s h j)
  else if d.binspectrum.isSome then T j * fracAt s p h j else T j

noncomputable def newM (s : Setup) (h : Hit) (d : Data) (M : Nat → Mueller) (j : Nat) : Mueller :=
  if s.transport && d.polarAsked then M j * (polAt s h j).2 else M j

noncomputable def newT0 (s : Setup) (h : Hit) (d : Data) (T0 : ℝ) : ℝ :=
  if d.freqAsked then T0 * h.transmission (s.freqObs * h.ggredm1 s.noredshift) (h.dsem s.noredshift) else T0

noncomputable def intInc (s : Setup) (h : Hit) (c : Option (ℝ → ℝ)) (T0 : ℝ) : ℝ :=
  convert c (h.emission (s.freqObs * h.ggredm1 s.noredshift) (h.dsem s.noredshift) * T0 * (1 / h.ggredm1 s.noredshift)
    * (1 / h.ggredm1 s.noredshift) * (1 / h.ggredm1 s.noredshift))

noncomputable def outAt (s : Setup) (h : Hit) (n : Nat) (M : Nat → Mueller) : List Stokes :=
  (List.range n).map fun j => (M j).mulVec (polAt s h j).1

open Classical in
noncomputable def newData (s : Setup) (p : Spectro) (h : Hit) (d : Data) (T0 : ℝ) (T : Nat → ℝ) (M : Nat → Mueller) : Data :=
  let n := p.mid.length
  { d with
    redshift := d.redshift.map fun _ => 1 / h.ggredm1 s.noredshift
    time := d.time.map fun _ => h.ph 0
    impact := d.impact.map fun v => if v 0 = dblMax then h.impact else v
    intensity := d.intensity.map fun v => v + intInc s h d.intensityConverter T0
    binspectrum := d.binspectrum.map (addAll d.offset (binInc s h d.binspectrumConverter (binI s p h) T) 0 n)
    spectrum := d.spectrum.map (addAll d.offset
      (if s.transport then polarInc s h d.spectrumConverter (outAt s h n M) 0 else plainInc s h d.spectrumConverter T) 0 n)
    stokesQ := if s.transport then d.stokesQ.map (addAll d.offset (polarInc s h d.spectrumConverter (outAt s h n M) 1) 0 n)
      else d.stokesQ
    stokesU := if s.transport then d.stokesU.map (addAll d.offset (polarInc s h d.spectrumConverter (outAt s h n M) 2) 0 n)
      else d.stokesU
    stokesV := if s.transport then d.stokesV.map (addAll d.offset (polarInc s h d.spectrumConverter (outAt s h n M) 3) 0 n)
      else d.stokesV }

/-- `impactcoords` is requested and still to be written. -/
def Data.Pending (d : Data) : Prop := ∃ v, d.impact = some v ∧ v 0 = dblMax

open Classical in
theorem scalars_eq (s : Setup) (h : Hit) (r : Ray) (d : Data) (hi : ¬ d.Pending ∨ h.size ≤ 8) :
    scalars s h (r, d) = .ok (r, { d with
      redshift := d.redshift.map fun _ => 1 / h.ggredm1 s.noredshift
      time := d.time.map fun _ => h.ph 0
      impact := d.impact.map fun v => if v 0 = dblMax then h.impact else v }) := by
  rcases e : d.impact with _ | v
  · simp [scalars, e]
  · by_cases hv : v 0 = dblMax
    · have hsz : ¬ h.size > 8 := by
        rcases hi with hi | hi
        · exact absurd ⟨v, e, hv⟩ hi
        · omega
      simp [scalars, e, hv, hsz]
    · simp [scalars, e, hv]

theorem scalars_throws (s : Setup) (h : Hit) (r : Ray) (d : Data) (hp : d.Pending) (hs : 8 < h.size) :
    scalars s h (r, d) = .throws := by
  obtain ⟨v, e, hv⟩ := hp
  simp [scalars, e, hv, hs]

theorem intensity_eq (s : Setup) (h : Hit) (r : Ray) (d : Data) :
    intensity s h (r, d) = .ok (r, { d with intensity := d.intensity.map fun v => v + intInc s h d.intensityConverter r.freqobs }) := by
  rcases e : d.intensity with _ | v
  · simp [intensity, e]
    rw [← e]
  · simp [intensity, e, get_freq, intInc]

theorem bin_eq (s : Setup) (p : Spectro) (h : Hit) (d : Data) (hs : s.spr = some p) (hn : p.mid.length < noIndex) :
    bin s h (mkRay p.mid.length T0 M0 T M, d) =
      .ok (mkRay p.mid.length T0 M0 (fun j => if d.binspectrum.isSome ∧ d.spectrum = none then T j * fracAt s p h j else T j) M,
        { d with
          binspectrum := d.binspectrum.map (addAll d.offset (binInc s h d.binspectrumConverter (binI s p h) T) 0 p.mid.length) }) := by
  rcases e : d.binspectrum with _ | B
  · simp [bin, e]
    rw [← e]
  · simp only [bin, e, hs]
    have := bin_loop (T0 := T0) (M0 := M0) (M := M) s h p.mid (binI s p h) hn p.mid.length 0 T d B (by omega) e
    unfold binI at this
    rw [this]
    simp only [Out.ok.injEq, Prod.mk.injEq, Option.map_some, and_true]
    refine ⟨mkRay_congr (fun j hj => ?_) fun _ _ => rfl, rfl⟩
    by_cases hsp : d.spectrum = none
    · rw [if_pos ⟨by omega, by omega, hsp⟩, if_pos ⟨rfl, hsp⟩]
      rfl
    · rw [if_neg (fun h => hsp h.2.2), if_neg (fun h => hsp h.2)]

theorem nb_eq {s : Setup} {p : Spectro} (hs : s.spr = some p) : s.nb = p.mid.length := by simp [Setup.nb, hs]

theorem spectral_eq (s : Setup) (p : Spectro) (h : Hit) (d : Data) (hs : s.spr = some p) (hn : p.mid.length < noIndex)
    (hok : s.transport = true ∨ d.polarAsked = false ∨ d.spectrum.isSome) :
    spectral s h (mkRay p.mid.length T0 M0 T M, d) =
      .ok (mkRay p.mid.length T0 M0 (fun j => if d.spectrum.isSome ∧ s.transport = false then T j * tauAt s h j else T j)
          (newM s h d M),
        { d with
          spectrum := d.spectrum.map (addAll d.offset
            (if s.transport then polarInc s h d.spectrumConverter (outAt s h p.mid.length M) 0
              else plainInc s h d.spectrumConverter T) 0 p.mid.length)
          stokesQ := if s.transport then
              d.stokesQ.map (addAll d.offset (polarInc s h d.spectrumConverter (outAt s h p.mid.length M) 1) 0 p.mid.length)
            else d.stokesQ
          stokesU := if s.transport then
              d.stokesU.map (addAll d.offset (polarInc s h d.spectrumConverter (outAt s h p.mid.length M) 2) 0 p.mid.length)
            else d.stokesU
          stokesV := if s.transport then
              d.stokesV.map (addAll d.offset (polarInc s h d.spectrumConverter (outAt s h p.mid.length M) 3) 0 p.mid.length)
            else d.stokesV }) := by
  by_cases hp : d.polarAsked = true
  · by_cases ht : s.transport = true
    · unfold spectral
      rw [if_pos hp, if_pos ht, nb_eq hs]
      have := transferFrom_mkRay (T0 := T0) (M0 := M0) (T := T) hn (polAt s h) p.mid.length 0 (by omega) M
      rw [← List.range_eq_range'] at this
      unfold polAt at this
      dsimp only
      rw [this, bind_ok]
      dsimp only
      rw [polar_loop]
      simp only [ht, if_true, Out.ok.injEq, Prod.mk.injEq]
      refine ⟨mkRay_congr (fun j hj => ?_) fun j hj => ?_, rfl⟩
      · simp
      · rw [if_pos ⟨by omega, hj⟩]
        simp [newM, ht, hp, polAt]
    · have ht' : s.transport = false := by simpa using ht
      have hsp : d.spectrum.isSome := by
        rcases hok with h1 | h1 | h1
        · exact absurd h1 ht
        · rw [hp] at h1; cases h1
        · exact h1
      obtain ⟨S, hS⟩ := Option.isSome_iff_exists.1 hsp
      unfold spectral
      rw [if_pos hp, if_neg ht, nb_eq hs, plain_loop (n := p.mid.length) s h hn p.mid.length 0 T d S (by omega) hS]
      simp only [ht', hS, Option.map_some, Out.ok.injEq, Prod.mk.injEq]
      refine ⟨mkRay_congr (fun j hj => ?_) fun j hj => ?_, ?_⟩
      · rw [if_pos ⟨by omega, by omega⟩, if_pos ⟨rfl, trivial⟩]
        rfl
      · simp [newM, ht']
      · simp
  · have hp' : d.polarAsked = false := by simpa using hp
    have h4 : d.spectrum = none ∧ d.stokesQ = none ∧ d.stokesU = none ∧ d.stokesV = none := by
      simp only [Data.polarAsked, Bool.or_eq_false_iff, Option.isSome_eq_false_iff, Option.isNone_iff_eq_none] at hp'
      exact ⟨hp'.1.1.1, hp'.1.1.2, hp'.1.2, hp'.2⟩
    unfold spectral
    rw [if_neg hp]
    simp only [h4.1, h4.2.1, h4.2.2.1, h4.2.2.2, Option.map_none, ite_self, Out.ok.injEq, Prod.mk.injEq]
    refine ⟨mkRay_congr (fun j hj => ?_) fun j hj => ?_, ?_⟩
    · simp
    · simp [newM, hp']
    · obtain ⟨a1, a2, a3, a4, a5, a6, a7, a8, a9, a10, a11, a12, a13⟩ := d
      obtain ⟨h1, h2, h3, h5⟩ := h4
      dsimp only at h1 h2 h3 h5
      subst h1 h2 h3 h5
      rfl

/-- All that a call does, for a ray with a spectrometer. -/
theorem process_eq (s : Setup) (p : Spectro) (h : Hit) (d : Data) (hs : s.spr = some p) (hn : p.mid.length < noIndex)
    (hi : ¬ d.Pending ∨ h.size ≤ 8) (hok : s.transport = true ∨ d.polarAsked = false ∨ d.spectrum.isSome) :
    process s h (mkRay p.mid.length T0 M0 T M, d) =
      .ok (mkRay p.mid.length (newT0 s h d T0) M0 (newT s p h d T) (newM s h d M), newData s p h d T0 T M) := by
  unfold process
  rw [scalars_eq s h _ d hi, bind_ok, intensity_eq, bind_ok, bin_eq s p h _ hs hn, bind_ok,
    spectral_eq s p h _ hs hn (by simpa [Data.polarAsked] using hok), bind_ok]
  have hfr : ∀ r : Ray, ∀ d' : Data, d'.freqAsked = d.freqAsked → freq s h (r, d') =
      .ok ({ r with freqobs := newT0 s h d r.freqobs }, d') := by
    intro r d' hd
    unfold freq newT0
    rw [hd]
    by_cases hf : d.freqAsked = true
    · simp [hf, transmit_freq]
    · simp [hf]
  rw [hfr _ _ (by simp [Data.freqAsked])]
  simp only [Out.ok.injEq, Prod.mk.injEq]
  refine ⟨?_, ?_⟩
  · show mkRay p.mid.length (newT0 s h d T0) M0 _ _ = _
    refine mkRay_congr (fun j hj => ?_) fun j hj => ?_
    · unfold newT
      rcases e1 : d.spectrum with _ | S
      · rcases e2 : d.binspectrum with _ | B
        · simp
        · simp
      · rcases e3 : s.transport with _ | _ <;> simp [tauAt]
    · simp [newM, Data.polarAsked]
  · unfold newData
    rcases e1 : d.spectrum with _ | S
    · simp [mkRay]
    · simp [mkRay]

end Gyoto.HitQ
