import Verif.Model.Transfer
import Verif.Model.MetricAlg

/-!
# What a hit adds to the requested quantities (`lib/Astrobj.C:163-448`) and when the ray stops (`lib/Photon.C:677-698`)

Doubles are reals; a requested quantity is `some`, a null pointer `none`. The spectral arrays are functions of the index counted
from the pointer. The object is known by what its methods answer for the hit considered. Output of debugging is left out.
-/

namespace Gyoto.HitQ

open Gyoto.Emission (Mueller)
open Gyoto.Transfer
open Gyoto.MetricAlg (Vec Tensor scalarProd)

/-- Sequence of two actions: the second is not reached when the first throws or is undefined. -/
def Out.bind {α β : Type} (x : Out α) (f : α → Out β) : Out β :=
  match x with
  | .ok a => f a
  | .throws => .throws
  | .ub => .ub

/-- `DBL_MAX`. -/
noncomputable def dblMax : ℝ := 2 ^ 1024 - 2 ^ 971

/-- `Astrobj::Properties` (`include/GyotoAstrobj.h:830-932`), without the quantities which `processHitQuantities` ignores. -/
structure Data where
  redshift : Option ℝ
  time : Option ℝ
  impact : Option (Fin 16 → ℝ)
  intensity : Option ℝ
  binspectrum : Option (Nat → ℝ)
  spectrum : Option (Nat → ℝ)
  stokesQ : Option (Nat → ℝ)
  stokesU : Option (Nat → ℝ)
  stokesV : Option (Nat → ℝ)
  offset : Nat
  intensityConverter : Option (ℝ → ℝ)
  binspectrumConverter : Option (ℝ → ℝ)
  spectrumConverter : Option (ℝ → ℝ)

/-- `if (converter) inc = (*converter)(inc)` (`lib/Astrobj.C:257-260` and alike). -/
def convert (c : Option (ℝ → ℝ)) (inc : ℝ) : ℝ :=
  match c with
  | none => inc
  | some f => f inc

/-- Spectrometer: `getMidpoints()` (of length `nSamples()`) and `getChannelBoundaries()`. -/
structure Spectro where
  mid : List ℝ
  bounds : List ℝ

/-- One call: `coord_ph_hit` (its size and first eight elements), `coord_obj_hit`, `dt`, the metric where the photon is, and the
methods of the object called with these coordinates. -/
structure Hit where
  size : Nat
  ph : Fin 8 → ℝ
  obj : Fin 8 → ℝ
  dt : ℝ
  g : Tensor
  /-- `emission(nu, dsem, …)` -/
  emission : ℝ → ℝ → ℝ
  /-- `transmission(nu, dsem, …)` -/
  transmission : ℝ → ℝ → ℝ
  /-- `integrateEmission(I, boundaries, …, dsem, …)` -/
  integrateEmission : List ℝ → ℝ → Nat → ℝ
  /-- `radiativeQ(Inu, Taunu, nuem, …, dsem, …)` -/
  radiativeQ : List ℝ → ℝ → Nat → ℝ × ℝ
  /-- `radiativeQ(Inu, Qnu, Unu, Vnu, Onu, nuem, …, dsem, …)` -/
  radiativeQPolar : List ℝ → ℝ → Nat → Stokes × Mueller

/-- `ggredm1` (`lib/Astrobj.C:184-188`). -/
noncomputable def Hit.ggredm1 (h : Hit) (noredshift : Bool) : ℝ :=
  if noredshift then 1
  else (-(scalarProd h.g ![h.obj 4, h.obj 5, h.obj 6, h.obj 7] ![h.ph 4, h.ph 5, h.ph 6, h.ph 7]))

/-- `dsem` (`lib/Astrobj.C:182,191`). -/
noncomputable def Hit.dsem (h : Hit) (noredshift : Bool) : ℝ := h.dt / h.ph 4 * h.ggredm1 noredshift

/-- What does not change along a ray: `noredshift_`, `ph->freqObs()`, `ph->parallelTransport()`, `ph->spectrometer()`. -/
structure Setup where
  noredshift : Bool
  freqObs : ℝ
  transport : Bool
  spr : Option Spectro

/-- `nbnuobs` (`lib/Astrobj.C:180`). -/
def Setup.nb (s : Setup) : Nat := match s.spr with | none => 0 | some p => p.mid.length

/-- `nuem` (`lib/Astrobj.C:314-316,398-400`). -/
noncomputable def Setup.nuem (s : Setup) (h : Hit) : List ℝ :=
  match s.spr with
  | none => []
  | some p => p.mid.map (· * h.ggredm1 s.noredshift)

abbrev State := Ray × Data

/-- The sixteen numbers of `impactcoords` (`lib/Astrobj.C:216-217`). -/
def Hit.impact (h : Hit) : Fin 16 → ℝ := fun i =>
  if hi : i.1 < 8 then h.obj ⟨i.1, hi⟩ else h.ph ⟨i.1 - 8, by omega⟩

open Classical in
/-- `redshift`, `time` and `impactcoords` (`lib/Astrobj.C:202-218`). -/
noncomputable def scalars (s : Setup) (h : Hit) (x : State) : Out State :=
  let d := { x.2 with redshift := x.2.redshift.map fun _ => 1 / h.ggredm1 s.noredshift, time := x.2.time.map fun _ => h.ph 0 }
  match d.impact with
  | none => .ok (x.1, d)
  | some v =>
    if v 0 = dblMax then
      if h.size > 8 then .throws
      else .ok (x.1, { d with impact := some h.impact })
    else .ok (x.1, d)

/-- `intensity` (`lib/Astrobj.C:223-273`). -/
noncomputable def intensity (s : Setup) (h : Hit) (x : State) : Out State :=
  match x.2.intensity with
  | none => .ok x
  | some v =>
    let gm1 := h.ggredm1 s.noredshift
    let gg := 1 / gm1
    Out.bind (getTransmission x.1 noIndex) fun t =>
      let inc := h.emission (s.freqObs * gm1) (h.dsem s.noredshift) * t * gg * gg * gg
      .ok (x.1, { x.2 with intensity := some (v + convert x.2.intensityConverter inc) })

/-- A loop over channels `i`, `i+1`, …, `i+k-1`. -/
def channels (f : Nat → State → Out State) (i : Nat) : Nat → State → Out State
  | 0, x => .ok x
  | k + 1, x => Out.bind (f i x) fun x => channels f (i + 1) k x

/-- `data->binspectrum[ii*data->offset] += inc` and alike; `none`: null pointer. -/
def addTo (a : Option (Nat → ℝ)) (k : Nat) (inc : ℝ) : Option (Nat → ℝ) :=
  a.map fun f => Function.update f k (f k + inc)

/-- Body of the loop of `binspectrum` (`lib/Astrobj.C:284-301`); `I` is what `integrateEmission` has returned. -/
noncomputable def binBody (s : Setup) (h : Hit) (mid : List ℝ) (I : Nat → ℝ) (ii : Nat) (x : State) : Out State :=
  let gm1 := h.ggredm1 s.noredshift
  let gg := 1 / gm1
  Out.bind (getTransmission x.1 ii) fun t =>
    let inc := convert x.2.binspectrumConverter (I ii * t * gg * gg * gg * gg)
    let d := { x.2 with binspectrum := addTo x.2.binspectrum (ii * x.2.offset) inc }
    if d.spectrum.isNone then
      Out.bind (transmit x.1 ii (h.transmission (mid.getD ii 0 * gm1) (h.dsem s.noredshift))) fun r => .ok (r, d)
    else .ok (x.1, d)

/-- `binspectrum` (`lib/Astrobj.C:274-304`). A null spectrometer: `operator->` throws (`include/GyotoSmartPointer.h:250-255`). -/
noncomputable def bin (s : Setup) (h : Hit) (x : State) : Out State :=
  match x.2.binspectrum with
  | none => .ok x
  | some _ =>
    match s.spr with
    | none => .throws
    | some p =>
      let I := h.integrateEmission (p.bounds.map (· * h.ggredm1 s.noredshift)) (h.dsem s.noredshift)
      channels (binBody s h p.mid I) 0 p.mid.length x

/-- Body of the polarised loop (`lib/Astrobj.C:324-356`). `out` are the Stokes parameters after `ph->transfer`. -/
noncomputable def polarBody (s : Setup) (h : Hit) (out : List Stokes) (ii : Nat) (x : State) : Out State :=
  let gg := 1 / h.ggredm1 s.noredshift
  let gg3 := gg * gg * gg
  let S := out.getD ii 0
  let k := ii * x.2.offset
  let c := convert x.2.spectrumConverter
  .ok (x.1, { x.2 with
    spectrum := addTo x.2.spectrum k (c (S 0 * gg3))
    stokesQ := addTo x.2.stokesQ k (c (S 1 * gg3))
    stokesU := addTo x.2.stokesU k (c (S 2 * gg3))
    stokesV := addTo x.2.stokesV k (c (S 3 * gg3)) })

/-- Body of the loop without polarisation (`lib/Astrobj.C:405-412`): `data->spectrum` is not tested. -/
noncomputable def plainBody (s : Setup) (h : Hit) (ii : Nat) (x : State) : Out State :=
  let gg := 1 / h.ggredm1 s.noredshift
  let q := h.radiativeQ (s.nuem h) (h.dsem s.noredshift) ii
  Out.bind (getTransmission x.1 ii) fun t =>
    match x.2.spectrum with
    | none => .ub
    | some _ =>
      Out.bind (transmit x.1 ii q.2) fun r =>
        let inc := convert x.2.spectrumConverter (q.1 * t * gg * gg * gg)
        .ok (r, { x.2 with spectrum := addTo x.2.spectrum (ii * x.2.offset) inc })

/-- `data->spectrum||data->stokesQ||data->stokesU||data->stokesV` (`lib/Astrobj.C:305`). -/
def Data.polarAsked (d : Data) : Bool := d.spectrum.isSome || d.stokesQ.isSome || d.stokesU.isSome || d.stokesV.isSome

/-- `spectrum` and the Stokes parameters (`lib/Astrobj.C:305-437`). -/
noncomputable def spectral (s : Setup) (h : Hit) (x : State) : Out State :=
  if x.2.polarAsked then
    if s.transport then
      Out.bind (transferFrom x.1 0 ((List.range s.nb).map (h.radiativeQPolar (s.nuem h) (h.dsem s.noredshift)))) fun (out, r) =>
        channels (polarBody s h out) 0 s.nb (r, x.2)
    else channels (plainBody s h) 0 s.nb x
  else .ok x

/-- `data->redshift||data->time||data->impactcoords||data->intensity||data->binspectrum` (`lib/Astrobj.C:438`). -/
def Data.freqAsked (d : Data) : Bool :=
  d.redshift.isSome || d.time.isSome || d.impact.isSome || d.intensity.isSome || d.binspectrum.isSome

/-- Update of the transmission at the frequency of the observer (`lib/Astrobj.C:438-442`). -/
noncomputable def freq (s : Setup) (h : Hit) (x : State) : Out State :=
  if x.2.freqAsked then
    Out.bind (transmit x.1 noIndex (h.transmission (s.freqObs * h.ggredm1 s.noredshift) (h.dsem s.noredshift))) fun r => .ok (r, x.2)
  else .ok x

/-- `Generic::processHitQuantities` with non-null `data` (`lib/Astrobj.C:163-448`). -/
noncomputable def process (s : Setup) (h : Hit) (x : State) : Out State :=
  Out.bind (scalars s h x) fun x => Out.bind (intensity s h x) fun x => Out.bind (bin s h x) fun x =>
    Out.bind (spectral s h x) fun x => freq s h x

/-- Calls for the hits met along a ray, from the observer outward, whatever the transmission. -/
noncomputable def run (s : Setup) : List Hit → State → Out State
  | [], x => .ok x
  | h :: hs, x => Out.bind (process s h x) fun x => run s hs x

/-- `GYOTO_LIMIT_TRANSMISSION` (`lib/Photon.C:44`). -/
noncomputable def limit : ℝ := 1e-6

open Classical in
/-- The hits as `Photon::hit` processes them: after each call to `Impact` the ray stops if `getTransmissionMax()` is below the
limit (`lib/Photon.C:683-698`). Each element is one step of the integration with the calls it makes; the other reasons to stop
end the list. -/
noncomputable def trace (s : Setup) : List (List Hit) → State → Out State
  | [], x => .ok x
  | hs :: rest, x =>
    Out.bind (run s hs x) fun x =>
      if getTransmissionMax x.1 s.transport < limit then .ok x else trace s rest x

end Gyoto.HitQ
