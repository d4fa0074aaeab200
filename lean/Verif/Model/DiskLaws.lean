import Verif.Model.ThinDisk
import Verif.Model.SpectrumKinds
import Verif.Model.Synch
import Mathlib.Analysis.SpecialFunctions.Pow.Real

/-!
# Laws of emission of thin disks (`lib/ThinDiskPL.C`, `lib/PatternDiskBB.C`, `lib/ThinDiskIronLine.C`, `lib/DynamicalDiskBolometric.C`)
-/

namespace Gyoto.DiskLaws

open Gyoto.ThinDisk Gyoto.Synch
open Gyoto.SpectrumKinds (BlackBody BBCall)
open Gyoto.Transfer (Out)

/-! ## The disk with a power law of the temperature -/

/-- The members of `ThinDiskPL` and the inner radius of `ThinDisk` (`lib/ThinDiskPL.C:55-58`). -/
structure PLDisk where
  slope : ℝ
  Tinner : ℝ
  rin : ℝ
  bb : BlackBody

/-- The constructor (`lib/ThinDiskPL.C:55-62`, `lib/ThinDisk.C:60-65` for the radius). -/
noncomputable def PLDisk.new : PLDisk := ⟨0, 1, 0, .new (2 * planckOverC2)⟩

open Classical in
/-- `TT` (`lib/ThinDiskPL.C:88-89`): with a slope of 0 the power is 1 whatever the ratio; otherwise a ratio that is not a positive number is not
followed. -/
noncomputable def PLDisk.temperature (s : PLDisk) (r : ℝ) : Option ℝ :=
  if s.slope = 0 then some s.Tinner
  else if s.rin ≤ 0 ∨ r ≤ 0 then none
  else some (s.Tinner * (r / s.rin) ^ s.slope)

/-- `emission` (`lib/ThinDiskPL.C:85-93`): the spectrum keeps the temperature. -/
noncomputable def PLDisk.emission (s : PLDisk) (kind : Kind) (p : ℕ → ℝ) (nu : ℝ) : Out (PLDisk × ℝ) :=
  match s.temperature (projectedRadius kind p) with
  | none => .ub
  | some T =>
    let bb := s.bb.call (.temperature T)
    match bb.eval planckOverBoltzmann nu with
    | none => .ub
    | some x => .ok ({ s with bb := bb }, x)

/-! ## The grid of temperatures -/

/-- What `PatternDiskBB::emission` uses (`lib/PatternDiskBB.C:43-49`). -/
structure BBDisk where
  spectral : Bool
  radtransf : Bool
  bb : BlackBody

open Classical in
/-- `emission` (`lib/PatternDiskBB.C:77-115`) for the value that `PatternDisk::emission` returns. -/
noncomputable def BBDisk.emission (s : BBDisk) (base nu : ℝ) : Out (BBDisk × ℝ) :=
  match (if ¬ s.spectral then some (s, base)
    else if base = 0 then some (s, 0)
    else
      let bb := s.bb.call (.temperature base)
      match bb.eval planckOverBoltzmann nu with
      | none => none
      | some x => some ({ s with bb := bb }, x) : Option (BBDisk × ℝ)) with
  | none => .ub
  | some (s', Iem) => if ¬ s'.radtransf then .ok (s', Iem) else .throws

/-! ## The iron line -/

/-- The members (`lib/ThinDiskIronLine.C:68-70`). -/
structure Line where
  index : ℝ
  freq : ℝ
  cut : ℝ

/-- `___local_f` (`lib/ThinDiskIronLine.C:52`): hertz per keV. -/
noncomputable def perKeV : ℝ := 2.417989579752276e17

/-- `LineFreq(v)` (`lib/ThinDiskIronLine.C:53`). -/
noncomputable def Line.setFreq (s : Line) (v : ℝ) : Line := { s with freq := v * perKeV }

/-- `LineFreq()` (`lib/ThinDiskIronLine.C:54`). -/
noncomputable def Line.getFreq (s : Line) : ℝ := s.freq / perKeV

/-- `LineFreq(v, unit)` (`lib/ThinDiskIronLine.C:55-57`): `toHz` is `Units::ToHerz` for the unit. -/
noncomputable def Line.setFreqUnit (s : Line) (toHz : ℝ → ℝ) (v : ℝ) : Line := s.setFreq (toHz v)

/-- `LineFreq(unit)` (`lib/ThinDiskIronLine.C:58-60`): `fromHz` is `Units::FromHerz` for the unit. -/
noncomputable def Line.getFreqUnit (s : Line) (fromHz : ℝ → ℝ) : ℝ := fromHz s.getFreq

open Classical in
/-- `emission` (`lib/ThinDiskIronLine.C:88-104`), for a positive radius. -/
noncomputable def Line.emission (s : Line) (kind : Kind) (p : ℕ → ℝ) (nu : ℝ) : ℝ :=
  let r := projectedRadius kind p
  if r < s.cut then 0
  else if |nu - s.freq| > s.freq / 100 then 0
  else r ^ (-s.index)

open Classical in
/-- `getVelocity` (`lib/ThinDiskIronLine.C:106-115`); `disk` is what `ThinDisk::getVelocity` gives. -/
noncomputable def Line.velocity (s : Line) (kind : Kind) (p : ℕ → ℝ) (disk : Fin 4 → ℝ) : Fin 4 → ℝ :=
  if projectedRadius kind p < s.cut then ![1, 0, 0, 0] else disk

/-! ## Bolometric emission -/

/-- What is asked and what is there, of the members of `Properties` that are used. -/
structure Asked where
  redshift : Option ℝ
  time : Option ℝ
  impact : Bool
  intensity : Bool
  user4 : Option ℝ
  binspectrum : Bool
  spectrum : Bool

/-- One hit: the frequency in the frame of the gas for a unit frequency of the observer, the date, what the disk emits and lets pass there, and whether the
photon carries a basis. -/
structure Hit where
  ggredm1 : ℝ
  date : ℝ
  emitted : ℝ
  passed : ℝ
  basis : Bool

/-- `emission` of the class (`lib/DynamicalDiskBolometric.C:70-76`). -/
def bolometricSpectral : Out ℝ := .throws

/-- `processHitQuantities` (`lib/DynamicalDiskBolometric.C:86-162`): `T` is the transmission of the photon at the frequency of the observer. The result
has the transmission and the data afterwards; an error leaves them as they are then. -/
noncomputable def process (h : Hit) : Option Asked → ℝ → (Bool × ℝ × Option Asked)
  | none, T => (true, T, none)
  | some d, T =>
    let g := 1 / h.ggredm1
    let d := { d with redshift := d.redshift.map fun _ => g, time := d.time.map fun _ => h.date }
    if d.impact ∧ h.basis then (false, T, some d)
    else if d.intensity then (false, T, some d)
    else
      let d := { d with user4 := d.user4.map fun x => x + h.emitted * T * (g * g * g * g) }
      if d.binspectrum then (false, T, some d)
      else if d.spectrum then (false, T, some d)
      else (true, T * h.passed, some d)

/-- Hits one after the other, up to the first error. -/
noncomputable def processAll : List Hit → Option Asked → ℝ → (Bool × ℝ × Option Asked)
  | [], d, T => (true, T, d)
  | h :: l, d, T => match process h d T with
    | (true, T', d') => processAll l d' T'
    | r => r

end Gyoto.DiskLaws
