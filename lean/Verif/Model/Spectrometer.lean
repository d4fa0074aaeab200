import Mathlib.Analysis.SpecialFunctions.Log.Base
import Mathlib.Analysis.SpecialFunctions.Pow.Real

/-!
# Spectrometers (`lib/Spectrometer.C`, `lib/UniformSpectrometer.C`, `lib/ComplexSpectrometer.C`)

Doubles are reals.  An array is a list, a null pointer is `none`; reading outside of an array or through a null pointer makes the
whole operation `none` (undefined behaviour).  `kindid_` is compared as a pointer in the code; it is one of the four constants of
`lib/UniformSpectrometer.C:297-300` here (`kindid(k)` with another pointer is not modelled).
-/

namespace Gyoto.Spectrometer

/-- Members of `Spectrometer::Generic` that describe the channels (`lib/Spectrometer.C:73-97`). -/
structure Arrays where
  nsamples : ℕ
  nboundaries : ℕ
  boundaries : Option (List ℝ)
  chanind : Option (List ℕ)
  midpoints : Option (List ℝ)
  widths : Option (List ℝ)

/-- `Generic::Generic()` (`lib/Spectrometer.C:73-97`). -/
def Arrays.empty : Arrays := ⟨0, 0, none, none, none, none⟩

/-- The four kinds (`lib/UniformSpectrometer.C:297-300`). -/
inductive Kind where
  | freq | freqlog | wave | wavelog
deriving DecidableEq, Repr

/-- `Uniform::kind(str)` (`lib/UniformSpectrometer.C:187-201`); `none`: error. -/
def parseKind (s : String) : Option Kind :=
  if s = "freq" then some .freq
  else if s = "freqlog" then some .freqlog
  else if s = "wave" then some .wave
  else if s = "wavelog" then some .wavelog
  else none

/-- `GYOTO_C`, in SI units (`include/GyotoDefs.h`). -/
def c : ℝ := 299792458

/-- `DBL_MAX`. -/
noncomputable def dblMax : ℝ := (2 - 2⁻¹ ^ 52) * 2 ^ 1023

/-- A uniform spectrometer. -/
structure Uniform where
  kind : Kind
  band0 : ℝ
  band1 : ℝ
  arr : Arrays

/-- `Uniform::Uniform()` (`lib/UniformSpectrometer.C:84-88`). -/
def Uniform.new : Uniform := ⟨.wave, 0, 0, Arrays.empty⟩

/-- Body of the first loop of `reset_`: `boundaries_[i]` (`lib/UniformSpectrometer.C:142-148`). -/
noncomputable def Uniform.boundary (u : Uniform) (i : ℕ) : ℝ :=
  let b := u.band0 + (i : ℝ) * (u.band1 - u.band0) / (u.arr.nsamples : ℝ)
  let b := if u.kind = .freqlog ∨ u.kind = .wavelog then (10 : ℝ) ^ b else b
  if u.kind = .wave ∨ u.kind = .wavelog then (if b ≠ 0 then c / b else dblMax) else b

/-- `Uniform::reset_()` (`lib/UniformSpectrometer.C:109-179`); the flag tells whether listeners are told (line 178; not
after the early return of line 123). -/
noncomputable def Uniform.reset (u : Uniform) : Uniform × Bool :=
  if u.arr.nsamples = 0 then
    ({ u with arr := { u.arr with boundaries := none, chanind := none, midpoints := none, widths := none } }, false)
  else
    let n := u.arr.nsamples
    let b := u.boundary
    ({ u with arr := { u.arr with
        boundaries := some ((List.range (n + 1)).map b)
        chanind := some ((List.range n).flatMap fun i => [i, i + 1])
        widths := some ((List.range n).map fun i => |b (i + 1) - b i|)
        midpoints := some ((List.range n).map fun i => b (i + 1) * 0.5 + b i * 0.5) } }, true)

/-- `Uniform::Uniform(nsamples, band_min, band_max, kind)` (`lib/UniformSpectrometer.C:89-95`): `nboundaries_` stays 0. -/
noncomputable def Uniform.make (n : ℕ) (b0 b1 : ℝ) (k : Kind) : Uniform :=
  (Uniform.reset ⟨k, b0, b1, { Arrays.empty with nsamples := n }⟩).1

/-- `kindid(k)` and `kind(str)` (`lib/UniformSpectrometer.C:181-201`). -/
noncomputable def Uniform.setKind (u : Uniform) (k : Kind) : Uniform × Bool := Uniform.reset { u with kind := k }

/-- `nSamples(n)` (`lib/UniformSpectrometer.C:205-209`). -/
noncomputable def Uniform.setN (u : Uniform) (n : ℕ) : Uniform × Bool :=
  Uniform.reset { u with arr := { u.arr with nsamples := n, nboundaries := n + 1 } }

/-- `band(nu)` (`lib/UniformSpectrometer.C:256-260`). -/
noncomputable def Uniform.setBand (u : Uniform) (b0 b1 : ℝ) : Uniform × Bool := Uniform.reset { u with band0 := b0, band1 := b1 }

/-- `memcpy` of `n` elements from `src` into a place that is large enough: the elements copied.  (Copying nothing from a null
pointer is accepted.) -/
def memcpy {α : Type} (src : Option (List α)) (n : ℕ) : Option (List α) :=
  if n = 0 then some [] else src.bind fun l => if n ≤ l.length then some (l.take n) else none

/-- `new T[n]` when the pointer `o` is not null, then `memcpy` (`lib/Spectrometer.C:111-118`): with a null source nothing is allocated
and the copy goes from null to null. -/
def copyArray {α : Type} (o : Option (List α)) (n : ℕ) : Option (Option (List α)) :=
  match o with
  | none => if n = 0 then some none else none
  | some l => (memcpy (some l) n).map some

/-- `Generic::Generic(const Generic&)` (`lib/Spectrometer.C:99-119`). -/
def Arrays.copy (a : Arrays) : Option Arrays :=
  (copyArray a.boundaries a.nboundaries).bind fun b =>
  (copyArray a.widths a.nsamples).bind fun w =>
  (copyArray a.midpoints a.nsamples).bind fun m =>
  (copyArray a.chanind (2 * a.nsamples)).map fun ci => ⟨a.nsamples, a.nboundaries, b, ci, m, w⟩

/-- `Uniform::Uniform(const Uniform&)` (`lib/UniformSpectrometer.C:97-102`). -/
noncomputable def Uniform.copy (u : Uniform) : Option Uniform :=
  u.arr.copy.map fun a => (Uniform.reset { u with arr := a }).1

/-! ### Conversion of the band (`lib/UniformSpectrometer.C:229-254, 267-292`) -/

/-- Value stored for a limit `x` given in a unit: `toU` is `ToHerz(·, unit)` or `ToMeters(·, unit)`
(`lib/UniformSpectrometer.C:270-287`). -/
noncomputable def bandTo (k : Kind) (toU : ℝ → ℝ) (x : ℝ) : ℝ :=
  if k = .freq ∨ k = .wave then toU x else Real.logb 10 (toU ((10 : ℝ) ^ x))

/-- Value returned for a stored limit: `frm` is `FromHerz(·, unit)` or `FromMeters(·, unit)`
(`lib/UniformSpectrometer.C:232-248`). -/
noncomputable def bandFrom (k : Kind) (frm : ℝ → ℝ) (x : ℝ) : ℝ :=
  if k = .freq ∨ k = .wave then frm x else (10 : ℝ) ^ frm (Real.logb 10 x)

/-! ### Composite spectrometers (`lib/ComplexSpectrometer.C`) -/

/-- Running values of the loop of `tell` (`lib/ComplexSpectrometer.C:171-190`): what was copied to the new arrays so far. The new
arrays have exactly the size needed (lines 157-170). -/
structure Acc where
  boundaries : List ℝ
  widths : List ℝ
  midpoints : List ℝ
  chanind : List ℕ
  boffset : ℕ
  offset : ℕ

/-- One turn of the loop (`lib/ComplexSpectrometer.C:173-189`). -/
def tellPart (acc : Acc) (e : Arrays) : Option Acc :=
  (memcpy e.boundaries e.nboundaries).bind fun b =>
  (memcpy e.widths e.nsamples).bind fun w =>
  (memcpy e.midpoints e.nsamples).bind fun m =>
  (memcpy e.chanind (2 * e.nsamples)).map fun ci =>
    { boundaries := acc.boundaries ++ b
      widths := acc.widths ++ w
      midpoints := acc.midpoints ++ m
      chanind := acc.chanind ++ ci.map (· + acc.boffset)
      boffset := acc.boffset + e.nboundaries
      offset := acc.offset + e.nsamples }

/-- `Complex::tell` (`lib/ComplexSpectrometer.C:154-192`). -/
def tell (parts : List Arrays) : Option Arrays :=
  (parts.foldlM tellPart ⟨[], [], [], [], 0, 0⟩).map fun acc =>
    { nsamples := (parts.map (·.nsamples)).sum
      nboundaries := (parts.map (·.nboundaries)).sum
      boundaries := some acc.boundaries
      chanind := some acc.chanind
      midpoints := some acc.midpoints
      widths := some acc.widths }

/-- A program's uniform spectrometers, numbered, and one composite: the numbers of its parts, those of the spectrometers that have
it in their list of listeners (`Teller::hook` adds one entry per call, `unhook` removes them all, see `Verif.Model.Hooks`), and its
channels.  Composites in composites are not modelled. -/
structure World where
  store : ℕ → Uniform
  parts : List ℕ
  hooked : List ℕ
  arr : Arrays

/-- `Complex()`, and default-constructed parts. -/
def World.new : World := ⟨fun _ => Uniform.new, [], [], Arrays.empty⟩

/-- `Complex::tell` on the composite. -/
def World.refresh (w : World) : Option World :=
  (tell (w.parts.map fun i => (w.store i).arr)).map fun a => { w with arr := a }

/-- `Complex::append` (`lib/ComplexSpectrometer.C:66-82`). -/
def World.append (w : World) (i : ℕ) : Option World :=
  World.refresh { w with parts := w.parts ++ [i], hooked := i :: w.hooked }

/-- `Complex::remove` (`lib/ComplexSpectrometer.C:98-112`); unchanged on error. -/
def World.remove (w : World) (p : ℕ) : Option World :=
  match w.parts[p]? with
  | none => some w
  | some i => World.refresh { w with parts := w.parts.eraseIdx p, hooked := w.hooked.filter (· ≠ i) }

/-- A setter was called on spectrometer `i`: listeners are told when the flag is set (`lib/UniformSpectrometer.C:178`). -/
def World.update (w : World) (i : ℕ) (r : Uniform × Bool) : Option World :=
  let w' := { w with store := fun j => if j = i then r.1 else w.store j }
  if r.2 ∧ i ∈ w.hooked then w'.refresh else some w'

/-- What a program can do. -/
inductive Op where
  | setKind (i : ℕ) (k : Kind)
  | setN (i : ℕ) (n : ℕ)
  | setBand (i : ℕ) (b0 b1 : ℝ)
  | append (i : ℕ)
  | remove (p : ℕ)

/-- One operation. -/
noncomputable def World.step (w : World) : Op → Option World
  | .setKind i k => w.update i ((w.store i).setKind k)
  | .setN i n => w.update i ((w.store i).setN n)
  | .setBand i b0 b1 => w.update i ((w.store i).setBand b0 b1)
  | .append i => w.append i
  | .remove p => w.remove p

end Gyoto.Spectrometer
