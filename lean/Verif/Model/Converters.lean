import Mathlib.Data.Real.Basic
import Mathlib.Data.Fin.VecNotation
import Mathlib.Data.Fintype.Defs
import Mathlib.Data.Fintype.Basic
import Mathlib.Tactic.NormNum

/-!
# Unit conversions (`lib/Converters.C`)

`Gyoto::Units` converts lengths, times, masses and frequencies between SI units, geometrical units
(multiples of the metric's `unitLength`) and named units.  The library is built either with
libudunits2 or with a short built-in list; both builds are modelled here, selected by the argument
`ud : Option SI` (`none`: `HAVE_UDUNITS` not defined).

Simplifications.
* Doubles are real numbers.  A division by zero is the outcome `Fail.notFinite` (an infinity or a
  NaN in the code); a thrown `Gyoto::Error` is `Fail.thrown`.
* libudunits2 itself is not part of the repository.  A unit is modelled by the exponents of the
  seven SI base units and an affine map to the SI unit of that dimension, with a non-zero slope.
  As `ut_are_convertible` does, two units are convertible when their dimensions are equal *or
  inverse of each other* (second and hertz).  Logarithmic units and time stamps are left out.
* Messages and warnings are left out.
-/

namespace Gyoto.Conv

/-- Why a conversion does not give a number: `GYOTO_ERROR` was called, or a division by zero. -/
inductive Fail
  | thrown
  | notFinite
  deriving DecidableEq, Repr

abbrev Res := Except Fail ℝ

/-- Division of doubles: not finite when the denominator vanishes. -/
noncomputable def fdiv (x y : ℝ) : Res := if y = 0 then .error .notFinite else .ok (x / y)

/-! ### Constants: `include/GyotoDefs.h` lines 487–573 -/

/-- `GYOTO_C`, `include/GyotoDefs.h` line 487. -/
noncomputable def c : ℝ := 299792458
/-- `GYOTO_G`, `include/GyotoDefs.h` line 495. -/
noncomputable def bigG : ℝ := 6.67428e-11
/-- `GYOTO_G_OVER_C_SQUARE`, `include/GyotoDefs.h` line 499. -/
noncomputable def gOverC2 : ℝ := 7.4261380161175445989e-28
/-- `GYOTO_SUN_MASS`, `include/GyotoDefs.h` line 546. -/
noncomputable def sunMass : ℝ := 1.98843e30
/-- `GYOTO_SUN_RADIUS`, `include/GyotoDefs.h` line 550. -/
noncomputable def sunRadius : ℝ := 6.955e8
/-- `GYOTO_KPC`, `include/GyotoDefs.h` line 552. -/
noncomputable def kpc : ℝ := 3.08568025e19
/-- `GYOTO_ASTRONOMICAL_UNIT`, `include/GyotoDefs.h` line 554. -/
noncomputable def au : ℝ := 1.49597870700e11
/-- `GYOTO_LIGHT_YEAR`, `include/GyotoDefs.h` line 556. -/
noncomputable def ly : ℝ := 9.4607304725808e15
/-- `GYOTO_eV2Hz`, `include/GyotoDefs.h` line 572. -/
noncomputable def eV2Hz : ℝ := 2.417989348e+14

/-! ### libudunits2 -/

/-- Exponents of metre, kilogram, second, ampere, kelvin, mole, candela. -/
abbrev Dim := Fin 7 → ℤ

/-- `ut_unit`: `value in SI = slope * value + offset`. -/
structure Unit where
  dim : Dim
  slope : ℝ
  offset : ℝ
  slope_ne : slope ≠ 0

noncomputable def Unit.toBase (u : Unit) (x : ℝ) : ℝ := u.slope * x + u.offset
noncomputable def Unit.fromBase (u : Unit) (y : ℝ) : ℝ := (y - u.offset) / u.slope

/-- `areConvertible`, `lib/Converters.C` lines 437–440 (`ut_are_convertible`). -/
def areConvertible (u v : Unit) : Prop := u.dim = v.dim ∨ u.dim = -v.dim

instance (u v : Unit) : Decidable (areConvertible u v) := by unfold areConvertible; infer_instance

/-- `Converter(from, to)(val)`, `lib/Converters.C` lines 136–170 (`reset` throws when the units are
not convertible; `ut_get_converter` takes the inverse between inverse dimensions). -/
noncomputable def convert (u v : Unit) (x : ℝ) : Res :=
  if u.dim = v.dim then .ok (v.fromBase (u.toBase x))
  else if u.dim = -v.dim then (fdiv 1 (u.toBase x)).map v.fromBase
  else .error .thrown

def metre : Unit := ⟨![1, 0, 0, 0, 0, 0, 0], 1, 0, one_ne_zero⟩
def second : Unit := ⟨![0, 0, 1, 0, 0, 0, 0], 1, 0, one_ne_zero⟩
def kilogram : Unit := ⟨![0, 1, 0, 0, 0, 0, 0], 1, 0, one_ne_zero⟩
def hertz : Unit := ⟨![0, 0, -1, 0, 0, 0, 0], 1, 0, one_ne_zero⟩
/-- Dimension of an energy. -/
def energyDim : Dim := ![2, 1, -2, 0, 0, 0, 0]

/-- The data base read by `ut_read_xml` and completed by `Init`, `lib/Converters.C` lines 32–92:
`parse` is `ut_parse`, `none` when the text is not a unit. -/
structure SI where
  parse : String → Option Unit
  eV : Unit
  eV_dim : eV.dim = energyDim

/-- `Unit::Unit(const string &)`, `lib/Converters.C` lines 96–120: throws when `ut_parse` fails
(called only with a non-empty text). -/
def SI.unit (s : SI) (name : String) : Except Fail Unit :=
  match s.parse name with
  | some u => .ok u
  | none => .error .thrown

/-- A metric as far as conversions are concerned: its mass in kg. -/
structure Metric where
  mass : ℝ

/-- `Metric::Generic::unitLength`, `lib/Metric.C` lines 737–739. -/
noncomputable def Metric.unitLength (g : Metric) : ℝ := g.mass * gOverC2

/-! ### Frequencies -/

/-- `ToHerz`, `lib/Converters.C` lines 386–410. -/
noncomputable def toHerz (ud : Option SI) (val : ℝ) (unit : String) : Res :=
  if unit = "" ∨ unit = "Hz" then .ok val
  else match ud with
  | some s => do
    let u ← s.unit unit
    if areConvertible u hertz then convert u hertz val
    else if areConvertible u metre then (convert u metre val).bind (fdiv c)
    else if areConvertible u s.eV then (convert u s.eV val).map (· * eV2Hz)
    else .error .thrown
  | none => .ok val

/-- `FromHerz`, `lib/Converters.C` lines 412–434 (without udunits: a warning and `return 0.`). -/
noncomputable def fromHerz (ud : Option SI) (val : ℝ) (unit : String) : Res :=
  match ud with
  | some s =>
    if unit = "" ∨ unit = "Hz" then .ok val
    else do
      let u ← s.unit unit
      if areConvertible u hertz then convert hertz u val
      else if areConvertible u metre then (fdiv c val).bind (convert metre u)
      else if areConvertible u s.eV then convert s.eV u (val / eV2Hz)
      else .error .thrown
  | none => .ok 0

/-! ### Lengths -/

/-- Built-in list of `ToMeters`, `lib/Converters.C` lines 193–208. -/
noncomputable def listToMeters (val : ℝ) (unit : String) : Res :=
  if unit = "cm" then .ok (val * 1e-2)
  else if unit = "km" then .ok (val * 1e3)
  else if unit = "sunradius" then .ok (val * sunRadius)
  else if unit = "astronomicalunit" ∨ unit = "astronomical_unit" ∨ unit = "AU" ∨ unit = "au" ∨
      unit = "ua" then .ok (val * au)
  else if unit = "ly" then .ok (val * ly)
  else if unit = "pc" then .ok (val * kpc * 1e-3)
  else if unit = "kpc" then .ok (val * kpc)
  else if unit = "Mpc" then .ok (val * kpc * 1e3)
  else .error .thrown

/-- `ToMeters`, `lib/Converters.C` lines 180–211. -/
noncomputable def toMeters (ud : Option SI) (val : ℝ) (unit : String) (gg : Option Metric) : Res :=
  if unit = "" ∨ unit = "m" then .ok val
  else if unit = "geometrical" then
    match gg with
    | some g => .ok (val * g.unitLength)
    | none => .error .thrown
  else match ud with
  | some s => do
    let u ← s.unit unit
    if areConvertible u metre then convert u metre val
    else if areConvertible u second then (convert u second val).map (· * c)
    else (toHerz ud val unit).bind (fdiv c)
  | none => listToMeters val unit

/-- Built-in list of `FromMeters`, `lib/Converters.C` lines 226–241. -/
noncomputable def listFromMeters (val : ℝ) (unit : String) : Res :=
  if unit = "cm" then .ok (val * 1e2)
  else if unit = "km" then .ok (val * 1e-3)
  else if unit = "sunradius" then .ok (val / sunRadius)
  else if unit = "astronomicalunit" ∨ unit = "astronomical_unit" ∨ unit = "AU" ∨ unit = "au" ∨
      unit = "ua" then .ok (val / au)
  else if unit = "ly" then .ok (val / ly)
  else if unit = "pc" then .ok (val / kpc * 1e3)
  else if unit = "kpc" then .ok (val / kpc)
  else if unit = "Mpc" then .ok (val / kpc * 1e-3)
  else .error .thrown

/-- `FromMeters`, `lib/Converters.C` lines 213–244. -/
noncomputable def fromMeters (ud : Option SI) (val : ℝ) (unit : String) (gg : Option Metric) : Res :=
  if unit = "" ∨ unit = "m" then .ok val
  else if unit = "geometrical" then
    match gg with
    | some g => fdiv val g.unitLength
    | none => .error .thrown
  else match ud with
  | some s => do
    let u ← s.unit unit
    if areConvertible u metre then convert metre u val
    else if areConvertible u second then convert second u (val * c)
    else (fdiv c val).bind (fun f => fromHerz ud f unit)
  | none => listFromMeters val unit

/-! ### Times -/

/-- Built-in list of `ToSeconds`, `lib/Converters.C` lines 271–282. -/
noncomputable def listToSeconds (val : ℝ) (unit : String) : Res :=
  if unit = "min" then .ok (val * 60)
  else if unit = "h" then .ok (val * 3600)
  else if unit = "d" then .ok (val * 86400)
  else if unit = "yr" then .ok (val * 3.15576e+07)
  else if unit = "kyr" then .ok (val * 3.15576e+10)
  else .error .thrown

/-- `ToSeconds`, `lib/Converters.C` lines 246–285. -/
noncomputable def toSeconds (ud : Option SI) (val : ℝ) (unit : String) (gg : Option Metric) : Res :=
  if unit = "" ∨ unit = "s" then .ok val
  else if unit = "geometrical_time" ∨ unit = "geometrical" then
    match gg with
    | some g => .ok (val * (g.unitLength / c))
    | none => .error .thrown
  else match ud with
  | some s => do
    let u ← s.unit unit
    if areConvertible u metre then (convert u metre val).map (· / c)
    else convert u second val
  | none => listToSeconds val unit

/-- Built-in list of `FromSeconds`, `lib/Converters.C` lines 305–316. -/
noncomputable def listFromSeconds (val : ℝ) (unit : String) : Res :=
  if unit = "min" then .ok (val / 60)
  else if unit = "h" then .ok (val / 3600)
  else if unit = "d" then .ok (val / 86400)
  else if unit = "yr" then .ok (val / 3.15576e+07)
  else if unit = "kyr" then .ok (val / 3.15576e+10)
  else .error .thrown

/-- `FromSeconds`, `lib/Converters.C` lines 287–319. -/
noncomputable def fromSeconds (ud : Option SI) (val : ℝ) (unit : String) (gg : Option Metric) :
    Res :=
  if unit = "" ∨ unit = "s" then .ok val
  else if unit = "geometrical_time" ∨ unit = "geometrical" then
    match gg with
    | some g => (fdiv c g.unitLength).map (val * ·)
    | none => .error .thrown
  else match ud with
  | some s => do
    let u ← s.unit unit
    if areConvertible u metre then convert metre u (val * c)
    else convert second u val
  | none => listFromSeconds val unit

/-! ### Masses -/

/-- `ToKilograms`, `lib/Converters.C` lines 321–338. -/
noncomputable def toKilograms (ud : Option SI) (val : ℝ) (unit : String) : Res :=
  if unit = "" ∨ unit = "kg" then .ok val
  else match ud with
  | some s => do
    let u ← s.unit unit
    convert u kilogram val
  | none =>
    if unit = "sunmass" then .ok (val * sunMass)
    else if unit = "g" then .ok (val * 1e-3)
    else .error .thrown

/-- `FromKilograms`, `lib/Converters.C` lines 340–356. -/
noncomputable def fromKilograms (ud : Option SI) (val : ℝ) (unit : String) : Res :=
  if unit = "" ∨ unit = "kg" then .ok val
  else match ud with
  | some s => do
    let u ← s.unit unit
    convert kilogram u val
  | none =>
    if unit = "sunmass" then .ok (val / sunMass)
    else if unit = "g" then .ok (val * 1e3)
    else .error .thrown

/-! ### Geometrical units -/

/-- `ToGeometrical`, `lib/Converters.C` lines 358–363: the metric is not passed on to `ToMeters`. -/
noncomputable def toGeometrical (ud : Option SI) (val : ℝ) (unit : String) (gg : Option Metric) :
    Res :=
  if unit = "" ∨ unit = "geometrical" then .ok val
  else match gg with
  | none => .error .thrown
  | some g => (toMeters ud val unit none).bind (fun w => fdiv w g.unitLength)

/-- `FromGeometrical`, `lib/Converters.C` lines 365–370. -/
noncomputable def fromGeometrical (ud : Option SI) (val : ℝ) (unit : String) (gg : Option Metric) :
    Res :=
  if unit = "" ∨ unit = "geometrical" then .ok val
  else match gg with
  | none => .error .thrown
  | some g => fromMeters ud (val * g.unitLength) unit none

/-- `ToGeometricalTime`, `lib/Converters.C` lines 372–377: the metric is not passed on to
`ToSeconds`. -/
noncomputable def toGeometricalTime (ud : Option SI) (val : ℝ) (unit : String)
    (gg : Option Metric) : Res :=
  if unit = "" ∨ unit = "geometrical_time" then .ok val
  else match gg with
  | none => .error .thrown
  | some g => (toSeconds ud val unit none).bind (fun w => (fdiv w g.unitLength).map (· * c))

/-- `FromGeometricalTime`, `lib/Converters.C` lines 379–384. -/
noncomputable def fromGeometricalTime (ud : Option SI) (val : ℝ) (unit : String)
    (gg : Option Metric) : Res :=
  if unit = "" ∨ unit = "geometrical_time" then .ok val
  else match gg with
  | none => .error .thrown
  | some g => fromSeconds ud (val * g.unitLength / c) unit none

end Gyoto.Conv
