import Mathlib.Analysis.SpecialFunctions.Pow.Real
import Mathlib.Analysis.SpecialFunctions.Log.Basic
import Mathlib.Analysis.SpecialFunctions.Trigonometric.Inverse
import Mathlib.Analysis.Real.Sqrt

/-!
# The disk of Page and Thorne

Model of `lib/PageThorneDisk.C`: the numbers kept about the metric, the bolometric intensity, the temperature, the part of
`processHitQuantities` that decides what is done.

Simplified: doubles are reals. For a spin of zero the exact value of `x2_` is zero and the coefficient of its logarithm is 0/0; the
model takes 0 for it (its limit; in the program the rounding of pi/2 makes `x2_` about 1e-16 and the term as small).
-/

namespace Gyoto.PageThorne

/-- What `updateSpin` keeps (`include/GyotoPageThorneDisk.h:70-75`). -/
structure Coefs where
  aa : ℝ
  aa2 : ℝ
  x0 : ℝ
  x1 : ℝ
  x2 : ℝ
  x3 : ℝ

/-- The end of `PageThorneDisk::updateSpin` (`lib/PageThorneDisk.C:102-110`). -/
noncomputable def coefs (a : ℝ) : Coefs :=
  let a2 := a * a
  let z1 := 1 + (1 - a2) ^ (1 / 3 : ℝ) * ((1 + a) ^ (1 / 3 : ℝ) + (1 - a) ^ (1 / 3 : ℝ))
  let z2 := (3 * a2 + z1 * z1) ^ (0.5 : ℝ)
  let c := Real.arccos a / 3
  { aa := a, aa2 := a2,
    x0 := √(3 + z2 - ((3 - z1) * (3 + z1 + 2 * z2)) ^ (0.5 : ℝ)),
    x1 := 2 * Real.cos (c - Real.pi / 3),
    x2 := 2 * Real.cos (c + Real.pi / 3),
    x3 := -2 * Real.cos c }

/-- The inner radius that `updateSpin` sets when there is none (`lib/PageThorneDisk.C:103-104`, `112`). -/
noncomputable def innerRadius (a : ℝ) : ℝ :=
  let a2 := a * a
  let z1 := 1 + (1 - a2) ^ (1 / 3 : ℝ) * ((1 + a) ^ (1 / 3 : ℝ) + (1 - a) ^ (1 / 3 : ℝ))
  let z2 := (3 * a2 + z1 * z1) ^ (0.5 : ℝ)
  3 + z2 - √((3 - z1) * (3 + z1 + 2 * z2))

/-- `log(num/den)`: `none` for what C++ makes a NaN or an infinity. -/
noncomputable def logOf (num den : ℝ) : Option ℝ := if 0 < num / den then some (Real.log (num / den)) else none

/-- `ff` in `PageThorneDisk::bolometricEmission` (`lib/PageThorneDisk.C:179-189`). -/
noncomputable def ff (c : Coefs) (xx : ℝ) : Option ℝ := do
  let l ← logOf xx c.x0
  let l1 ← logOf (xx - c.x1) (c.x0 - c.x1)
  let l2 ← logOf (xx - c.x2) (c.x0 - c.x2)
  let l3 ← logOf (xx - c.x3) (c.x0 - c.x3)
  return 3 / 2 * 1 / (xx * xx * (xx * xx * xx - 3 * xx + 2 * c.aa)) *
    (xx - c.x0 - 3 / 2 * c.aa * l
      - 3 * (c.x1 - c.aa) * (c.x1 - c.aa) / (c.x1 * (c.x1 - c.x2) * (c.x1 - c.x3)) * l1
      - 3 * (c.x2 - c.aa) * (c.x2 - c.aa) / (c.x2 * (c.x2 - c.x1) * (c.x2 - c.x3)) * l2
      - 3 * (c.x3 - c.aa) * (c.x3 - c.aa) / (c.x3 * (c.x3 - c.x1) * (c.x3 - c.x2)) * l3)

/-- Where the disk is hit: Boyer-Lindquist or Kerr-Schild coordinates. -/
inductive Place where
  | spherical (r : ℝ)
  | cartesian (x y : ℝ)

/-- `xx` in `bolometricEmission` (`lib/PageThorneDisk.C:163-174`); `pow` of a negative number is a NaN. -/
noncomputable def rootOf (c : Coefs) : Place → Option ℝ
  | .spherical r => if 0 ≤ r then some √r else none
  | .cartesian x y => if 0 ≤ x * x + y * y - c.aa2 then some ((x * x + y * y - c.aa2) ^ (0.25 : ℝ)) else none

/-- The settings of the disk and of its metric that the intensity depends on. -/
structure Setting where
  kept : Coefs
  uniflux : Bool
  mass : ℝ
  mdot : ℝ
  radtransf : Bool

/-- `GYOTO_C_CGS`, `GYOTO_G_CGS` (`include/GyotoDefs.h:489`, `497`). -/
noncomputable def cCGS : ℝ := 2.99792458e10
noncomputable def gCGS : ℝ := 6.67428e-8

/-- `PageThorneDisk::bolometricEmission` (`lib/PageThorneDisk.C:156-219`); `GYOTO_INU_CGS_TO_SI` is `include/GyotoDefs.h:539`. -/
noncomputable def bolometric (d : Setting) (dsem : ℝ) (p : Place) : Option ℝ :=
  if d.uniflux then some 1 else do
    let xx ← rootOf d.kept p
    let f ← ff d.kept xx
    let iem := f / (4 * Real.pi * Real.pi * (xx * xx))
    let iem := if d.mass ≠ 1 ∧ d.mdot ≠ 1 then
        let mass := d.mass * 1e3
        let c6 := cCGS * cCGS * cCGS * cCGS * cCGS * cCGS
        let g2m2 := gCGS * gCGS * mass * mass
        iem * (d.mdot * c6 / g2m2)
      else iem
    let iem := if d.radtransf then iem * dsem else iem
    return iem * 0.001

/-- `GYOTO_STEFANBOLTZMANN_CGS` (`include/GyotoDefs.h:513`). -/
noncomputable def sigmaCGS : ℝ := 5.670373e-5

/-- `TT` in `PageThorneDisk::emission` (`lib/PageThorneDisk.C:129`, `140`). -/
noncomputable def temperature (d : Setting) (dsem : ℝ) (p : Place) : Option ℝ := do
  let ibolo ← bolometric d dsem p
  if 0 ≤ ibolo * Real.pi / sigmaCGS then some ((ibolo * Real.pi / sigmaCGS) ^ (0.25 : ℝ)) else none

/-! ### The disk and its metric -/

/-- The kinds of metrics that matter here. -/
inductive Kind where
  | kerrBL | kerrKS | other
  deriving DecidableEq

/-- Metrics (numbered) and one disk: the disk's metric, the metrics that tell it when they change, its spin and inner radius. -/
structure World where
  kind : ℕ → Kind
  spin : ℕ → ℝ
  gg : Option ℕ
  hooked : ℕ → Bool
  kept : Coefs
  rin : ℝ

/-- A new disk (`lib/PageThorneDisk.C:58-65`, `lib/ThinDisk.C:61`). -/
noncomputable def World.new (kind : ℕ → Kind) (spin : ℕ → ℝ) : World :=
  { kind := kind, spin := spin, gg := none, hooked := fun _ => false, kept := ⟨0, 0, 0, 0, 0, 0⟩, rin := 0 }

open Classical in
/-- `PageThorneDisk::updateSpin` (`lib/PageThorneDisk.C:90-113`). -/
noncomputable def World.updateSpin (w : World) : World :=
  match w.gg with
  | none => w
  | some m => { w with kept := coefs (w.spin m), rin := if w.rin = 0 then innerRadius (w.spin m) else w.rin }

/-- `if (gg_) gg_->unhook(this)` (`lib/PageThorneDisk.C:116`). -/
def World.unhook (w : World) : World :=
  match w.gg with
  | none => w
  | some m => { w with hooked := Function.update w.hooked m false }

/-- What is done to the disk and to the metrics. -/
inductive Op where
  /-- `disk->metric(gg)`; `none` for a null pointer. -/
  | metric (gg : Option ℕ)
  /-- `gg->spin(a)`. -/
  | spin (m : ℕ) (a : ℝ)

/-- One step; the boolean says that an error is thrown. `metric` (`lib/PageThorneDisk.C:115-124`; a null pointer throws at
`gg->kind()`, `include/GyotoSmartPointer.h:250-255`), `spin` (`lib/KerrBL.C:93-100`) and `tell` (`lib/PageThorneDisk.C:372-374`). -/
noncomputable def step (w : World) : Op → World × Bool
  | .metric none => (w.unhook, true)
  | .metric (some m) =>
    let w := w.unhook
    if w.kind m = .other then (w, true) else
      let w := { w with gg := some m }
      let w := w.updateSpin
      ({ w with hooked := Function.update w.hooked m true }, false)
  | .spin m a =>
    let w := { w with spin := Function.update w.spin m a }
    (if w.hooked m ∧ w.gg = some m then w.updateSpin else w, false)

/-- Successive steps; did any throw? -/
noncomputable def run : World → List Op → World × Bool
  | w, [] => (w, false)
  | w, o :: os => let (w, t) := step w o; let (w, t') := run w os; (w, t || t')

/-! ### What `processHitQuantities` does -/

/-- The quantities asked for that this function knows. -/
structure Asked where
  intensity : Bool
  user4 : Bool
  binspectrum : Bool
  spectrum : Bool
  stokes : Bool

/-- What is left after the call. -/
structure Done where
  user4 : ℝ
  spectrum : ℝ
  transmission : ℝ
  threw : Bool

/-- The flow of `PageThorneDisk::processHitQuantities` (`lib/PageThorneDisk.C:277-363`) for one channel: `bolo` is the bolometric
intensity, `inu` the specific one, `g` the redshift `nu_obs/nu_em`, `i` what the polarised transfer returns. Simplified: the
redshift, time and impact coordinates, which come before, and the Stokes parameters are left out. -/
def hit (q : Asked) (parallel : Bool) (bolo inu i g : ℝ) (s : Done) : Done :=
  if q.intensity then { s with threw := true } else
  let s := if q.user4 then { s with user4 := s.user4 + bolo * s.transmission * g * g * g * g } else s
  if q.binspectrum then { s with threw := true } else
  let s := if q.spectrum && !parallel then { s with spectrum := s.spectrum + inu * s.transmission * g * g * g } else s
  if (q.spectrum || q.stokes) && !parallel then { s with threw := true } else
  let s := if q.spectrum then { s with spectrum := s.spectrum + i * (g * g * g) } else s
  { s with transmission := s.transmission * 0 }

end Gyoto.PageThorne
