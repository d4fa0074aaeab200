import Verif.Model.KerrBL
import Verif.Model.Transfer
import Mathlib.Analysis.SpecialFunctions.Pow.Real
import Mathlib.Analysis.SpecialFunctions.Trigonometric.Basic

/-!
# The slender torus with simple deformations (`lib/DeformedTorus.C`)

Doubles are reals, `M_PI` is exact. `none` and `.ub`: the number computed is not one (a quotient by zero, the square root of a negative number, a power
of a number that is not positive); `.throws`: an error. The metric is `KerrBL`, the only one accepted (`lib/DeformedTorus.C:283-291`), with the spin `a`.
-/

namespace Gyoto.DefTorus

open Gyoto.MetricAlg Gyoto.KerrBL
open Gyoto.Transfer (Out)

/-- `perturb_t` (`include/GyotoDeformedTorus.h:44-50`). -/
inductive Perturb where
  | radialTranslation | verticalTranslation | rotation | expansion | radialShear | verticalShear | pureShear
  deriving DecidableEq

/-- `perturbKind(k)` (`lib/DeformedTorus.C:40-53`). -/
def parse (k : String) : Option Perturb :=
  if k = "RadialTranslation" then some .radialTranslation
  else if k = "VerticalTranslation" then some .verticalTranslation
  else if k = "Rotation" then some .rotation
  else if k = "Expansion" then some .expansion
  else if k = "RadialShear" then some .radialShear
  else if k = "VerticalShear" then some .verticalShear
  else if k = "PureShear" then some .pureShear
  else none

/-- `perturbKind()` (`lib/DeformedTorus.C:54-66`). -/
def name : Perturb → String
  | .radialTranslation => "RadialTranslation"
  | .verticalTranslation => "VerticalTranslation"
  | .rotation => "Rotation"
  | .expansion => "Expansion"
  | .radialShear => "RadialShear"
  | .verticalShear => "VerticalShear"
  | .pureShear => "PureShear"

/-- The spin of the metric and the members that are used (`include/GyotoDeformedTorus.h:38-51`). -/
structure Torus where
  a : ℝ
  c : ℝ
  beta : ℝ
  eta : ℝ
  kind : Perturb

/-- The constructor (`lib/DeformedTorus.C:70-82`), for the spin `a`. -/
noncomputable def Torus.new (a : ℝ) : Torus := ⟨a, 10.8, 0.01, 0.01, .radialTranslation⟩

/-- `beta(v)` (`lib/DeformedTorus.C:33-34`, `include/GyotoProperty.h:73-75`): the object afterwards, and whether an error is thrown. -/
noncomputable def Torus.setBeta (s : Torus) (v : ℝ) : Torus × Bool := ({ s with beta := v }, decide (v ≥ 1))

/-- `posc` (`lib/DeformedTorus.C:112`, `:176`). -/
noncomputable def Torus.posc (s : Torus) : Vec := ![0, s.c, Real.pi / 2, 0]

/-- `Omegac` (`lib/DeformedTorus.C:116`, `:182`). -/
noncomputable def Torus.Omega (s : Torus) : ℝ := 1 / (s.c ^ (1.5 : ℝ) + s.a)

/-- `omr2` (`lib/DeformedTorus.C:117-118`). -/
noncomputable def Torus.omr2 (s : Torus) : ℝ := 1 - 6 / s.c + 8 * s.a * s.c ^ (-1.5 : ℝ) - 3 * s.a * s.a / (s.c * s.c)

/-- `omth2` (`lib/DeformedTorus.C:119-120`). -/
noncomputable def Torus.omth2 (s : Torus) : ℝ := 1 - 4 * s.a * s.c ^ (-1.5 : ℝ) + 3 * s.a * s.a / (s.c * s.c)

/-- `x_bar` (`lib/DeformedTorus.C:121-122`, `:193-194`). -/
noncomputable def Torus.x (s : Torus) (r : ℝ) : ℝ := 1 / s.beta * √(gmunu s.a s.posc 1 1) * (r - s.c) / s.c

/-- `y_bar` (`lib/DeformedTorus.C:123-124`, `:195-196`). -/
noncomputable def Torus.y (s : Torus) (θ : ℝ) : ℝ := 1 / s.beta * √(gmunu s.a s.posc 2 2) * (Real.pi / 2 - θ) / s.c

/-- `a1` to `a3` and `b1` to `b3`. -/
structure Coefs where
  a1 : ℝ
  a2 : ℝ
  a3 : ℝ
  b1 : ℝ
  b2 : ℝ
  b3 : ℝ

/-- The deformation at the date `t` (`lib/DeformedTorus.C:126-160`). -/
noncomputable def Torus.coefs (s : Torus) (t : ℝ) : Coefs :=
  let S := Real.sin (s.Omega * t)
  let C := Real.cos (s.Omega * t)
  match s.kind with
  | .radialTranslation => ⟨1, 0, s.eta * S, 0, 1, 0⟩
  | .verticalTranslation => ⟨1, 0, 0, 0, 1, s.eta * S⟩
  | .rotation => ⟨C, S, 0, -S, C, 0⟩
  | .expansion => ⟨1 + s.eta * S, 0, 0, 0, 1 + s.eta * S, 0⟩
  | .radialShear => ⟨1, s.eta * S, 0, 0, 1, 0⟩
  | .verticalShear => ⟨1, 0, 0, s.eta * S, 1, 0⟩
  | .pureShear => ⟨1 + s.eta * S, 0, 0, 0, 1 / (1 + s.eta * S), 0⟩

/-- Where the numbers of the centre are numbers. -/
def Torus.Ready (s : Torus) : Prop :=
  0 < s.c ∧ 0 < s.c * s.c - 2 * s.c + s.a * s.a ∧ s.beta ≠ 0 ∧ s.c ^ (1.5 : ℝ) + s.a ≠ 0

/-- The scale of the expansion and of the pure shear. -/
noncomputable def Torus.scale (s : Torus) (t : ℝ) : ℝ := 1 + s.eta * Real.sin (s.Omega * t)

/-- `deforx` and `defory` (`lib/DeformedTorus.C:161-162`). -/
noncomputable def Torus.X (s : Torus) (t r θ : ℝ) : ℝ := (s.coefs t).a1 * s.x r + (s.coefs t).a2 * s.y θ + (s.coefs t).a3
noncomputable def Torus.Y (s : Torus) (t r θ : ℝ) : ℝ := (s.coefs t).b1 * s.x r + (s.coefs t).b2 * s.y θ + (s.coefs t).b3

/-- `ff` (`lib/DeformedTorus.C:163-165`). -/
noncomputable def Torus.f (s : Torus) (t r θ : ℝ) : ℝ := s.omr2 * s.X t r θ * s.X t r θ + s.omth2 * s.Y t r θ * s.Y t r θ - 1

open Classical in
/-- `operator()(pos)` (`lib/DeformedTorus.C:109-168`). -/
noncomputable def Torus.value (s : Torus) (pos : Vec) : Option ℝ := 
  if s.Ready ∧ (s.kind = .pureShear → s.scale (pos 0) ≠ 0) then some (s.f (pos 0) (pos 1) (pos 2)) else none

/-- `drdt` and `dthdt` (`lib/DeformedTorus.C:192-261`). -/
noncomputable def Torus.drift (s : Torus) (t r θ : ℝ) : ℝ × ℝ :=
  let S := Real.sin (s.Omega * t)
  let C := Real.cos (s.Omega * t)
  let x := s.x r
  let y := s.y θ
  let kr := s.c / √(gmunu s.a s.posc 1 1) * s.beta
  let kt := -s.c / √(gmunu s.a s.posc 2 2) * s.beta
  match s.kind with
  | .radialTranslation => (kr * s.eta * s.Omega * C, 0)
  | .verticalTranslation => (0, kt * s.eta * s.Omega * C)
  | .rotation =>
    let x0 := x * C - y * S
    let y0 := x * S + y * C
    (kr * s.Omega * (-S * x0 + C * y0), kt * s.Omega * (-C * x0 - S * y0))
  | .expansion => (kr * s.Omega * s.eta * C * (x / (1 + s.eta * S)), kt * s.Omega * s.eta * C * (y / (1 + s.eta * S)))
  | .radialShear => (kr * s.Omega * s.eta * C * y, 0)
  | .verticalShear => (0, kt * s.Omega * s.eta * C * x)
  | .pureShear => (kr * s.Omega * s.eta * C * (x / (1 + s.eta * S)),
      kt * s.Omega * s.eta * (-C / ((1 + s.eta * S) * (1 + s.eta * S))) * (y * (1 + s.eta * S)))

/-- `lc` (`lib/DeformedTorus.C:183`). -/
noncomputable def Torus.lc (s : Torus) : ℝ :=
  -(s.Omega * gmunu s.a s.posc 3 3 + gmunu s.a s.posc 0 3) / (s.Omega * gmunu s.a s.posc 0 3 + gmunu s.a s.posc 0 0)

/-- The denominator of `u_t2` (`lib/DeformedTorus.C:263-264`). -/
noncomputable def Torus.denom (s : Torus) (pos : Vec) : ℝ :=
  let up := gmunuUp s.a pos
  let d := s.drift (pos 0) (pos 1) (pos 2)
  up 0 0 + s.lc * s.lc * up 3 3 - 2 * s.lc * up 0 3 + d.1 * d.1 * up 1 1 + d.2 * d.2 * up 2 2

open Classical in
/-- `getVelocity(pos, vel)` (`lib/DeformedTorus.C:170-281`). -/
noncomputable def Torus.getVelocity (s : Torus) (pos : Vec) : Out Vec :=
  let up := gmunuUp s.a pos
  let d := s.drift (pos 0) (pos 1) (pos 2)
  if ¬ s.Ready ∨ (s.kind = .pureShear ∨ s.kind = .expansion) ∧ s.scale (pos 0) = 0 ∨
      s.Omega * gmunu s.a s.posc 0 3 + gmunu s.a s.posc 0 0 = 0 ∨ Real.sin (pos 2) = 0 ∨
      pos 1 * pos 1 - 2 * pos 1 + s.a * s.a = 0 ∨ pos 1 * pos 1 + s.a * s.a * (Real.cos (pos 2) * Real.cos (pos 2)) = 0 ∨ s.denom pos = 0 then .ub
  else if -1 / s.denom pos < 0 then .throws
  else
    let ut := -√(-1 / s.denom pos)
    let uph := -s.lc * ut
    let v0 := up 0 0 * ut + up 0 3 * uph
    .ok ![v0, d.1 * v0, d.2 * v0, up 3 3 * uph + up 0 3 * ut]

end Gyoto.DefTorus
