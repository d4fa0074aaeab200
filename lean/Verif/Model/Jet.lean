import Verif.Model.BField
import Verif.Model.Synch
import Verif.Model.UniformSphere
import Mathlib.Analysis.SpecialFunctions.Trigonometric.Basic

/-!
# The jet (`lib/Jet.C`): its shape, its velocity, its density and its magnetic field

Doubles are reals. `none` and `.ub`: the number computed is not one (a quotient by zero, the square root of a negative number); `.throws`:
an error. What the spectra make of the density, the temperature and the field is C108 to C111, C114 and C116.
-/

namespace Gyoto.JetFlow

open Gyoto.MetricAlg
open Gyoto.Transfer (Out)
open Gyoto.USphere (Kind)

/-- The members (`include/GyotoJet.h:99-119`), without the two spectra. The density is per cubic centimetre. -/
structure Jet where
  parabolic : Bool
  outflowing : Bool
  kIn : ℝ
  kOut : ℝ
  angOut : ℝ
  angIn : ℝ
  ratio : ℝ
  stag : ℝ
  rin : ℝ
  gamma : ℝ
  n0 : ℝ
  T0 : ℝ
  slope : ℝ
  sigma : ℝ
  alpha : ℝ

/-- The constructor (`lib/Jet.C:189-206`). -/
noncomputable def Jet.new : Jet := ⟨true, true, -1, -1, -1, -1, 0, 0, 2, 1, 1, 1e10, 1, 1, 0⟩

/-- The setters; the density is given per cubic metre. -/
inductive Call where
  | parabolic (b : Bool)
  | outflowing (b : Bool)
  | innerParabola (x : ℝ)
  | outerParabola (x : ℝ)
  | outerAngle (x : ℝ)
  | innerAngle (x : ℝ)
  | stagnation (x : ℝ)
  | innerRadius (x : ℝ)
  | phiOverR (x : ℝ)
  | gamma (x : ℝ)
  | density (x : ℝ)
  | temperature (x : ℝ)
  | slope (x : ℝ)
  | magnetization (x : ℝ)
  | alpha (x : ℝ)

open Classical in
/-- One setter (`lib/Jet.C:69-183`): the object afterwards, and whether an error is thrown. -/
noncomputable def Jet.call (s : Jet) : Call → Jet × Bool
  | .parabolic b => ({ s with parabolic := b }, false)
  | .outflowing b => ({ s with outflowing := b }, false)
  | .innerParabola x => ({ s with kIn := x }, decide (s.kOut ≠ -1 ∧ s.kOut > x))
  | .outerParabola x => ({ s with kOut := x }, decide (s.kIn ≠ -1 ∧ x > s.kIn))
  | .outerAngle x => ({ s with angOut := x }, decide (s.angIn ≠ -1 ∧ x < s.angIn))
  | .innerAngle x => ({ s with angIn := x }, decide (s.angOut ≠ -1 ∧ s.angOut < x))
  | .stagnation x => ({ s with stag := x }, false)
  | .innerRadius x => ({ s with rin := x }, false)
  | .phiOverR x => ({ s with ratio := x }, false)
  | .gamma x => ({ s with gamma := x }, false)
  | .density x => ({ s with n0 := x * 1e-6 }, false)
  | .temperature x => ({ s with T0 := x }, false)
  | .slope x => ({ s with slope := x }, false)
  | .magnetization x => ({ s with sigma := x }, false)
  | .alpha x => if x < 0 ∨ x > 1 then (s, true) else ({ s with alpha := x }, false)

/-- Several setters, as long as none throws. -/
noncomputable def Jet.run (s : Jet) : List Call → Jet × Bool
  | [] => (s, false)
  | c :: l => match s.call c with
    | (t, true) => (t, true)
    | (t, false) => t.run l

/-! ## The shape -/

/-- `rr` (`lib/Jet.C:419`, `:424`). -/
noncomputable def radius : Kind → Vec → ℝ
  | .spherical, p => p 1
  | .cartesian, p => √(p 1 * p 1 + p 2 * p 2 + p 3 * p 3)

/-- `rcyl` (`lib/Jet.C:420`, `:425`). -/
noncomputable def cyl : Kind → Vec → ℝ
  | .spherical, p => p 1 * Real.sin (p 2)
  | .cartesian, p => √(p 1 * p 1 + p 2 * p 2)

/-- `zz` (`lib/Jet.C:421`, `:426`). -/
noncomputable def height : Kind → Vec → ℝ
  | .spherical, p => |p 1 * Real.cos (p 2)|
  | .cartesian, p => |p 3|

/-- `rcyljetin` and `rcyljetout` for parabolas (`lib/Jet.C:467-468`). -/
noncomputable def wall (z k : ℝ) : Option ℝ := (BField.div? z k).bind BField.sqrt?

/-- `operator()` (`lib/Jet.C:412-485`). The tangent of a right angle is a large number in double precision, which is left out. -/
noncomputable def Jet.delta (s : Jet) (kind : Kind) (p : Vec) : Option ℝ :=
  let z := height kind p
  if radius kind p < s.rin then some (s.rin - radius kind p)
  else if s.parabolic then
    (wall z s.kIn).bind fun a => (wall z s.kOut).bind fun b => some ((cyl kind p - a) * (cyl kind p - b))
  else if Real.cos s.angIn = 0 ∨ Real.cos s.angOut = 0 then none
  else some ((cyl kind p - z * Real.tan s.angIn) * (cyl kind p - z * Real.tan s.angOut))

/-! ## The velocity -/

/-- `Vr`, `Vth`, `Vphi` in the orthonormal frame, divided by `Vjet` (`lib/Jet.C:506-559`). -/
noncomputable def Jet.heading (s : Jet) (rr theta : ℝ) : ℝ × ℝ × ℝ :=
  if s.parabolic then
    let rcyl := rr * Real.sin theta
    let sz : ℝ := if rr * Real.cos theta < 0 then -1 else 1
    let rvel := Real.sin theta + 2 * sz * s.kIn * rcyl * Real.cos theta
    let thvel := Real.cos theta - 2 * sz * s.kIn * rcyl * Real.sin theta
    let ur := rvel / √(rvel * rvel + thvel * thvel)
    let uth := thvel / √(rvel * rvel + thvel * thvel)
    let uph := s.ratio * ur
    let tmp := √(1 + uph * uph)
    (ur / tmp, uth / tmp, uph / tmp)
  else
    (1 / √(1 + s.ratio * s.ratio), 0, s.ratio / √(1 + s.ratio * s.ratio))

/-- The sign of the radial motion (`lib/Jet.C:565-578`). -/
noncomputable def Jet.dir (s : Jet) (rr : ℝ) : ℝ := if s.outflowing = true ∧ rr > s.stag then 1 else -1

/-- `getVelocity(pos, vel)` (`lib/Jet.C:487-587`) where the metric is `g`. A square root of a negative number, an infinite `utZAMO` or a quotient by
zero make the norm a NaN or infinite, which is refused. -/
noncomputable def Jet.getVelocity (s : Jet) (g : Tensor) (pos : Vec) : Out Vec :=
  let det := g 0 0 * g 3 3 - g 0 3 * g 0 3
  if s.gamma * s.gamma - 1 < 0 ∨ g 3 3 ≤ 0 ∨ 0 ≤ det ∨ g 1 1 ≤ 0 ∨ (s.parabolic = true ∧ g 2 2 ≤ 0) then .throws
  else
    let V := √(s.gamma * s.gamma - 1) / s.gamma
    let ut := √(-g 3 3 / det)
    let up := -ut * g 0 3 / g 3 3
    let h := s.heading (pos 1) (pos 2)
    let Vr := V * h.1 / √(g 1 1)
    let Vth := V * h.2.1 / √(g 2 2)
    let Vphi := V * h.2.2 / √(g 3 3)
    let out := s.dir (pos 1)
    let vel : Vec := ![s.gamma * ut, out * (s.gamma * Vr), out * (s.gamma * Vth), s.gamma * (up + Vphi)]
    if |scalarProd g vel vel + 1| > 1e-6 then .throws else .ok vel

/-! ## The density and the temperature -/

/-- `rcyljetbase` (`lib/Jet.C:264-280`, `:635-651`). -/
noncomputable def Jet.baseRadius (s : Jet) : Option ℝ :=
  if s.parabolic then
    if s.kOut = 0 then none
    else
      let discri := 1 / (s.kOut * s.kOut) + 4 * s.rin * s.rin
      let z := 0.5 * (-1 / s.kOut + √discri)
      BField.sqrt? (z / s.kOut)
  else if Real.cos s.angOut = 0 then none else some (s.rin * Real.tan s.angOut)

/-- `number_density` (`lib/Jet.C:287-288`, `:658-659`) at the cylindrical radius `rcyl`. -/
noncomputable def Jet.density (s : Jet) (rcyl : ℝ) : Option ℝ :=
  s.baseRadius.bind fun b => BField.div? (s.n0 * (b * b)) (rcyl * rcyl)

/-- `temperature` (`lib/Jet.C:290-291`, `:661-662`) at the radius `rr`; a base that is not positive is left out. -/
noncomputable def Jet.temperature (s : Jet) (rr : ℝ) : Option ℝ :=
  if rr ≤ 0 ∨ s.rin ≤ 0 then none else some (s.T0 * (s.rin / rr) ^ s.slope)

/-! ## The magnetic field -/

/-- `B4vect` for the configuration "Combined" (`lib/Jet.C:321-332`, `:686-702`) in spherical coordinates, `par` being the last argument of
`computeB4vect`. -/
noncomputable def Jet.combined (s : Jet) (par : ℝ) (g : Tensor) (vel pos : Vec) : Option Vec :=
  (BField.computeB4vect .spherical g "Parabolic" vel pos par).bind fun bp =>
  (BField.computeB4vect .spherical g "Toroidal" vel pos 0.75).bind fun bt =>
  (BField.sqrt? (s.alpha ^ 2 + (1 - s.alpha) ^ 2 +
    2 * s.alpha * (1 - s.alpha) * (g 0 0 * bp 0 * bt 0 + g 0 3 * bp 0 * bt 3))).bind fun A =>
  (BField.div? 1 A).bind fun _ => some fun i => (s.alpha * bt i + (1 - s.alpha) * bp i) / A

/-- The field of the unpolarised `radiativeQ` (`lib/Jet.C:321-335`). -/
noncomputable def Jet.field (s : Jet) (cfg : String) (g : Tensor) (vel pos : Vec) : Option Vec :=
  if cfg = "Combined" then s.combined 1 g vel pos else BField.computeB4vect .spherical g cfg vel pos 0.75

/-- The field of the polarised `radiativeQ` (`lib/Jet.C:685-705`; the default of the last argument is `include/GyotoAstrobj.h:731`). -/
noncomputable def Jet.fieldP (s : Jet) (cfg : String) (g : Tensor) (vel pos : Vec) : Option Vec :=
  if cfg = "Combined" then s.combined 0.75 g vel pos else BField.computeB4vect .spherical g cfg vel pos 0.75

end Gyoto.JetFlow
