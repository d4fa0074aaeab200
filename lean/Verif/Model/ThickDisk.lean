import Verif.Model.SphAcc
import Verif.Model.Jet
import Verif.Model.PolarSpot

/-!
# The thick disk (`lib/ThickDisk.C`)

Doubles are reals. `USE_IPOLE_FORMALISM` is 0 (`lib/ThickDisk.C:76`): the branches for the value 1 are not compiled in and are left out. The
field and the angles of the polarised `radiativeQ` are those of `Model/BField.lean`, `Model/Evpa.lean` and C117; they are arguments here.
-/

namespace Gyoto.Thick

open Gyoto.MetricAlg
open Gyoto.Emission (Mueller)
open Gyoto.Transfer (Out)
open Gyoto.Synch
open Gyoto.USphere (Kind)
open Gyoto.SphAcc (slabs protonMassCGS)
open Gyoto.JetFlow (radius cyl)

/-- The members (`include/GyotoThickDisk.h:65-75`). The density is per cubic centimetre. -/
structure Disk where
  synch : Thermal
  rin : ℝ
  thick : ℝ
  selfAbs : Bool
  alpha : ℝ
  beta : ℝ
  n0 : ℝ
  T0 : ℝ
  slopeT : ℝ
  slope : ℝ
  sigma : ℝ

/-- The constructor (`lib/ThickDisk.C:167-184`). -/
noncomputable def Disk.new : Disk := ⟨.new, 2, 1, true, 1, 1, 1, 1e10, 1, 2, 1⟩

/-- The setters; the density is given per cubic metre. -/
inductive Call where
  | zGaussianSigma (x : ℝ)
  | innerRadius (x : ℝ)
  | useSelfAbsorption (b : Bool)
  | veloParam (v : List ℝ)
  | numberDensity (x : ℝ)
  | densitySlope (x : ℝ)
  | temperature (x : ℝ)
  | temperatureSlope (x : ℝ)
  | magnetization (x : ℝ)

open Classical in
/-- One setter (`lib/ThickDisk.C:79-164`): the object afterwards, and whether an error is thrown. -/
noncomputable def Disk.call (s : Disk) : Call → Disk × Bool
  | .zGaussianSigma x => ({ s with thick := x }, false)
  | .innerRadius x => ({ s with rin := x }, false)
  | .useSelfAbsorption b => ({ s with selfAbs := b }, false)
  | .veloParam [a, b] => ({ s with alpha := a, beta := b }, decide (a < 0 ∨ a > 1 ∨ b < 0 ∨ b > 1))
  | .veloParam _ => (s, true)
  | .numberDensity x => ({ s with n0 := x * 1e-6 }, false)
  | .densitySlope x => ({ s with slope := x }, false)
  | .temperature x => ({ s with T0 := x }, false)
  | .temperatureSlope x => ({ s with slopeT := x }, false)
  | .magnetization x => ({ s with sigma := x }, false)

/-- `veloParam()` (`lib/ThickDisk.C:99-104`). -/
def Disk.veloParam (s : Disk) : List ℝ := [s.alpha, s.beta]

/-- `numberDensityAtInnerRadius()` (`lib/ThickDisk.C:112-121`). -/
noncomputable def Disk.numberDensity (s : Disk) : ℝ := s.n0 * 1e6

/-! ## The velocity -/

/-- `getVelocity(pos, vel)` (`lib/ThickDisk.C:424-500`) where the metric is `g` and its inverse `up`. A power of a negative number, the square root
of a negative number and a quotient by zero make the norm a NaN or infinite, which is refused (`:494-500`): a NaN times zero is one. -/
noncomputable def Disk.getVelocity (s : Disk) (g up : Tensor) (pos : Vec) : Out Vec :=
  let rcyl := pos 1 * Real.sin (pos 2)
  if rcyl < 0 then .throws
  else
    let ll := rcyl ^ (1.5 : ℝ) / (rcyl + 1)
    let q := up 0 0 - 2 * up 0 3 * ll + up 3 3 * ll * ll
    if 0 ≤ q then .throws
    else
      let m := √(-1 / q)
      let c0 := up 0 0 * -m + up 0 3 * (m * ll)
      let c3 := up 0 3 * -m + up 3 3 * (m * ll)
      if c0 = 0 ∨ (-1 - up 0 0) * up 1 1 < 0 ∨ -up 0 0 = 0 then .throws
      else
        let Oc := c3 / c0
        let vr := -√((-1 - up 0 0) * up 1 1)
        let Or := -up 0 3 / -up 0 0
        let v1 := 0 + (1 - s.alpha) * (vr - 0)
        let O := Oc + (1 - s.beta) * (Or - Oc)
        let nf := g 0 0 + 2 * O * g 0 3 + O * O * g 3 3
        if 0 ≤ nf ∨ -(1 + g 1 1 * v1 * v1) / nf < 0 then .throws
        else
          let v0 := √(-(1 + g 1 1 * v1 * v1) / nf)
          let vel : Vec := ![v0, v1, 0, O * v0]
          if |scalarProd g vel vel + 1| > 0.03 then .throws else .ok vel

/-! ## The gas -/

/-- `operator()` (`lib/ThickDisk.C:386-422`). -/
def Disk.delta (_ : Disk) (_ : Vec) : ℝ := -1

/-- `zz` (`lib/ThickDisk.C:228`, `:234`, `:582`, `:589`). -/
noncomputable def height : Kind → Vec → ℝ
  | .spherical, p => p 1 * Real.cos (p 2)
  | .cartesian, p => p 3

/-- `expofact_zscaling` (`lib/ThickDisk.C:251-252`, `:610-614`): the exponential of minus infinity is zero, the quotient of zero by zero a NaN. -/
noncomputable def Disk.profile (s : Disk) (rc z : ℝ) : Option ℝ :=
  if s.thick * rc = 0 then if z = 0 then none else some 0
  else some (Real.exp (-z * z / (2 * (s.thick * rc) * (s.thick * rc))))

/-- `number_density` of the unpolarised `radiativeQ` (`lib/ThickDisk.C:246-254`); a quotient `rin/r` that is not positive is left out. -/
noncomputable def Disk.density (s : Disk) (k : Kind) (p : Vec) : Option ℝ :=
  if radius k p = 0 ∨ s.rin / radius k p ≤ 0 then none
  else (s.profile (cyl k p) (height k p)).map fun e => s.n0 * (s.rin / radius k p) ^ s.slope * e

/-- `temperature` (`lib/ThickDisk.C:258-259`, `:629-630`). -/
noncomputable def Disk.temperature (s : Disk) (k : Kind) (p : Vec) : ℝ := s.T0 * (s.rin / radius k p) ^ s.slopeT

/-- The argument of the square root that gives `BB` for the density `n` (`lib/ThickDisk.C:284-286`, `:634-636`). -/
noncomputable def Disk.field2 (s : Disk) (n : ℝ) : ℝ := 4 * Real.pi * s.sigma * protonMassCGS * cCGS * cCGS * n

/-- What is set in the spectrum (`lib/ThickDisk.C:281-282`, `:311-312`, `:325-331`). -/
noncomputable def Disk.settings (s : Disk) (b : Bessel) (T n : ℝ) : List ThermalCall :=
  let thetae := boltzmannCGS * T / (electronMassCGS * c2CGS)
  let nu0 := chargeCGS * √(s.field2 n) / (2 * Real.pi * electronMassCGS * cCGS)
  [.temperature T, .numberdensityCGS n, .averaged true, .angle (Real.pi / 2), .cyclotronFreq nu0, .besselK2 (b.k2 (1 / thetae))]

open Classical in
/-- `radiativeQ(Inu, Taunu, nu_ems, nbnu, dsem, coord_ph)` at `p`, for the unit of length `L` (`lib/ThickDisk.C:216-384`): the object afterwards,
as the spectrum is set, and `Inu`, `Taunu`. Below the inner radius there is a warning only (`:241-244`). -/
noncomputable def Disk.radiativeQ (s : Disk) (b : Bessel) (L dsem : ℝ) (k : Kind) (p : Vec) (nus : List ℝ) : Out (Disk × List (ℝ × ℝ)) :=
  match s.density k p with
  | none => .ub
  | some n =>
    if s.field2 n < 0 then .ub
    else
      let synch := s.synch.run (s.settings b (s.temperature k p) n)
      bind (if n < s.n0 / 1e10 then .ok (synch, nus.map fun _ => (0, 0)) else synch.radiativeQ nus) fun (synch, ja) =>
        bind (slabs (dsem * L) (ja.map fun (j, a) => (j, if s.selfAbs then a else 0))) fun out =>
          .ok ({ s with synch := synch }, out)

/-! ## The polarised light -/

/-- `number_density` of the polarised `radiativeQ` (`lib/ThickDisk.C:608-620`). -/
noncomputable def Disk.densityP (s : Disk) (k : Kind) (p : Vec) : Option ℝ :=
  (s.density k p).map fun n => if radius k p < s.rin then 0 else n

/-- What is set in the spectrum (`lib/ThickDisk.C:631-632`, `:643-644`, `:719-728`) for the angle `theta` of the light with the field. -/
noncomputable def Disk.settingsP (s : Disk) (b : Bessel) (T n theta : ℝ) : List ThermalCall :=
  let thetae := boltzmannCGS * T / (electronMassCGS * c2CGS)
  let nu0 := chargeCGS * √(s.field2 n) / (2 * Real.pi * electronMassCGS * cCGS)
  [.temperature T, .numberdensityCGS n, .averaged false, .angle theta, .cyclotronFreq nu0, .besselK2 (b.k2 (1 / thetae))]

open Classical in
/-- The polarised `radiativeQ` (`lib/ThickDisk.C:568-788`) at `p`, for the angles `chi` (`:676`) and `theta` (`:689`) and the length `L` in
the units of the coefficients; the last loop (`:758-787`) is that of the hot spot. -/
noncomputable def Disk.radiativeQP (s : Disk) (b : Bessel) (chi theta L : ℝ) (k : Kind) (p : Vec) (nus : List ℝ) :
    Out (Disk × List ((Fin 4 → ℝ) × Mueller)) :=
  match s.densityP k p with
  | none => .ub
  | some n =>
    if s.field2 n < 0 then .ub
    else
      let synch := s.synch.run (s.settingsP b (s.temperature k p) n theta)
      bind (if n < s.n0 / 1e10 then .ok (synch, nus.map fun _ _ => 0) else synch.radiativeQP b nus) fun (synch, vs) =>
        bind (HotSpot.steps chi L vs) fun out => .ok ({ s with synch := synch }, out)

end Gyoto.Thick
