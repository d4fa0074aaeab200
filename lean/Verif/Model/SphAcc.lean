import Verif.Model.Synch
import Verif.Model.MetricAlg
import Verif.Model.UniformSphere

/-!
# Uniform slabs, and the spherical accretion flow (`lib/SphericalAccretion.C`)

Doubles are reals. Where a quotient has a zero denominator, or a power or a square root a negative argument, the model says `ub` (the code goes
on with a NaN or an infinity); `GYOTO_ERROR` and `throwError` are `throws`.
-/

namespace Gyoto.SphAcc

open Gyoto.MetricAlg
open Gyoto.Transfer (Out)
open Gyoto.Synch
open Gyoto.USphere (Kind)

/-! ## What the last loop of `radiativeQ` does with the coefficients -/

/-- One turn of the loop, for the coefficients `j` and `a` and the length `s` (`lib/SphericalAccretion.C:239-249`, and the same lines in
`lib/Blob.C:510-520`, `lib/FlaredDiskSynchrotron.C:671-682`, `lib/Jet.C:397-407`, `lib/Plasmoid.C:289-299`, `lib/PolishDoughnut.C:872-882`,
`lib/Torus.C:233-243`): `Inu` and `Taunu`. In double precision the test `x==x+1.` is true from 2^53 on. -/
noncomputable def slab (j a s : ℝ) : Out (ℝ × ℝ) :=
  let em1 := Real.exp (-a * s) - 1
  let T := em1 + 1
  let I := if a = 0 then j * s else -j / a * em1
  if I < 0 then .throws
  else if I ≥ 2 ^ 53 ∨ T ≥ 2 ^ 53 then .throws
  else .ok (I, T)

/-- All the frequencies. -/
noncomputable def slabs (s : ℝ) : List (ℝ × ℝ) → Out (List (ℝ × ℝ))
  | [] => .ok []
  | (j, a) :: l => bind (slab j a s) fun p => bind (slabs s l) fun ps => .ok (p :: ps)

/-! ## The accretion flow -/

/-- `GYOTO_PROTON_MASS_CGS` (`include/GyotoDefs.h:527`). -/
noncomputable def protonMassCGS : ℝ := 1.67262158e-24

/-- The members (`include/GyotoSphericalAccretion.h:63-70`). -/
structure Acc where
  selfAbs : Bool
  rin : ℝ
  n0 : ℝ
  slope : ℝ
  T0 : ℝ
  slopeT : ℝ
  sigma : ℝ
  synch : Thermal

/-- The constructor (`lib/SphericalAccretion.C:119-131`). -/
noncomputable def Acc.new : Acc := ⟨true, 2, 1, 2, 1e10, 1, 1, Thermal.new⟩

/-- The setters; the density is given per cubic metre. -/
inductive Call where
  | useSelfAbsorption (b : Bool)
  | innerRadius (x : ℝ)
  | numberDensity (x : ℝ)
  | densitySlope (x : ℝ)
  | temperature (x : ℝ)
  | temperatureSlope (x : ℝ)
  | magnetization (x : ℝ)

/-- One setter (`lib/SphericalAccretion.C:60-117`). -/
noncomputable def Acc.call (s : Acc) : Call → Acc
  | .useSelfAbsorption b => { s with selfAbs := b }
  | .innerRadius x => { s with rin := x }
  | .numberDensity x => { s with n0 := x * 1e-6 }
  | .densitySlope x => { s with slope := x }
  | .temperature x => { s with T0 := x }
  | .temperatureSlope x => { s with slopeT := x }
  | .magnetization x => { s with sigma := x }

/-- The radius in the coordinates of the metric (`lib/SphericalAccretion.C:163-182`, `:259-269`). -/
noncomputable def radius : Kind → Vec → ℝ
  | .spherical, p => p 1
  | .cartesian, p => √(p 1 * p 1 + p 2 * p 2 + p 3 * p 3)

/-- `operator()` (`lib/SphericalAccretion.C:254-272`). -/
noncomputable def Acc.delta (s : Acc) (k : Kind) (p : Vec) : ℝ := s.rin - radius k p

/-- The number density at the radius `r` (`lib/SphericalAccretion.C:184-185`). -/
noncomputable def Acc.density (s : Acc) (r : ℝ) : ℝ := s.n0 * (s.rin / r) ^ s.slope

/-- The temperature at the radius `r` (`lib/SphericalAccretion.C:190-191`). -/
noncomputable def Acc.temperature (s : Acc) (r : ℝ) : ℝ := s.T0 * (s.rin / r) ^ s.slopeT

/-- The argument of the square root that gives the magnetic field (`lib/SphericalAccretion.C:196-198`). -/
noncomputable def Acc.field2 (s : Acc) (r : ℝ) : ℝ := 4 * Real.pi * s.sigma * protonMassCGS * cCGS * cCGS * s.density r

/-- What is set in the spectrum (`lib/SphericalAccretion.C:193-221`). -/
noncomputable def Acc.settings (s : Acc) (b : Bessel) (r : ℝ) : List ThermalCall :=
  let thetae := boltzmannCGS * s.temperature r / (electronMassCGS * c2CGS)
  let nu0 := chargeCGS * √(s.field2 r) / (2 * Real.pi * electronMassCGS * cCGS)
  [.temperature (s.temperature r), .numberdensityCGS (s.density r), .averaged true, .angle 0, .cyclotronFreq nu0, .besselK2 (b.k2 (1 / thetae))]

/-- `radiativeQ(Inu, Taunu, nu_ems, nbnu, dsem, coord_ph)` at the radius `r`, for the unit of length `L` (`lib/SphericalAccretion.C:157-252`):
the object afterwards, as the spectrum is set, and `Inu`, `Taunu`. A quotient `rin/r` that is not positive is left out. -/
noncomputable def Acc.radiativeQ (s : Acc) (b : Bessel) (L dsem r : ℝ) (nus : List ℝ) : Out (Acc × List (ℝ × ℝ)) :=
  if r = 0 ∨ s.rin / r ≤ 0 ∨ s.field2 r < 0 then .ub
  else
    bind ((s.synch.run (s.settings b r)).radiativeQ nus) fun (synch, ja) =>
      bind (slabs (dsem * L) (ja.map fun (j, a) => (j, if s.selfAbs then a else 0))) fun out =>
        .ok ({ s with synch := synch }, out)

/-- `getVelocity(pos, vel)` for the metric `g` and its inverse `up` at `pos` (`lib/SphericalAccretion.C:274-317`); the square root of a negative
number makes the norm a NaN, which is refused. -/
noncomputable def getVelocity (g up : Tensor) : Out Vec :=
  let q := (-1 - up 0 0) * up 1 1
  if q < 0 then .throws
  else
    let vel : Vec := ![-up 0 0, -√q, 0, -up 0 3]
    if |scalarProd g vel vel + 1| > 1e-4 then .throws else .ok vel

end Gyoto.SphAcc
