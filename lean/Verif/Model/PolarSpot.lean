import Verif.Model.HotSpot
import Verif.Model.Synch
import Verif.Model.StokesStep

/-!
# The angle of light with the magnetic field (`lib/Astrobj.C:672-690`) and the polarised equatorial hot spot (`lib/EquatorialHotSpot.C:247-393`)

`.ub`: the number computed is not one (the code goes on with a NaN or an infinity). The vectors `ephi` and `etheta` transported with the photon,
and the size of its state, are inputs (C44). The name of the configuration of the field is a string.
-/

namespace Gyoto.HotSpot

open Gyoto.MetricAlg
open Gyoto.Transfer (Out)
open Gyoto.Emission (Mueller)
open Gyoto.Synch (Thermal Bessel bind)

/-- `Generic::get_theta_mag(fourvect, coord_ph, vel)` (`lib/Astrobj.C:672-690`): `B` is `fourvect`, `p` the components 4 to 7 of `coord_ph`. -/
noncomputable def thetaMag (g : Tensor) (B p u : Vec) : Out ℝ :=
  match project g B u, project g p u with
  | some b, some l =>
    let bnorm := norm g b
    let lnorm := norm g l
    if lnorm * bnorm = 0 then .ub
    else
      let x := scalarProd g l b / (lnorm * bnorm)
      if x < -1 ∨ 1 < x then .ub else .ok (Real.arccos x)
  | _, _ => .ub

/-- `B4vect` before it is normalised (`lib/EquatorialHotSpot.C:287-316`). -/
noncomputable def rawField (cfg : String) (g : Tensor) (u : Vec) : Out Vec :=
  if cfg = "None" then .throws
  else if cfg = "Vertical" then .ok ![0, 0, -1, 0]
  else if cfg = "Radial" then .ok ![0, 1, 0, 0]
  else if cfg = "Toroidal" then
    if g 0 0 * u 0 = 0 then .ub else .ok ![-g 3 3 * 1 * u 3 / (g 0 0 * u 0), 0, 0, 1]
  else if cfg = "Radial-Azimuthal" then
    if g 0 0 * u 0 = 0 then .ub else .ok ![-g 3 3 * 1 * u 3 / (g 0 0 * u 0), 1, 0, 1]
  else .throws

/-- `B4vect` (`lib/EquatorialHotSpot.C:287-320`). -/
noncomputable def field (cfg : String) (g : Tensor) (u : Vec) : Out Vec :=
  bind (rawField cfg g u) fun B =>
    if scalarProd g B B ≤ 0 then .ub else .ok (multiply B (1 / √(scalarProd g B B)))

/-- `number_density` (`lib/EquatorialHotSpot.C:345-348`). -/
noncomputable def Spot.density (s : Spot) (obj : Vec) : ℝ :=
  let n := 6e6 / 3 * Real.exp (-s.d2 obj / (2 * (s.size * s.size)))
  if n < 1e5 then 0 else n

/-- `Theta` (`lib/EquatorialHotSpot.C:346`). -/
noncomputable def Spot.Theta (s : Spot) (obj : Vec) : ℝ :=
  200 * Real.exp (-s.d2 obj / (2 * (s.size * s.size))) * obj 1 ^ (-0.84 : ℝ)

/-- `nu0` (`lib/EquatorialHotSpot.C:323-324`). -/
noncomputable def nu0 : ℝ := Synch.chargeCGS * 100 / (2 * Real.pi * Synch.electronMassCGS * Synch.cCGS)

/-- The settings of the spectrum (`lib/EquatorialHotSpot.C:349-360`). -/
noncomputable def Spot.plasma (s : Spot) (b : Bessel) (t : Thermal) (theta : ℝ) (obj : Vec) : Thermal :=
  t.run [.numberdensityCGS (s.density obj),
    .temperature (Synch.electronMassCGS * Synch.c2CGS * s.Theta obj / Synch.boltzmannCGS),
    .besselK2 (b.k2 (1 / s.Theta obj)), .averaged false, .angle theta, .cyclotronFreq nu0]

/-- The coefficients of one frequency (`lib/EquatorialHotSpot.C:362-364`). -/
def cellOf (v : Fin 11 → ℝ) : StokesStep.Cell := ⟨![v 0, v 1, v 2, v 3], ![v 4, v 5, v 6, v 7], ![v 8, v 9, v 10]⟩

/-- The last loop (`lib/EquatorialHotSpot.C:367-392`). -/
noncomputable def steps (chi L : ℝ) : List (Fin 11 → ℝ) → Out (List ((Fin 4 → ℝ) × Mueller))
  | [] => .ok []
  | v :: l => bind (StokesStep.step (cellOf v) chi L) fun x => bind (steps chi L l) fun xs => .ok (x :: xs)

/-- The polarised `radiativeQ` (`lib/EquatorialHotSpot.C:247-393`): the spectrum afterwards and the results. `ph` and `p` are the position and the
momentum of the photon, `obj` and `u` those of the matter (`co`), `L` is `dsem` times the unit of length. A size of the spot or a radius that is
not positive give numbers that are not ones. -/
noncomputable def Spot.radiativeQP (s : Spot) (cfg : String) (b : Bessel) (t : Thermal) (size : ℕ) (ph p ephi etheta obj u : Vec) (nus : List ℝ)
    (L : ℝ) : Out (Thermal × List ((Fin 4 → ℝ) × Mueller)) :=
  let g := s.g ph
  bind (field cfg g u) fun B =>
    match Evpa.getChi g size p ephi etheta B u false with
    | none => .throws
    | some chi =>
      bind (thetaMag g B p u) fun theta =>
        if s.size = 0 ∨ obj 1 ≤ 0 then .ub
        else bind ((s.plasma b t theta obj).radiativeQP b nus) fun (t', vs) => bind (steps chi L vs) fun xs => .ok (t', xs)

end Gyoto.HotSpot
