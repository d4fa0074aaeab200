import Verif.Model.StarTrace
import Verif.Model.Emission

/-!
# The hot spot in the equatorial plane, without polarisation (`lib/EquatorialHotSpot.C`)

The motion of the spot (`getCoord`, C04 and C59), the metric and its circular velocity are inputs. `.ub`: the number computed is not one. The
coordinates and momenta of photons are vectors of four numbers.
-/

namespace Gyoto.HotSpot

open Gyoto.MetricAlg
open Gyoto.Transfer (Out)
open Gyoto.USphere (Kind)

/-- `beaming_t` (`include/GyotoEquatorialHotSpot.h:49-50`). -/
inductive Beaming where
  | isotropic
  | normal
  | radial
  | constant
deriving DecidableEq

/-- The name of a beaming (`lib/EquatorialHotSpot.C:65-75`). -/
def Beaming.name : Beaming → String
  | .isotropic => "IsotropicBeaming"
  | .normal => "NormalBeaming"
  | .radial => "RadialBeaming"
  | .constant => "IsotropicConstant"

/-- `beaming(b)` (`lib/EquatorialHotSpot.C:58-64`); `none`: error. -/
def parseBeaming (b : String) : Option Beaming :=
  if b = "IsotropicBeaming" then some .isotropic
  else if b = "NormalBeaming" then some .normal
  else if b = "RadialBeaming" then some .radial
  else if b = "IsotropicConstant" then some .constant
  else none

/-- The object: coordinates of the metric, the metric itself, its `circularVelocity` for the `dir_` of the disk, the position of the spot as
a function of the date, and the members (`include/GyotoEquatorialHotSpot.h:48-52`, `OpticallyThin` of the base). -/
structure Spot where
  kind : Kind
  g : Vec → Tensor
  circ : Vec → Vec
  track : ℝ → Fin 3 → ℝ
  size : ℝ
  beaming : Beaming
  beamAngle : ℝ
  thin : Bool

/-- Branches `NormalBeaming` and `RadialBeaming` of `setParameter` (`lib/EquatorialHotSpot.C:100-112`); `x` is the number in the contents.
The second test for `NormalBeaming` is never reached. -/
def Spot.legacy (s : Spot) (name : String) (x : ℝ) : Option Spot :=
  if name = "NormalBeaming" then (parseBeaming name).map fun b => { s with beaming := b }
  else if name = "NormalBeaming" ∨ name = "RadialBeaming" then
    (parseBeaming name).map fun b => { s with beaming := b, beamAngle := x }
  else some s

/-- `coord_spot` after `getCoord` (`lib/EquatorialHotSpot.C:184-186`). -/
def Spot.centre (s : Spot) (t : ℝ) : Vec := ![t, s.track t 0, s.track t 1, s.track t 2]

/-- `getVelocity(pos, vel)` (`lib/EquatorialHotSpot.C:183-189`): that of the centre, wherever `pos` is. -/
def Spot.getVelocity (s : Spot) (pos : Vec) : Vec := s.circ (s.centre (pos 0))

/-- `d2` (`lib/EquatorialHotSpot.C:194-203`): `getCartesian` as in `lib/Worldline.C:773-811`. -/
noncomputable def Spot.d2 (s : Spot) (obj : Vec) : ℝ :=
  let c := StarTrace.cart s.kind (s.centre (obj 0))
  let difx := obj 1 * Real.cos (obj 3) - c.1
  let dify := obj 1 * Real.sin (obj 3) - c.2.1
  difx * difx + dify * dify

/-- `cosalpha` (`lib/EquatorialHotSpot.C:211-223`). -/
noncomputable def Spot.cosalpha (s : Spot) (ph p : Vec) : Out ℝ :=
  let gthth := s.g ph 2 2
  let pscalu := |scalarProd (s.g ph) p (s.getVelocity ph)|
  if pscalu = 0 then .throws
  else if gthth < 0 then .ub
  else
    let c := 1 / pscalu * √gthth * |p 2|
    if |c| > 1 then .throws else .ok c

/-- `emission(nu, dsem, coord_ph, coord_obj)` (`lib/EquatorialHotSpot.C:191-245`): the frequency and the length are not used. -/
noncomputable def Spot.emission (s : Spot) (_nu _ds : ℝ) (ph p obj : Vec) : Out ℝ :=
  let d2 := s.d2 obj
  let ds2 := s.size * s.size
  if d2 < 16 * ds2 then
    match s.beaming with
    | .isotropic => .ok (Real.exp (-d2 / (2 * ds2)))
    | .constant => .ok 1
    | .normal =>
      match s.cosalpha ph p with
      | .ok c => .ok (c * c * Real.exp (-d2 / (2 * ds2)))
      | .throws => .throws
      | .ub => .ub
    | .radial =>
      match s.cosalpha ph p with
      | .ok c => .ok ((1 - c) * (1 - c) * Real.exp (-d2 / (2 * ds2)))
      | .throws => .throws
      | .ub => .ub
  else .ok 0

/-- What the class gives to the default methods (C27): `emission` and both `radiativeQ`, not `transmission`
(`lib/EquatorialHotSpot.C:396-407`). `e` is the emission at a site. -/
noncomputable def impl {Site : Type} (thin : Bool) (unitLength : ℝ) (e : ℝ → ℝ → Site → ℝ)
    (polar : (n : Nat) → (Fin n → ℝ) → ℝ → Site → Emission.Polar n) : Emission.Impl Site where
  thin := thin
  unitLength := unitLength
  transmission := none
  emission := some e
  emissionVec := none
  radiativeQ := some fun _ nu ds x => (fun i => e (nu i) ds x, fun _ => 1)
  radiativeQPolar := some polar

end Gyoto.HotSpot
