import Verif.Model.MetricAlg
import Verif.Model.Camera

/-!
# Polarisation angle in the emitter's frame and rotation of the Stokes emission (`lib/Astrobj.C:998-1246`)

Doubles are reals.  `none`: an error is thrown.  A division by zero gives NaN in the code, which always reaches the test
`EVPA!=EVPA` (`lib/Astrobj.C:1229`) and becomes an error too.  The quantities computed for checking only (tetrad components)
are left out.
-/

namespace Gyoto.Evpa

open Gyoto.MetricAlg Gyoto.Camera

/-- `test_tol` (`lib/Astrobj.C:1038`). -/
noncomputable def tol : ℝ := 1e-3

/-- `multiplyFourVect(v, 1./norm(v))` (`lib/Astrobj.C:1064-1065, 1097-1106, 1111-1112`). -/
noncomputable def byNorm (g : Tensor) (v : Vec) : Option Vec := (inv (norm g v)).map (multiply v)

/-- The test on the transported basis (`lib/Astrobj.C:1039-1044`). -/
def basisOk (g : Tensor) (k ephi etheta : Vec) : Prop :=
  ¬(|scalarProd g ephi etheta| > tol ∨ |scalarProd g ephi k| > tol ∨ |scalarProd g etheta k| > tol ∨
    |scalarProd g ephi ephi - 1| > tol ∨ |scalarProd g etheta etheta - 1| > tol)

/-- Part one: the wave vector projected orthogonally to `vel`, normalised (`lib/Astrobj.C:1056-1065`). -/
noncomputable def waveInFrame (g : Tensor) (k vel : Vec) : Option Vec := (project g k vel).bind (byNorm g)

/-- Part two, first half: the field vector normalised, projected orthogonally to `vel` if it is not orthogonal already and
normalised again (`lib/Astrobj.C:1084-1107`). -/
noncomputable def fieldInFrame (g : Tensor) (fourvect vel : Vec) : Option Vec :=
  let n := norm g fourvect
  if n ≤ tol then none else
    let v : Vec := fun i => fourvect i / n
    if |scalarProd g v vel| > 1e-6 then
      (project g v vel).bind fun v => if |norm g v| ≤ tol then none else byNorm g v
    else some v

/-- Part two, second half: projected orthogonally to `K` and normalised (`lib/Astrobj.C:1110-1112`). -/
noncomputable def fieldOnScreen (g : Tensor) (v K : Vec) : Option Vec := (project g v K).bind (byNorm g)

/-- Part three: `e - (e.u)/(k.u) k` (`lib/Astrobj.C:1130-1138, 1157-1164`). -/
noncomputable def prime (g : Tensor) (e k vel : Vec) : Option Vec :=
  let ku := scalarProd g k vel
  if ku = 0 then none else some (add e (multiply k (-scalarProd g e vel / ku)))

/-- Tests on the two new vectors (`lib/Astrobj.C:1142-1144, 1166-1170`). -/
def primesOk (g : Tensor) (ephi' etheta' K vel : Vec) : Prop :=
  ¬(|scalarProd g ephi' K| > tol ∨ |scalarProd g ephi' vel| > tol ∨ |scalarProd g ephi' ephi' - 1| > tol) ∧
  ¬(|scalarProd g etheta' K| > tol ∨ |scalarProd g etheta' vel| > tol ∨ |scalarProd g etheta' ephi'| > tol ∨
    |scalarProd g etheta' etheta' - 1| > tol ∨ |scalarProd g K K - 1| > tol)

/-- Part four: the angle, from the components of the field along north and west (`lib/Astrobj.C:1196-1234`). -/
noncomputable def angle (north west : ℝ) (elec : Bool) : Option ℝ :=
  let e := -atan2 west north
  let e := if elec then e else e + Real.pi / 2
  let e := if e > Real.pi / 2 then e - Real.pi else e
  if e > Real.pi / 2 ∨ e < -(Real.pi / 2) then none else some e

open Classical in
/-- `Generic::getChi` (`lib/Astrobj.C:1018-1237`): `size` is the size of the photon's state, `k`, `ephi`, `etheta` its components
from 4, 8 and 12. -/
noncomputable def getChi (g : Tensor) (size : ℕ) (k ephi etheta fourvect vel : Vec) (elec : Bool) : Option ℝ :=
  if size ≠ 16 then none else if ¬basisOk g k ephi etheta then none else
  (waveInFrame g k vel).bind fun K =>
  (fieldInFrame g fourvect vel).bind fun v =>
  (fieldOnScreen g v K).bind fun v =>
  (prime g ephi k vel).bind fun ephi' =>
  (prime g etheta k vel).bind fun etheta' =>
  if ¬primesOk g ephi' etheta' K vel then none else
  angle (scalarProd g v etheta') (scalarProd g v ephi') elec

/-- `Generic::getSinCos2Chi` (`lib/Astrobj.C:1239-1246`). -/
noncomputable def getSinCos2Chi (g : Tensor) (size : ℕ) (k ephi etheta fourvect vel : Vec) (elec : Bool) : Option (ℝ × ℝ) :=
  (getChi g size k ephi etheta fourvect vel elec).map fun chi => (Real.sin (2 * chi), Real.cos (2 * chi))

/-- `Generic::rotateJs(jInu, jQnu, jUnu, jVnu, sin2Chi, cos2Chi)` (`lib/Astrobj.C:1002-1016`). -/
def rotateJs (jI jQ jU jV sin2Chi cos2Chi : ℝ) : Fin 4 → ℝ :=
  ![1 * jI + 0 * jQ + 0 * jU + 0 * jV, 0 * jI + cos2Chi * jQ + -sin2Chi * jU + 0 * jV,
    0 * jI + sin2Chi * jQ + cos2Chi * jU + 0 * jV, 0 * jI + 0 * jQ + 0 * jU + 1 * jV]

/-- `Generic::rotateJs(jInu, jQnu, jUnu, jVnu, Chi)` (`lib/Astrobj.C:998-1000`). -/
noncomputable def rotateJsChi (jI jQ jU jV chi : ℝ) : Fin 4 → ℝ :=
  rotateJs jI jQ jU jV (Real.sin (2 * chi)) (Real.cos (2 * chi))

end Gyoto.Evpa
