import Verif.Model.Transfer
import Verif.Model.Evpa

/-!
# One cell of polarised plasma

The loop at the end of the polarised `radiativeQ` of `Blob` (`lib/Blob.C:769-797`), `EquatorialHotSpot`
(`lib/EquatorialHotSpot.C:367-392`), `Jet` (`lib/Jet.C:779-804`), `Plasmoid` (`lib/Plasmoid.C:419-444`), `SimBridge`
(`lib/SimBridge.C:740-768`), `Star` (`lib/Star.C:385-413`) and `ThickDisk` (`lib/ThickDisk.C:758-787`): the same text seven times. The
coefficients, which the spectrum has computed, and the angle `Chi` are inputs.
-/

namespace Gyoto.StokesStep

open Gyoto.Emission (Mueller)
open Gyoto.Transfer

/-- The coefficients of one frequency: `jInu, jQnu, jUnu, jVnu`, `aInu, aQnu, aUnu, aVnu` and `rotQnu, rotUnu, rotVnu`. -/
structure Cell where
  j : Fin 4 → ℝ
  a : Fin 4 → ℝ
  r : Fin 3 → ℝ

/-- The arguments of `Omatrix` and `Pmatrix` (`lib/EquatorialHotSpot.C:369-370`; `Omatrix` takes the sine and the cosine itself,
`lib/Astrobj.C:700-704`). -/
noncomputable def Cell.coefs (m : Cell) (chi : ℝ) : Coefs :=
  ⟨m.a 0, m.a 1, m.a 2, m.a 3, m.r 0, m.r 1, m.r 2, Real.sin (2 * chi), Real.cos (2 * chi)⟩

open Classical in
/-- One turn of the loop (`lib/EquatorialHotSpot.C:367-392`): `Inu, Qnu, Unu, Vnu` and `Onu`. `L` is the length in the units of the
coefficients. The tests of the end are for numbers that are negative, which the first branch excludes, infinite or not numbers. -/
noncomputable def step (m : Cell) (chi L : ℝ) : Out ((Fin 4 → ℝ) × Mueller) :=
  let J := Evpa.rotateJsChi (m.j 0) (m.j 1) (m.j 2) (m.j 3) chi
  match Omatrix (m.coefs chi) L with
  | .throws => .throws
  | .ub => .ub
  | .ok O =>
    match Pmatrix (m.coefs chi) L with
    | none => .ub
    | some P =>
      let S := P.mulVec J
      if S 0 ≤ 0 then .ok (0, 1) else .ok (S, O)

end Gyoto.StokesStep
