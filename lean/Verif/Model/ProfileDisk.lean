import Verif.Model.HitQuantities
import Mathlib.Analysis.SpecialFunctions.Pow.Real
import Mathlib.Analysis.SpecialFunctions.Trigonometric.Basic

/-!
# What a hit on `ThinDiskProfile` and `StochasticThinDisk` adds to the requested quantities

`lib/ThinDiskProfile.C:58-91`, `lib/ThinDiskProfile.C:126-213`, `lib/ThinDiskProfile.C:393-485`, `lib/StochasticThinDisk.C:116-125`,
`lib/StochasticThinDisk.C:372-459`. Doubles are reals. `data` is `none` for a null pointer, and a requested quantity is `some`. The
messages on the standard output are left out.
-/

namespace Gyoto.ProfileDisk

open Gyoto.Transfer Gyoto.HitQ

/-- `Astrobj::Properties` (`include/GyotoAstrobj.h:830-932`): the quantities that these disks look at. -/
structure Data where
  user4 : Option ℝ
  spectrum : Option (Nat → ℝ)
  redshift : Option ℝ
  impact : Option (Fin 16 → ℝ)

abbrev State := Ray × Option Data

/-- The branch `if (data->user4)` (`lib/ThinDiskProfile.C:424-443`, `lib/StochasticThinDisk.C:397-416`); `fudge_Gralla` is 1. -/
noncomputable def user4 (s : Setup) (h : Hit) (r : Ray) (d : Data) (v : ℝ) : Out State :=
  let gm1 := h.ggredm1 s.noredshift
  let gg := 1 / gm1
  Out.bind (getTransmission r noIndex) fun t =>
    let inc := 1 * h.emission gm1 (h.dsem s.noredshift) * t * gg * gg * gg * gg
    .ok (r, some { d with user4 := some (v + inc) })

/-- The loop of the branch `else if (data->spectrum)` (`lib/ThinDiskProfile.C:461-467`, `lib/StochasticThinDisk.C:434-440`): every
sample goes to `*data->spectrum`. -/
noncomputable def spectrumLoop (s : Setup) (h : Hit) (t : ℝ) : List ℝ → (Nat → ℝ) → Nat → ℝ
  | [], S => S
  | nu :: rest, S =>
    let gg := 1 / h.ggredm1 s.noredshift
    let inc := 1 * h.emission nu (h.dsem s.noredshift) * t * gg * gg * gg
    spectrumLoop s h t rest (Function.update S 0 (S 0 + inc))

/-- The branch `else if (data->spectrum)` (`lib/ThinDiskProfile.C:444-470`, `lib/StochasticThinDisk.C:417-445`). -/
noncomputable def spectrum (s : Setup) (h : Hit) (r : Ray) (d : Data) (S : Nat → ℝ) : Out State :=
  Out.bind (getTransmission r noIndex) fun t => .ok (r, some { d with spectrum := some (spectrumLoop s h t (s.nuem h) S) })

/-- `ThinDiskProfile::processHitQuantities` (`lib/ThinDiskProfile.C:393-485`): with a null `data`, `data->impactcoords` is read. -/
noncomputable def profileHit (s : Setup) (h : Hit) (x : State) : Out State :=
  if s.nb ≠ 1 then .throws
  else
    match x.2 with
    | some d =>
      match d.user4 with
      | some v => user4 s h x.1 d v
      | none =>
        match d.spectrum with
        | some S => spectrum s h x.1 d S
        | none =>
          match d.redshift with
          | some _ => .ok (x.1, some { d with redshift := some (1 / h.ggredm1 s.noredshift) })
          | none => .throws
    | none => .ub

/-- `StochasticThinDisk::processHitQuantities` (`lib/StochasticThinDisk.C:372-459`). -/
noncomputable def stochHit (s : Setup) (h : Hit) (x : State) : Out State :=
  if s.nb ≠ 1 then .throws
  else
    match x.2 with
    | some d =>
      match d.user4 with
      | some v => user4 s h x.1 d v
      | none =>
        match d.spectrum with
        | some S => spectrum s h x.1 d S
        | none =>
          match d.redshift with
          | some _ => .ok (x.1, some { d with redshift := some (1 / h.ggredm1 s.noredshift) })
          | none =>
            match d.impact with
            | some _ => if h.size > 8 then .throws else .ok (x.1, some { d with impact := some h.impact })
            | none => .throws
    | none => .ok x

/-- The calls for the hits met along a ray. -/
def hits (f : Hit → State → Out State) : List Hit → State → Out State
  | [], x => .ok x
  | h :: hs, x => Out.bind (f h x) fun x => hits f hs x

/-- `model_param(std::vector<double>)` (`lib/ThinDiskProfile.C:82-86`, `lib/StochasticThinDisk.C:116-120`): `none` when it throws;
`param` is the array `model_param_` of ten numbers. -/
def setParam (param v : List ℝ) : Option (List ℝ) :=
  if v.length > 10 then none else some (v ++ param.drop v.length)

open Classical in
/-- `ThinDiskProfile::emission` (`lib/ThinDiskProfile.C:126-213`), `emission_model` being the local constant
`"Thermal_Synchrotron"`, for the angle `theta` that `get_theta_mag` gives, at the radius `rr`. `none`: a power of a number that is
not positive is asked for. -/
noncomputable def emission (param : List ℝ) (nu rr theta : ℝ) : Option ℝ :=
  let zeta := param.getD 0 0
  let rin := param.getD 1 0
  let norm := param.getD 2 0
  let indx1 := param.getD 3 0
  let indx2 := param.getD 4 0
  if 0 < rr ∧ 0 < rin ∧ 0 < nu ∧ 0 < Real.sin theta then
    some (norm * nu * 1e-9 / 230 * rr ^ (-indx1) *
      Real.exp (-zeta * (230 : ℝ) ^ (-1 / 3 : ℝ) * Real.sin theta ^ (-1 / 3 : ℝ) * (nu * 1e-9) ^ (1 / 3 : ℝ) * (rr / rin) ^ (indx2 / 3)))
  else none

/-- `ThinDiskProfile::motionKind` (`lib/ThinDiskProfile.C:58-81`): the three names, `none` when it throws. -/
def kindOf (k : String) : Option (Fin 3) :=
  if k = "Circular" then some 0 else if k = "Radial" then some 1 else if k = "Mixed" then some 2 else none

/-- `motionKind()` (`lib/ThinDiskProfile.C:68-80`). -/
def kindName : Fin 3 → String
  | 0 => "Circular"
  | 1 => "Radial"
  | 2 => "Mixed"

end Gyoto.ProfileDisk
