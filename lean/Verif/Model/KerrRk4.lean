import Verif.Model.KerrMotion
import Verif.Model.Interp

/-!
# The fixed-step integrators of the Kerr metric (`lib/KerrBL.C`)

Doubles are reals.  A state of eight elements is a pair of vectors.  The four stages of a step are written once, as `rk4`, with what a
stage does as an argument: the two functions differ in that only.
-/

namespace Gyoto.KerrBL

open Gyoto.MetricAlg

/-- What one stage or one step does: throw, return a code other than 0, or return 0 with a pair of vectors. -/
inductive StepRes where
  | error
  | code (ret : Nat)
  | ok (x p : Vec)

/-- `fabs(fmod(theta+M_PI/2, M_PI)-M_PI/2)` (`lib/KerrBL.C:638`, `:763`). -/
noncomputable def thetaCompare (theta : ℝ) : ℝ := |Interp.fmod (theta + Real.pi / 2) Real.pi - Real.pi / 2|

/-- A stage of `myrk4(line, coordin, h, res)`: the test on `theta`, then `diff` (`lib/KerrBL.C:638-645` and three times more). -/
noncomputable def stagePublic (a rsink : ℝ) (cst : Cst) (x p : Vec) : StepRes :=
  if thetaCompare (x 2) < 1e-10 then .code 1
  else
    match diff a rsink cst x p with
    | .error => .error
    | .stop => .code 2
    | .ok dx dp => .ok dx dp

/-- A stage of `myrk4(coor, cst, h, res)`: `diff`, then the test on the derivatives (`lib/KerrBL.C:771-779` and three times more).
`axis` is whether `thetacompare < thetatol` at the start of the step. -/
noncomputable def stageInternal (a rsink : ℝ) (cst : Cst) (axis : Bool) (derlim : ℝ) (x p : Vec) : StepRes :=
  match diff a rsink cst x p with
  | .error => .error
  | .stop => .code 2
  | .ok dx dp => if axis = true ∧ (|dp 1| > derlim ∨ |dp 2| > derlim) then .code 1 else .ok dx dp

/-- The four stages and their combination (`lib/KerrBL.C:642-691` and `:771-822`): `coor` and `res_mom`. -/
noncomputable def rk4 (stage : Vec → Vec → StepRes) (h : ℝ) (x p : Vec) : StepRes :=
  match stage x p with
  | .error => .error
  | .code k => .code k
  | .ok dx1 dp1 =>
    let kx1 := fun i => h * dx1 i
    let kp1 := fun i => h * dp1 i
    match stage (fun i => x i + 0.5 * kx1 i) (fun i => p i + 0.5 * kp1 i) with
    | .error => .error
    | .code k => .code k
    | .ok dx2 dp2 =>
      let kx2 := fun i => h * dx2 i
      let kp2 := fun i => h * dp2 i
      match stage (fun i => x i + 0.5 * kx2 i) (fun i => p i + 0.5 * kp2 i) with
      | .error => .error
      | .code k => .code k
      | .ok dx3 dp3 =>
        let kx3 := fun i => h * dx3 i
        let kp3 := fun i => h * dp3 i
        match stage (fun i => x i + kx3 i) (fun i => p i + kp3 i) with
        | .error => .error
        | .code k => .code k
        | .ok dx4 dp4 =>
          let kx4 := fun i => h * dx4 i
          let kp4 := fun i => h * dp4 i
          .ok (fun i => x i + 1 / 6 * kx1 i + 1 / 3 * kx2 i + 1 / 3 * kx3 i + 1 / 6 * kx4 i)
            (fun i => p i + 1 / 6 * kp1 i + 1 / 3 * kp2 i + 1 / 3 * kp3 i + 1 / 6 * kp4 i)

/-- `myrk4(line, coordin, h, res)` when `generic_integrator_` is false (`lib/KerrBL.C:603-700`): positions and velocities in,
positions and velocities out. -/
noncomputable def myrk4Public (a rsink : ℝ) (cst : Cst) (h : ℝ) (x v : Vec) : StepRes :=
  match rk4 (stagePublic a rsink cst) h x (makeMomentum a cst x v) with
  | .error => .error
  | .code k => .code k
  | .ok x' p' => .ok x' (makeCoord a cst x' p')

/-- `myrk4(coor, cst, h, res)` (`lib/KerrBL.C:702-824`): positions and momenta.  With `a² > 1` the horizon is a NaN, with which the
comparison is false. -/
noncomputable def myrk4Internal (a rsink : ℝ) (cst : Cst) (h : ℝ) (x p : Vec) : StepRes :=
  let near : Bool := if 1 - a * a < 0 then false else decide (x 1 < 5 * (1 + √(1 - a * a)))
  let thetatol : ℝ := if near then 1e-1 else 2e-3
  let derlim : ℝ := if near then 1e4 else 1e6
  rk4 (stageInternal a rsink cst (decide (thetaCompare (x 2) < thetatol)) derlim) h x p

end Gyoto.KerrBL
