import Verif.Model.KerrRk4
import Verif.Model.Adaptive

/-!
# The adaptive integrator of the Kerr metric (`lib/KerrBL.C:826-1036`)

Doubles are reals.  A state of eight elements is a pair of vectors.  The two `while` loops are run for a given number of turns, `none`
meaning that they have not finished by then.  Messages, and the tests that only decide on messages (`makerr`), are left out.
-/

namespace Gyoto.KerrBL

open Gyoto.MetricAlg

/-- What the function does: throw, compute with a NaN, return 1, or return 0 with `coordout1` and `h1`. -/
inductive AdRes where
  | error
  | nan
  | failed
  | ok (x v : Vec) (h1 : ℝ)

/-- What the inner `while` does: throw, return 1, or leave `h0`, `hbis`, `coor1`, `coor2` and tell whether its body has been run. -/
inductive ZRes where
  | error
  | failed
  | ok (h0 hbis : ℝ) (coor1 coor2 : Vec × Vec) (zaxis : Bool)

/-- The inner `while` (`lib/KerrBL.C:887-915`): the steps of `h0`, `hbis` and again `hbis`, in this order and until one of them does
not return 0.  `rk` is `myrk4(coor, cst, h, res)`; `zaxis` tells whether the body has been run already. -/
noncomputable def zLoop (rk : ℝ → Vec × Vec → StepRes) (coor : Vec × Vec) (hinit : ℝ) : Nat → ℝ → ℝ → Bool → Option ZRes
  | 0, _, _, _ => none
  | fuel + 1, h0, hbis, zaxis =>
    let body : Nat → Option ZRes := fun code =>
      if code = 2 then some .failed
      else if h0 * 1.1 / hinit > 1e3 then some .failed
      else zLoop rk coor hinit fuel (h0 * 1.1) (hbis * 1.1) true
    match rk h0 coor with
    | .error => some .error
    | .code c => body c
    | .ok x1 p1 =>
      match rk hbis coor with
      | .error => some .error
      | .code c => body c
      | .ok xh ph =>
        match rk hbis (xh, ph) with
        | .error => some .error
        | .code c => body c
        | .ok x2 p2 => some (.ok h0 hbis (x1, p1) (x2, p2) zaxis)

/-- The eight elements of a state. -/
def elems (q : Vec × Vec) : Nat → ℝ := fun i => if i < 4 then q.1 (Fin.ofNat 4 i) else q.2 (Fin.ofNat 4 i)

/-- The next step (`lib/KerrBL.C:943-949`). -/
noncomputable def nextStep (deltaMin h1max h0 err : ℝ) : ℝ :=
  let h1 := if err > 1e-6 then 0.9 * h0 * err ^ (-0.2 : ℝ) else 4 * h0
  let h1 := if |h1| < deltaMin then (if h1 > 0 then deltaMin else -deltaMin) else h1
  if |h1| > h1max then (if h1 > 0 then h1max else -h1max) else h1

/-- Whether the relative difference is above the tolerance (`lib/KerrBL.C:956-963`): with a zero in the denominator only, it is
infinite. -/
noncomputable def tooFar (difftol old new : ℝ) : Prop :=
  if old ≠ 0 then |old - new| / |old| > difftol
  else if new ≠ 0 then True
  else 0 > difftol

/-- What follows an accepted step (`lib/KerrBL.C:951-1022`).  When `CheckCons` returns 1 it has not written `coor1bis`, which is then
read, but without consequence on the result. -/
noncomputable def finish (a : ℝ) (cst : Cst) (nearAxis : Vec → Bool) (difftol : ℝ) (coor1 : Vec × Vec) (h1 : ℝ) : AdRes :=
  open Classical in
  match checkCons a cst (nearAxis coor1.1) coor1.1 coor1.2 with
  | .error => .error
  | .nan => .nan
  | .axis => .ok coor1.1 (makeCoord a cst coor1.1 coor1.2) h1
  | .ok p =>
    if tooFar difftol (coor1.2 1) (p 1) ∨ tooFar difftol (coor1.2 2) (p 2) then .ok coor1.1 (makeCoord a cst coor1.1 coor1.2) h1
    else .ok coor1.1 (makeCoord a cst coor1.1 p) h1

/-- The outer `while(1)` (`lib/KerrBL.C:872-1029`); `count` is `countbis` before the turn. -/
noncomputable def adaptiveLoop (rk : ℝ → Vec × Vec → StepRes) (fin : Vec × Vec → ℝ → AdRes) (coor : Vec × Vec) (delta0 : Nat → ℝ)
    (deltaMin h1max : ℝ) (inner : Nat) : Nat → Nat → Bool → ℝ → ℝ → Option AdRes
  | 0, _, _, _, _ => none
  | fuel + 1, count, zaxis, h0, hbis =>
    match zLoop rk coor h0 inner h0 hbis zaxis with
    | none => none
    | some .error => some .error
    | some .failed => some .failed
    | some (.ok h0 _ coor1 coor2 zaxis) =>
      if count + 1 > 50 ∧ zaxis = true then some .failed
      else
        let err := GenericMotion.errOf delta0 (elems coor1) (elems coor2)
        if err > 1 then
          let h0 := 0.9 * h0 * err ^ (-0.25 : ℝ)
          adaptiveLoop rk fin coor delta0 deltaMin h1max inner fuel (count + 1) zaxis h0 (0.5 * h0)
        else some (fin coor1 (nextStep deltaMin h1max h0 err))

/-- `myrk4_adaptive(line, coordin, lastnorm, normref, coordout1, h0, h1, h1max)` when `generic_integrator_` is false
(`lib/KerrBL.C:826-1036`); `h1max` is the value after `deltaMax`, `nearAxis` the comparison made in `CheckCons`. -/
noncomputable def adaptive (a rsink : ℝ) (cst : Cst) (nearAxis : Vec → Bool) (difftol deltaMin h1max : ℝ) (x v : Vec) (h0 : ℝ)
    (inner fuel : Nat) : Option AdRes :=
  let coor : Vec × Vec := (x, makeMomentum a cst x v)
  match diff a rsink cst coor.1 coor.2 with
  | .error => some .error
  | .stop => some .failed
  | .ok dx dp =>
    let delta0 : Nat → ℝ := fun i => 1e-15 + 0.0001 * |h0 * elems (dx, dp) i|
    adaptiveLoop (fun h q => myrk4Internal a rsink cst h q.1 q.2) (finish a cst nearAxis difftol) coor delta0 deltaMin h1max inner fuel 0
      false h0 (0.5 * h0)

end Gyoto.KerrBL
