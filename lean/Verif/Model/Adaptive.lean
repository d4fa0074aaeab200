import Verif.Model.GenericMotion
import Mathlib.Analysis.SpecialFunctions.Pow.Real

/-!
# The adaptive integrator `Metric::Generic::myrk4_adaptive` (`lib/Metric.C`)

Doubles are reals.  The `while(1)` loop is run for a given number of iterations, `none` meaning that it has not finished by then.
-/

namespace Gyoto.GenericMotion

/-- What the function does: throw, return 1, or return 0 with the new content of `coordnew` and of `h1`. -/
inductive AdOut where
  | error
  | failed
  | ok (coordnew : Nat → ℝ) (h1 : ℝ)

/-- What the loop modifies. -/
structure AdState where
  h0 : ℝ
  hbis : ℝ
  coordnew : Nat → ℝ
  coordhalf : Nat → ℝ
  coord2 : Nat → ℝ

/-- A state after `myrk4` has written into it. -/
def RkOut.get (r : RkOut) (old : Nat → ℝ) : Nat → ℝ :=
  match r with
  | .ok x => x
  | _ => old

def RkOut.isError : RkOut → Bool
  | .error => true
  | _ => false

def RkOut.isFailed : RkOut → Bool
  | .failed => true
  | _ => false

/-- The three calls of lines 687-691, joined by `|`: the language does not say in which order they are made.  `halfFirst` tells whether
the second, which writes `coordhalf`, comes before the third, which reads it. -/
noncomputable def three (f : Nat → Nat → (Nat → ℝ) → (Nat → ℝ) → DiffOut) (halfFirst : Bool) (n : Nat) (coord : Nat → ℝ)
    (s : AdState) : RkOut × RkOut × RkOut :=
  let r1 := myrk4 f n coord s.h0 s.coordnew
  let r2 := myrk4 f n coord s.hbis s.coordhalf
  let r3 := myrk4 f n (if halfFirst then r2.get s.coordhalf else s.coordhalf) s.hbis s.coord2
  (r1, r2, r3)

/-- The loop of lines 681-729 that computes `err` from 0. -/
noncomputable def errOf (delta0 coordnew coord2 : Nat → ℝ) : ℝ :=
  (List.range 8).foldl (fun err i => if err < |(coord2 i - coordnew i) / delta0 i| then |(coord2 i - coordnew i) / delta0 i| else err) 0

/-- The next step `h1` (lines 710-712). -/
noncomputable def nextStep (deltaMin h1max h0 err : ℝ) : ℝ :=
  let h1 := if err > 1e-6 then 0.9 * h0 * err ^ (-0.2 : ℝ) else 4 * h0
  let h1 := if |h1| < deltaMin then (if h0 > 0 then deltaMin else -deltaMin) else h1
  if |h1| > h1max then (if h0 > 0 then h1max else -h1max) else h1

/-- The `while(1)` loop (`lib/Metric.C:681-732`). -/
noncomputable def adaptiveLoop (f : Nat → Nat → (Nat → ℝ) → (Nat → ℝ) → DiffOut) (halfFirst : Bool) (n : Nat) (coord delta0 : Nat → ℝ)
    (deltaMin h1max : ℝ) : Nat → AdState → Option AdOut
  | 0, _ => none
  | fuel + 1, s =>
    let (r1, r2, r3) := three f halfFirst n coord s
    if r1.isError || r2.isError || r3.isError then some .error
    else if r1.isFailed || r2.isFailed || r3.isFailed then some .failed
    else
      let coordnew := r1.get s.coordnew
      let coordhalf := r2.get s.coordhalf
      let coord2 := r3.get s.coord2
      let err := errOf delta0 coordnew coord2
      if err > 1 then
        let h0 := 0.9 * s.h0 * err ^ (-0.25 : ℝ)
        adaptiveLoop f halfFirst n coord delta0 deltaMin h1max fuel
          { h0 := h0, hbis := 0.5 * h0, coordnew := coordnew, coordhalf := coordhalf, coord2 := coord2 }
      else some (.ok coordnew (nextStep deltaMin h1max s.h0 err))

/-- `myrk4_adaptive(line, coord, lastnorm, normref, coordnew, h0, h1, h1max)` (`lib/Metric.C:649-736`); `h1max` is the value after
`deltaMax`.  The norm computed on lines 716-724 has no effect.  The code returned by `diff` on line 664 is not looked at. -/
noncomputable def adaptive (f : Nat → Nat → (Nat → ℝ) → (Nat → ℝ) → DiffOut) (halfFirst : Bool) (n : Nat) (coord coordnew : Nat → ℝ)
    (deltaMin h1max h0 : ℝ) (fuel : Nat) : Option AdOut :=
  match f n n coord (fun _ => 0) with
  | .error => some .error
  | d =>
    let dcoord := match d with
      | .ok d => d
      | _ => fun _ => 0
    let delta0 := fun i => 1e-15 + 0.0001 * |h0 * dcoord i|
    adaptiveLoop f halfFirst n coord delta0 deltaMin h1max fuel
      { h0 := h0, hbis := 0.5 * h0, coordnew := coordnew, coordhalf := fun _ => 0, coord2 := fun _ => 0 }

end Gyoto.GenericMotion
