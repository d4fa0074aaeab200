import Verif.Model.Transfer
import Verif.Model.MetricAlg
import Verif.Model.UniformSphere

/-!
# The trace of a star (`lib/StarTrace.C`)

The arrays of the worldline are lists on both sides of the initial condition (their indices are `Verif/Model/Worldline`, C03). Each element keeps
the coordinates `x0_ … x3_` and the cached `x_`, `y_`, `z_`, which are separate arrays in the code. The integration that `xFill` does is an input:
the events that it stores.
-/

namespace Gyoto.StarTrace

open Gyoto.MetricAlg (Vec)
open Gyoto.Transfer (Out)
open Gyoto.USphere (Kind P3 dist2)

/-- `DBL_MAX`. -/
noncomputable def dblMax : ℝ := 1.7976931348623157e308

/-- What is kept at one index. -/
structure Slot where
  pos : Vec
  xyz : P3

/-- `computeXYZ` for one event (`lib/StarTrace.C:118-134`, the same in `:141-154`). -/
noncomputable def cart : Kind → Vec → P3
  | .spherical, p => (p 1 * Real.sin (p 2) * Real.cos (p 3), p 1 * Real.sin (p 2) * Real.sin (p 3), p 1 * Real.cos (p 2))
  | .cartesian, p => (p 1, p 2, p 3)

/-- The object: the coordinates of its metric if it has one, the dates, and the events before (the nearest first), at, and after the initial
condition. -/
structure Trace where
  kind : Option Kind
  tmin : ℝ
  tmax : ℝ
  before : List Slot
  init : Option Slot
  after : List Slot

/-- The default constructor (`lib/StarTrace.C:45-52`). -/
noncomputable def Trace.new : Trace := ⟨none, 0, 0, [], none, []⟩

/-- `TMin(t)` (`lib/StarTrace.C:185-193`). -/
noncomputable def Trace.setMin (s : Trace) (t : ℝ) : Trace :=
  if t > s.tmax then { s with tmin := s.tmax, tmax := t } else { s with tmin := t }

/-- `TMax(t)` (`lib/StarTrace.C:196-204`). -/
noncomputable def Trace.setMax (s : Trace) (t : ℝ) : Trace :=
  if t < s.tmin then { s with tmax := s.tmin, tmin := t } else { s with tmax := t }

open Classical in
/-- The initial condition is moved off the axis (`Worldline::reInit`, `lib/Worldline.C:506-514`). -/
noncomputable def kick (k : Kind) (p : Vec) : Vec :=
  match k with
  | .spherical => if p 2 = 0 then ![p 0, p 1, 1e-10, p 3] else p
  | .cartesian => p

/-- `reset` (`lib/Worldline.C:499`). -/
def Trace.reset (s : Trace) : Trace := { s with before := [], after := [] }

/-- `reInit` (`lib/Worldline.C:500-517`): the cached values are left as they are. -/
noncomputable def Trace.reInit (s : Trace) : Trace :=
  match s.kind, s.init with
  | some k, some i => { s.reset with init := some { i with pos := kick k i.pos } }
  | _, _ => s.reset

/-- `computeXYZ()` (`lib/StarTrace.C:136-157`); without a metric a null pointer is followed, which throws. -/
noncomputable def Trace.computeXYZ (s : Trace) : Out Trace :=
  match s.kind with
  | none => .throws
  | some k =>
    let fresh : Slot → Slot := fun i => { i with xyz := cart k i.pos }
    .ok { s with before := s.before.map fresh, init := s.init.map fresh, after := s.after.map fresh }

/-- What can be called. `move` is `setInitCoord(coord, dir)` (`lib/StarTrace.C:165-169`, `lib/Worldline.C:413-453`), `metric` sets a metric that has
these coordinates (`:171-175`), `told` is the same metric that has changed and tells (`Worldline::tell`, `lib/Worldline.C:367-372`, for instance
after `coordKind`, `lib/Metric.C:146-150`), `store` is what `xFill` does with one more event, later or earlier (`lib/StarTrace.C:159-163`). -/
inductive Op where
  | setMin (t : ℝ)
  | setMax (t : ℝ)
  | move (p : Vec)
  | metric (k : Kind)
  | told (k : Kind)
  | store (later : Bool) (p : Vec)
  | reset

/-- One call. The value of the cache of a new initial condition, before it is computed, is that of the memory: `junk`. -/
noncomputable def Trace.step (junk : P3) (s : Trace) : Op → Out Trace
  | .setMin t => .ok (s.setMin t)
  | .setMax t => .ok (s.setMax t)
  | .move p => ({ s with before := [], init := some ⟨p, junk⟩, after := [] } : Trace).reInit.computeXYZ
  | .metric k => ({ s with kind := some k } : Trace).reInit.computeXYZ
  | .told k => match s.kind with
    | none => .throws
    | some _ => .ok ({ s with kind := some k } : Trace).reInit
  | .store later p => match s.kind, s.init with
    | some k, some _ =>
      if later then .ok { s with after := s.after ++ [⟨p, cart k p⟩] } else .ok { s with before := s.before ++ [⟨p, cart k p⟩] }
    | _, _ => .throws
  | .reset => .ok s.reset

/-- Calls one after the other. -/
noncomputable def Trace.run (junk : P3) : Trace → List Op → Out Trace
  | s, [] => .ok s
  | s, o :: os => match s.step junk o with
    | .ok s' => s'.run junk os
    | .throws => .throws
    | .ub => .ub

/-- All that is stored, from `imin_` to `imax_`. -/
def Trace.slots (s : Trace) : List Slot := s.before.reverse ++ s.init.toList ++ s.after

open Classical in
/-- `operator()(coord)` once the two calls of `xFill` have stored what they store (`lib/StarTrace.C:206-241`). -/
noncomputable def Trace.value (s : Trace) (p : Vec) : Out ℝ :=
  match s.kind with
  | none => .throws
  | some k =>
    let c := cart k p
    .ok (s.slots.foldl (fun d2 i => if i.pos 0 < s.tmin ∨ i.pos 0 > s.tmax then d2 else
      let tmp := dist2 c i.xyz
      if tmp < d2 then tmp else d2) dblMax)

end Gyoto.StarTrace
