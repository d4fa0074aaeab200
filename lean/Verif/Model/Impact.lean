import Verif.Model.Bisect

/-!
# Going through an object: `Standard::Impact` and `ThinDisk::Impact`

`lib/StandardAstrobj.C:98-213`, `lib/ThinDisk.C:136-151,194-255`. As in `Model/Bisect.lean` the object is a function of the date along the photon
and dates are rounded by `rnd`. Velocities and the quantities of the hit are computed by functions modelled elsewhere
(`Model/Emission.lean`, `Model/Transfer.lean`); what is kept here is the list of their calls: date and length of each stretch. The
positions at both ends go through `checkPhiTheta` before the object is evaluated, which does not move them
(`Props/PhiTheta.lean`). -/

namespace Gyoto.Impact

open Gyoto.Bisect

/-- The object as `Impact` uses it. -/
structure Obj where
  /-- `operator()` along the photon -/
  f : ℝ → ℝ
  /-- `critical_value_` -/
  crit : ℝ
  /-- `safety_value_` -/
  safety : ℝ
  /-- `giveDelta` at the last date inside -/
  delta : ℝ

/-- Outcome of `Impact`. -/
structure Res where
  /-- returned value -/
  hit : Bool
  /-- the date and value stored in `data->time` and `data->distance` if there is no hit -/
  closest : Option (ℝ × ℝ)
  /-- dates asked with `getCoord(double, …)` -/
  asked : List ℝ
  /-- calls of `processHitQuantities`: date and length of the stretch -/
  hits : List (ℝ × ℝ)

/-- The stretch between two consecutive dates (`lib/StandardAstrobj.C:173-198`): date of its late end, its length, dates asked. -/
noncomputable def stretch (rnd : ℝ → ℝ) (o : Obj) (k : Nat) (cur next : ℝ) (current_is_inside next_is_inside : Bool) :
    Option (ℝ × ℝ × List ℝ) :=
  if current_is_inside then
    if next_is_inside then some (cur, cur - next, [next])
    else (findValue rnd o.f o.crit k cur next).map fun v => (cur, cur - v.1, next :: v.2)
  else
    if next_is_inside then (findValue rnd o.f o.crit k next cur).map fun v => (v.1, v.1 - next, next :: (v.2 ++ [v.1]))
    else some (cur, 0, [next])

/-- The `while (cph[0]>t1)` loop (`lib/StandardAstrobj.C:163-208`). -/
noncomputable def walk (rnd : ℝ → ℝ) (o : Obj) (t1 : ℝ) : Nat → ℝ → Bool → Option (List ℝ × List (ℝ × ℝ))
  | 0, _, _ => none
  | k + 1, cur, current_is_inside =>
    if cur > t1 then
      let next := max (rnd (cur - o.delta)) t1
      let next_is_inside : Bool := o.f next ≤ o.crit
      (stretch rnd o k cur next current_is_inside next_is_inside).bind fun s =>
        (walk rnd o t1 k next next_is_inside).map fun r => (s.2.2 ++ r.1, if s.2.1 ≠ 0 then (s.1, s.2.1) :: r.2 else r.2)
    else some ([], [])

/-- The minimum looked for when both ends are outside (`lib/StandardAstrobj.C:118-126`). -/
noncomputable def closestOf (rnd : ℝ → ℝ) (o : Obj) (k : Nat) (t1 t2 : ℝ) : Option Min :=
  if o.f t1 > o.safety ∧ o.f t2 > o.safety then some (if o.f t1 < o.f t2 then ⟨o.f t1, t1, []⟩ else ⟨o.f t2, t2, []⟩)
  else findMin rnd o.f o.crit k t1 t2

/-- The first part of `Impact` (`lib/StandardAstrobj.C:115-148`): either the date and value of the closest approach, or the new `t1` and
`t2`. -/
noncomputable def ends (rnd : ℝ → ℝ) (o : Obj) (k : Nat) (t1 t2 : ℝ) : Option (((ℝ × ℝ) ⊕ (ℝ × ℝ)) × List ℝ) :=
  let val1 := o.f t1
  let val2 := o.f t2
  if val1 > o.crit then
    if val2 > o.crit then do
      let m ← closestOf rnd o k t1 t2
      if m.val > o.crit then some (.inl (m.tmin, m.val), m.asked)
      else do
        let (t2', a2) ← findValue rnd o.f o.crit k m.tmin t2
        let (t1', a1) ← findValue rnd o.f o.crit k m.tmin t1
        some (.inr (t1', t2'), m.asked ++ a2 ++ a1)
    else do
      let (t1', a1) ← findValue rnd o.f o.crit k t2 t1
      some (.inr (t1', t2), a1)
  else if val2 > o.crit then do
    let (t2', a2) ← findValue rnd o.f o.crit k t1 t2
    some (.inr (t1, t2'), a2)
  else some (.inr (t1, t2), [])

/-- `Standard::Impact` (`lib/StandardAstrobj.C:98-213`) between the dates `t1` and `t2` of two consecutive points. -/
noncomputable def impact (rnd : ℝ → ℝ) (o : Obj) (k : Nat) (t1 t2 : ℝ) : Option Res := do
  let (e, asked) ← ends rnd o k t1 t2
  match e with
  | .inl c => some ⟨false, some c, asked, []⟩
  | .inr (t1', t2') => do
    let (as, hs) ← walk rnd o t1' k t2' true
    some ⟨true, none, asked ++ t2' :: as, hs⟩

/-- `Impact` without its effect on `data` when `data` is null etc. is the same: the three fields updated when the photon misses
(`lib/StandardAstrobj.C:127-141`). `first_dmin` is an option because it may be absent. -/
structure Closest where
  time : Option ℝ
  distance : Option ℝ
  first_dmin : Option ℝ
  first_dmin_found : Bool

/-- (`lib/StandardAstrobj.C:128-140`) -/
noncomputable def Closest.update (d : Closest) (tmin minval : ℝ) : Closest :=
  { time := d.time.map fun _ => tmin
    distance := d.distance.map fun x => if x > minval then minval else x
    first_dmin := d.first_dmin.map fun x => if ¬ d.first_dmin_found ∧ x > minval then minval else x
    first_dmin_found := match d.first_dmin with
      | none => d.first_dmin_found
      | some x => if d.first_dmin_found then true else if x > minval then false else true }

end Gyoto.Impact
