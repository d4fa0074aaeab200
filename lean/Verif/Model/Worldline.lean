/-!
# Model of the storage of `Gyoto::Worldline`

Sources: `lib/Worldline.C` lines 228-312 (`xAllocate`, `xExpand`), 413-448 (`setInitCoord`), 499-517
(`reset`, `reInit`), 520-541 (`xStore`), 543-691 (`xFill`); `lib/Photon.C` lines 311-383, 577-750
(`Photon::hit`).

Simplifications: the parallel arrays `tau_`, `x0_`, …, `et3_` always have the same size and are read and
written at the same index: they are one array of points of type `α`. The integrator is abstracted: a call
to `xFill` is given the list of points the integrator produced and which get stored.  `reInit` may also move
a particle off the polar axis (changing `x2_[i0_]`); this is not modelled.  `size_t` arithmetic does not
wrap except where stated.
-/

namespace Gyoto.Wline

/-- `x_size_`, `imin_`, `i0_`, `imax_` and the arrays.  `data i = none`: never written (uninitialised). -/
structure Store (α : Type) where
  size : Nat
  imin : Nat
  i0 : Nat
  imax : Nat
  data : Nat → Option α

variable {α : Type}

/-- Direction of integration. -/
inductive Dir where
  | fwd
  | bwd
deriving DecidableEq, Repr

/-- `Worldline::Worldline` and `xAllocate` (`lib/Worldline.C:38-63,228-246`): `imin_=1, i0_=0, imax_=0`
codes for "not initialised". -/
def Store.new (size : Nat) : Store α := ⟨size, 1, 0, 0, fun _ => none⟩

/-- Write in the arrays: `none` (undefined behaviour) out of bounds. -/
def Store.put (s : Store α) (i : Nat) (p : α) : Option (Store α) :=
  if i < s.size then some { s with data := fun j => if j = i then some p else s.data j } else none

/-- Read from the arrays: `none` (undefined behaviour) out of bounds or uninitialised. -/
def Store.get (s : Store α) (i : Nat) : Option α :=
  if i < s.size then s.data i else none

/-- `Worldline::xExpand(double*&, int)` and `xExpand(int)` (`lib/Worldline.C:248-312`): returns the store
and the index to continue from.  Only `imin_..imax_` is copied. -/
def Store.expand (s : Store α) (d : Dir) : Store α × Nat :=
  let offset := match d with | .fwd => 0 | .bwd => s.size
  let retval := match d with | .fwd => s.size - 1 | .bwd => s.size
  ({ size := 2 * s.size, imin := s.imin + offset, i0 := s.i0 + offset, imax := s.imax + offset,
     data := fun j => if s.imin + offset ≤ j ∧ j ≤ s.imax + offset then s.data (j - offset) else none },
   retval)

/-- `Worldline::setInitCoord(coord, dir, …)` (`lib/Worldline.C:413-448`). `dir = none` is 0, in which case
a never initialised worldline goes forward if the particle is massive, backward else. -/
def Store.setInit (s : Store α) (massive : Bool) (dir : Option Dir) (c : α) : Option (Store α) :=
  let dir := if dir = none ∧ s.i0 = 0 ∧ s.imin = 1 ∧ s.imax = 0 then
      some (if massive then Dir.fwd else Dir.bwd) else dir
  let i0 := match dir with | none => s.i0 | some .bwd => s.size - 1 | some .fwd => 0
  Store.put { s with i0 := i0, imin := i0, imax := i0 } i0 c

/-- `Worldline::reset` (`lib/Worldline.C:499`). -/
def Store.reset (s : Store α) : Store α :=
  if s.imin ≤ s.imax then { s with imin := s.i0, imax := s.i0 } else s

/-- Body of the loop of `xFill` which stores one point (`lib/Worldline.C:662-686`): enlarge if `ind` is at
the end of the arrays, move, store. -/
def Store.fillStep (s : Store α) (d : Dir) (ind : Nat) (p : α) : Option (Store α × Nat) :=
  match d with
  | .fwd =>
    let (s, ind) := if ind = s.size - 1 then Store.expand { s with imax := s.size - 1 } .fwd else (s, ind)
    (s.put (ind + 1) p).map fun s => (s, ind + 1)
  | .bwd =>
    let (s, ind) := if ind = 0 then Store.expand { s with imin := 0 } .bwd else (s, ind)
    if ind = 0 then none else (s.put (ind - 1) p).map fun s => (s, ind - 1)

/-- The loop of `xFill` on the successive points to be stored. -/
def Store.fillLoop (s : Store α) (d : Dir) (ind : Nat) : List α → Option (Store α × Nat)
  | [] => some (s, ind)
  | p :: ps => (s.fillStep d ind p).bind fun (s', ind') => s'.fillLoop d ind' ps

/-- `Worldline::xFill` (`lib/Worldline.C:543-691`) when integration in direction `d` is needed: initial
enlargement (568-576), starting point read (618), loop, final index update (688-689). -/
def Store.fill (s : Store α) (d : Dir) (pts : List α) : Option (Store α) :=
  let (s, ind) := match d with
    | .fwd => if s.imax = s.size - 1 then s.expand .fwd else (s, s.imax)
    | .bwd => if s.imin = 0 then s.expand .bwd else (s, s.imin)
  (s.get ind).bind fun _ =>
  (s.fillLoop d ind pts).map fun (s, ind) =>
    match d with
    | .fwd => { s with imax := ind }
    | .bwd => { s with imin := ind }

/-! ### `Photon::hit` -/

/-- First loop of `Photon::hit` for `dir==-1` (`lib/Photon.C:323-341`), from `ind = i` downwards; `none`:
undefined behaviour.  `ind` is a `size_t`: decrementing 0 wraps to a huge index, for which `ind>=imin_` is
true and `x0_[ind]` is out of bounds.  `inTime p`: `x0 >= tmin_`; `impact p`: `Impact` reports a hit.
Result: the index where the loop stopped, and whether there was a hit. -/
def scanBwd (s : Store α) (inTime impact : α → Bool) : (wrapped : Bool) → Nat → Option (Nat × Bool)
  | true, _ => none
  | false, i =>
    if s.imin ≤ i then
      match s.get i with
      | none => none
      | some p =>
        if inTime p then
          -- `ind+=dir` is executed before the condition on `hitt` is tested, and this test comes last
          match i with
          | 0 => none
          | i' + 1 => if impact p then
              -- reads x0_[ind] if still above imin_, then stops on `!hitt`
              some (i', true)
            else scanBwd s inTime impact false i'
        else some (i, false)
    else some (i, false)

/-- Loop of `Photon::hit` for `dir==-1` storing the points (`lib/Photon.C:639-652,740-750`). Each point
comes with the value of `stopcond` after it was processed. -/
def hitLoopBwd (s : Store α) (ind : Nat) : List (α × Bool) → Option (Store α)
  | [] => some s
  | (p, stop) :: ps =>
    if ind = 0 then none else
    (s.put (ind - 1) p).bind fun s =>
    let s := { s with imin := s.imin - 1 }
    if s.imin ≠ ind - 1 ∧ s.imax ≠ ind - 1 then none else
    if stop then some s else
    let (s, ind) := if s.imin = 0 then s.expand .bwd else (s, ind - 1)
    hitLoopBwd s ind ps

/-- `Photon::hit` with `dir==-1` seen from the storage (`lib/Photon.C:311-750`). -/
def Store.hitBwd (s : Store α) (inTime beforeT impact : α → Bool) (pts : List (α × Bool)) :
    Option (Store α) :=
  -- `ind=i0_+dir`
  (match s.i0 with
   | 0 => none
   | i + 1 => scanBwd s inTime impact false i).bind fun (ind, hit) =>
  if hit then some s else
  -- lines 349-353: nothing to do if the limit is inside the computed part
  (if s.imin ≤ ind then (s.get ind).map beforeT else some false).bind fun done =>
  if done then some s else
  -- `if (ind!=i0_) ind-=dir;` and enlargement, lines 354-367
  let ind := if ind ≠ s.i0 then ind + 1 else ind
  let (s, ind) := if ind = 0 then s.expand .bwd else (s, ind)
  (s.get ind).bind fun _ => hitLoopBwd s ind pts

/-- Loop of `Photon::hit` for `dir==1` (`lib/Photon.C:639-652,728-739`): the test for enlargement is
`ind==x_size_`, after the point has been stored at `ind`. -/
def hitLoopFwd (s : Store α) (ind : Nat) : List (α × Bool) → Option (Store α)
  | [] => some s
  | (p, stop) :: ps =>
    (s.put (ind + 1) p).bind fun s =>
    let s := { s with imax := s.imax + 1 }
    if s.imin ≠ ind + 1 ∧ s.imax ≠ ind + 1 then none else
    if stop then some s else
    let (s, ind) := if ind + 1 = s.size then Store.expand { s with imax := s.size - 1 } .fwd
      else (s, ind + 1)
    hitLoopFwd s ind ps

/-- Integration part of `Photon::hit` with `dir==1`, starting from the last computed point
(`lib/Photon.C:354-383`, then the loop). -/
def Store.hitFwdExtend (s : Store α) (pts : List (α × Bool)) : Option (Store α) :=
  let ind := s.imax
  let (s, ind) := if ind = s.size then s.expand .fwd else (s, ind)
  (s.get ind).bind fun _ => hitLoopFwd s ind pts

/-! ### Histories -/

/-- What a user can do to a worldline. -/
inductive Op (α : Type) where
  | setInit (massive : Bool) (dir : Option Dir) (c : α)
  | reset
  | fill (d : Dir) (pts : List α)
deriving Repr

def step (s : Store α) : Op α → Option (Store α)
  | .setInit m d c => s.setInit m d c
  | .reset => some s.reset
  | .fill d pts => s.fill d pts

def run (s : Store α) : List (Op α) → Option (Store α)
  | [] => some s
  | op :: ops => (step s op).bind fun s' => run s' ops

end Gyoto.Wline
