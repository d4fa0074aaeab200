import Verif.Model.CoordSet

/-!
# Model of multi-threaded ray tracing

Source: `lib/Scenery.C` lines 208-318 (`SceneryThreadWorkerArg`, `SceneryThreadWorker`) and 654-714
(`Scenery::rayTrace`, thread part), 716-790 (`Scenery::operator()`).

What happens under the mutex is one atomic step.  Outside the mutex a worker makes two steps on the image:
it blanks its cell (`data->init`), then it writes the result.  Ray tracing itself is a function `trace` of the
worker's private photon and of the pixel, giving a result and the photon's new state.  A worker is a slot of
index `w < n`; the parent thread is one of them.  Creation and joining of threads are not modelled.
-/

namespace Gyoto.Threads
open Gyoto.Coords

variable {P S R Ph : Type}

/-- What is fixed during the call. -/
structure Cfg (P S R Ph : Type) where
  set : Set2 P S
  /-- destination, from the counter and the pixel (`lib/Scenery.C:291-293`) -/
  cellOf : Nat → P → Nat
  blank : R
  trace : Ph → P → R × Ph

/-- `cell=lcnt; if (is_pixel && data.alloc) cell=(ijb[1]-1)*npix+ijb[0]-1;` (`lib/Scenery.C:291-292`). -/
def pixelCell (alloc : Bool) (npix lcnt : Nat) (p : Nat × Nat) : Nat :=
  if alloc then (p.2 - 1) * npix + p.1 - 1 else lcnt

/-- Where a worker is in its loop. -/
inductive WState (P Ph : Type) where
  | ready (ph : Ph)
  | got (lcnt : Nat) (p : P) (ph : Ph)
  | blanked (lcnt : Nat) (p : P) (ph : Ph)
  | done

/-- Shared variables and workers.  `img c = none`: cell not touched by this call.  `log` is a ghost variable:
the counters of the finished computations. -/
structure State (P S R Ph : Type) where
  ij : S
  cnt : Nat
  img : Nat → Option R
  ws : Nat → WState P Ph
  log : List Nat

/-- Update of one worker. -/
def setW (ws : Nat → WState P Ph) (w : Nat) (x : WState P Ph) : Nat → WState P Ph :=
  fun v => if v = w then x else ws v

/-- Write in the image. -/
def setC (img : Nat → Option R) (c : Nat) (r : R) : Nat → Option R :=
  fun d => if d = c then some r else img d

/-- Next action of worker `w`; `none` is undefined behaviour (dereferencing the set of positions).
`lib/Scenery.C:262-303`: the set is dereferenced before its validity is tested. -/
def step (c : Cfg P S R Ph) (st : State P S R Ph) (w : Nat) : Option (State P S R Ph) :=
  match st.ws w with
  | .ready ph =>
    match c.set.deref st.ij with
    | none => none
    | some p =>
      if c.set.valid st.ij then
        some { st with ij := c.set.next st.ij, cnt := st.cnt + 1, ws := setW st.ws w (.got st.cnt p ph) }
      else some { st with ws := setW st.ws w .done }
  | .got lcnt p ph =>
    some { st with img := setC st.img (c.cellOf lcnt p) c.blank, ws := setW st.ws w (.blanked lcnt p ph) }
  | .blanked lcnt p ph =>
    some { st with img := setC st.img (c.cellOf lcnt p) (c.trace ph p).1,
                   ws := setW st.ws w (.ready (c.trace ph p).2), log := lcnt :: st.log }
  | .done => some st

/-- Execution along a schedule: the list of the workers which move, one after the other (workers of index
`≥ n` do not exist and do not move). -/
def exec (c : Cfg P S R Ph) (n : Nat) (st : State P S R Ph) : List Nat → Option (State P S R Ph)
  | [] => some st
  | w :: sched => if w < n then (step c st w).bind fun st' => exec c n st' sched else exec c n st sched

/-- Start of `rayTrace`: every worker has its own clone of the photon. -/
def init (c : Cfg P S R Ph) (ph : Nat → Ph) : State P S R Ph :=
  ⟨c.set.start, 0, fun _ => none, fun w => .ready (ph w), []⟩

/-- All `n` workers have left the loop: `rayTrace` returns. -/
def finished (n : Nat) (st : State P S R Ph) : Prop := ∀ w, w < n → match st.ws w with
  | .done => True
  | _ => False

end Gyoto.Threads
