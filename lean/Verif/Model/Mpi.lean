import Verif.Model.CoordSet

/-!
# Model of distributed ray tracing (manager and workers)

Source: `lib/Scenery.C` lines 392-652 (`Scenery::rayTrace`, `HAVE_MPI` branch): manager loop 496-617, worker
loop 618-647.

Messages: each worker has at most one message in flight in each direction; point-to-point delivery is reliable.
`recv(any_source)` may pick any worker whose message is in flight: all orders are possible.  The result of a
pixel is a function `f` of the pixel (the worker resets its buffer with `init` and traces the ray).  The content
of the buffer is in `Verif.Model.Quantities`.
-/

namespace Gyoto.Mpi
open Gyoto.Coords

variable {P S R : Type}

/-- State of a worker together with the messages between it and the manager. -/
inductive WState (P R : Type) where
  /-- its first message, tagged `give_task`, is in flight (line 625) -/
  | asking
  /-- the manager's message with a position is in flight (lines 513-524) -/
  | toWork (p : P)
  /-- computing (lines 639-643) -/
  | busy (p : P)
  /-- the result, tagged `raytrace_done`, is in flight (line 645) -/
  | answered (r : R)
  /-- the manager's message tagged `raytrace_done` is in flight (lines 529-532) -/
  | told
  /-- out of its loop (line 633) -/
  | stopped

/-- `Scenery::rayTrace` variables of the manager, the image, the workers.  `sent` and `stops` are ghost
variables: the positions handed out with the worker, and the workers told to stop. -/
structure State (P S R : Type) where
  ij : S
  cnt : Nat
  cell : Nat → Nat
  working : Nat
  img : Nat → Option R
  ws : Nat → WState P R
  sent : List P
  stops : List Nat

/-- What is fixed during the call. -/
structure Cfg (P S R : Type) where
  set : Set2 P S
  cellOf : Nat → P → Nat
  f : P → R

/-- Update of a function at one point. -/
def upd {α : Type} (g : Nat → α) (w : Nat) (x : α) : Nat → α := fun v => if v = w then x else g v

/-- Storing of a result, if there is one (lines 537-612). -/
def imgAfter (img : Nat → Option R) (cs : Nat) : Option R → Nat → Option R
  | none => img
  | some r => upd img cs (some r)

/-- Manager: after receiving from `w` (tag `raytrace_done` with a result, or `give_task`): answer, then store
the result in the cell this worker had been working for (lines 503-612); `none`: undefined behaviour. -/
def serve (c : Cfg P S R) (st : State P S R) (w : Nat) (res : Option R) : Option (State P S R) :=
  let img := imgAfter st.img (st.cell w) res
  if c.set.valid st.ij then
    match c.set.deref st.ij with
    | none => none
    | some p =>
      some { st with cell := upd st.cell w (c.cellOf st.cnt p), cnt := st.cnt + 1, img := img,
                     ij := c.set.next st.ij, ws := upd st.ws w (.toWork p), sent := p :: st.sent }
  else some { st with ws := upd st.ws w .told, working := st.working - 1, img := img,
                      stops := w :: st.stops }

/-- Actions. -/
inductive Act where
  /-- the manager receives from worker `w` -/
  | recv (w : Nat)
  /-- worker `w` moves: receives its message, or finishes its computation -/
  | work (w : Nat)
deriving DecidableEq, Repr

/-- One action.  Outer `none`: not enabled; inner `none`: undefined behaviour.  Workers have ranks
`1 … n` (rank 0 is the manager). The manager only receives while `working ≠ 0` (line 499). -/
def step (c : Cfg P S R) (n : Nat) (st : State P S R) : Act → Option (Option (State P S R))
  | .recv w =>
    if st.working = 0 ∨ w = 0 ∨ n < w then none else
    match st.ws w with
    | .asking => some (serve c st w none)
    | .answered r => some (serve c st w (some r))
    | _ => none
  | .work w =>
    if w = 0 ∨ n < w then none else
    match st.ws w with
    | .toWork p => some (some { st with ws := upd st.ws w (.busy p) })
    | .busy p => some (some { st with ws := upd st.ws w (.answered (c.f p)) })
    | .told => some (some { st with ws := upd st.ws w .stopped })
    | _ => none

/-- Beginning of the manager loop with `n` workers (`working = mpi_team_->size()-1`, `cell` filled with 0). -/
def init (c : Cfg P S R) (n : Nat) : State P S R :=
  ⟨c.set.start, 0, fun _ => 0, n, fun _ => none, fun _ => .asking, [], []⟩

/-- Reachability without undefined behaviour, counting the actions. -/
inductive Reach (c : Cfg P S R) (n : Nat) : Nat → State P S R → Prop where
  | init : Reach c n 0 (init c n)
  | step {k st a st'} : Reach c n k st → step c n st a = some (some st') → Reach c n (k + 1) st'

end Gyoto.Mpi
