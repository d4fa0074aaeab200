import Mathlib.Data.Real.Basic
import Mathlib.Data.Fin.VecNotation

/-!
# Disks read from a series of files (`lib/DynamicalDisk.C`)

The heap is modelled: a block has an address and contents, which are of any type `α`.  The three kinds of arrays (emission, velocity,
radius) are treated alike by the code, one after the other, and are the indices 0, 1, 2.  Reading from a FITS file is an outcome for
each of the three arrays; the other members it changes, the opacity, and `dirname_` (allocated by `new[]` and released by `delete`) are
not modelled.  The other values are reals.
-/

namespace Gyoto.DynDisk

/-- The heap and the members of the class and of its base that are used (`include/GyotoDynamicalDisk.h:52-66`). -/
structure Disk (α : Type) where
  heap : ℕ → Option α
  next : ℕ
  nb : ℕ
  /-- `emission_array_`, `velocity_array_`, `radius_array_`; an element that has not been written is `none`. -/
  arr : Fin 3 → Option (List (Option ℕ))
  /-- `emission_`, `velocity_`, `radius_`. -/
  cur : Fin 3 → Option ℕ
  tinit : ℝ
  dt : ℝ

/-- What a piece of code does: undefined behaviour, an exception, or a result. -/
inductive Out (α β : Type) where
  | ub
  | throw (d : Disk α)
  | ok (d : Disk α) (b : β)

/-- A piece of code. -/
def Run (α β : Type) := Disk α → Out α β

variable {α β γ : Type}

def Run.bind (m : Run α β) (f : β → Run α γ) : Run α γ := fun d =>
  match m d with
  | .ub => .ub
  | .throw d => .throw d
  | .ok d b => f b d

instance : Monad (Run α) where
  pure b := fun d => .ok d b
  bind := Run.bind

/-- `GYOTO_ERROR`. -/
def raise : Run α β := fun d => .throw d

/-- The constructor (`lib/DynamicalDisk.C:52-68`) with nothing on the heap. -/
def init : Disk α where
  heap := fun _ => none
  next := 0
  nb := 0
  arr := fun _ => none
  cur := fun _ => none
  tinit := 0
  dt := 1

/-- `new double[n]`, filled. -/
def alloc (c : α) : Run α ℕ := fun d =>
  .ok { d with heap := fun i => if i = d.next then some c else d.heap i, next := d.next + 1 } d.next

/-- `delete [] p` for a pointer that is not null. -/
def release (p : ℕ) : Run α Unit := fun d =>
  match d.heap p with
  | none => .ub
  | some _ => .ok { d with heap := fun i => if i = p then none else d.heap i } ()

/-- The contents behind a pointer. -/
def load (p : ℕ) : Run α α := fun d =>
  match d.heap p with
  | none => .ub
  | some c => .ok d c

/-- `x = p` for one of `emission_`, `velocity_`, `radius_` (`setEmission`, `setVelocity`, `radius`, `lib/PatternDisk.C:114-124`). -/
def setCur (q : Fin 3) (p : Option ℕ) : Run α Unit := fun d =>
  .ok { d with cur := fun k => if k = q then p else d.cur k } ()

/-- `if (x) { delete [] x; x = NULL; }`. -/
def freeCur (q : Fin 3) : Run α Unit := fun d =>
  match d.cur q with
  | none => .ok d ()
  | some p => Run.bind (release p) (fun _ => setCur q none) d

/-! ## Reading the files -/

/-- What `fitsRead` finds for one array. -/
inductive Found (α : Type) where
  | present (c : α)
  /-- there is none in the file -/
  | absent
  /-- the pixels cannot be read -/
  | unreadable
  /-- an exception before the array is replaced -/
  | early

/-- One file: the arrays, whether the exceptions at the end of `fitsRead` are avoided, and whether the dimensions are those of the first
file. -/
structure File (α : Type) where
  found : Fin 3 → Found α
  closed : Bool
  sameDims : Bool

/-- One array in `fitsRead` (`lib/PatternDisk.C:374-384`, `:415-437`, `:441-463`). -/
def fitsArray (q : Fin 3) : Found α → Run α Unit
  | .present c => do
    freeCur q
    let p ← alloc c
    setCur q (some p)
  | .absent => freeCur q
  | .unreadable => do
    freeCur q
    raise
  | .early => raise

/-- The emission in `fitsRead`: it is an error that there is none, found before the array is replaced (`lib/PatternDisk.C:346-349`). -/
def fitsEmission : Found α → Run α Unit
  | .absent => raise
  | x => fitsArray 0 x

/-- `fitsRead` (`lib/PatternDisk.C:256-471`). -/
def fitsRead (f : File α) : Run α Unit := do
  fitsEmission (f.found 0)
  fitsArray 1 (f.found 1)
  fitsArray 2 (f.found 2)
  if f.closed then pure () else raise

/-- The copy of one array into the series (`lib/DynamicalDisk.C:275-295`). -/
def saveArray (q : Fin 3) (i : ℕ) : Run α Unit := fun d =>
  match d.cur q with
  | none => .throw d
  | some p => (do
      let c ← load p
      let p' ← alloc c
      fun d => .ok { d with arr := fun k => if k = q then (d.arr k).map (fun (l : List (Option ℕ)) => l.set i (some p')) else d.arr k } ()) d

/-- One turn of the loop over the files (`lib/DynamicalDisk.C:255-297`). -/
def readOne (i : ℕ) (f : File α) : Run α Unit := do
  fitsRead f
  if f.sameDims then pure () else raise
  saveArray 0 i
  saveArray 1 i
  saveArray 2 i

/-- The loop, from the file number `i`. -/
def readAll : ℕ → List (File α) → Run α Unit
  | _, [] => pure ()
  | i, f :: fs => do
    readOne i f
    readAll (i + 1) fs

/-- `delete [] x[i]` if there is an `x`. -/
def freeSlot (q : Fin 3) (i : ℕ) : Run α Unit := fun d =>
  match d.arr q with
  | none => .ok d ()
  | some l =>
    match l[i]? with
    | some (some p) => release p d
    | _ => .ub

/-- The loop that frees the series, `n` turns from `i` (`lib/DynamicalDisk.C:107-111`, `:210-214`). -/
def freeSlots : ℕ → ℕ → Run α Unit
  | 0, _ => pure ()
  | n + 1, i => do
    freeSlot 0 i
    freeSlot 1 i
    freeSlot 2 i
    freeSlots n (i + 1)

/-- `freeSlots`, then the arrays of pointers (`lib/DynamicalDisk.C:107-118`, `:210-221`). -/
def freeSeries : Run α Unit := fun d =>
  Run.bind (freeSlots d.nb 0) (fun _ d => .ok { d with arr := fun _ => none, nb := 0 } ()) d

/-- What `file` does first (`lib/DynamicalDisk.C:208-222`). -/
def freeOld : Run α Unit := fun d => if d.nb ≠ 0 then freeSeries d else .ok d ()

/-- `file(fname)` (`lib/DynamicalDisk.C:206-301`); `dir` is what the directory holds, `none` if it cannot be opened. -/
def file (dir : Option (List (File α))) : Run α Unit := do
  freeOld
  match dir with
  | none => raise
  | some fs => fun d =>
    if fs.length < 1 then .throw { d with nb := fs.length }
    else readAll 0 fs { d with nb := fs.length, arr := fun _ => some (List.replicate fs.length none) }

/-! ## Using them -/

/-- `while(time>tcomp && ifits<nb_times_)` (`lib/DynamicalDisk.C:145-148`, `:178-181`), `n` being `nb_times_ - ifits`. -/
noncomputable def search (time dt : ℝ) : ℕ → ℝ → ℕ → ℕ
  | 0, _, i => i
  | n + 1, tcomp, i => if time > tcomp then search time dt n (tcomp + dt) (i + 1) else i

/-- One array in `copyQuantities`. -/
def useSlot (q : Fin 3) (i : ℕ) : Run α Unit := fun d =>
  match d.arr q with
  | none => .ub
  | some l =>
    match l[i]? with
    | some (some p) => setCur q (some p) d
    | _ => .ub

/-- `copyQuantities(iq)` (`lib/DynamicalDisk.C:124-131`). -/
def copyQuantities (iq : ℕ) : Run α Unit := fun d =>
  (do
    if iq < 1 ∨ iq > d.nb then raise else pure ()
    useSlot 0 (iq - 1)
    useSlot 1 (iq - 1)
    useSlot 2 (iq - 1)) d

/-- `nullifyQuantities()` (`lib/DynamicalDisk.C:133-139`). -/
def nullify : Run α Unit := do
  setCur 0 none
  setCur 1 none
  setCur 2 none

/-- The contents of one of the arrays of the base, if any. -/
def view (q : Fin 3) : Run α (Option α) := fun d =>
  match d.cur q with
  | none => .ok d none
  | some p => Run.bind (load p) (fun c => pure (some c)) d

/-- A method of the base, which reads the three arrays and either throws or returns a value (`PatternDiskBB::emission`, or one component
of the result of `PatternDiskBB::getVelocity`). -/
def base (eval : (Fin 3 → Option α) → Option ℝ) : Run α ℝ := do
  let a ← view 0
  let b ← view 1
  let c ← view 2
  match eval ![a, b, c] with
  | none => raise
  | some x => pure x

/-- `emission` (`lib/DynamicalDisk.C:171-203`), and `getVelocity(pos, vel)` for one component (`:141-169`). -/
noncomputable def emission (eval : (Fin 3 → Option α) → Option ℝ) (time : ℝ) : Run α ℝ := fun d =>
  let ifits := search time d.dt (d.nb - 1) d.tinit 1
  (if ifits = 1 ∨ ifits = d.nb then do
      copyQuantities ifits
      let x ← base eval
      nullify
      pure x
    else do
      copyQuantities (ifits - 1)
      let x1 ← base eval
      copyQuantities ifits
      let x2 ← base eval
      let t1 := d.tinit + ((ifits : ℝ) - 2) * d.dt
      nullify
      pure (x1 + (x2 - x1) / d.dt * (time - t1))) d

/-- The destructor (`lib/DynamicalDisk.C:105-120`), then that of the base (`lib/PatternDisk.C:106-112`). -/
def destroy : Run α Unit := do
  freeSeries
  freeCur 0
  freeCur 1
  freeCur 2

/-- The emission or the velocity in the copy constructor of the base (`lib/PatternDisk.C:86-97`). -/
def cloneCur (q : Fin 3) : Run α (Option ℕ) := fun d =>
  match d.cur q with
  | none => .ok d none
  | some p => (do
      let c ← load p
      let p' ← alloc c
      pure (some p')) d

/-- The radii in the copy constructor of the base (`lib/PatternDisk.C:98-101`): `2 * nphi_ * nr_` values are copied out of an array of
`nr_`, which is positive. -/
def cloneRadius : Run α (Option ℕ) := fun d =>
  match d.cur 2 with
  | none => .ok d none
  | some _ => .ub

/-- The copy constructor (`lib/DynamicalDisk.C:70-101`): the new disk sees the same heap.  `nb_times_` is set to zero, so that nothing is
copied. -/
def clone : Run α (Disk α) := fun d =>
  (do
    let a ← cloneCur 0
    let b ← cloneCur 1
    let c ← cloneRadius
    fun d' => .ok d' { d' with nb := 0, arr := fun _ => none, cur := ![a, b, c] }) d

end Gyoto.DynDisk
