/-!
# Model of `Gyoto::SmartPointee` and `Gyoto::SmartPointer`

Sources: `include/GyotoSmartPointer.h` lines 80-360, `lib/SmartPointer.C` lines 26-97.

Simplifications: objects are numbered in allocation order; an object has a fixed number of member
handles ("fields"), initially `NULL`; the pointee type `T` and its other members are abstracted away.
Reading a handle in scope is always possible; the model keeps destroyed objects and handles as `none`
so that touching one is visible.  `int` overflow of the counter is not modelled.
-/

namespace Gyoto.SmartPtr

/-- Name of an object (its address; fresh at each `new`, never reused). -/
abbrev ObjId := Nat

/-- The value of `SmartPointer::obj` (`include/GyotoSmartPointer.h:142`): `none` is `NULL`. -/
abbrev Ptr := Option ObjId

/-- A `SmartPointee`: `refCount` (`include/GyotoSmartPointer.h:83`) and its member handles. -/
structure Obj where
  refCount : Int
  fields : List Ptr
deriving DecidableEq, Repr

/-- Where a handle lives: a variable, or a member of an object. -/
inductive Loc where
  | root (h : Nat)
  | field (o : ObjId) (k : Nat)
deriving DecidableEq, Repr

/-- Program state. `none` in `heap`: destroyed object. `none` in `roots`: destroyed handle variable.
`log`: objects whose destructor has been run, in order. -/
structure St where
  heap : List (Option Obj)
  roots : List (Option Ptr)
  log : List ObjId
deriving DecidableEq, Repr

/-- Outcome of an operation: `ub` is undefined behaviour (touching a destroyed object or handle);
`illFormed` means that the program text names a handle which does not exist. -/
inductive Res where
  | ok (s : St)
  | ub
  | illFormed
deriving DecidableEq, Repr

/-- Initial state: nothing allocated. -/
def init : St := ⟨[], [], []⟩

/-- `SmartPointee::incRefCount` (`lib/SmartPointer.C:66-75`) through a pointer which may be `NULL`
(`if (obj) obj->incRefCount()`, `include/GyotoSmartPointer.h:172-173`). `none`: undefined behaviour. -/
def incRef (heap : List (Option Obj)) (p : Ptr) : Option (List (Option Obj)) :=
  match p with
  | none => some heap
  | some o =>
    match heap[o]? with
    | some (some obj) => some (heap.set o (some { obj with refCount := obj.refCount + 1 }))
    | _ => none

/-- Total number of member handles of the live objects (termination measure of `release`). -/
def fieldTotal (heap : List (Option Obj)) : Nat :=
  (heap.map fun x => match x with | none => 0 | some obj => obj.fields.length).sum

theorem fieldTotal_set (heap : List (Option Obj)) (o : Nat) (x : Option Obj) (h : o < heap.length) :
    fieldTotal (heap.set o x) + (match heap[o] with | none => 0 | some obj => obj.fields.length)
      = fieldTotal heap + (match x with | none => 0 | some obj => obj.fields.length) := by
  induction heap generalizing o with
  | nil => simp at h
  | cons a t ih =>
    cases o with
    | zero => simp [fieldTotal]; omega
    | succ o =>
      have := ih o (by simpa using h)
      simp [fieldTotal] at this ⊢
      omega

/-- `SmartPointer::decRef` (`include/GyotoSmartPointer.h:148-157`) with `SmartPointee::decRefCount`
(`lib/SmartPointer.C:76-87`), on a stack of objects to be released.  When a count drops to 0 the object is
deleted: its destructor runs the destructors (`~SmartPointer` is `decRef`) of its member handles,
last member first, before anything else on the stack.  `none`: undefined behaviour. -/
def release (heap : List (Option Obj)) (log : List ObjId) :
    List ObjId → Option (List (Option Obj) × List ObjId)
  | [] => some (heap, log)
  | o :: rest =>
    if h : o < heap.length then
      match hx : heap[o] with
      | none => none
      | some obj =>
        if obj.refCount - 1 = 0 then
          release (heap.set o none) (log ++ [o]) (obj.fields.reverse.filterMap id ++ rest)
        else
          release (heap.set o (some { obj with refCount := obj.refCount - 1 })) log rest
    else none
termination_by pending => fieldTotal heap + pending.length
decreasing_by
  · have := fieldTotal_set heap o none h
    rw [hx] at this
    have h2 : (obj.fields.reverse.filterMap id).length ≤ obj.fields.length :=
      Nat.le_trans (List.length_filterMap_le _ _) (by simp)
    simp only [List.length_append, List.length_cons] at *
    omega
  · have := fieldTotal_set heap o (some { obj with refCount := obj.refCount - 1 }) h
    rw [hx] at this
    simp only [List.length_cons] at *
    omega

/-- The stack of releases caused by `decRef` on one handle value: nothing for `NULL`. -/
def pendingOf (p : Ptr) : List ObjId := p.toList

/-- Value of the handle at a location, if there is a live handle there. -/
def read (s : St) : Loc → Option Ptr
  | .root h => (s.roots[h]?).join
  | .field o k => (s.heap[o]?).join.bind fun obj => obj.fields[k]?

/-- Store a pointer value in the handle at a location (no counting). -/
def write (s : St) (l : Loc) (p : Ptr) : St :=
  match l with
  | .root h => { s with roots := s.roots.set h (some p) }
  | .field o k =>
    match (s.heap[o]?).join with
    | some obj => { s with heap := s.heap.set o (some { obj with fields := obj.fields.set k p }) }
    | none => s

/-- Operations of a program on handles. -/
inductive Op where
  /-- `SmartPointer<T> h(new T)` where `T` has `nf` member handles. -/
  | newObj (nf : Nat)
  /-- `SmartPointer<T> h;` -/
  | newNull
  /-- `SmartPointer<T> h(src)` -/
  | copy (src : Loc)
  /-- `dst = src` between two handles (lvalues). -/
  | assign (dst src : Loc)
  /-- `dst = (T*) src`, or from an rvalue handle. -/
  | assignRaw (dst src : Loc)
  /-- `dst = NULL` -/
  | assignNull (dst : Loc)
  /-- end of the life of a handle variable -/
  | destroy (h : Nat)
deriving DecidableEq, Repr

/-- `SmartPointer (T *orig)` on a fresh object (`include/GyotoSmartPointer.h:170-174`,
`SmartPointee()` sets `refCount` to 0, `lib/SmartPointer.C:26-32`). -/
def opNew (s : St) (nf : Nat) : St :=
  { s with
    heap := s.heap ++ [some ⟨0 + 1, List.replicate nf none⟩]
    roots := s.roots ++ [some (some s.heap.length)] }

/-- Copy constructor (`include/GyotoSmartPointer.h:190-195`; the cross-type one, 213-219, is the same
when the dynamic cast succeeds). -/
def opCopy (s : St) (src : Loc) : Res :=
  match read s src with
  | none => .illFormed
  | some p =>
    match incRef s.heap p with
    | none => .ub
    | some heap => .ok { s with heap := heap, roots := s.roots ++ [some p] }

/-- `operator= (SmartPointer<T> &right)` (`include/GyotoSmartPointer.h:283-296`): self test on the
address, increment `right.obj`, `decRef()`, then read `right.obj` again and store it.  The handle `dst` is
`NULL` during `decRef` (in the code it is reset to `NULL` only when the object is deleted; nobody
else reads it).  If the release destroyed the object that contains `dst` or `right`, the last line reads
or writes freed memory. -/
def opAssign (s : St) (dst src : Loc) : Res :=
  match read s dst, read s src with
  | some old, some p =>
    if dst = src then .ok s else
    match incRef s.heap p with
    | none => .ub
    | some heap =>
      let s1 := write { s with heap := heap } dst none
      match release s1.heap s1.log (pendingOf old) with
      | none => .ub
      | some (heap2, log2) =>
        let s2 : St := { s1 with heap := heap2, log := log2 }
        match read s2 dst, read s2 src with
        | some _, some p' => .ok (write s2 dst p')
        | _, _ => .ub
  | _, _ => .illFormed

/-- `operator= (T* right)` (`include/GyotoSmartPointer.h:302-314`): nothing if the pointers are equal, else
`decRef()`, store the pointer, and only then increment. -/
def assignPtr (s : St) (dst : Loc) (right : Ptr) : Res :=
  match read s dst with
  | none => .illFormed
  | some old =>
    if old = right then .ok s else
    let s1 := write s dst none
    match release s1.heap s1.log (pendingOf old) with
    | none => .ub
    | some (heap2, log2) =>
      let s2 : St := { s1 with heap := heap2, log := log2 }
      match read s2 dst with
      | none => .ub
      | some _ =>
        let s3 := write s2 dst right
        match incRef s3.heap right with
        | none => .ub
        | some heap3 => .ok { s3 with heap := heap3 }

/-- `dst = (T*) src`: the pointer is read by `operator T*()` (`include/GyotoSmartPointer.h:320`)
before `operator=(T*)` is entered. -/
def opAssignRaw (s : St) (dst src : Loc) : Res :=
  match read s src with
  | none => .illFormed
  | some p => assignPtr s dst p

/-- `~SmartPointer` (`include/GyotoSmartPointer.h:338`: `decRef()`) of a handle variable. -/
def opDestroy (s : St) (h : Nat) : Res :=
  match read s (.root h) with
  | none => .illFormed
  | some old =>
    match release s.heap s.log (pendingOf old) with
    | none => .ub
    | some (heap, log) => .ok { heap := heap, log := log, roots := s.roots.set h none }

/-- One operation. -/
def step (s : St) : Op → Res
  | .newObj nf => .ok (opNew s nf)
  | .newNull => .ok { s with roots := s.roots ++ [some none] }
  | .copy src => opCopy s src
  | .assign d r => opAssign s d r
  | .assignRaw d r => opAssignRaw s d r
  | .assignNull d => assignPtr s d none
  | .destroy h => opDestroy s h

/-- A history of operations. -/
def run (s : St) : List Op → Res
  | [] => .ok s
  | op :: ops =>
    match step s op with
    | .ok s' => run s' ops
    | r => r

/-- `SmartPointee::operator=` (`lib/SmartPointer.C:46-64`): assigning one pointee to another resets the
target's counter to 0, whatever the number of its owners.  (The members' own assignments are not
modelled.) -/
def pointeeAssign (s : St) (target source : ObjId) : Res :=
  match (s.heap[target]?).join, (s.heap[source]?).join with
  | some t, some _ =>
    if target = source then .ok s
    else .ok { s with heap := s.heap.set target (some { t with refCount := 0 }) }
  | _, _ => .ub

end Gyoto.SmartPtr
