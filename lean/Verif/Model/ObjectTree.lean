import Verif.Model.Property

/-!
# Model of objects which own other objects through their properties

Sources: `lib/Object.C` lines 54-106 (`isThreadSafe`), 480-521 (`setParameter(Property const&, …)`), 523-561
(`setParameter(name, content, unit)`).

Simplifications: the objects of the program are numbered; reading a text (`strtol`, `strtoul`, `Gyoto::atof`,
`parseArray`, …) is a parameter.
-/

namespace Gyoto.Property

variable {D : Type}

/-- An object: its tables of properties, its members and, if its class reimplements `isThreadSafe`
(`GYOTO_PROPERTY_THREAD_UNSAFE`, `include/GyotoObject.h`), what the reimplementation returns. -/
structure Obj (D : Type) where
  chain : Chain
  members : Members D
  threadSafe : Option Bool := none

/-- All the objects. -/
abbrev Heap (D : Type) := Nat → Obj D

/-- Types of properties which are pointers to objects. -/
def Ty.isObj : Ty → Bool
  | .metric | .astrobj | .spectrum | .spectrometer | .screen => true
  | _ => false

/-- One turn of the loop of `isThreadSafe` (`lib/Object.C:80-98`): the child of an entry, if any; the outer `none` is an
exception.  For a screen, `get(prop)` receives a *pointer*, converted to a temporary `Property` which is empty
(`Property(Property const * const ancestor)`), hence the error "Can't get empty property". -/
def childOf (m : Members D) (e : Entry) : Option (Option Nat) :=
  match e.ty with
  | .screen => none
  | .metric | .astrobj | .spectrum | .spectrometer => (getP m e).bind (asObj e.ty)
  | _ => some none

/-- The loop of `Object::isThreadSafe` (`lib/Object.C:75-105`); `ask` is the recursive call on a child. -/
def safeLoop (ask : Nat → Option Bool) (m : Members D) : Chain → Bool → Option Bool
  | .null, safe => some safe
  | .link parent, safe => safeLoop ask m parent safe
  | .entry e rest, safe =>
    if e.truthy then
      match childOf m e with
      | none => none
      | some none => safeLoop ask m rest safe
      | some (some child) =>
        match ask child with
        | none => none
        | some b => safeLoop ask m rest (safe && b)
    else some safe

/-- `isThreadSafe` (`lib/Object.C:54-106`, and the reimplementations).  `none`: exception, or the nesting is deeper
than `fuel`. -/
def isThreadSafe (heap : Heap D) : Nat → Nat → Option Bool
  | 0, _ => none
  | fuel + 1, o =>
    match (heap o).threadSafe with
    | some b => some b
    | none => safeLoop (isThreadSafe heap fuel) (heap o).members (heap o).chain true

/-- Reading of the text of an element or parameter, for the types which are not objects: `none` is an error. -/
abbrev Reader (D : Type) := Ty → String → Option (Val D)

/-- `Object::setParameter(Property const&, name, content, unit)` (`lib/Object.C:480-521`). -/
def setParamP (env : Env D) (rd : Reader D) (m : Members D) (e : Entry) (name content unit : String) :
    Option (Members D) :=
  match e.ty with
  | .bool => setP env m e (.bool (name == e.name))
  | .double => (rd .double content).bind fun v => setPU env m e v unit
  | .vdouble => (rd .vdouble content).bind fun v => setPU env m e v unit
  | .string | .filename => setP env m e (.string content)
  | .long => (rd .long content).bind (setP env m e)
  | .ulong => (rd .ulong content).bind (setP env m e)
  | .sizeT => (rd .sizeT content).bind (setP env m e)
  | .vulong => (rd .vulong content).bind (setP env m e)
  | _ => none

/-- `name.find("::")`, `substr(0,pos)` and `substr(pos+2)` (`lib/Object.C:526-529`). -/
def findSep : List Char → Option (List Char × List Char)
  | [] => none
  | c :: cs =>
    if c = ':' then
      match cs with
      | [] => none
      | d :: ds => if d = ':' then some ([], ds) else (findSep cs).map fun (a, b) => (c :: a, b)
    else (findSep cs).map fun (a, b) => (c :: a, b)

theorem findSep_length : ∀ {l a b : List Char}, findSep l = some (a, b) → b.length < l.length := by
  intro l
  induction l with
  | nil => intro a b h; simp [findSep] at h
  | cons c cs ih =>
    intro a b h
    unfold findSep at h
    split at h
    · split at h
      · simp at h
      · split at h
        · simp only [Option.some.injEq, Prod.mk.injEq] at h
          obtain ⟨rfl, rfl⟩ := h
          simp only [List.length_cons]; omega
        · simp only [Option.map_eq_some_iff, Prod.mk.injEq, Prod.exists] at h
          obtain ⟨a', b', h1, h2, rfl⟩ := h
          have := ih h1
          simp only [List.length_cons] at *; omega
    · simp only [Option.map_eq_some_iff, Prod.mk.injEq, Prod.exists] at h
      obtain ⟨a', b', h1, h2, rfl⟩ := h
      have := ih h1
      simp only [List.length_cons]; omega

/-- Replace the members of an object. -/
def Heap.update (heap : Heap D) (o : Nat) (m : Members D) : Heap D :=
  fun j => if j = o then { heap j with members := m } else heap j

/-- `Object::setParameter(name, content, unit)` (`lib/Object.C:523-561`).  The result is the returned number and the
objects afterwards; `none` is an error. -/
def setParameter (env : Env D) (rd : Reader D) (heap : Heap D) (o : Nat) (name : List Char)
    (content unit : String) : Option (Nat × Heap D) :=
  match lookup (String.ofList name) (heap o).chain with
  | some e => (setParamP env rd (heap o).members e (String.ofList name) content unit).map fun m =>
      (0, heap.update o m)
  | none =>
    match _h : findSep name with
    | none => some (1, heap)
    | some (childname, rest) =>
      match lookup (String.ofList childname) (heap o).chain with
      | none => some (1, heap)
      | some e =>
        match (getP (heap o).members e).bind fun v => if e.ty.isObj then asObj e.ty v else none with
        | some (some child) => setParameter env rd heap child rest content unit
        | _ => none
termination_by name.length
decreasing_by exact findSep_length _h

end Gyoto.Property
