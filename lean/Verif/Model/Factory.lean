/-!
# Model of `Gyoto::Factory`: sharing of components, file names

Sources: `lib/Factory.C` lines 314-345, 400-530 (readers `metric()`, `astrobj()`, `screen()`), 534-640 (constructors), 680-733 (writers
`metric(gg, el)`, `astrobj(ao, el)`, `screen(scr, el)`), 1140-1177 (`fullPath`).

Objects are numbered; `none` is a null pointer.  The XML document is reduced to the list of the
shared elements created below the root, each with the element (numbered, 0 is the root) to which it is appended.
-/

namespace Gyoto.Factory

/-- The three kinds of shared components. -/
inductive Kind where
  | metric | astrobj | screen
deriving DecidableEq, Repr

/-- Members used when writing, for one kind: `gg_`/`obj_`/`screen_` and `gg_el_`/`obj_el_` (`true` once the element
exists; there is no such member for the screen). -/
structure Slot where
  obj : Option Nat
  el : Bool
deriving DecidableEq, Repr

/-- The writing factory: one slot for each kind; `doc`: the elements created, in order. -/
structure Writer where
  metric : Slot
  astrobj : Slot
  screen : Slot
  doc : List (Kind × Nat × Nat)
deriving DecidableEq, Repr

def Writer.slot (w : Writer) : Kind → Slot
  | .metric => w.metric
  | .astrobj => w.astrobj
  | .screen => w.screen

def Writer.setSlot (w : Writer) (k : Kind) (s : Slot) : Writer :=
  match k with
  | .metric => { w with metric := s }
  | .astrobj => { w with astrobj := s }
  | .screen => { w with screen := s }

/-- `Factory::metric(gg, el)` and `Factory::astrobj(ao, el)` (`lib/Factory.C:680-717`).  The nested
`fillElement` takes place after the members have been set; the calls it makes follow this one. `none`: error "Inconsistent
use of …". -/
def writeMA (w : Writer) (k : Kind) (o : Option Nat) (el : Nat) : Option Writer :=
  match o, (w.slot k).obj with
  | none, _ => some w
  | some x, some y =>
    if x ≠ y then none
    else if (w.slot k).el then some w
    else some { w.setSlot k ⟨some x, true⟩ with doc := w.doc ++ [(k, x, el)] }
  | some x, none =>
    if (w.slot k).el then some w
    else some { w.setSlot k ⟨some x, true⟩ with doc := w.doc ++ [(k, x, el)] }

/-- `Factory::screen(scr, el)` (`lib/Factory.C:719-733`). -/
def writeScreen (w : Writer) (o : Option Nat) (el : Nat) : Option Writer :=
  match o, w.screen.obj with
  | none, _ => some w
  | some x, some y => if x ≠ y then none else some w
  | some x, none => some { w.setSlot .screen ⟨some x, true⟩ with doc := w.doc ++ [(.screen, x, el)] }

/-- One request of a component, which is being written in element `el`, to have another one written
(`FactoryMessenger::metric`, … `lib/Factory.C:1011-1030`). -/
structure Request where
  kind : Kind
  obj : Option Nat
  el : Nat
deriving DecidableEq, Repr

def write1 (w : Writer) (r : Request) : Option Writer :=
  match r.kind with
  | .screen => writeScreen w r.obj r.el
  | .metric => writeMA w .metric r.obj r.el
  | .astrobj => writeMA w .astrobj r.obj r.el

/-- The requests made while a document is being filled, in order. -/
def writeAll (w : Writer) : List Request → Option Writer
  | [] => some w
  | r :: rs => (write1 w r).bind fun w => writeAll w rs

/-- `Factory(SmartPointer<Scenery>)` (`lib/Factory.C:534-539`) before `fillElement`: `gg_` and `obj_` are those of the
scenery, `screen_` is null, no element exists. -/
def sceneryWriter (gg ao : Option Nat) : Writer := ⟨⟨gg, false⟩, ⟨ao, false⟩, ⟨none, false⟩, []⟩

/-- `Factory(SmartPointer<Screen>)` (`lib/Factory.C:559-576`): the root of the document is the screen. -/
def screenWriter (gg : Option Nat) (scr : Nat) : Writer := ⟨⟨gg, false⟩, ⟨none, false⟩, ⟨some scr, true⟩, []⟩

/-- `Factory(SmartPointer<Metric::Generic>)` (`lib/Factory.C:578-597`). -/
def metricWriter (gg : Nat) : Writer := ⟨⟨some gg, true⟩, ⟨none, false⟩, ⟨none, false⟩, []⟩

/-- `Factory(SmartPointer<Astrobj::Generic>)` (`lib/Factory.C:599-616`): `gg_` is null. -/
def astrobjWriter (ao : Nat) : Writer := ⟨⟨none, false⟩, ⟨some ao, true⟩, ⟨none, false⟩, []⟩

/-! ### Reading -/

/-- Members used when reading: the object already built, if any. `next` numbers the objects which are built. -/
structure Reader where
  metric : Option Nat
  astrobj : Option Nat
  screen : Option Nat
  next : Nat
deriving DecidableEq, Repr

/-- `Factory::metric()`, `astrobj()`, `screen()` (`lib/Factory.C:314-352, 404-470, 495-530`): build the object of the document
on the first request, then give the same one.  `present`: the document has such an element. -/
def read1 (present : Kind → Bool) (r : Reader) : Kind → Option Nat × Reader
  | .metric => match r.metric with
    | some o => (some o, r)
    | none => if present .metric then (some r.next, { r with metric := some r.next, next := r.next + 1 }) else (none, r)
  | .astrobj => match r.astrobj with
    | some o => (some o, r)
    | none => if present .astrobj then (some r.next, { r with astrobj := some r.next, next := r.next + 1 }) else (none, r)
  | .screen => match r.screen with
    | some o => (some o, r)
    | none => if present .screen then (some r.next, { r with screen := some r.next, next := r.next + 1 }) else (none, r)

/-- Answers to a sequence of requests. -/
def readAll (present : Kind → Bool) (r : Reader) : List Kind → List (Kind × Option Nat)
  | [] => []
  | k :: ks => (k, (read1 present r k).1) :: readAll present (read1 present r k).2 ks

/-! ### File names -/

/-- The prefix for files relative to the working directory (`lib/Factory.C:1160`). -/
def pwdPrefix : List Char := "`pwd`/".toList

/-- `Factory::fullPath` (`lib/Factory.C:1140-1177`).  `xmlpath` is `dirname(filename_)`, `curwd` is `getcwd()`. -/
def fullPath (xmlpath curwd fname : List Char) : List Char :=
  if "/".toList.isPrefixOf fname then fname
  else if !pwdPrefix.isPrefixOf fname then
    (if !"/".toList.isPrefixOf xmlpath then curwd ++ ['/'] else []) ++ xmlpath ++ ['/'] ++ fname
  else curwd ++ ['/'] ++ fname.drop pwdPrefix.length

end Gyoto.Factory
