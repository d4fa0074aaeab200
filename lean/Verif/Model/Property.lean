/-!
# Model of properties: `Gyoto::Property`, `Gyoto::Value`, `Gyoto::Object`

Sources: `lib/Property.C` lines 7-131, `include/GyotoProperty.h` lines 82-92, 490-500, 960-1100 (macros), `lib/Value.C`
lines 47-230, `lib/Object.C` lines 105-340 (`set`, `get`, `property`, `getPropertyNames`), 461-552 (`setParameter`), 55-104 (`isThreadSafe`).

Simplifications: accessors are those written by `GYOTO_PROPERTY_ACCESSORS` and
`GYOTO_PROPERTY_ACCESSORS_UNIT` (`member=v`, `return member`): a property owns a member of the object, numbered.
`size_t` is `unsigned long` (as on 64-bit Linux, `GYOTO_SIZE__T_IS_UNSIGNED_LONG`).  The type `D` of
floating-point numbers, the conversion of integers to it and the standard functions `stod`, `stol`, `stoul`, `stoi` are parameters.
-/

namespace Gyoto.Property

/-- `Property::type_e` (`include/GyotoProperty.h:640-672`). -/
inductive Ty where
  | empty | double | long | ulong | sizeT | bool | string | filename | vdouble | vulong
  | metric | astrobj | spectrum | spectrometer | screen
deriving DecidableEq, Repr

/-- `Gyoto::Value` (`include/GyotoValue.h`): the type and the member it selects.  Pointers to
objects are numbers (`none` is `NULL`). -/
inductive Val (D : Type) where
  | empty
  | double (x : D)
  | bool (b : Bool)
  | long (i : Int)
  | ulong (n : Nat)
  | string (s : String)
  | vdouble (l : List D)
  | vulong (l : List Nat)
  | obj (t : Ty) (p : Option Nat)
deriving DecidableEq, Repr

/-- Parameters of the model: conversion of integers to floating point, parsing, unit conversion of the members
that support units (`none`: unknown unit). -/
structure Env (D : Type) where
  ofInt : Int → D
  stod : String → Option D
  stol : String → Option Int
  stoul : String → Option Nat
  stoi : String → Option Int
  toUnit : Nat → String → D → Option D
  fromUnit : Nat → String → D → Option D

/-- One entry of a property table: `Property` (`include/GyotoProperty.h:600-832`).  `setter`, `getter`: `NULL`, or the
accessor to a member. `unit`: has accessors with unit. -/
structure Entry where
  name : String
  nameFalse : String := ""
  ty : Ty
  setter : Option Nat := none
  getter : Option Nat := none
  unit : Bool := false
deriving DecidableEq, Repr

/-- `Property::operator bool` (`lib/Property.C:108`). -/
def Entry.truthy (e : Entry) : Bool := e.ty != .empty || e.name != ""

/-- What a `Property const *` points to: `NULL`, an entry followed by other entries of the same array, or the last
item of an array (`Property(next)`, `include/GyotoProperty.h:496-497`), which only has a link to the next table. -/
inductive Chain where
  | null
  | entry (e : Entry) (rest : Chain)
  | link (parent : Chain)

/-- Tables as written with `GYOTO_PROPERTY_START … GYOTO_PROPERTY_END(class, Parent::properties)`, the most derived
class first: a first entry with the name of the class and no type, then the properties. -/
def chainOf : List (String × List Entry) → Chain
  | [] => .null
  | (cls, es) :: rest =>
    .entry ⟨cls, "", .empty, none, none, false⟩ (es.foldr Chain.entry (.link (chainOf rest)))

/-- Test in the loop of `Object::property` (`lib/Object.C:310-311`). -/
def Entry.answers (e : Entry) (pname : String) : Bool :=
  e.name == pname || (e.ty == .bool && e.nameFalse == pname)

/-- `Object::property` (`lib/Object.C:305-317`).  The member `parent` of an ordinary entry is `NULL`. -/
def lookup (pname : String) : Chain → Option Entry
  | .null => none
  | .entry e rest => if e.truthy then (if e.answers pname then some e else lookup pname rest) else none
  | .link parent => lookup pname parent

/-- `Object::getPropertyNames` (`lib/Object.C:319-331`). -/
def propertyNames (listFalse : Bool) : Chain → List String
  | .null => []
  | .entry e rest =>
    if e.truthy then
      (if e.ty != .empty then [e.name] else []) ++ (if listFalse && e.ty == .bool then [e.nameFalse] else []) ++
        propertyNames listFalse rest
    else []
  | .link parent => propertyNames listFalse parent

/-! ### Conversions of `Value` -/

variable {D : Type}

/-- `long(unsigned long)` on 64 bits. -/
def toLong (n : Nat) : Int := if n % 2 ^ 64 < 2 ^ 63 then (n % 2 ^ 64 : Nat) else (n % 2 ^ 64 : Nat) - 2 ^ 64

/-- `(unsigned long)(long)` on 64 bits. -/
def toULong (i : Int) : Nat := (i % 2 ^ 64).toNat

/-- `Value::operator double` (`lib/Value.C:96-122`), without the special names `DBL_MAX`, … which are part of
`stod` here. -/
def asDouble (env : Env D) : Val D → Option D
  | .double x => some x
  | .bool b => some (env.ofInt (if b then 1 else 0))
  | .long i => some (env.ofInt i)
  | .ulong n => some (env.ofInt n)
  | .string s => env.stod s
  | _ => none

/-- `Value::operator long` (`lib/Value.C:124-138`). -/
def asLong (env : Env D) : Val D → Option Int
  | .long i => some i
  | .ulong n => some (toLong n)
  | .string s => env.stol s
  | _ => none

/-- `Value::operator unsigned long` (`lib/Value.C:140-154`). -/
def asULong (env : Env D) : Val D → Option Nat
  | .long i => some (toULong i)
  | .ulong n => some n
  | .string s => env.stoul s
  | _ => none

/-- `Value::operator bool` (`lib/Value.C:174-190`). -/
def asBool (env : Env D) : Val D → Option Bool
  | .bool b => some b
  | .long i => some (i != 0)
  | .ulong n => some (n != 0)
  | .string s => (env.stoi s).map (· != 0)
  | _ => none

/-- `operator std::string` and the vectors (`___local_stuff`, `lib/Value.C:68-74,192-194`). -/
def asString : Val D → Option String
  | .string s => some s
  | _ => none
def asVDouble : Val D → Option (List D)
  | .vdouble l => some l
  | _ => none
def asVULong : Val D → Option (List Nat)
  | .vulong l => some l
  | _ => none

/-- Pointers (`___local_stuff2`, `lib/Value.C:76-85,195-199`). -/
def asObj (t : Ty) : Val D → Option (Option Nat)
  | .empty => some none
  | .obj t' p => if t' = t then some p else none
  | _ => none

/-- Conversion to the argument type of the setter of a property, then back to a `Value` by the getter. `none`: error.
The members hold the result. -/
def convert (env : Env D) : Ty → Val D → Option (Val D)
  | .empty, _ => none
  | .double, v => (asDouble env v).map .double
  | .long, v => (asLong env v).map .long
  | .ulong, v => (asULong env v).map .ulong
  | .sizeT, v => (asULong env v).map .ulong
  | .bool, v => (asBool env v).map .bool
  | .string, v => (asString v).map .string
  | .filename, v => (asString v).map .string
  | .vdouble, v => (asVDouble v).map .vdouble
  | .vulong, v => (asVULong v).map .vulong
  | .metric, v => (asObj .metric v).map (.obj .metric)
  | .astrobj, v => (asObj .astrobj v).map (.obj .astrobj)
  | .spectrum, v => (asObj .spectrum v).map (.obj .spectrum)
  | .spectrometer, v => (asObj .spectrometer v).map (.obj .spectrometer)
  | .screen, v => (asObj .screen v).map (.obj .screen)

/-! ### Setting and getting -/

/-- Members of an object. -/
abbrev Members (D : Type) := Nat → Val D

/-- `member=v` -/
def assign (m : Members D) (k : Nat) (v : Val D) : Members D := fun j => if j = k then v else m j

/-- `Object::set(Property const&, Value)` (`lib/Object.C:159-207`). `none`: error. -/
def setP (env : Env D) (m : Members D) (e : Entry) (v : Val D) : Option (Members D) :=
  if e.ty = .empty then some m else
  match e.setter with
  | none => none
  | some k => (convert env e.ty v).map (assign m k)

/-- Conversion of a list of numbers. -/
def mapUnit (f : D → Option D) : List D → Option (List D)
  | [] => some []
  | x :: xs => (f x).bind fun y => (mapUnit f xs).map (y :: ·)

/-- `Object::set(Property const&, Value, unit)` (`lib/Object.C:118-157`). -/
def setPU (env : Env D) (m : Members D) (e : Entry) (v : Val D) (unit : String) : Option (Members D) :=
  match e.ty with
  | .empty => none
  | .double =>
    if e.unit then
      match e.setter with
      | none => none
      | some k => ((asDouble env v).bind (env.toUnit k unit)).map fun x => assign m k (.double x)
    else if unit ≠ "" then none else setP env m e v
  | .vdouble =>
    if e.unit then
      match e.setter with
      | none => none
      | some k => ((asVDouble v).bind (mapUnit (env.toUnit k unit))).map fun x => assign m k (.vdouble x)
    else if unit ≠ "" then none else setP env m e v
  | _ => if unit ≠ "" then none else setP env m e v

/-- `Object::get(Property const&)` (`lib/Object.C:246-288`). -/
def getP (m : Members D) (e : Entry) : Option (Val D) :=
  if e.ty = .empty then none else e.getter.map m

/-- `Object::get(Property const&, unit)` (`lib/Object.C:223-244`). -/
def getPU (env : Env D) (m : Members D) (e : Entry) (unit : String) : Option (Val D) :=
  match e.ty with
  | .double =>
    if e.unit then
      match e.getter with
      | none => none
      | some k => ((asDouble env (m k)).bind (env.fromUnit k unit)).map .double
    else if unit ≠ "" then none else getP m e
  | .vdouble =>
    if e.unit then
      match e.getter with
      | none => none
      | some k => ((asVDouble (m k)).bind (mapUnit (env.fromUnit k unit))).map .vdouble
    else if unit ≠ "" then none else getP m e
  | _ => if unit ≠ "" then none else getP m e

/-- `Value(!val)` for the negative name of a boolean (`lib/Object.C:213-214`). -/
def negated (env : Env D) (e : Entry) (pname : String) (v : Val D) : Option (Val D) :=
  if e.ty = .bool ∧ pname = e.nameFalse then (asBool env v).map fun b => .bool (!b) else some v

/-- `Object::set(string, Value)` (`lib/Object.C:209-215`). -/
def set (env : Env D) (c : Chain) (m : Members D) (pname : String) (v : Val D) : Option (Members D) :=
  (lookup pname c).bind fun e => (negated env e pname v).bind fun v => setP env m e v

/-- `Object::set(string, Value, unit)` (`lib/Object.C:217-222`). -/
def setU (env : Env D) (c : Chain) (m : Members D) (pname : String) (v : Val D) (unit : String) :
    Option (Members D) :=
  (lookup pname c).bind fun e => (negated env e pname v).bind fun v => setPU env m e v unit

/-- `Object::get(string)` (`lib/Object.C:290-296`): `!bool(res)` for the negative name. -/
def get (env : Env D) (c : Chain) (m : Members D) (pname : String) : Option (Val D) :=
  (lookup pname c).bind fun e => (getP m e).bind fun v => negated env e pname v

/-- `Object::get(string, unit)` (`lib/Object.C:298-304`). -/
def getU (env : Env D) (c : Chain) (m : Members D) (pname : String) (unit : String) : Option (Val D) :=
  (lookup pname c).bind fun e => (getPU env m e unit).bind fun v => negated env e pname v

end Gyoto.Property
