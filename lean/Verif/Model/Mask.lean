import Mathlib.Data.Rat.Defs

/-!
# The mask of a camera (`lib/Screen.C:887-984`, `lib/Screen.C:1297-1304`)

Values are rationals. Arrays are lists; reading or copying past their end is `ub`. Sizes are natural numbers
(`npix_*npix_` is assumed to fit). -/

namespace Gyoto.Mask

/-- `npix_`, `mask_`, `mask_filename_`. -/
structure Screen where
  npix : Nat
  mask : Option (List Rat)
  filename : String
deriving DecidableEq

/-- `Screen::Screen()` (`lib/Screen.C:92`). -/
def init : Screen := ⟨1001, none, ""⟩

/-- Outcome of a call: it returned, it threw (leaving a state), or it had undefined behaviour. -/
inductive Out (α : Type) where
  | ok (s : Screen) (a : α)
  | throws (s : Screen)
  | ub
deriving DecidableEq

/-- `Screen::mask(mm, res)` (`lib/Screen.C:889-896`). -/
def setMask (s : Screen) (mm : Option (List Rat)) (res : Nat) : Out Unit :=
  let s := if res ≠ 0 then { s with npix := res } else s
  let s := if s.mask.isSome then { s with mask := none, filename := "" } else s
  match mm with
  | none => .ok s ()
  | some l => if l.length < s.npix * s.npix then .ub else .ok { s with mask := some (l.take (s.npix * s.npix)) } ()

/-- `Screen::resolution(n)` (`lib/Screen.C:1298-1304`). -/
def setResolution (s : Screen) (n : Nat) : Out Unit :=
  let s := if s.mask.isSome ∧ n ≠ s.npix then { s with mask := none } else s
  .ok { s with npix := n } ()

/-- What cfitsio answers for a file: it cannot be opened, its first plane is not square, its data cannot be read, or it has
`n × n` values in its first plane. -/
inductive File where
  | missing
  | notSquare
  | unreadable (n : Nat)
  | good (n : Nat) (l : List Rat)

/-- `Screen::fitsReadMask` (`lib/Screen.C:911-944`). -/
def fitsReadMask (s : Screen) (name : String) : File → Out Unit
  | .missing => .ok s ()
  | .notSquare => .throws s
  | .unreadable n =>
    let s := { s with npix := n }
    .throws { s with mask := none, filename := if s.mask.isSome then "" else s.filename }
  | .good n l =>
    if l.length < n * n then .ub else .ok ⟨n, some (l.take (n * n)), name⟩ ()

/-- `Screen::maskFile(fname)` with cfitsio (`lib/Screen.C:900-906`). -/
def setMaskFile (s : Screen) (name : String) (f : File) : Out Unit :=
  if name ≠ "" then fitsReadMask s name f else .ok s ()

/-- `Screen::operator()(i, j)` (`lib/Screen.C:979-984`). -/
def query (s : Screen) (i j : Nat) : Out Bool :=
  if i ≤ 0 ∨ i > s.npix ∨ j > s.npix ∨ j ≤ 0 then .throws s
  else match s.mask with
  | none => .ok s true
  | some l => match l[i - 1 + s.npix * (j - 1)]? with
    | none => .ub
    | some v => .ok s (v != 0)

/-- The mask part of `Screen::Screen(const Screen&)` (`lib/Screen.C:116-117`, `lib/Screen.C:140-143`). -/
def copy (o : Screen) : Out Screen :=
  match o.mask with
  | none => .ok o ⟨o.npix, none, o.filename⟩
  | some l => if l.length < o.npix * o.npix then .ub
    else .ok o ⟨o.npix, some (l.take (o.npix * o.npix)), o.filename⟩

/-- Whether saving the camera writes a `Mask` entry, and with which name (`lib/Screen.C:1379-1383`). -/
def savedMask (s : Screen) : Option String :=
  if s.filename ≠ "" then some (if s.filename.startsWith "!" then (s.filename.drop 1).toString else s.filename) else none

/-- Calls that modify the camera. -/
inductive Op where
  | mask (mm : Option (List Rat)) (res : Nat)
  | resolution (n : Nat)
  | maskFile (name : String) (f : File)

def Op.run (s : Screen) : Op → Out Unit
  | .mask mm res => setMask s mm res
  | .resolution n => setResolution s n
  | .maskFile name f => setMaskFile s name f

end Gyoto.Mask
