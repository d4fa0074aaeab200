/-!
# Model of the sets of screen positions (`Screen::Coord1dSet`, `Screen::Coord2dSet`)

Sources: `include/GyotoScreen.h` lines 645-813; `lib/Screen.C` lines 1493-1532 (`Grid`), 1561-1572
(`Range`), 1576-1592 (`Indices`), 1596-1613 (`Angles`), 1615-1623 (`RepeatAngle`), 1625-1657 (`Bucket`),
1661-1665 (`Empty`).

`size_t` is 64 bits: arithmetic is modulo `2^64` where the code may wrap.  The progress message printed by
`Grid::operator++` is not modelled.
-/

namespace Gyoto.Coords

/-- `size_t` arithmetic. -/
def w64 : Nat := 2 ^ 64

/-- A one-dimensional set: its mutable state is one `size_t` (`cur_` or `i_`), everything else is
constant.  `deref = none`: undefined behaviour. -/
structure Set1 (V : Type) where
  start : Nat
  valid : Nat → Bool
  deref : Nat → Option V
  next : Nat → Nat
  size : Nat
  index : Nat → Nat

/-- `Screen::Range` (`lib/Screen.C:1561-1572`).  The constructor divides by the step, which must not be 0. -/
def range (mi ma d : Nat) : Set1 Nat where
  start := mi
  valid cur := decide (cur ≤ ma)
  deref cur := some cur
  next cur := (cur + d) % w64
  size := (((ma + w64 - mi) % w64) / d + 1) % w64
  index cur := ((cur + w64 - mi) % w64) / d

/-- `Screen::Indices`, `Screen::Angles` (`lib/Screen.C:1576-1592,1596-1613`): a copy of a buffer. -/
def indices {V : Type} (buf : List V) : Set1 V where
  start := 0
  valid i := decide (i < buf.length)
  deref i := buf[i]?
  next i := i + 1
  size := buf.length
  index i := i

/-- `Screen::RepeatAngle` (`lib/Screen.C:1615-1623`). -/
def repeated {V : Type} (v : V) (sz : Nat) : Set1 V where
  start := 0
  valid i := decide (i < sz)
  deref _ := some v
  next i := i + 1
  size := sz
  index i := i

/-- A two-dimensional set with state `S`. -/
structure Set2 (P S : Type) where
  start : S
  valid : S → Bool
  deref : S → Option P
  next : S → S
  size : Nat

/-- `Screen::Grid` (`lib/Screen.C:1493-1532`). -/
def grid {V : Type} (a b : Set1 V) : Set2 (V × V) (Nat × Nat) where
  start := (a.start, b.start)
  valid s := a.valid s.1 && b.valid s.2
  deref s := (a.deref s.1).bind fun i => (b.deref s.2).map fun j => (i, j)
  next s :=
    if !(a.valid s.1 && b.valid s.2) then s
    else
      let i := a.next s.1
      if !a.valid i then (a.start, b.next s.2) else (i, s.2)
  size := a.size * b.size % w64

/-- `Screen::Bucket` (`lib/Screen.C:1625-1657`); `none`: the constructor reports an error. -/
def bucket {V : Type} (a b : Set1 V) : Option (Set2 (V × V) (Nat × Nat)) :=
  if a.size ≠ b.size then none else some
  { start := (a.start, b.start)
    valid := fun s => a.valid s.1 && b.valid s.2
    deref := fun s => (a.deref s.1).bind fun i => (b.deref s.2).map fun j => (i, j)
    next := fun s => (a.next s.1, b.next s.2)
    size := a.size }

end Gyoto.Coords
