import Mathlib.Analysis.Real.Sqrt
import Mathlib.Algebra.Order.Floor.Ring

/-!
# Reading the arrays of the grids (`lib/PatternDisk.C`, `lib/Disk3D.C`, `lib/DirectionalDisk.C`)

An array on the heap is `some` list of its elements, a null pointer is `none`.  An index is an integer: an unsigned index that wraps
around below zero designates the element before the first one, so it is the negative integer.
-/

namespace Gyoto.GridRead

/-- Undefined behaviour, or an exception. -/
inductive Fail where
  | ub
  | error

abbrev M := Except Fail

/-- `p[i]`. -/
def read (p : Option (List ℝ)) (i : ℤ) : M ℝ :=
  match p with
  | none => .error .ub
  | some l => if 0 ≤ i then (match l[i.toNat]? with | none => .error .ub | some x => .ok x) else .error .ub

/-- The conversion of the floating-point integer `x` to `size_t`, which is defined when the result fits. -/
noncomputable def toSize (x : ℝ) : M ℕ := if x ≤ -1 ∨ (2 : ℝ) ^ 64 ≤ x then .error .ub else .ok ⌊x⌋₊

/-- `for (i=…; x > p[i]; ++i) {}`, at most `n` turns. -/
noncomputable def searchUp (p : Option (List ℝ)) (x : ℝ) : ℕ → ℕ → M ℕ
  | 0, _ => .error .ub
  | n + 1, i => do
    let v ← read p i
    if x > v then searchUp p x n (i + 1) else pure i

/-- `memcpy` of `n` elements of an array. -/
def memcpy (n : ℕ) (l : List ℝ) : M (List ℝ) := if n ≤ l.length then .ok (l.take n) else .error .ub

/-- The copy of one array, if there is one. -/
def copyArray (n : ℕ) (p : Option (List ℝ)) : M (Option (List ℝ)) :=
  match p with
  | none => .ok none
  | some l => (memcpy n l).map some

end Gyoto.GridRead
