import Mathlib.LinearAlgebra.Matrix.Notation
import Mathlib.Algebra.Order.Field.Basic
import Mathlib.Algebra.Order.AbsoluteValue.Basic

/-!
# Inversion of 4×4 matrices: `lib/Utils.C:340-421`

`double` is an arbitrary ordered field `K` (exact arithmetic): the model is about the algebra of the two procedures, not
about rounding. A division by zero has no value: the procedure then returns `none` (the C++ one returns infinities and
NaNs). The inner loops over `i`, whose iterations touch distinct memory cells and read only cells with the same `i`, are
written as one function of `i`. -/

namespace Gyoto.Matrix4

variable {K : Type*} [Field K] [LinearOrder K]

/-- `double A[4][4]`. -/
abbrev Mat (K : Type*) := Matrix (Fin 4) (Fin 4) K

/-- The two work arrays of `matrix4Invert`, `tmp` and `Am1` (`lib/Utils.C:341-353`). -/
@[ext] structure Work (K : Type*) where
  tmp : Mat K
  am1 : Mat K

/-- Indices `j+1, …, 3` in increasing order (`for (jj=j+1; jj<4; ++jj)`). -/
def later (j : Fin 4) : List (Fin 4) := (List.finRange 4).filter (j < ·)

/-- Indices `j-1, …, 0` in decreasing order (`for (jj = j-1; jj >= 0; --jj)`). -/
def earlier (j : Fin 4) : List (Fin 4) := ((List.finRange 4).filter (· < j)).reverse

/-- Initialisation (`lib/Utils.C:346-353`). -/
def start (A : Mat K) : Work K := ⟨A, fun i j => if i = j then 1 else 0⟩

/-- Search for the pivot of column `j` (`lib/Utils.C:359-366`); `fact` is always `tmp[j][jl]`. -/
def pivotRow (j : Fin 4) (tmp : Mat K) : Fin 4 :=
  (later j).foldl (fun jl jj => if |tmp j jj| > |tmp j jl| then jj else jl) j

/-- Exchange of rows `j` and `jl` and scaling of row `j` by `fact` (`lib/Utils.C:368-383`) for the columns selected by
`cols` (`i ≥ j` for `tmp`, all of them for `Am1`). With `jl = j` this is the `else` branch. -/
def exchange (cols : Fin 4 → Prop) [DecidablePred cols] (j jl : Fin 4) (fact : K) (M : Mat K) : Mat K := fun i r =>
  if cols i then
    if r = j then M i jl * fact else if r = jl then M i j else M i r
  else M i r

/-- `for (i…) M[i][jj] -= fact*M[i][j]` for the columns selected by `cols` (`lib/Utils.C:387-388, 396-397`). -/
def subRow (cols : Fin 4 → Prop) [DecidablePred cols] (jj j : Fin 4) (fact : K) (M : Mat K) : Mat K := fun i r =>
  if r = jj ∧ cols i then M i jj - fact * M i j else M i r

/-- Body of the elimination loop (`lib/Utils.C:385-389`): columns `i > j` only of `tmp`, all those of `Am1`. -/
def eliminate1 (j jj : Fin 4) (w : Work K) : Work K :=
  let fact := w.tmp j jj
  ⟨subRow (j < ·) jj j fact w.tmp, subRow (fun _ => True) jj j fact w.am1⟩

/-- Body of the first loop on `j` (`lib/Utils.C:356-390`). -/
def forward1 (w : Work K) (j : Fin 4) : Option (Work K) :=
  let jl := pivotRow j w.tmp
  if w.tmp j jl = 0 then none else
    let fact := 1 / w.tmp j jl
    let w1 : Work K := ⟨exchange (j ≤ ·) j jl fact w.tmp, exchange (fun _ => True) j jl fact w.am1⟩
    some ((later j).foldl (fun w jj => eliminate1 j jj w) w1)

/-- First loop on `j` (`lib/Utils.C:356-390`). -/
def forward (A : Mat K) : Option (Work K) :=
  [0, 1, 2, 3].foldlM forward1 (start A)

/-- Body of the second double loop (`lib/Utils.C:395-397`): all columns of both arrays. -/
def backward1 (j jj : Fin 4) (w : Work K) : Work K :=
  let fact := w.tmp j jj
  ⟨subRow (fun _ => True) jj j fact w.tmp, subRow (fun _ => True) jj j fact w.am1⟩

/-- Second double loop (`lib/Utils.C:393-399`). -/
def backward (w : Work K) : Work K :=
  [3, 2, 1, 0].foldl (fun w j => (earlier j).foldl (fun w jj => backward1 j jj w) w) w

/-- `Gyoto::matrix4Invert` (`lib/Utils.C:340-400`). -/
def matrix4Invert (A : Mat K) : Option (Mat K) := (forward A).map fun w => (backward w).am1

/-- `Gyoto::matrix4CircularInvert` (`lib/Utils.C:403-421`); `none` when it divides by zero. -/
def matrix4CircularInvert (A : Mat K) : Option (Mat K) :=
  let a := A 0 0
  let b := A 1 1
  let c := A 2 2
  let d := A 3 3
  let t := A 0 3
  let t2 := t * t
  let X := d - t2 / a
  let aX := a * X
  if a = 0 ∨ b = 0 ∨ c = 0 ∨ X = 0 then none else
    some !![(aX + t2) / (a * aX), 0, 0, -t / aX;
            0, 1 / b, 0, 0;
            0, 0, 1 / c, 0;
            -t / aX, 0, 0, 1 / X]

end Gyoto.Matrix4
