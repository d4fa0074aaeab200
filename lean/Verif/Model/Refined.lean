import Mathlib.Algebra.Order.Floor.Ring
import Mathlib.Algebra.Order.Archimedean.Real.Basic

/-!
# Refined worldlines and composite objects (`lib/Worldline.C:137-180`, `lib/ComplexAstrobj.C:29-180`)

Doubles are reals.  `none`: undefined behaviour (conversion to `size_t` of a number that does not fit, access outside an array).
Positions and velocities at the dates of the refined worldline are those `getCoord` finds on the parent (`Model/DateSearch.lean`).
-/

namespace Gyoto.Refined

/-- `size_t(fabs(d1-d2)/step_max)+2` (`lib/Worldline.C:161`): undefined if the division is by zero or the result does not fit.
The sum wraps. -/
noncomputable def size (d1 d2 stepMax : ℝ) : Option Nat :=
  if stepMax = 0 then none
  else
    let q := |d1 - d2| / stepMax
    if -1 < q ∧ q < 2 ^ 64 then some ((⌊q⌋.toNat + 2) % 2 ^ 64) else none

/-- An array of `x_size_` doubles; `none`: not written yet. -/
structure Arr where
  size : Nat
  val : Nat → Option ℝ

/-- `x[i] = v`. -/
def Arr.put (a : Arr) (i : Int) (v : ℝ) : Option Arr :=
  if 0 ≤ i ∧ i < a.size then some { a with val := Function.update a.val i.toNat (some v) } else none

/-- `x[i]`. -/
def Arr.get (a : Arr) (i : Int) : Option ℝ := if 0 ≤ i ∧ i < a.size then a.val i.toNat else none

/-- The loop `for (i=i0_+dir; i>imin_ && i<imax_; i+=dir) x0_[i] = x0_[i-dir]+step;` (`lib/Worldline.C:167`), with at most `fuel`
turns; the result is the last `i` and the array. -/
def fill (imin imax dir : Int) (step : ℝ) : Nat → Int → Arr → Option (Int × Arr)
  | 0, _, _ => none
  | fuel + 1, i, a =>
    if i > imin ∧ i < imax then
      (a.get (i - dir)).bind fun v => (a.put i (v + step)).bind fun a => fill imin imax dir step fuel (i + dir) a
    else some (i, a)

/-- The dates of the worldline built by `Worldline(orig, i0, dir, step_max)` between the dates `d1` and `d2` of the parent
(`lib/Worldline.C:160-168`). -/
noncomputable def dates (d1 d2 : ℝ) (dir : Int) (stepMax : ℝ) : Option Arr :=
  (size d1 d2 stepMax).bind fun n =>
    let step := (d2 - d1) / ((n : ℝ) - 1)
    let imin : Int := 0
    let imax : Int := n - 1
    let i0 := if dir = 1 then imin else imax
    (Arr.put ⟨n, fun _ => none⟩ i0 d1).bind fun a =>
    (fill imin imax dir step n (i0 + dir) a).bind fun (i, a) => a.put i d2

/-! ## Composite objects -/

/-- `Complex`: the array of its parts (identified by numbers), their number and its metric. -/
structure Comp where
  cardinal : Nat
  elements : Nat → Option Nat
  gg : Option Nat

/-- The metric of each part. -/
abbrev Metrics := Nat → Option Nat

/-- `Complex::Complex()` (`lib/ComplexAstrobj.C:29-36`). -/
def Comp.empty : Comp := ⟨0, fun _ => none, none⟩

/-- Copy of the first `n` entries (`lib/ComplexAstrobj.C:87-90`). -/
def copyTo (src : Nat → Option Nat) : Nat → (Nat → Option Nat) → Nat → Option Nat
  | 0, dst => dst
  | n + 1, dst => Function.update (copyTo src n dst) n (src n)

/-- `Complex::append` (`lib/ComplexAstrobj.C:80-98`), without overflow of the number of parts. -/
def Comp.append (c : Comp) (w : Metrics) (e : Nat) : Comp × Metrics :=
  let el := Function.update (copyTo c.elements c.cardinal fun _ => none) c.cardinal (some e)
  match c.gg with
  | some g => ({ cardinal := c.cardinal + 1, elements := el, gg := some g }, Function.update w e (some g))
  | none => ({ cardinal := c.cardinal + 1, elements := el, gg := w e }, w)

/-- The copying loop of `remove` (`lib/ComplexAstrobj.C:120-124`) after `n` turns: the new array and `j`. -/
def removeLoop (orig : Nat → Option Nat) (i : Nat) : Nat → (Nat → Option Nat) × Nat
  | 0 => (fun _ => none, 0)
  | k + 1 =>
    let r := removeLoop orig i k
    if k ≠ i then (Function.update r.1 r.2 (orig k), r.2 + 1) else r

/-- `Complex::remove` (`lib/ComplexAstrobj.C:114-126`); `none`: an error is thrown. -/
def Comp.remove (c : Comp) (i : Nat) : Option Comp :=
  if i ≥ c.cardinal then none
  else some { c with cardinal := c.cardinal - 1, elements := (removeLoop c.elements i c.cardinal).1 }

/-- `Complex::operator[]` (`lib/ComplexAstrobj.C:100-112`). -/
def Comp.at (c : Comp) (i : Nat) : Option Nat := if i ≥ c.cardinal then none else c.elements i

/-- The loop of `Complex::metric(gg)` (`lib/ComplexAstrobj.C:69-77`). -/
def setAll (el : Nat → Option Nat) (gg : Option Nat) : Nat → Metrics → Metrics
  | 0, w => w
  | n + 1, w => match el n with
    | some e => Function.update (setAll el gg n w) e gg
    | none => setAll el gg n w

/-- `Complex::metric(gg)` (`lib/ComplexAstrobj.C:66-78`). -/
def Comp.metric (c : Comp) (w : Metrics) (gg : Option Nat) : Comp × Metrics := ({ c with gg := gg }, setAll c.elements gg c.cardinal w)

/-- `Complex::rMax` (`lib/ComplexAstrobj.C:137-142`), from the value of `Generic::rMax` and the parts'. -/
noncomputable def rMax (own : ℝ) (parts : List ℝ) : ℝ := parts.foldl (fun rmax r => if rmax < r then r else rmax) own

/-- A call of a part's `Impact` with `data`: the part (its rank) and the photon. -/
inductive Call where
  /-- on the segment of the photon itself -/
  | whole (part : Nat)
  /-- on segment `n` of the refined photon -/
  | piece (part : Nat) (n : Nat)

/-- `Complex::Impact` (`lib/ComplexAstrobj.C:144-180`): `impact[i]` is what each part answers without `data`, `d1` and `d2` the dates
of the photon at `index` and `index+1`; the result is the value returned, the refined dates and the calls with `data` in order. -/
noncomputable def impact (answers : List Nat) (d1 d2 stepMax : ℝ) : Option (Nat × Option Arr × List Call) :=
  let nImpact := answers.sum
  let parts := (List.range answers.length).filter fun i => answers.getD i 0 ≠ 0
  if nImpact = 1 then some (1, none, parts.map .whole)
  else if nImpact ≥ 2 then
    (dates d1 d2 1 stepMax).map fun a =>
      (1, some a, ((List.range (a.size - 1)).reverse.flatMap fun n => parts.map fun i => .piece i n))
  else some (0, none, [])

end Gyoto.Refined
