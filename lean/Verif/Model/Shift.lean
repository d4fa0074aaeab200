import Verif.Model.GenericMotion
import Mathlib.Tactic.FinCases

/-!
# Metrics made of other metrics (`lib/Shift.C`, `lib/ComplexMetric.C`)

Doubles are reals.  Of the methods of a metric those that the two classes forward are kept.  The part about the mass leaves out the listeners of the
`Shift` itself, and takes sub-metrics that are not `Shift`s.
-/

namespace Gyoto.Derived

open Gyoto.MetricAlg

/-- The forwarded methods of a metric: `gmunu`, `gmunu_up`, `jacobian` (`jac μ` is the derivative with respect to coordinate `μ`) and
`isStopCondition`. -/
structure Met where
  g : Vec → Tensor
  gup : Vec → Tensor
  jac : Vec → Fin 4 → Tensor
  stop : (Fin 8 → ℝ) → Int

/-- `spos` (`lib/Shift.C:97-100`, and the same in the methods that follow). -/
def spos (offset pos : Vec) : Vec := fun i => pos i - offset i

/-- `scoord` (`lib/Shift.C:122-126`). -/
def scoord (offset : Vec) (coord : Fin 8 → ℝ) : Fin 8 → ℝ :=
  ![coord 0 - offset 0, coord 1 - offset 1, coord 2 - offset 2, coord 3 - offset 3, coord 4, coord 5, coord 6, coord 7]

/-- `Shift` (`lib/Shift.C:95-128`). -/
def shift (offset : Vec) (m : Met) : Met where
  g pos := m.g (spos offset pos)
  gup pos := m.gup (spos offset pos)
  jac pos := m.jac (spos offset pos)
  stop coord := m.stop (scoord offset coord)

/-- `offset(v)` (`lib/Shift.C:81-86`); `none` is the error. -/
def setOffset (v : List ℝ) : Option Vec :=
  if v.length ≠ 4 then none else some fun i => v.getD i 0

/-! ## `Complex` -/

/-- `Complex::gmunu` (`lib/ComplexMetric.C:114-126`). -/
def complexG (l : List Met) (x : Vec) : Tensor := l.foldl (fun g m => .of fun mu nu => g mu nu + m.g x mu nu) (.of fun _ _ => 0)

/-- `Complex::jacobian` (`lib/ComplexMetric.C:128-140`). -/
def complexJac (l : List Met) (x : Vec) : Fin 4 → Tensor := 
  l.foldl (fun j m => fun a => .of fun mu nu => j a mu nu + m.jac x a mu nu) fun _ => .of fun _ _ => 0

/-- `Complex::isStopCondition` (`lib/ComplexMetric.C:177-182`). -/
def complexStop : List Met → (Fin 8 → ℝ) → Int
  | [], _ => 0
  | m :: l, c => if m.stop c ≠ 0 then 1 else complexStop l c

/-- The kinds of coordinates; `unspecified` is that of an empty `Complex`. -/
inductive Kind where
  | unspecified
  | cartesian
  | spherical
  deriving DecidableEq

/-- A `Complex`: its elements (a pointer may be null) and `coordkind_`. -/
structure Complex (α : Type) where
  elements : List (Option α)
  kind : Kind

/-- The outcome of a call: it returns, or throws and leaves a `Complex`. -/
inductive Out (α : Type) where
  | ok (c : Complex α)
  | throw (c : Complex α)

/-- The constructor (`lib/ComplexMetric.C:31-36`). -/
def Complex.new {α : Type} : Complex α := ⟨[], .unspecified⟩

/-- `append` (`lib/ComplexMetric.C:65-81`); following the null pointer throws.  The test of overflow is left out. -/
def Complex.append {α : Type} (coordKind : α → Kind) (c : Complex α) (e : Option α) : Out α :=
  match c.elements, e with
  | _ :: _, none => .throw c
  | _ :: _, some x => if coordKind x ≠ c.kind then .throw c else .ok ⟨c.elements ++ [some x], coordKind x⟩
  | [], none => .throw { c with elements := [none] }
  | [], some x => .ok ⟨[some x], coordKind x⟩

/-- The loop of `remove` (`lib/ComplexMetric.C:103-107`): the elements but the `i`-th, one after the other. -/
def removeLoop {α : Type} (i : ℕ) : ℕ → List α → List α → List α
  | _, [], dest => dest
  | k, x :: orig, dest => removeLoop i (k + 1) orig (if k ≠ i then dest ++ [x] else dest)

/-- `remove` (`lib/ComplexMetric.C:97-110`). -/
def Complex.remove {α : Type} (c : Complex α) (i : ℕ) : Out α :=
  if i ≥ c.elements.length then .throw c
  else if c.elements.length - 1 = 0 then .ok ⟨removeLoop i 0 c.elements [], .unspecified⟩
  else .ok ⟨removeLoop i 0 c.elements [], c.kind⟩

/-- The calls that change a `Complex`. -/
inductive CCall (α : Type) where
  | append (e : Option α)
  | remove (i : ℕ)

/-- One call, the errors being caught. -/
def Complex.call {α : Type} (coordKind : α → Kind) (c : Complex α) : CCall α → Complex α
  | .append e => match c.append coordKind e with
    | .ok c' => c'
    | .throw c' => c'
  | .remove i => match c.remove i with
    | .ok c' => c'
    | .throw c' => c'

/-! ## The mass of a `Shift` -/

/-- The part of a `Shift` that deals with the mass: `mass_` and `submet_`. -/
structure ShiftObj where
  mass : ℝ
  sub : Option ℕ

/-- Sub-metrics (their mass and the list of their listeners) and `Shift`s. -/
structure World where
  mass : ℕ → ℝ
  listeners : ℕ → List ℕ
  shifts : ℕ → Option ShiftObj
  next : ℕ

/-- `tellListeners()` of the sub-metric `k` (`lib/Hooks.C:48-52`, `:94`, `lib/Shift.C:77-79`): each listener takes the mass; telling a listener that
does not exist any more is `none`. -/
def tell (k : ℕ) : List ℕ → World → Option World
  | [], w => some w
  | l :: ls, w =>
    match w.shifts l with
    | none => none
    | some sh =>
      let sh' := if sh.sub = some k then { sh with mass := w.mass k } else sh
      tell k ls { w with shifts := fun i => if i = l then some sh' else w.shifts i }

/-- `mass(m)` of a sub-metric (`lib/Metric.C:127-130`). -/
def subMass (w : World) (k : ℕ) (m : ℝ) : Option World :=
  let w := { w with mass := fun i => if i = k then m else w.mass i }
  tell k (w.listeners k) w

/-- `unhook` (`lib/Hooks.C:77-92`). -/
def unhook (w : World) (s : ℕ) (sub : Option ℕ) : World :=
  match sub with
  | none => w
  | some k => { w with listeners := fun i => if i = k then (w.listeners k).filter (fun l => l ≠ s) else w.listeners i }

/-- `hook` (`lib/Hooks.C:71-75`). -/
def hook (w : World) (s k : ℕ) : World := { w with listeners := fun i => if i = k then s :: w.listeners k else w.listeners i }

/-- What one can do. -/
inductive Op where
  | new
  | subMetric (s : ℕ) (sub : Option ℕ)
  | shiftMass (s : ℕ) (m : ℝ)
  | subMass (k : ℕ) (m : ℝ)
  | clone (s : ℕ)
  | destroy (s : ℕ)

/-- One operation; an operation on a `Shift` that does not exist changes nothing.  `new`: `lib/Shift.C:53-56` (the mass of a metric is 1 at the
start, `lib/Metric.C:86-100`); `subMetric`: `:63-70`; `shiftMass`: `:72-75`; `clone`: `:57`, the copy constructor that the compiler writes;
`destroy`: `:58-60`. -/
def step (w : World) : Op → Option World
  | .new => some { w with shifts := fun i => if i = w.next then some ⟨1, none⟩ else w.shifts i, next := w.next + 1 }
  | .subMetric s sub =>
    match w.shifts s with
    | none => some w
    | some sh =>
      let w := unhook w s sh.sub
      let w := { w with shifts := fun i => if i = s then some { sh with sub := sub } else w.shifts i }
      match sub with
      | none => some w
      | some k => subMass (hook w s k) k ((hook w s k).mass k)
  | .shiftMass s m =>
    match w.shifts s with
    | none => some w
    | some sh =>
      match sh.sub with
      | some k => subMass w k m
      | none => some { w with shifts := fun i => if i = s then some { sh with mass := m } else w.shifts i }
  | .subMass k m => subMass w k m
  | .clone s =>
    match w.shifts s with
    | none => some w
    | some sh => some { w with shifts := fun i => if i = w.next then some sh else w.shifts i, next := w.next + 1 }
  | .destroy s =>
    match w.shifts s with
    | none => some w
    | some sh =>
      let w := unhook w s sh.sub
      some { w with shifts := fun i => if i = s then none else w.shifts i }

/-- Operations one after the other. -/
def run (w : World) : List Op → Option World
  | [] => some w
  | o :: os => (step w o).bind fun w' => run w' os

end Gyoto.Derived
