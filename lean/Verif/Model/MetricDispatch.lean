import Mathlib.LinearAlgebra.Matrix.Notation
import Mathlib.Data.Rat.Defs

/-!
# Default methods of `Metric::Generic` that call one another (`lib/Metric.C:319-465`)

A metric class provides `gmunu` and any subset of the six other virtual methods (`Impl`). The default methods record that
they were reached in `__defaultfeatures` (`Flags`) and use these flags to choose what to call. Calls made by a default method
are virtual: `upCoef`, `upMat`… below first look at the user's method. The fuel bounds the depth of the calls: `none` means
that the depth was exceeded **or** that a variable was used before being initialised (`g0`).

Values are rational (`h` is `1e-7`; the algebra does not matter here). The user's methods are functions of the position: they
do not call the default methods back. -/

namespace Gyoto.MetricDispatch

abbrev Vec := Fin 4 → ℚ
abbrev Tensor := Fin 4 → Fin 4 → ℚ
abbrev Tensor3 := Fin 4 → Fin 4 → Fin 4 → ℚ

/-- What the class implements; `invert` is `matrix4Invert`. -/
structure Impl where
  gmunu : Vec → Tensor
  invert : Tensor → Tensor
  upCoef : Option (Vec → Fin 4 → Fin 4 → ℚ)
  upMat : Option (Vec → Tensor)
  jac : Option (Vec → Tensor3)
  upJac : Option (Vec → Tensor × Tensor3)
  chrCoef : Option (Vec → Fin 4 → Fin 4 → Fin 4 → ℚ)
  chrMat : Option (Vec → Int × Tensor3)

/-- `__defaultfeatures` (`lib/Metric.C:69-74`). -/
structure Flags where
  upCoef : Bool := false
  upMat : Bool := false
  jac : Bool := false
  upJac : Bool := false
  chrCoef : Bool := false
  chrMat : Bool := false
deriving DecidableEq, Repr

/-- Numerical derivative, common text of `jacobian` and `gmunu_up_and_jacobian` (`lib/Metric.C:354-369` and `lib/Metric.C:400-412`). -/
def derive (g0 : Tensor) (gmunu : Vec → Tensor) (x0 : Vec) : Tensor3 := fun alpha mu nu =>
  let h : ℚ := 1 / 10000000
  let gx := gmunu fun k => if k = alpha then x0 k + h else x0 k
  if mu ≤ nu then (gx mu nu - g0 mu nu) / h else (gx nu mu - g0 nu mu) / h

/-- The connection computed from `gup` and `jac` (`lib/Metric.C:440-454`). -/
def connection (gup : Tensor) (jac : Tensor3) : Tensor3 := fun a mu nu =>
  let coef := fun mu nu => ((List.finRange 4).map fun i => gup i a * (jac mu i nu + jac nu mu i - jac i mu nu) / 2).sum
  if mu ≤ nu then coef mu nu else coef nu mu

/-- `for (mu…) { …(mu,mu); for (nu=mu+1…) …(mu,nu) }`: the pairs in the order of the loops. -/
def pairs : List (Fin 4 × Fin 4) :=
  (List.finRange 4).flatMap fun mu => ((List.finRange 4).filter (mu ≤ ·)).map fun nu => (mu, nu)

/-- Ask for the coefficients of `pairs` one by one and store each at its two places. -/
def fillPairs (call : Flags → Fin 4 → Fin 4 → Option (ℚ × Flags)) :
    List (Fin 4 × Fin 4) → Flags → Tensor → Option (Tensor × Flags)
  | [], fl, t => some (t, fl)
  | (mu, nu) :: rest, fl, t =>
    match call fl mu nu with
    | none => none
    | some (v, fl) =>
      fillPairs call rest fl fun i j => if (i = mu ∧ j = nu) ∨ (i = nu ∧ j = mu) then v else t i j

/-- Same for the connection: `for (a=0; a<4; ++a)` outside. -/
def fillTriples (call : Flags → Fin 4 → Fin 4 → Fin 4 → Option (ℚ × Flags)) :
    List (Fin 4) → Flags → Tensor3 → Option (Tensor3 × Flags)
  | [], fl, t => some (t, fl)
  | a :: rest, fl, t =>
    match fillPairs (fun fl mu nu => call fl a mu nu) pairs fl (t a) with
    | none => none
    | some (ta, fl) => fillTriples call rest fl fun b => if b = a then ta else t b

variable (m : Impl)

mutual
/-- `gmunu_up(x, mu, nu)`: virtual call; default at `lib/Metric.C:319-324`. -/
def upCoef : Nat → Flags → Vec → Fin 4 → Fin 4 → Option (ℚ × Flags)
  | 0, _, _, _, _ => none
  | n + 1, fl, x, mu, nu =>
    match m.upCoef with
    | some f => some (f x mu nu, fl)
    | none =>
      match upMat n { fl with upCoef := true } x with
      | none => none
      | some (g, fl) => some (g mu nu, fl)

/-- `gmunu_up(gup, x)`: virtual call; default at `lib/Metric.C:326-346`. -/
def upMat : Nat → Flags → Vec → Option (Tensor × Flags)
  | 0, _, _ => none
  | n + 1, fl, x =>
    match m.upMat with
    | some f => some (f x, fl)
    | none =>
      let fl := { fl with upMat := true }
      if !fl.upCoef then fillPairs (fun fl mu nu => upCoef n fl x mu nu) pairs fl (fun _ _ => 0)
      else if !fl.upJac then
        match upJac n fl x with
        | none => none
        | some ((gup, _), fl) => some (gup, fl)
      else some (m.invert (m.gmunu x), fl)

/-- `jacobian(jac, x0)`: virtual call; default at `lib/Metric.C:348-376`. -/
def jacobian : Nat → Flags → Vec → Option (Tensor3 × Flags)
  | 0, _, _ => none
  | n + 1, fl, x =>
    match m.jac with
    | some f => some (f x, fl)
    | none =>
      let fl := { fl with jac := true }
      if fl.upJac then some (derive (m.gmunu x) m.gmunu x, fl)
      else
        match upJac n fl x with
        | none => none
        | some ((_, jac), fl) => some (jac, fl)

/-- `gmunu_up_and_jacobian(gup, jac, x0)`: virtual call; default at `lib/Metric.C:378-419`. `g0` is `none` as long as it is
not initialised. -/
def upJac : Nat → Flags → Vec → Option ((Tensor × Tensor3) × Flags)
  | 0, _, _ => none
  | n + 1, fl, x =>
    match m.upJac with
    | some f => some (f x, fl)
    | none =>
      let fl := { fl with upJac := true }
      let g0 : Option Tensor := if (fl.upCoef && fl.upMat) || fl.jac then some (m.gmunu x) else none
      let first : Option (Tensor × Flags) :=
        if fl.upCoef && fl.upMat then g0.map fun g0 => (m.invert g0, fl) else upMat n fl x
      match first with
      | none => none
      | some (gup, fl) =>
        if fl.jac then g0.map fun g0 => ((gup, derive g0 m.gmunu x), fl)
        else
          match jacobian n fl x with
          | none => none
          | some (jac, fl) => some ((gup, jac), fl)
end

mutual
/-- `christoffel(x, alpha, mu, nu)`: virtual call; default at `lib/Metric.C:426-432`. The return code of the matrix version
is ignored. -/
def chrCoef : Nat → Flags → Vec → Fin 4 → Fin 4 → Fin 4 → Option (ℚ × Flags)
  | 0, _, _, _, _, _ => none
  | n + 1, fl, x, a, mu, nu =>
    match m.chrCoef with
    | some f => some (f x a mu nu, fl)
    | none =>
      match chrMat n { fl with chrCoef := true } x with
      | none => none
      | some ((_, d), fl) => some (d a mu nu, fl)

/-- `christoffel(dst, x)`: virtual call; default at `lib/Metric.C:434-465`. -/
def chrMat : Nat → Flags → Vec → Option ((Int × Tensor3) × Flags)
  | 0, _, _ => none
  | n + 1, fl, x =>
    match m.chrMat with
    | some f => some (f x, fl)
    | none =>
      let fl := { fl with chrMat := true }
      if fl.chrCoef then
        match upJac m n fl x with
        | none => none
        | some ((gup, jac), fl) => some ((0, connection gup jac), fl)
      else
        match fillTriples (fun fl a mu nu => chrCoef n fl x a mu nu) (List.finRange 4) fl (fun _ _ _ => 0) with
        | none => none
        | some (d, fl) => some ((0, d), fl)
end

end Gyoto.MetricDispatch
