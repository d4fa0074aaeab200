import Mathlib.LinearAlgebra.Matrix.Notation
import Mathlib.Analysis.Real.Sqrt
import Mathlib.Analysis.SpecialFunctions.Pow.Real
import Mathlib.Analysis.SpecialFunctions.Trigonometric.Basic
import Mathlib.Data.Sign.Defs

/-!
# Pointwise algebra of `Metric::Generic` (`lib/Metric.C`)

`double` is `ℝ` (exact arithmetic). A division by zero or the square root of a negative number, which give infinities or
NaN in the C++ code, have no value: `none`. `gmunu` is a parameter: at a given position it is a matrix `g`. Accumulation
loops are finite sums. -/

namespace Gyoto.MetricAlg

/-- `double v[4]`. -/
abbrev Vec := Fin 4 → ℝ
/-- `double g[4][4]`. -/
abbrev Tensor := Matrix (Fin 4) (Fin 4) ℝ

/-- `Generic::ScalarProd` (`lib/Metric.C:246-257`). -/
def scalarProd (g : Tensor) (u1 u2 : Vec) : ℝ := ∑ i, ∑ j, g i j * u1 i * u2 j

/-- `(x>0.)-(x<0.)`. -/
noncomputable def sgn (x : ℝ) : ℝ := (if x > 0 then 1 else 0) - (if x < 0 then 1 else 0)

/-- `Generic::norm` (`lib/Metric.C:259-263`). -/
noncomputable def norm (g : Tensor) (u1 : Vec) : ℝ :=
  let norm2 := scalarProd g u1 u1
  sgn norm2 * √|norm2|

/-- `Generic::multiplyFourVect` (`lib/Metric.C:265-268`). -/
def multiply (vect : Vec) (a : ℝ) : Vec := fun k => vect k * a

/-- `Generic::addFourVect` (`lib/Metric.C:270-273`). -/
def add (u1 u2 : Vec) : Vec := fun k => u1 k + u2 k

/-- `1./x` : no value when `x` is zero. -/
noncomputable def inv (x : ℝ) : Option ℝ := if x = 0 then none else some (1 / x)

/-- `Generic::projectFourVect` (`lib/Metric.C:275-285`): the new value of `u1`. -/
noncomputable def project (g : Tensor) (u1 u2 : Vec) : Option Vec :=
  let n := norm g u2
  let s := sgn n
  (inv |n|).map fun absinvn =>
    let u : Vec := fun k => u2 k * absinvn
    let u := multiply u (-s * scalarProd g u u1)
    add u1 u

/-- `multiplyFourVect(u, 1./abs(norm(pos, u)))`. -/
noncomputable def unit (g : Tensor) (u : Vec) : Option Vec := (inv |norm g u|).map (multiply u)

/-- `Generic::dualOneForm` (`lib/Metric.C:287-298`). -/
def dualOneForm (g : Tensor) (u : Vec) : Vec := fun nu => ∑ mu, g mu nu * u mu

/-- `Generic::GramSchmidt` (`lib/Metric.C:797-822`). -/
noncomputable def gramSchmidt (g : Tensor) (u0 u1 u2 u3 : Vec) : Option (Vec × Vec × Vec × Vec) := do
  let u0 ← unit g u0
  let u1 ← project g u1 u0
  let u1 ← unit g u1
  let u2 ← project g u2 u0
  let u2 ← project g u2 u1
  let u2 ← unit g u2
  let u3 ← project g u3 u0
  let u3 ← project g u3 u1
  let u3 ← project g u3 u2
  let u3 ← unit g u3
  return (u0, u1, u2, u3)

/-- `Generic::SysPrimeToTdot` (`lib/Metric.C:181-206`). -/
noncomputable def sysPrimeToTdot (g : Tensor) (v : Fin 3 → ℝ) : ℝ :=
  let xpr : Vec := Fin.cons 1 v
  let sum := ∑ i, ∑ j, g i j * xpr i * xpr j
  if sum ≥ 0 then 0 else (√(-sum))⁻¹

/-- `Generic::normalizeFourVel` (`lib/Metric.C:235-244`); `none` when the time component is zero (division by zero). -/
noncomputable def normalizeFourVel (g : Tensor) (fourvel : Vec) : Option Vec :=
  let tdotin := fourvel 0
  if tdotin = 0 then none else
    let threevel : Fin 3 → ℝ := fun k => fourvel k.succ / tdotin
    let tdot := sysPrimeToTdot g threevel
    some (Fin.cons tdot fun k => threevel k * tdot)

/-- `Generic::nullifyCoord(coord, tdot2)` (`lib/Metric.C:214-229`): the new `coord` and `tdot2`. -/
noncomputable def nullifyCoord (gmunu : Vec → Tensor) (coord : Fin 8 → ℝ) : Option ((Fin 8 → ℝ) × ℝ) :=
  let g := gmunu fun k => coord ⟨k, by omega⟩
  let a := g 0 0
  let b := ∑ i : Fin 3, g 0 i.succ * coord ⟨4 + i.succ, by simp; omega⟩
  let c := ∑ i : Fin 3, ∑ j : Fin 3, g i.succ j.succ * coord ⟨4 + i.succ, by simp; omega⟩ * coord ⟨4 + j.succ, by simp; omega⟩
  if a = 0 ∨ b * b - a * c < 0 then none else
    let sDelta := √(b * b - a * c)
    let am1 := 1 / a
    let tdot2 := (-b + sDelta) * am1
    some (fun k => if k = 4 then (-b - sDelta) * am1 else coord k, tdot2)

/-- `double jac[4][4][4]`, `dst[4][4][4]`. -/
abbrev Tensor3 := Fin 4 → Fin 4 → Fin 4 → ℝ

/-- The computation of the connection in `Generic::christoffel(dst, x)` (`lib/Metric.C:434-454`): upper triangle computed,
lower one copied. -/
noncomputable def christoffel (gup : Tensor) (jac : Tensor3) : Tensor3 := fun a mu nu =>
  let coef := fun mu nu => ∑ i, 0.5 * gup i a * (jac mu i nu + jac nu mu i - jac i mu nu)
  if mu ≤ nu then coef mu nu else coef nu mu

/-- Outcome of `diff`. -/
inductive DiffRes where
  | error
  | code (n : Int)
  | ok (dxdt : Nat → ℝ)

/-- `Generic::diff(x, dxdt, mass)` (`lib/Metric.C:473-498`), the connection `dst` at the position being given: new value of
`dxdt`; `sz` and `dsz` are the sizes of the two vectors. -/
noncomputable def diff (dst : Tensor3) (sz dsz : Nat) (x dxdt : Nat → ℝ) : DiffRes :=
  if sz < 8 then .error else if sz ≠ dsz then .error else
  if x 4 < 1e-6 then .code 1 else
    let nvec := (sz - 4) / 4
    .ok fun k =>
      if k < 4 then x (k + 4)
      else if k < 4 + 4 * nvec then
        let v := k / 4
        let alpha : Fin 4 := ⟨k % 4, Nat.mod_lt _ (by decide)⟩
        0 - ∑ i : Fin 4, ∑ j : Fin 4, dst alpha i j * x (4 + i) * x (v * 4 + j)
      else dxdt k

/-- `coordkind_`. -/
inductive CoordKind where
  | spherical
  | cartesian
deriving DecidableEq

/-- `Generic::circularVelocity` (`lib/Metric.C:560-591`) with `keplerian_`; `none` for a division by zero or a power of a negative number. `pos` is `coor`. -/
noncomputable def circularVelocity (kind : CoordKind) (g : Tensor) (pos : Vec) (dir : ℝ) : Option Vec :=
  match kind with
  | .spherical =>
    let sinth := Real.sin (pos 2)
    let rho := pos 1 * sinth
    if rho < 0 then none else (inv (dir * rho ^ (1.5 : ℝ))).map fun w =>
      let tdot := sysPrimeToTdot g ![0, 0, w]
      ![tdot, 0, 0, w * tdot]
  | .cartesian =>
    let rcross := √(pos 1 * pos 1 + pos 2 * pos 2)
    if rcross = 0 then none else
      let omega := dir * (rcross * rcross * rcross) ^ (-0.5 : ℝ)
      let tdot := sysPrimeToTdot g ![-pos 2 * omega, pos 1 * omega, 0]
      some ![tdot, -pos 2 * omega * tdot, pos 1 * omega * tdot, 0]

/-- `ephi` of `Generic::zamoVelocity` (`lib/Metric.C:594-607`); `phi` is `atan2(pos[2], pos[1])`. -/
noncomputable def ephi (kind : CoordKind) (phi : ℝ) : Vec :=
  match kind with
  | .spherical => ![0, 0, 0, 1]
  | .cartesian => ![0, -Real.sin phi, Real.cos phi, 0]

/-- `Generic::zamoVelocity` (`lib/Metric.C:593-611`). -/
noncomputable def zamoVelocity (kind : CoordKind) (g : Tensor) (phi : ℝ) : Option Vec :=
  (project g ![1, 0, 0, 0] (ephi kind phi)).bind (unit g)

/-- The three vectors `observerTetrad(pos, fourvel, …)` starts from (`lib/Metric.C:833-872`); `theta` and `phi` are the two
`atan2`. -/
noncomputable def screenStart (kind : CoordKind) (pos : Vec) (theta phi : ℝ) : Vec × Vec × Vec :=
  match kind with
  | .spherical => (![0, 0, 0, -1], ![0, 0, -1, 0], ![0, -1, 0, 0])
  | .cartesian =>
    (![0, Real.sin phi, -Real.cos phi, 0],
     ![0, -Real.cos theta * Real.cos phi, -Real.cos theta * Real.sin phi, Real.sin theta],
     ![0, -pos 1, -pos 2, -pos 3])

/-- `Generic::observerTetrad(pos, fourvel, screen1, screen2, screen3)` (`lib/Metric.C:824-882`): new values of the four
vectors, in this order. -/
noncomputable def observerTetrad (kind : CoordKind) (g : Tensor) (pos : Vec) (theta phi : ℝ) (fourvel : Vec) :
    Option (Vec × Vec × Vec × Vec) :=
  let (screen1, screen2, screen3) := screenStart kind pos theta phi
  (gramSchmidt g fourvel screen2 screen3 screen1).map fun (u0, u1, u2, u3) => (u0, u3, u1, u2)

end Gyoto.MetricAlg
