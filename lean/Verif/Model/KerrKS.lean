import Verif.Model.MetricAlg
import Mathlib.Analysis.Real.Sqrt
import Mathlib.Analysis.SpecialFunctions.Pow.Real

/-!
# The Kerr metric in Kerr-Schild coordinates (`lib/KerrKS.C`)

Doubles are reals.  The coordinates are `t`, `x`, `y`, `z`.  A division by zero (infinite or NaN in the code) is excluded by the
hypotheses of the theorems.
-/

namespace Gyoto.KerrKS

open Gyoto.MetricAlg

/-- The intermediate results `tau`, `rho`, `r2` and `r` (`lib/KerrKS.C:85-90`, and `_COMMON_TERMS`, `:113-124`). -/
noncomputable def tauOf (a : ℝ) (pos : Vec) : ℝ := pos 1 * pos 1 + pos 2 * pos 2 + pos 3 * pos 3 - a * a

noncomputable def rhoOf (a : ℝ) (pos : Vec) : ℝ := √(tauOf a pos * tauOf a pos + 4 * (a * a) * (pos 3 * pos 3))

noncomputable def r2Of (a : ℝ) (pos : Vec) : ℝ := 0.5 * (tauOf a pos + rhoOf a pos)

noncomputable def rOf (a : ℝ) (pos : Vec) : ℝ := √(r2Of a pos)

/-- `f=2.*r3/(r4+a2_*z2)` (`lib/KerrKS.C:92`, `:124`). -/
noncomputable def fOf (a : ℝ) (pos : Vec) : ℝ :=
  let r := rOf a pos
  let r2 := r2Of a pos
  2 * (r2 * r) / (r2 * r2 + a * a * (pos 3 * pos 3))

/-- The vector `k` (`lib/KerrKS.C:93-99`, and in `_FILL_JACOBIAN`, `:150-156`). -/
noncomputable def kOf (a : ℝ) (pos : Vec) : Vec :=
  let r := rOf a pos
  let r2a2 := r2Of a pos + a * a
  ![1, (r * pos 1 + a * pos 2) / r2a2, (r * pos 2 - a * pos 1) / r2a2, pos 3 / r]

/-- The loop that sets both `m[mu][nu]` and `m[nu][mu]` for `nu <= mu`. -/
def both (c : Fin 4 → Fin 4 → ℝ) : Tensor := fun mu nu => if nu ≤ mu then c mu nu else c nu mu

/-- `m[0][0] -= 1.` and `m[mu][mu] += 1.` for the others. -/
def plusFlat (m : Tensor) : Tensor := fun mu nu => if mu = nu then (if mu = 0 then m mu nu - 1 else m mu nu + 1) else m mu nu

/-- `gmunu(g, pos)` (`lib/KerrKS.C:84-105`). -/
noncomputable def gmunu (a : ℝ) (pos : Vec) : Tensor :=
  let f := fOf a pos
  let k := kOf a pos
  plusFlat (both fun mu nu => f * k mu * k nu)

/-- `gmunu_up(gup, pos)` (`lib/KerrKS.C:205-210` with the macro `_FILL_GMUNU_UP`, `:127-145`). -/
noncomputable def gmunuUp (a : ℝ) (pos : Vec) : Tensor :=
  let x := pos 1
  let y := pos 2
  let z := pos 3
  let r := rOf a pos
  let r2 := r2Of a pos
  let r2a2 := r2 + a * a
  let rxay := r * x + a * y
  let ryax := r * y - a * x
  let f := fOf a pos
  let fr2 := f * r2
  let frac := f / (-fr2 * (rxay * rxay + ryax * ryax) + r2a2 * r2a2 * (-r2 + fr2 - f * (z * z)))
  let kup : Vec := ![-r * r2a2, r * rxay, r * ryax, r2a2 * z]
  plusFlat (both fun mu nu => frac * kup mu * kup nu)

/-- The derivatives of `f` (`lib/KerrKS.C:157-170`). -/
noncomputable def dfOf (a : ℝ) (pos : Vec) : Vec :=
  let x := pos 1
  let y := pos 2
  let z := pos 3
  let x2 := x * x
  let y2 := y * y
  let z2 := z * z
  let a2 := a * a
  let a4 := a2 * a2
  let s := x2 + y2 + z2
  let rho := rhoOf a pos
  let r2 := r2Of a pos
  let r := rOf a pos
  let r3 := r2 * r
  let r4 := r2 * r2
  let a2z2 := a2 * z2
  let r4a2z2 := r4 + a2z2
  let temp := -(2 * r3 * (r4 - 3 * a2z2)) / (r4a2z2 * r4a2z2 * rho)
  let temp2 := a4 + 2 * r2 * s - a2 * (s - 4 * z2 + rho)
  ![0, x * temp, y * temp,
    -((4 * r * z * (2 * (a4 * a2) + (a2 + 2 * r2) * s * s + a4 * (-3 * x2 - 3 * y2 + z2 - 2 * rho) + a2 * (x2 + y2 - z2) * rho)) /
      (rho * temp2 * temp2))]

/-- The derivatives of `k` (`lib/KerrKS.C:171-198`): `dk[a][mu]`. -/
noncomputable def dkOf (a : ℝ) (pos : Vec) : Fin 4 → Vec :=
  let x := pos 1
  let y := pos 2
  let z := pos 3
  let x2 := x * x
  let y2 := y * y
  let z2 := z * z
  let a2 := a * a
  let rho := rhoOf a pos
  let r2 := r2Of a pos
  let r := rOf a pos
  let r3 := r2 * r
  let r2a2 := r2 + a2
  let rxay := r * x + a * y
  let ryax := r * y - a * x
  let frac1 := 1 / (r2a2 * r2a2 * rho)
  let frac2 := z / (r2a2 * r * rho)
  let frac3 := -z / (r * rho)
  ![![0, 0, 0, 0],
    ![0,
      (r3 * (x2 + rho) - rxay * x * (x2 + y2 + z2 + rho) + a2 * (rxay * x + r * (x2 + rho))) * frac1,
      (x * (r3 * y + a2 * (ryax + r * y) - ryax * (x2 + y2 + z2)) - (a * r2a2 + ryax * x) * rho) * frac1,
      x * frac3],
    ![0,
      (a2 * (rxay + r * x) * y + r2a2 * a * rho - y * (-r3 * x + rxay * (x2 + y2 + z2 + rho))) * frac1,
      (r3 * (y2 + rho) - ryax * y * (x2 + y2 + z2 + rho) + a2 * (ryax * y + r * (y2 + rho))) * frac1,
      y * frac3],
    ![0,
      ((a2 - r2) * x - 2 * a * r * y) * frac2,
      ((a2 - r2) * y + 2 * a * r * x) * frac2,
      (2 * r2 - (z2 * (a2 + x2 + y2 + z2 + rho)) / rho) / (2 * r3)]]

/-- `jacobian(jac, pos)` (`lib/KerrKS.C:212-216` with the macro `_FILL_JACOBIAN`, `:148-203`): `jac[a][mu][nu]`. -/
noncomputable def jacobian (a : ℝ) (pos : Vec) : Fin 4 → Tensor := fun i =>
  let f := fOf a pos
  let k := kOf a pos
  let df := dfOf a pos
  let dk := dkOf a pos
  both fun mu nu => df i * k mu * k nu + f * dk i mu * k nu + f * k mu * dk i nu

/-- `gmunu(pos, mu, nu)` with both indices in range (`lib/KerrKS.C:226-261`). -/
noncomputable def gmunuCoef (a : ℝ) (pos : Vec) (mu nu : Fin 4) : ℝ :=
  let x := pos 1
  let y := pos 2
  let z := pos 3
  let x2 := x * x
  let y2 := y * y
  let z2 := z * z
  let a2 := a * a
  let temp := x2 + y2 + z2 - a2
  let rr := √(0.5 * (temp + √(temp * temp + 4 * a2 * z2)))
  let r2 := rr * rr
  let r3 := rr * r2
  let r4 := rr * r3
  let fact := 2 * r3 / (r4 + a2 * z2)
  let upper (mu nu : Fin 4) : ℝ :=
    match mu, nu with
    | 0, 1 => fact / (r2 + a2) * (rr * x + a * y)
    | 0, 2 => fact / (r2 + a2) * (rr * y - a * x)
    | 0, 3 => fact * z / rr
    | 1, 2 => fact / (r2 + a2) ^ 2 * (x * y * (r2 - a2) + a * rr * (y2 - x2))
    | 1, 3 => fact / (r2 + a2) * (rr * x + a * y) * z / rr
    | 2, 3 => fact / (r2 + a2) * (rr * y - a * x) * z / rr
    | _, _ => 0
  if mu = nu then
    match mu with
    | 0 => fact - 1
    | 1 => 1 + fact * ((rr * x + a * y) / (r2 + a2)) ^ 2
    | 2 => 1 + fact * ((rr * y - a * x) / (r2 + a2)) ^ 2
    | 3 => 1 + fact * z2 / r2
  else if nu < mu then upper nu mu
  else upper mu nu

/-- `circularVelocity(coor, vel, dir)` when `keplerian_` is false (`lib/KerrKS.C:263-283`); `none` when the root is not real or the
power infinite. -/
noncomputable def circularVelocity (a : ℝ) (coor : Vec) (dir : ℝ) : Option Vec :=
  let q := coor 1 * coor 1 + coor 2 * coor 2 - a * a
  if q ≤ 0 then none
  else
    let rcross := √q
    let omega := dir * (rcross * rcross * rcross) ^ (-0.5 : ℝ)
    let v1 := -coor 2 * omega
    let v2 := coor 1 * omega
    let v0 := sysPrimeToTdot (gmunu a coor) ![v1, v2, 0]
    some ![v0, v1 * v0, v2 * v0, 0]

/-- `isStopCondition(coord)` (`lib/KerrKS.C:285-300`) with `rsink_` as `spin` sets it (`:56-61`): false when `1-a2_` has no root. -/
noncomputable def isStopCondition (a drhor : ℝ) (pos : Vec) : Bool :=
  if 1 - a * a < 0 then false else decide (rOf a pos < 1 + √(1 - a * a) + drhor)

end Gyoto.KerrKS
