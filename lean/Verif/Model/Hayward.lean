import Verif.Model.Orbits

/-!
# The Hayward metric (`lib/Hayward.C`)

Doubles are reals; `a` is `spin_`, `b` is `charge_`, and `a2_`, `a3_`, `a4_`, `b2_` are their powers (`:58-71`).  The three blocks `r>=1.`,
`r>=0. && r<1.` and `r<0.` exclude each other, so they are written as alternatives.  A division by zero (infinite or NaN in the code)
is excluded by the hypotheses of the theorems.
-/

namespace Gyoto.Hayward

open Gyoto.MetricAlg

/-- `gmunu(g, pos)` (`lib/Hayward.C:133-185`). -/
noncomputable def gmunu (a b : ℝ) (pos : Vec) : Tensor :=
  let r := pos 1
  let sth := Real.sin (pos 2)
  let cth := Real.cos (pos 2)
  let sth2 := sth * sth
  let cth2 := cth * cth
  let a2 := a * a
  let a4 := a2 * a2
  let b2 := b * b
  if r ≥ 1 then
    let u := 1 / r
    let u2 := u * u
    let u3 := u2 * u
    let u4 := u3 * u
    let u5 := u4 * u
    let u6 := u5 * u
    let u7 := u6 * u
    let a2b2 := a2 * b2
    KerrBL.circ (-(2 * a2b2 * u5 * cth2 + a2 * u2 * cth2 + 2 * b2 * u3 - 2 * u + 1) / (a2 * u2 * cth2 + 1) / (2 * b2 * u3 + 1))
        ((a2 * u2 * cth2 + 1) * (2 * b2 * u3 + 1) / (2 * a2b2 * u5 + 2 * b2 * u3 + a2 * u2 - 2 * u + 1))
        ((a2 * u2 * cth2 + 1) / (u2))
        ((2 * a4 * b2 * u7 * cth2 + 2 * a2b2 * u5 * cth2 + a4 * u4 * cth2 + 2 * a2b2 * u5 + 2 * a2 * u3 * sth2 + a2 * u2 * cth2 + 2 * b2 * u3 + a2 * u2 + 1) * sth2 / (a2 * u2 * cth2 + 1) / (2 * b2 * u3 + 1) / (u2))
        (-2 * a * u * sth2 / (a2 * u2 * cth2 + 1) / (2 * b2 * u3 + 1))
  else if r ≥ 0 then
    let r2 := r * r
    let r3 := r2 * r
    let m := r3 / (r3 + 2 * b2)
    let sigma := r2 + a2 * cth2
    let delta := r2 - 2 * m * r + a2
    KerrBL.circ (-1 + 2 * m * r / sigma)
        (sigma / delta)
        (sigma)
        ((r2 + a2 + 2 * m * r * a2 * sth2 / sigma) * sth2)
        (-2 * a * m * r * sth2 / sigma)
  else
    let r2 := r * r
    let r3 := r2 * r
    let m := -r3 / (-r3 + 2 * b2)
    let sigma := r2 + a2 * cth2
    let delta := r2 - 2 * m * r + a2
    KerrBL.circ (-1 + 2 * m * r / sigma)
        (sigma / delta)
        (sigma)
        ((r2 + a2 + 2 * m * r * a2 * sth2 / sigma) * sth2)
        (-2 * a * m * r * sth2 / sigma)

/-- `gmunu(pos, mu, nu)` (`lib/Hayward.C:190-242`). -/
noncomputable def gmunuCoef (a b : ℝ) (pos : Vec) (mu nu : Fin 4) : ℝ :=
  let r := pos 1
  let sth := Real.sin (pos 2)
  let cth := Real.cos (pos 2)
  let sth2 := sth * sth
  let cth2 := cth * cth
  let a2 := a * a
  let a4 := a2 * a2
  let b2 := b * b
  if r ≥ 1 then
    let u := 1 / r
    let u2 := u * u
    let u3 := u2 * u
    let u4 := u3 * u
    let u5 := u4 * u
    let u6 := u5 * u
    let u7 := u6 * u
    let a2b2 := a2 * b2
    if mu = 0 ∧ nu = 0 then -(2 * a2b2 * u5 * cth2 + a2 * u2 * cth2 + 2 * b2 * u3 - 2 * u + 1) / (a2 * u2 * cth2 + 1) / (2 * b2 * u3 + 1)
    else if mu = 1 ∧ nu = 1 then (a2 * u2 * cth2 + 1) * (2 * b2 * u3 + 1) / (2 * a2b2 * u5 + 2 * b2 * u3 + a2 * u2 - 2 * u + 1)
    else if mu = 2 ∧ nu = 2 then (a2 * u2 * cth2 + 1) / (u2)
    else if mu = 3 ∧ nu = 3 then (2 * a4 * b2 * u7 * cth2 + 2 * a2b2 * u5 * cth2 + a4 * u4 * cth2 + 2 * a2b2 * u5 + 2 * a2 * u3 * sth2 + a2 * u2 * cth2 + 2 * b2 * u3 + a2 * u2 + 1) * sth2 / (a2 * u2 * cth2 + 1) / (2 * b2 * u3 + 1) / (u2)
    else if (mu = 0 ∧ nu = 3) ∨ (mu = 3 ∧ nu = 0) then -2 * a * u * sth2 / (a2 * u2 * cth2 + 1) / (2 * b2 * u3 + 1)
    else 0
  else if r ≥ 0 then
    let r2 := r * r
    let r3 := r2 * r
    let d := r3 + 2 * b2
    let m := r3 / d
    let sigma := r2 + a2 * cth2
    let delta := r2 - 2 * m * r + a2
    if mu = 0 ∧ nu = 0 then -1 + 2 * m * r / sigma
    else if mu = 1 ∧ nu = 1 then sigma / delta
    else if mu = 2 ∧ nu = 2 then sigma
    else if mu = 3 ∧ nu = 3 then (r2 + a2 + 2 * m * r * a2 * sth2 / sigma) * sth2
    else if (mu = 0 ∧ nu = 3) ∨ (mu = 3 ∧ nu = 0) then -2 * a * m * r * sth2 / sigma
    else 0
  else
    let r2 := r * r
    let r3 := r2 * r
    let m := -r3 / (-r3 + 2 * b2)
    let sigma := r2 + a2 * cth2
    let delta := r2 - 2 * m * r + a2
    if mu = 0 ∧ nu = 0 then -1 + 2 * m * r / sigma
    else if mu = 1 ∧ nu = 1 then sigma / delta
    else if mu = 2 ∧ nu = 2 then sigma
    else if mu = 3 ∧ nu = 3 then (r2 + a2 + 2 * m * r * a2 * sth2 / sigma) * sth2
    else if (mu = 0 ∧ nu = 3) ∨ (mu = 3 ∧ nu = 0) then -2 * a * m * r * sth2 / sigma
    else 0

/-- `gmunu_up(gup, pos)` (`lib/Hayward.C:247-302`). -/
noncomputable def gmunuUp (a b : ℝ) (pos : Vec) : Tensor :=
  let r := pos 1
  let sth := Real.sin (pos 2)
  let cth := Real.cos (pos 2)
  let sth2 := sth * sth
  let cth2 := cth * cth
  let a2 := a * a
  let a4 := a2 * a2
  let b2 := b * b
  let a2b2 := a2 * b2
  let a4b2 := a2 * a2b2
  if r ≥ 1 then
    let u := 1 / r
    let u2 := u * u
    let u3 := u2 * u
    let u4 := u3 * u
    let u5 := u4 * u
    let u6 := u5 * u
    let u7 := u6 * u
    KerrBL.circ (-(2 * a4 * b2 * u7 * cth2 + 2 * a2b2 * u5 * cth2 + a4 * u4 * cth2 + 2 * a2b2 * u5 + 2 * a2 * u3 * sth2 + a2 * u2 * cth2 + 2 * b2 * u3 + a2 * u2 + 1) / (2 * a2b2 * u5 + 2 * b2 * u3 + a2 * u2 - 2 * u + 1) / (a2 * u2 * cth2 + 1))
        ((2 * a2b2 * u5 + 2 * b2 * u3 + a2 * u2 - 2 * u + 1) / (a2 * u2 * cth2 + 1) / (2 * b2 * u3 + 1))
        (u2 / (a2 * u2 * cth2 + 1))
        ((2 * a2b2 * u5 * cth2 + 2 * b2 * u3 + a2 * u2 * cth2 - 2 * u + 1) * u2 / (2 * a4 * b2 * u7 * cth2 + 2 * a2b2 * u5 * cth2 + a4 * u4 * cth2 + 2 * a2b2 * u5 + 2 * a2 * u3 * sth2 + a2 * u2 * cth2 - 2 * a2 * u3 + 2 * b2 * u3 + a2 * u2 - 2 * u + 1) / (sth2))
        (-2 * a * u3 / (2 * a2b2 * u5 + 2 * b2 * u3 + a2 * u2 - 2 * u + 1) / (a2 * u2 * cth2 + 1))
  else if r ≥ 0 then
    let r2 := r * r
    let r3 := r2 * r
    let r4 := r2 * r2
    let r5 := r4 * r
    let r6 := r5 * r
    let r7 := r6 * r
    let d := r3 + 2 * b2
    let sigma := r2 + a2 * cth2
    KerrBL.circ (-(a4 * r3 * cth2 + a2 * r5 * cth2 + 2 * a4b2 * cth2 + 2 * a2b2 * r2 * cth2 + 2 * a2 * r4 * sth2 + a2 * r5 + r7 + 2 * a2b2 * r2 + 2 * b2 * r4) / sigma / (a2 * r3 + r5 + 2 * a2b2 + 2 * b2 * r2 - 2 * r4))
        ((a2 * r3 + r5 + 2 * a2b2 + 2 * b2 * r2 - 2 * r4) / sigma / d)
        (1 / sigma)
        ((a2 * r3 * cth2 + 2 * a2b2 * cth2 + r5 + 2 * b2 * r2 - 2 * r4) / (a4 * r3 * cth2 + a2 * r5 * cth2 + 2 * a4b2 * cth2 + 2 * a2b2 * r2 * cth2 + 2 * a2 * r4 * sth2 + a2 * r5 + r7 + 2 * a2b2 * r2 - 2 * a2 * r4 + 2 * b2 * r4 - 2 * r6) / sth2)
        (-2 * a * r4 / sigma / (a2 * r3 + r5 + 2 * a2b2 + 2 * b2 * r2 - 2 * r4))
  else
    let r2 := r * r
    let r3 := r2 * r
    let r4 := r2 * r2
    let r5 := r4 * r
    let r6 := r5 * r
    let r7 := r6 * r
    let sigma := r2 + a2 * cth2
    let dm := r3 - 2 * b2
    KerrBL.circ (-(a4 * r3 * cth2 + a2 * r5 * cth2 - 2 * a4b2 * cth2 - 2 * a2b2 * r2 * cth2 + 2 * a2 * r4 * sth2 + a2 * r5 + r7 - 2 * a2b2 * r2 - 2 * b2 * r4) / sigma / (a2 * r3 + r5 - 2 * a2b2 - 2 * b2 * r2 - 2 * r4))
        ((a2 * r3 + r5 - 2 * a2b2 - 2 * b2 * r2 - 2 * r4) / sigma / dm)
        (1 / sigma)
        ((a2 * r3 * cth2 - 2 * a2b2 * cth2 + r5 - 2 * b2 * r2 - 2 * r4) / (a4 * r3 * cth2 + a2 * r5 * cth2 - 2 * a4b2 * cth2 - 2 * a2b2 * r2 * cth2 + 2 * a2 * r4 * sth2 + a2 * r5 + r7 - 2 * a2b2 * r2 - 2 * a2 * r4 - 2 * b2 * r4 - 2 * r6) / sth2)
        (-2 * a * r4 / sigma / (a2 * r3 + r5 - 2 * a2b2 - 2 * b2 * r2 - 2 * r4))

/-- `gmunu_up(pos, mu, nu)` (`lib/Hayward.C:305-351`). -/
noncomputable def gmunuUpCoef (a b : ℝ) (pos : Vec) (mu nu : Fin 4) : ℝ :=
  let r := pos 1
  let sth := Real.sin (pos 2)
  let cth := Real.cos (pos 2)
  let sth2 := sth * sth
  let cth2 := cth * cth
  let a2 := a * a
  let a4 := a2 * a2
  let b2 := b * b
  let a2b2 := a2 * b2
  let a4b2 := a2 * a2b2
  if r ≥ 1 then
    let u := 1 / r
    let u2 := u * u
    let u3 := u2 * u
    let u4 := u3 * u
    let u5 := u4 * u
    let u6 := u5 * u
    let u7 := u6 * u
    if mu = 0 ∧ nu = 0 then -(2 * a4 * b2 * u7 * cth2 + 2 * a2b2 * u5 * cth2 + a4 * u4 * cth2 + 2 * a2b2 * u5 + 2 * a2 * u3 * sth2 + a2 * u2 * cth2 + 2 * b2 * u3 + a2 * u2 + 1) / (2 * a2b2 * u5 + 2 * b2 * u3 + a2 * u2 - 2 * u + 1) / (a2 * u2 * cth2 + 1)
    else if mu = 1 ∧ nu = 1 then (2 * a2b2 * u5 + 2 * b2 * u3 + a2 * u2 - 2 * u + 1) / (a2 * u2 * cth2 + 1) / (2 * b2 * u3 + 1)
    else if mu = 2 ∧ nu = 2 then u2 / (a2 * u2 * cth2 + 1)
    else if mu = 3 ∧ nu = 3 then (2 * a2b2 * u5 * cth2 + 2 * b2 * u3 + a2 * u2 * cth2 - 2 * u + 1) * u2 / (2 * a4 * b2 * u7 * cth2 + 2 * a2b2 * u5 * cth2 + a4 * u4 * cth2 + 2 * a2b2 * u5 + 2 * a2 * u3 * sth2 + a2 * u2 * cth2 - 2 * a2 * u3 + 2 * b2 * u3 + a2 * u2 - 2 * u + 1) / (sth2)
    else if (mu = 0 ∧ nu = 3) ∨ (mu = 3 ∧ nu = 0) then -2 * a * u3 / (2 * a2b2 * u5 + 2 * b2 * u3 + a2 * u2 - 2 * u + 1) / (a2 * u2 * cth2 + 1)
    else 0
  else if r ≥ 0 then
    let r2 := r * r
    let r3 := r2 * r
    let r4 := r2 * r2
    let r5 := r4 * r
    let r6 := r5 * r
    let r7 := r6 * r
    let d := r3 + 2 * b2
    let sigma := r2 + a2 * cth2
    if mu = 0 ∧ nu = 0 then -(a4 * r3 * cth2 + a2 * r5 * cth2 + 2 * a4b2 * cth2 + 2 * a2b2 * r2 * cth2 + 2 * a2 * r4 * sth2 + a2 * r5 + r7 + 2 * a2b2 * r2 + 2 * b2 * r4) / sigma / (a2 * r3 + r5 + 2 * a2b2 + 2 * b2 * r2 - 2 * r4)
    else if mu = 1 ∧ nu = 1 then (a2 * r3 + r5 + 2 * a2b2 + 2 * b2 * r2 - 2 * r4) / sigma / d
    else if mu = 2 ∧ nu = 2 then 1 / sigma
    else if mu = 3 ∧ nu = 3 then (a2 * r3 * cth2 + 2 * a2b2 * cth2 + r5 + 2 * b2 * r2 - 2 * r4) / (a4 * r3 * cth2 + a2 * r5 * cth2 + 2 * a4b2 * cth2 + 2 * a2b2 * r2 * cth2 + 2 * a2 * r4 * sth2 + a2 * r5 + r7 + 2 * a2b2 * r2 - 2 * a2 * r4 + 2 * b2 * r4 - 2 * r6) / sth2
    else if (mu = 0 ∧ nu = 3) ∨ (mu = 3 ∧ nu = 0) then -2 * a * r4 / sigma / (a2 * r3 + r5 + 2 * a2b2 + 2 * b2 * r2 - 2 * r4)
    else 0
  else
    let r2 := r * r
    let r3 := r2 * r
    let r4 := r2 * r2
    let r5 := r4 * r
    let r6 := r5 * r
    let r7 := r6 * r
    let sigma := r2 + a2 * cth2
    let dm := r3 - 2 * b2
    if mu = 0 ∧ nu = 0 then -(a4 * r3 * cth2 + a2 * r5 * cth2 - 2 * a4b2 * cth2 - 2 * a2b2 * r2 * cth2 + 2 * a2 * r4 * sth2 + a2 * r5 + r7 - 2 * a2b2 * r2 - 2 * b2 * r4) / sigma / (a2 * r3 + r5 - 2 * a2b2 - 2 * b2 * r2 - 2 * r4)
    else if mu = 1 ∧ nu = 1 then (a2 * r3 + r5 - 2 * a2b2 - 2 * b2 * r2 - 2 * r4) / sigma / dm
    else if mu = 2 ∧ nu = 2 then 1 / sigma
    else if mu = 3 ∧ nu = 3 then (a2 * r3 * cth2 - 2 * a2b2 * cth2 + r5 - 2 * b2 * r2 - 2 * r4) / (a4 * r3 * cth2 + a2 * r5 * cth2 - 2 * a4b2 * cth2 - 2 * a2b2 * r2 * cth2 + 2 * a2 * r4 * sth2 + a2 * r5 + r7 - 2 * a2b2 * r2 - 2 * a2 * r4 - 2 * b2 * r4 - 2 * r6) / sth2
    else if (mu = 0 ∧ nu = 3) ∨ (mu = 3 ∧ nu = 0) then -2 * a * r4 / sigma / (a2 * r3 + r5 + 2 * a2b2 + 2 * b2 * r2 - 2 * r4)
    else 0

/-- `christoffel(dst, pos)` (`lib/Hayward.C:355-474`): `dst[α][μ][ν]`. -/
noncomputable def christoffel (a b : ℝ) (pos : Vec) : Fin 4 → Tensor :=
  let r := pos 1
  let sth := Real.sin (pos 2)
  let cth := Real.cos (pos 2)
  let sth2 := sth * sth
  let cth2 := cth * cth
  let cth4 := cth2 * cth2
  let a2 := a * a
  let a3 := a2 * a
  let a4 := a2 * a2
  let b2 := b * b
  let a2cthsth := a2 * cth * sth
  let a2b2 := a2 * b2
  let a4b2 := a4 * b2
  let b4 := b2 * b2
  let a4b4 := a4 * b4
  let a2b4 := a2 * b4
  let a6 := a4 * a2
  if r ≥ 1 then
    let u := 1 / r
    let u2 := u * u
    let u3 := u2 * u
    let u4 := u3 * u
    let u5 := u4 * u
    let u6 := u5 * u
    let u7 := u6 * u
    let u8 := u7 * u
    let u9 := u8 * u
    let u10 := u9 * u
    let d111 := -(4 * a2b2 * b2 * u7 * cth2 - 4 * a2b2 * b2 * u7 - 8 * a2b2 * u5 * cth2 + 4 * a2b2 * u4 * cth2 - 4 * a2b2 * u4 - a2 * u2 * cth2 - 4 * b2 * u3 + a2 * u * cth2 - a2 * u + 1) * u2 / (2 * a2b2 * u5 + 2 * b2 * u3 + a2 * u2 - 2 * u + 1) / (a2 * u2 * cth2 + 1) / (2 * b2 * u3 + 1)
    let d112 := -a2cthsth * u2 / (a2 * u2 * cth2 + 1)
    let d122 := -(2 * a2b2 * u5 + 2 * b2 * u3 + a2 * u2 - 2 * u + 1) / (a2 * u2 * cth2 + 1) / (2 * b2 * u3 + 1) / u
    let d133 := -(4 * a4b4 * u10 * cth4 + 8 * a4b2 * u8 * cth2 * sth2 + 4 * a4b2 * u7 * cth4 + 8 * a2b4 * u8 * cth2 + a4 * u5 * cth2 * sth2 + a4 * u4 * cth4 + 4 * a2b2 * u6 * sth2 + 8 * a2b2 * u5 * cth2 + 4 * b4 * u6 - a2 * u3 * sth2 + 2 * a2 * u2 * cth2 + 4 * b2 * u3 + 1) * (2 * a2b2 * u5 + 2 * b2 * u3 + a2 * u2 - 2 * u + 1) * sth2 / (a2 * u2 * cth2 + 1) / (a2 * u2 * cth2 + 1) / (a2 * u2 * cth2 + 1) / (2 * b2 * u3 + 1) / (2 * b2 * u3 + 1) / (2 * b2 * u3 + 1) / u
    let d103 := (8 * a2b2 * u5 * cth2 + a2 * u2 * cth2 + 4 * b2 * u3 - 1) * (2 * a2b2 * u5 + 2 * b2 * u3 + a2 * u2 - 2 * u + 1) * a * u2 * sth2 / (a2 * u2 * cth2 + 1) / (a2 * u2 * cth2 + 1) / (a2 * u2 * cth2 + 1) / (2 * b2 * u3 + 1) / (2 * b2 * u3 + 1) / (2 * b2 * u3 + 1)
    let d100 := (8 * a2b2 * u5 * sth2 - 8 * a2b2 * u5 + a2 * u2 * sth2 - 4 * b2 * u3 - a2 * u2 + 1) * (2 * a2b2 * u5 + 2 * b2 * u3 + a2 * u2 - 2 * u + 1) * u2 / (a2 * u2 * cth2 + 1) / (a2 * u2 * cth2 + 1) / (a2 * u2 * cth2 + 1) / (2 * b2 * u3 + 1) / (2 * b2 * u3 + 1) / (2 * b2 * u3 + 1)
    let d211 := (2 * b2 * u3 + 1) * a2cthsth * u4 / (2 * a2b2 * u5 + 2 * b2 * u3 + a2 * u2 - 2 * u + 1) / (a2 * u2 * cth2 + 1)
    let d212 := u / (a2 * u2 * cth2 + 1)
    let d222 := -a2cthsth * u2 / (a2 * u2 * cth2 + 1)
    let d233 := -(2 * a4 * a2b2 * u9 * cth4 + 2 * a4b2 * u7 * cth4 + a6 * u6 * cth4 + 4 * a4b2 * u7 * cth2 - 2 * a4 * u5 * cth4 + a4 * u4 * cth4 + 4 * a2b2 * u5 * cth2 + 2 * a4 * u4 * cth2 + 2 * a4 * u5 + 2 * a2b2 * u5 - 4 * a2 * u3 * cth2 + 2 * a2 * u2 * cth2 + 4 * a2 * u3 + 2 * b2 * u3 + a2 * u2 + 1) * cth * sth / (a2 * u2 * cth2 + 1) / (a2 * u2 * cth2 + 1) / (a2 * u2 * cth2 + 1) / (2 * b2 * u3 + 1)
    let d203 := 2 * (a2 * u2 + 1) * a * u3 * cth * sth / (a2 * u2 * cth2 + 1) / (a2 * u2 * cth2 + 1) / (a2 * u2 * cth2 + 1) / (2 * b2 * u3 + 1)
    let d200 := -2 * a2 * u5 * cth * sth / (a2 * u2 * cth2 + 1) / (a2 * u2 * cth2 + 1) / (a2 * u2 * cth2 + 1) / (2 * b2 * u3 + 1)
    let d313 := (4 * a4b4 * u10 * cth4 + 8 * a4b2 * u8 * cth2 * sth2 + 4 * a4b2 * u7 * cth4 + 8 * a2b4 * u8 * cth2 + a4 * u5 * cth2 * sth2 - 4 * a2b2 * u6 * cth2 + a4 * u4 * cth4 + 4 * a2b2 * u6 * sth2 + 8 * a2b2 * u5 * cth2 + 4 * b4 * u6 - 2 * a2 * u3 * cth2 - a2 * u3 * sth2 - 4 * b2 * u4 + 2 * a2 * u2 * cth2 + 4 * b2 * u3 - 2 * u + 1) * u / (2 * a2b2 * u5 + 2 * b2 * u3 + a2 * u2 - 2 * u + 1) / (a2 * u2 * cth2 + 1) / (a2 * u2 * cth2 + 1) / (2 * b2 * u3 + 1)
    let d323 := (2 * a4b2 * u7 * cth4 + a4 * u4 * cth4 + 4 * a2b2 * u5 * cth2 - 2 * a2 * u3 * cth2 + 2 * a2 * u2 * cth2 + 2 * a2 * u3 + 2 * b2 * u3 + 1) * cth / (a2 * u2 * cth2 + 1) / (a2 * u2 * cth2 + 1) / (2 * b2 * u3 + 1) / sth
    let d301 := -(8 * a2b2 * u5 * cth2 + a2 * u2 * cth2 + 4 * b2 * u3 - 1) * a * u4 / (2 * a2b2 * u5 + 2 * b2 * u3 + a2 * u2 - 2 * u + 1) / (a2 * u2 * cth2 + 1) / (a2 * u2 * cth2 + 1) / (2 * b2 * u3 + 1)
    let d302 := -2 * a * u3 * cth / (a2 * u2 * cth2 + 1) / (a2 * u2 * cth2 + 1) / (2 * b2 * u3 + 1) / sth
    let d013 := (8 * a4b2 * u7 * cth2 + 4 * a2b2 * u5 * cth2 + a4 * u4 * cth2 + 4 * a2b2 * u5 - a2 * u2 * cth2 - a2 * u2 - 3) * a * u2 * sth2 / (2 * a2b2 * u5 + 2 * b2 * u3 + a2 * u2 - 2 * u + 1) / (a2 * u2 * cth2 + 1) / (a2 * u2 * cth2 + 1) / (2 * b2 * u3 + 1)
    let d023 := -2 * (a2 * u2 * sth2 - a2 * u2 - 1) * a3 * u3 * cth * sth * sth2 / (a2 * u2 * cth2 + 1) / (a2 * u2 * cth2 + 1) / (a2 * u2 * cth2 + 1) / (2 * b2 * u3 + 1)
    let d001 := (8 * a2b2 * u5 * sth2 - 8 * a2b2 * u5 + a2 * u2 * sth2 - 4 * b2 * u3 - a2 * u2 + 1) * (a2 * u2 + 1) * u2 / (2 * a2b2 * u5 + 2 * b2 * u3 + a2 * u2 - 2 * u + 1) / (a2 * u2 * cth2 + 1) / (a2 * u2 * cth2 + 1) / (2 * b2 * u3 + 1)
    let d002 := -2 * a2 * u3 * cth * sth / (a2 * u2 * cth2 + 1) / (a2 * u2 * cth2 + 1) / (2 * b2 * u3 + 1)
    ![![![0, d001, d002, 0], ![d001, 0, 0, d013], ![d002, 0, 0, d023], ![0, d013, d023, 0]],
      ![![d100, 0, 0, d103], ![0, d111, d112, 0], ![0, d112, d122, 0], ![d103, 0, 0, d133]],
      ![![d200, 0, 0, d203], ![0, d211, d212, 0], ![0, d212, d222, 0], ![d203, 0, 0, d233]],
      ![![0, d301, d302, 0], ![d301, 0, 0, d313], ![d302, 0, 0, d323], ![0, d313, d323, 0]]]
  else if r ≥ 0 then
    let r2 := r * r
    let r3 := r2 * r
    let r4 := r3 * r
    let r5 := r4 * r
    let r6 := r5 * r
    let r7 := r6 * r
    let r8 := r7 * r
    let r9 := r8 * r
    let r10 := r9 * r
    let d := r3 + 2 * b2
    let Sigma := r2 + a2 * cth2
    let Sigma2 := Sigma * Sigma
    let Sigma3 := Sigma2 * Sigma
    let d111 := (a2 * r6 * sth2 + 4 * a2b2 * r3 * sth2 - a2 * r5 * sth2 + 4 * a2b2 * b2 * sth2 - 8 * a2b2 * r2 * sth2 + a2 * r5 - r7 + 8 * a2b2 * r2 + 4 * b2 * r4) * r / (a2 * r3 + r5 + 2 * a2b2 + 2 * b2 * r2 - 2 * r4) / Sigma / d
    let d112 := -a2cthsth / Sigma
    let d122 := -(a2 * r3 + r5 + 2 * a2b2 + 2 * b2 * r2 - 2 * r4) * r / Sigma / d
    let d133 := -(a4 * r6 * cth4 + 4 * a4 * b2 * r3 * cth4 + a4 * r5 * cth2 * sth2 + 2 * a2 * r8 * cth2 + 4 * a4b4 * cth4 + 8 * a4b2 * r2 * cth2 * sth2 + 8 * a2b2 * r5 * cth2 - a2 * r7 * sth2 + r10 + 8 * a2b4 * r2 * cth2 + 4 * a2b2 * r4 * sth2 + 4 * b2 * r7 + 4 * b4 * r4) * (a2 * r3 + r5 + 2 * a2b2 + 2 * b2 * r2 - 2 * r4) * r * sth2 / Sigma3 / d / d / d
    let d103 := (a2 * r3 * cth2 + 8 * a2b2 * cth2 - r5 + 4 * b2 * r2) * (a2 * r3 + r5 + 2 * a2b2 + 2 * b2 * r2 - 2 * r4) * a * r3 * sth2 / Sigma3 / d / d / d
    let d100 := -(a2 * r3 * cth2 + 8 * a2b2 * cth2 - r5 + 4 * b2 * r2) * (a2 * r3 + r5 + 2 * a2b2 + 2 * b2 * r2 - 2 * r4) * r3 / Sigma3 / d / d / d
    let d211 := d * a2cthsth / (a2 * r3 + r5 + 2 * a2b2 + 2 * b2 * r2 - 2 * r4) / Sigma
    let d212 := r / Sigma
    let d222 := -a2cthsth / Sigma
    let d233 := -(a4 * a2 * r3 * cth4 + a4 * r5 * cth4 + 2 * a4 * a2b2 * cth4 + 2 * a4b2 * r2 * cth4 - 2 * a4 * r4 * cth4 + 2 * a4 * r5 * cth2 + 2 * a2 * r7 * cth2 + 4 * a2b2 * a2 * r2 * cth2 + 4 * a2b2 * r4 * cth2 - 4 * a2 * r6 * cth2 + a2 * r7 + r9 + 2 * a4 * r4 + 2 * a2b2 * r4 + 4 * a2 * r6 + 2 * b2 * r6) * sth * cth / Sigma3 / d
    let d203 := 2 * (a2 + r2) * a * r4 * cth * sth / Sigma3 / d
    let d200 := -2 * a2 * r4 * cth * sth / Sigma3 / d
    let d313 := (a4 * r6 * cth4 + 4 * a4 * b2 * r3 * cth4 + a4 * r5 * cth2 * sth2 + 2 * a2 * r8 * cth2 + 4 * a4b4 * cth4 + 8 * a4 * b2 * r2 * cth2 * sth2 + 8 * a2b2 * r5 * cth2 - 2 * a2 * r7 * cth2 - a2 * r7 * sth2 + r10 + 8 * a2b4 * r2 * cth2 - 4 * a2b2 * r4 * cth2 + 4 * a2b2 * r4 * sth2 + 4 * b2 * r7 - 2 * r9 + 4 * b4 * r4 - 4 * b2 * r6) * r / Sigma2 / (a2 * r3 + r5 + 2 * a2b2 + 2 * b2 * r2 - 2 * r4) / d
    let d323 := (a4 * r3 * cth4 + 2 * a4 * b2 * cth4 + 2 * a2 * r5 * cth2 + 4 * a2b2 * r2 * cth2 - 2 * a2 * r4 * cth2 + r7 + 2 * a2 * r4 + 2 * b2 * r4) * cth / Sigma2 / d / sth
    let d301 := -(a2 * r3 * cth2 + 8 * a2b2 * cth2 - r5 + 4 * b2 * r2) * a * r3 / Sigma2 / (a2 * r3 + r5 + 2 * a2b2 + 2 * b2 * r2 - 2 * r4) / d
    let d302 := -2 * a * r4 * cth / Sigma2 / d / sth
    let d013 := (a4 * r3 * cth2 - a2 * r5 * cth2 + 8 * a4b2 * cth2 + 4 * a2b2 * r2 * cth2 - a2 * r5 - 3 * r7 + 4 * a2b2 * r2) * a * r3 * sth2 / Sigma2 / (a2 * r3 + r5 + 2 * a2b2 + 2 * b2 * r2 - 2 * r4) / d
    let d023 := -2 * (a2 * sth2 - a2 - r2) * a3 * r4 * cth * sth2 * sth / Sigma3 / d
    let d001 := (a2 * r3 * sth2 + 8 * a2b2 * sth2 - a2 * r3 + r5 - 8 * a2b2 - 4 * b2 * r2) * (a2 + r2) * r3 / (a2 * r3 + r5 + 2 * a2b2 + 2 * b2 * r2 - 2 * r4) / Sigma2 / d
    let d002 := -2 * a2 * r4 * cth * sth / Sigma2 / d
    ![![![0, d001, d002, 0], ![d001, 0, 0, d013], ![d002, 0, 0, d023], ![0, d013, d023, 0]],
      ![![d100, 0, 0, d103], ![0, d111, d112, 0], ![0, d112, d122, 0], ![d103, 0, 0, d133]],
      ![![d200, 0, 0, d203], ![0, d211, d212, 0], ![0, d212, d222, 0], ![d203, 0, 0, d233]],
      ![![0, d301, d302, 0], ![d301, 0, 0, d313], ![d302, 0, 0, d323], ![0, d313, d323, 0]]]
  else
    let r2 := r * r
    let r3 := r2 * r
    let r4 := r3 * r
    let r5 := r4 * r
    let r6 := r5 * r
    let r7 := r6 * r
    let r8 := r7 * r
    let r9 := r8 * r
    let r10 := r9 * r
    let sth3 := sth2 * sth
    let Sigma := r2 + a2 * cth2
    let Sigma2 := Sigma * Sigma
    let Sigma3 := Sigma2 * Sigma
    let dm := r3 - 2 * b2
    let dm3 := dm * dm * dm
    let d111 := (a2 * r6 * sth2 - 4 * a2b2 * r3 * sth2 - a2 * r5 * sth2 + 4 * a2b4 * sth2 + 8 * a2b2 * r2 * sth2 + a2 * r5 - r7 - 8 * a2b2 * r2 - 4 * b2 * r4) * r / (a2 * r3 + r5 - 2 * a2b2 - 2 * b2 * r2 - 2 * r4) / Sigma / dm
    let d112 := -a2cthsth / Sigma
    let d122 := -(a2 * r3 + r5 - 2 * a2b2 - 2 * b2 * r2 - 2 * r4) * r / Sigma / dm
    let d133 := -(a4 * r6 * cth4 - 4 * a4 * b2 * r3 * cth4 + a4 * r5 * cth2 * sth2 + 2 * a2 * r8 * cth2 + 4 * a4 * b4 * cth4 - 8 * a4 * b2 * r2 * cth2 * sth2 - 8 * a2b2 * r5 * cth2 - a2 * r7 * sth2 + r10 + 8 * a2b4 * r2 * cth2 - 4 * a2b2 * r4 * sth2 - 4 * b2 * r7 + 4 * b4 * r4) * (a2 * r3 + r5 - 2 * a2b2 - 2 * b2 * r2 - 2 * r4) * r * sth2 / Sigma3 / dm3
    let d103 := (a2 * r3 * cth2 - 8 * a2b2 * cth2 - r5 - 4 * b2 * r2) * (a2 * r3 + r5 - 2 * a2b2 - 2 * b2 * r2 - 2 * r4) * a * r3 * sth2 / Sigma3 / dm3
    let d100 := -(a2 * r3 * cth2 - 8 * a2b2 * cth2 - r5 - 4 * b2 * r2) * (a2 * r3 + r5 - 2 * a2b2 - 2 * b2 * r2 - 2 * r4) * r3 / Sigma3 / dm3
    let d211 := dm * a2cthsth / (a2 * r3 + r5 - 2 * a2b2 - 2 * b2 * r2 - 2 * r4) / Sigma
    let d212 := r / Sigma
    let d222 := -a2cthsth / Sigma
    let d233 := -(a6 * r3 * cth4 + a4 * r5 * cth4 - 2 * a6 * b2 * cth4 - 2 * a4 * b2 * r2 * cth4 - 2 * a4 * r4 * cth4 + 2 * a4 * r5 * cth2 + 2 * a2 * r7 * cth2 - 4 * a4 * b2 * r2 * cth2 - 4 * a2b2 * r4 * cth2 - 4 * a2 * r6 * cth2 + a2 * r7 + r9 + 2 * a4 * r4 - 2 * a2b2 * r4 + 4 * a2 * r6 - 2 * b2 * r6) * cth * sth / Sigma3 / dm
    let d203 := 2 * (a2 + r2) * a * r4 * cth * sth / Sigma3 / dm
    let d200 := -2 * a2 * r4 * cth * sth / Sigma3 / dm
    let d313 := (a4 * r6 * cth4 - 4 * a4 * b2 * r3 * cth4 + a4 * r5 * cth2 * sth2 + 2 * a2 * r8 * cth2 + 4 * a4 * b4 * cth4 - 8 * a4 * b2 * r2 * cth2 * sth2 - 8 * a2b2 * r5 * cth2 - 2 * a2 * r7 * cth2 - a2 * r7 * sth2 + r10 + 8 * a2b4 * r2 * cth2 + 4 * a2b2 * r4 * cth2 - 4 * a2b2 * r4 * sth2 - 4 * b2 * r7 - 2 * r9 + 4 * b4 * r4 + 4 * b2 * r6) * r / (a2 * r3 + r5 - 2 * a2b2 - 2 * b2 * r2 - 2 * r4) / Sigma2 / dm
    let d323 := (a4 * r3 * cth4 - 2 * a4 * b2 * cth4 + 2 * a2 * r5 * cth2 - 4 * a2b2 * r2 * cth2 - 2 * a2 * r4 * cth2 + r7 + 2 * a2 * r4 - 2 * b2 * r4) * cth / Sigma2 / dm / sth
    let d301 := -(a2 * r3 * cth2 - 8 * a2b2 * cth2 - r5 - 4 * b2 * r2) * a * r3 / (a2 * r3 + r5 - 2 * a2b2 - 2 * b2 * r2 - 2 * r4) / Sigma2 / dm
    let d302 := -2 * a * r4 * cth / Sigma2 / dm / sth
    let d013 := (a4 * r3 * cth2 - a2 * r5 * cth2 - 8 * a4 * b2 * cth2 - 4 * a2b2 * r2 * cth2 - a2 * r5 - 3 * r7 - 4 * a2b2 * r2) * a * r3 * sth2 / (a2 * r3 + r5 - 2 * a2b2 - 2 * b2 * r2 - 2 * r4) / Sigma2 / dm
    let d023 := -2 * (a2 * sth2 - a2 - r2) * a3 * r4 * cth * sth3 / Sigma3 / dm
    let d001 := -(a2 * r3 * cth2 - 8 * a2b2 * cth2 - r5 - 4 * b2 * r2) * (a2 + r2) * r3 / (a2 * r3 + r5 - 2 * a2b2 - 2 * b2 * r2 - 2 * r4) / Sigma2 / dm
    let d002 := -2 * a2 * r4 * cth * sth / Sigma2 / dm
    ![![![0, d001, d002, 0], ![d001, 0, 0, d013], ![d002, 0, 0, d023], ![0, d013, d023, 0]],
      ![![d100, 0, 0, d103], ![0, d111, d112, 0], ![0, d112, d122, 0], ![d103, 0, 0, d133]],
      ![![d200, 0, 0, d203], ![0, d211, d212, 0], ![0, d212, d222, 0], ![d203, 0, 0, d233]],
      ![![0, d301, d302, 0], ![d301, 0, 0, d313], ![d302, 0, 0, d323], ![0, d313, d323, 0]]]

/-- `ScalarProd(pos, u1, u2)` (`lib/Hayward.C:479-504`); the debugging output is left out. -/
noncomputable def scalarProd (a b : ℝ) (pos u1 u2 : Vec) : ℝ :=
  let g := gmunu a b pos
  g 0 0 * u1 0 * u2 0 + g 1 1 * u1 1 * u2 1 + g 2 2 * u1 2 * u2 2 + g 3 3 * u1 3 * u2 3 + g 0 3 * u1 0 * u2 3 + g 3 0 * u1 3 * u2 0

/-- `getSpecificAngularMomentum(rr)` (`lib/Hayward.C:75-86`). -/
noncomputable def angularMomentum (a b rr : ℝ) : ℝ :=
  let b2 := b * b
  let r2 := rr * rr
  let r3 := r2 * rr
  let r5 := r3 * r2
  let a2 := a * a
  let a3 := a2 * a
  let md := r3 + 2 * b2
  let m := r3 / md
  let mdot := -3 * r5 / md / md + 3 * r2 / md
  let sqrtr := √rr
  let sqrt1 := √(m - rr * mdot)
  ((a2 * rr + r3 + 2 * a2 * m) * sqrt1 * sqrtr - (a3 + 3 * a * r2) * m + (a3 * rr + a * r3) * mdot) /
    (a2 * rr * mdot + r3 + 2 * sqrt1 * a * m * sqrtr - (a2 + 2 * r2) * m)

/-- `getPotential(pos, l_cst)` (`lib/Hayward.C:88-98`). -/
noncomputable def potential (a b : ℝ) (pos : Vec) (l : ℝ) : ℝ :=
  let gtt := gmunuCoef a b pos 0 0
  let gtp := gmunuCoef a b pos 0 3
  let gpp := gmunuCoef a b pos 3 3
  let Omega := -(gtp + l * gtt) / (gpp + l * gtp)
  0.5 * Real.log |gtt + 2 * Omega * gtp + Omega * Omega * gpp| - Real.log |gtt + Omega * gtp|

/-- `circularVelocity(coor, vel, dir)` (`lib/Hayward.C:100-128`), with the end that the metrics share; the debugging output is left
out. -/
noncomputable def circularVelocity (a b : ℝ) (coor : Vec) (dir : ℝ) : Vec :=
  let sinth := Real.sin (coor 2)
  let a2 := a * a
  let b2 := b * b
  let b4 := b2 * b2
  let rr := coor 1 * sinth
  let r2 := rr * rr
  let r3 := r2 * rr
  let r4 := r2 * r2
  let r5 := r4 * rr
  let r6 := r5 * rr
  let r7 := r6 * rr
  let sqrtarg := -(4 * b2 * r2 - r5) / (4 * b4 + 4 * b2 * r3 + r6)
  let nume := 4 * a * b2 * rr - a * r4 + dir * (4 * b4 + 4 * b2 * r3 + r6) * √sqrtarg
  let deno := r7 - (a2 - 4 * b2) * r4 + 4 * (a2 * b2 + b4) * rr
  Orbits.finishVel (gmunu a b coor) (nume / deno)

end Gyoto.Hayward
