import Verif.Model.KerrBL

/-!
# Metrics without rotation: `Minkowski`, `SchwarzschildHarmonic`, `ReissnerNordstrom`, `RezzollaZhidenko`

Doubles are reals.  A thrown error is `none`; a division by zero (infinite or NaN in the code) is excluded by the hypotheses of the
theorems.  Arrays that the code fills with zeros before setting some elements are given with all their elements.
-/

namespace Gyoto.Static

open Gyoto.MetricAlg Gyoto.KerrBL

/-- An array of symbols filled with zeros, then the components that these metrics set (each with its symmetric one): `0 01`, `1 00`,
`1 11`, `1 22`, `1 33`, `2 12`, `2 33`, `3 13`, `3 23` (`lib/SchwarzschildHarmonic.C:74-99`, `lib/ReissnerNordstrom.C:101-128`,
`lib/RezzollaZhidenko.C:235-259`, `lib/Minkowski.C:86-106`). -/
def diagΓ (d001 d100 d111 d122 d133 d212 d233 d313 d323 : ℝ) : Fin 4 → Tensor :=
  ![![![0, d001, 0, 0], ![d001, 0, 0, 0], ![0, 0, 0, 0], ![0, 0, 0, 0]],
    ![![d100, 0, 0, 0], ![0, d111, 0, 0], ![0, 0, d122, 0], ![0, 0, 0, d133]],
    ![![0, 0, 0, 0], ![0, 0, d212, 0], ![0, d212, 0, 0], ![0, 0, 0, d233]],
    ![![0, 0, 0, 0], ![0, 0, 0, d313], ![0, 0, 0, d323], ![0, d313, d323, 0]]]

/-- The matrix that `Generic::gmunu(g, x)` fills from the coefficients asked one by one: those of the upper triangle are copied to
the lower one (`lib/Metric.C:310-317`). -/
def fill (coef : Fin 4 → Fin 4 → ℝ) : Tensor := fun i j => if i ≤ j then coef i j else coef j i

/-! ## Minkowski -/

/-- `Minkowski::gmunu(g, pos)` (`lib/Minkowski.C:61-84`). -/
noncomputable def mkGmunu (k : CoordKind) (pos : Vec) : Tensor :=
  match k with
  | .cartesian => circ (-1) 1 1 1 0
  | .spherical =>
    let r := pos 1
    let theta := pos 2
    let tmp := r * Real.sin theta
    circ (-1) 1 (r * r) (tmp * tmp) 0

/-- `Minkowski::gmunu(pos, mu, nu)` with both indices in range (`lib/Minkowski.C:111-138`). -/
noncomputable def mkCoef (k : CoordKind) (pos : Vec) (mu nu : Fin 4) : ℝ :=
  if mu ≠ nu then 0
  else if mu = 0 then -1
  else
    match k with
    | .cartesian => 1
    | .spherical =>
      if mu = 1 then 1
      else if mu = 2 then pos 1 * pos 1
      else
        let tmp := pos 1 * Real.sin (pos 2)
        tmp * tmp

/-- `Minkowski::christoffel(dst, pos)` (`lib/Minkowski.C:86-106`). -/
noncomputable def mkChristoffel (k : CoordKind) (pos : Vec) : Fin 4 → Tensor :=
  match k with
  | .cartesian => diagΓ 0 0 0 0 0 0 0 0 0
  | .spherical =>
    let r := pos 1
    let sth := Real.sin (pos 2)
    let cth := Real.cos (pos 2)
    diagΓ 0 0 0 (-r) (-r * sth * sth) (1 / r) (-sth * cth) (1 / r) (Real.tan (Real.pi / 2 - pos 2))

/-- `Minkowski::christoffel(pos, alpha, mmu, nnu)` (`lib/Minkowski.C:140-180`). -/
noncomputable def mkChristoffelCoef (k : CoordKind) (pos : Vec) (alpha mmu nnu : Fin 4) : ℝ :=
  match k with
  | .cartesian => 0
  | .spherical =>
    if alpha = 0 then 0
    else
      let p : Fin 4 × Fin 4 := if nnu < mmu then (nnu, mmu) else (mmu, nnu)
      let mu := p.1
      let nu := p.2
      if alpha = 1 then
        if mu ≠ nu then 0
        else if mu = 2 then -pos 1
        else if mu = 3 then -pos 1 * Real.sin (pos 2) * Real.sin (pos 2)
        else 0
      else if alpha = 2 then
        if mu = 1 ∧ nu = 2 then 1 / pos 1
        else if mu = 3 ∧ nu = 3 then -Real.sin (pos 2) * Real.cos (pos 2)
        else 0
      else
        if nu ≠ 3 then 0
        else if mu = 1 then 1 / pos 1
        else if mu = 2 then Real.tan (Real.pi / 2 - pos 2)
        else 0

/-! ## SchwarzschildHarmonic -/

/-- The coefficient returned by `SchwarzschildHarmonic::gmunu(pos, mu, nu)` when it does not throw
(`lib/SchwarzschildHarmonic.C:62-71`). -/
noncomputable def shForm (pos : Vec) (mu nu : Fin 4) : ℝ :=
  let rr := pos 1
  let sth2 := Real.sin (pos 2) * Real.sin (pos 2)
  if mu = 0 ∧ nu = 0 then -(rr - 1) / (rr + 1)
  else if mu = 1 ∧ nu = 1 then (rr + 1) / (rr - 1)
  else if mu = 2 ∧ nu = 2 then (rr + 1) * (rr + 1)
  else if mu = 3 ∧ nu = 3 then (rr + 1) * (rr + 1) * sth2
  else 0

/-- `SchwarzschildHarmonic::gmunu(pos, mu, nu)` (`lib/SchwarzschildHarmonic.C:58-72`). -/
noncomputable def shCoef (pos : Vec) (mu nu : Fin 4) : Option ℝ := if pos 1 ≤ 0 then none else some (shForm pos mu nu)

/-- `SchwarzschildHarmonic::christoffel(dst, pos)` (`lib/SchwarzschildHarmonic.C:74-99`). -/
noncomputable def shChristoffel (pos : Vec) : Option (Fin 4 → Tensor) :=
  let rr := pos 1
  let r2 := rr * rr
  let sth := Real.sin (pos 2)
  let cth := Real.cos (pos 2)
  if rr = 0 ∨ sth = 0 then none
  else
    some (diagΓ (1 / (r2 - 1)) ((rr - 1) / (r2 * rr + 3 * r2 + 3 * rr + 1)) (-1 / (r2 - 1)) (-rr + 1) (-(rr - 1) * sth * sth)
      (1 / (rr + 1)) (-cth * sth) (1 / (rr + 1)) (cth / sth))

/-! ## ReissnerNordstrom -/

/-- The coefficient returned by `ReissnerNordstrom::gmunu(pos, mu, nu)` when it does not throw (`lib/ReissnerNordstrom.C:72-81`);
`q` is `charge_`. -/
noncomputable def rnForm (q : ℝ) (pos : Vec) (mu nu : Fin 4) : ℝ :=
  let rr := pos 1
  let sth2 := Real.sin (pos 2) * Real.sin (pos 2)
  if mu = 0 ∧ nu = 0 then -(1 - 2 / rr + q * q / (rr * rr))
  else if mu = 1 ∧ nu = 1 then 1 / (1 - 2 / rr + q * q / (rr * rr))
  else if mu = 2 ∧ nu = 2 then rr * rr
  else if mu = 3 ∧ nu = 3 then rr * rr * sth2
  else 0

/-- `ReissnerNordstrom::gmunu(pos, mu, nu)` (`lib/ReissnerNordstrom.C:69-83`). -/
noncomputable def rnCoef (q : ℝ) (pos : Vec) (mu nu : Fin 4) : Option ℝ := if pos 1 ≤ 0 then none else some (rnForm q pos mu nu)

/-- The coefficient returned by `ReissnerNordstrom::gmunu_up(pos, mu, nu)` when it does not throw
(`lib/ReissnerNordstrom.C:89-98`). -/
noncomputable def rnUpForm (q : ℝ) (pos : Vec) (mu nu : Fin 4) : ℝ :=
  let rr := pos 1
  let sth2 := Real.sin (pos 2) * Real.sin (pos 2)
  if mu = 0 ∧ nu = 0 then -1 / (1 - 2 / rr + q * q / (rr * rr))
  else if mu = 1 ∧ nu = 1 then 1 - 2 / rr + q * q / (rr * rr)
  else if mu = 2 ∧ nu = 2 then 1 / (rr * rr)
  else if mu = 3 ∧ nu = 3 then 1 / (rr * rr * sth2)
  else 0

/-- `ReissnerNordstrom::gmunu_up(pos, mu, nu)` (`lib/ReissnerNordstrom.C:85-99`). -/
noncomputable def rnUpCoef (q : ℝ) (pos : Vec) (mu nu : Fin 4) : Option ℝ := if pos 1 ≤ 0 then none else some (rnUpForm q pos mu nu)

/-- `ReissnerNordstrom::christoffel(dst, pos)` (`lib/ReissnerNordstrom.C:101-128`). -/
noncomputable def rnChristoffel (q : ℝ) (pos : Vec) : Option (Fin 4 → Tensor) :=
  let rr := pos 1
  let r2 := rr * rr
  let r3 := rr * r2
  let sth := Real.sin (pos 2)
  let cth := Real.cos (pos 2)
  let q2 := q * q
  if rr = 0 ∨ sth = 0 then none
  else
    some (diagΓ (-(q2 - rr) / (r3 - 2 * r2 + q2 * rr)) (-(q2 * q2 - 3 * q2 * rr - r3 + (2 + q2) * r2) / (r3 * r2))
      ((q2 - rr) / (r3 - 2 * r2 + q2 * rr)) (-(q2 - 2 * rr + r2) / rr) (-(q2 - 2 * rr + r2) / rr * sth * sth)
      (1 / rr) (-cth * sth) (1 / rr) (cth / sth))

/-- `ReissnerNordstrom::isStopCondition(coord)`; `sec` is `GYOTO_KERR_HORIZON_SECURITY`.  The square root of a negative number is a
NaN, with which the comparison is false: `none` for the horizon (`lib/ReissnerNordstrom.C:130-138`). -/
noncomputable def rnStop (sec q : ℝ) (pos : Vec) : Bool :=
  let rsink : Option ℝ := if q < 1 then (if 1 - q * q < 0 then none else some (1 + √(1 - q * q) + sec)) else some 0
  match rsink with
  | none => false
  | some x => decide (pos 1 < x)

/-! ## RezzollaZhidenko -/

/-- `epsilon_`, `rms_`, `rmb_`, `aparam_`, `bparam_` (`include/GyotoRezzollaZhidenko.h:42-45`). -/
structure RZ where
  epsilon : ℝ
  rms : ℝ
  rmb : ℝ
  a : Fin 4 → ℝ
  b : Fin 4 → ℝ

/-- `aparam(v)`: an error if there are more than four parameters, or at the first negative one (`lib/RezzollaZhidenko.C:52-62`;
`bparam(v)`, lines 68-78, is the same function on the other array).  The loop has already written the negative value. -/
noncomputable def RZ.setParam (v : List ℝ) : Option (Fin 4 → ℝ) :=
  if v.length > 4 then none else if v.any (fun x => decide (x < 0)) then none else some fun i => v.getD i 0

/-- `RezzollaZhidenko::RezzollaZhidenko(orig)` (`lib/RezzollaZhidenko.C:101-112`). -/
def RZ.copy (orig : RZ) : RZ := { epsilon := orig.epsilon, rms := orig.rms, rmb := orig.rms, a := orig.a, b := orig.b }

/-- `N2(rr)` (`lib/RezzollaZhidenko.C:148-163`). -/
noncomputable def RZ.N2 (m : RZ) (rr : ℝ) : ℝ :=
  let r0 := 2 / (1 + m.epsilon)
  let xx := 1 - r0 / rr
  let onemx := 1 - xx
  let onemx2 := onemx * onemx
  let onemx3 := onemx2 * onemx
  let Atilde := m.a 1 / (1 + m.a 2 * xx / (1 + m.a 3 * xx))
  xx * (1 - m.epsilon * onemx + (m.a 0 - m.epsilon) * onemx2 + Atilde * onemx3)

/-- `BB` in `B2(rr)` (`lib/RezzollaZhidenko.C:166-171`). -/
noncomputable def RZ.B (m : RZ) (rr : ℝ) : ℝ :=
  let r0 := 2 / (1 + m.epsilon)
  let xx := 1 - r0 / rr
  let onemx := 1 - xx
  let onemx2 := onemx * onemx
  let Btilde := m.b 1 / (1 + m.b 2 * xx / (1 + m.b 3 * xx))
  1 + m.b 0 * onemx + Btilde * onemx2

/-- `B2(rr)` (`lib/RezzollaZhidenko.C:165-174`). -/
noncomputable def RZ.B2 (m : RZ) (rr : ℝ) : ℝ := m.B rr * m.B rr

/-- `Nprime(rr)` (`lib/RezzollaZhidenko.C:176-200`). -/
noncomputable def RZ.Nprime (m : RZ) (rr : ℝ) : ℝ :=
  let r0 := 2 / (1 + m.epsilon)
  let r2 := rr * rr
  let xx := 1 - r0 / rr
  let onemx := 1 - xx
  let onemx2 := onemx * onemx
  let onemx3 := onemx2 * onemx
  let Atilde := m.a 1 / (1 + m.a 2 * xx / (1 + m.a 3 * xx))
  let AA := 1 - m.epsilon * onemx + (m.a 0 - m.epsilon) * onemx2 + Atilde * onemx3
  let Atilde_der := -m.a 1 * m.a 2 / ((1 + (m.a 2 + m.a 3) * xx) * (1 + (m.a 2 + m.a 3) * xx))
  let A_der := m.epsilon - 2 * (m.a 0 - m.epsilon) * onemx - 3 * Atilde * onemx2 + Atilde_der * onemx3
  let NN := √(m.N2 rr)
  let N_der := 1 / (2 * NN) * (AA + xx * A_der)
  r0 / r2 * N_der

/-- `Bprime(rr)` (`lib/RezzollaZhidenko.C:202-217`). -/
noncomputable def RZ.Bprime (m : RZ) (rr : ℝ) : ℝ :=
  let r0 := 2 / (1 + m.epsilon)
  let r2 := rr * rr
  let xx := 1 - r0 / rr
  let onemx := 1 - xx
  let onemx2 := onemx * onemx
  let Btilde := m.b 1 / (1 + m.b 2 * xx / (1 + m.b 3 * xx))
  let Btilde_der := -m.b 1 * m.b 2 / ((1 + (m.b 2 + m.b 3) * xx) * (1 + (m.b 2 + m.b 3) * xx))
  let B_der := -m.b 0 - 2 * Btilde * onemx + Btilde_der * onemx2
  r0 / r2 * B_der

/-- The coefficient returned by `RezzollaZhidenko::gmunu(pos, mu, nu)` when it does not throw (`lib/RezzollaZhidenko.C:223-232`). -/
noncomputable def RZ.form (m : RZ) (pos : Vec) (mu nu : Fin 4) : ℝ :=
  let rr := pos 1
  let sth2 := Real.sin (pos 2) * Real.sin (pos 2)
  let r2 := rr * rr
  if mu = 0 ∧ nu = 0 then -m.N2 rr
  else if mu = 1 ∧ nu = 1 then m.B2 rr / m.N2 rr
  else if mu = 2 ∧ nu = 2 then r2
  else if mu = 3 ∧ nu = 3 then r2 * sth2
  else 0

/-- `RezzollaZhidenko::gmunu(pos, mu, nu)` (`lib/RezzollaZhidenko.C:219-233`). -/
noncomputable def RZ.coef (m : RZ) (pos : Vec) (mu nu : Fin 4) : Option ℝ := if pos 1 ≤ 0 then none else some (m.form pos mu nu)

/-- `RezzollaZhidenko::christoffel(dst, pos)` (`lib/RezzollaZhidenko.C:235-292`; the comparison of lines 261-289 is disabled). -/
noncomputable def RZ.christoffel (m : RZ) (pos : Vec) : Option (Fin 4 → Tensor) :=
  let rr := pos 1
  let sth := Real.sin (pos 2)
  let cth := Real.cos (pos 2)
  let NN2 := m.N2 rr
  let NN := √NN2
  let BB2 := m.B2 rr
  let BB := √BB2
  let NNprime := m.Nprime rr
  let BBprime := m.Bprime rr
  if rr = 0 ∨ sth = 0 then none
  else
    some (diagΓ (NNprime / NN) (NN * NN2 / BB2 * NNprime) (BBprime / BB - NNprime / NN) (-rr * NN2 / BB2) (-rr * sth * sth * NN2 / BB2)
      (1 / rr) (-cth * sth) (1 / rr) (cth / sth))

end Gyoto.Static
