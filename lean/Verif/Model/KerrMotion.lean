import Verif.Model.KerrBL

/-!
# Motion in the Kerr metric (`lib/KerrBL.C`)

Doubles are reals.  A state `coord[8]` is a pair: `coord[0..3]` and `coord[4..7]`, the latter being either the derivatives of the
coordinates or the canonical momenta.
-/

namespace Gyoto.KerrBL

open Gyoto.MetricAlg

/-- `cst[5]`: mass, energy, angular momentum, Carter constant and its inverse (`lib/KerrBL.C:1283-1284`). -/
structure Cst where
  mu : ℝ
  E : ℝ
  L : ℝ
  Q : ℝ
  Qm1 : ℝ

/-- What `diff` does: throw, return 1, or return 0 after writing `res[0..3]` and `res[4..7]`. -/
inductive DiffRes where
  | error
  | stop
  | ok (dx dp : Vec)

/-- `diff(coordGen, cst, res)` (`lib/KerrBL.C:445-555`); `rsink` is `rsink_`. -/
noncomputable def diff (a rsink : ℝ) (cst : Cst) (x p : Vec) : DiffRes :=
  let a2 := a * a
  let a3 := a2 * a
  let a4 := a2 * a2
  let r := x 1
  if r < 0 then .error
  else if r < rsink then .stop
  else
    let r2 := r * r
    let r3 := r2 * r
    let costheta := Real.cos (x 2)
    let sintheta := Real.sin (x 2)
    let costheta2 := costheta * costheta
    if sintheta = 0 then .error
    else
      let cotantheta := costheta / sintheta
      let cotantheta2 := cotantheta * cotantheta
      let cotantheta3 := cotantheta2 * cotantheta
      let sin2theta := 2 * sintheta * costheta
      let cos2theta := 2 * costheta2 - 1
      let pr := p 1
      let ptheta := p 2
      let Sigma := r2 + a2 * costheta2
      if Sigma = 0 then .error
      else
        let Sigmam1 := 1 / Sigma
        let Sigmam2 := Sigmam1 * Sigmam1
        let Delta := r2 - 2 * r + a2
        let E := cst.E
        let E2 := E * E
        let L := cst.L
        let L2 := L * L
        let tmp1 := 2 * Delta * Sigma
        if tmp1 = 0 then .error
        else
          let tmp1m1 := 1 / tmp1
          let tmp2 := r2 + a2 * costheta2
          let tmp2m2 := 1 / (tmp2 * tmp2)
          let tmp3 := a2 + r * (-2 + r)
          let tmp3_2 := tmp3 * tmp3
          .ok
            ![tmp1m1 * (2 * (r * (-2 * a * L + E * r3 + a2 * E * (2 + r)) + a2 * E * (a2 + r * (-2 + r)) * costheta2)),
              Delta * Sigmam1 * pr,
              Sigmam1 * ptheta,
              -tmp1m1 * (-2 * (r * (2 * a * E + L * (-2 + r)) + L * (a2 + r * (-2 + r)) * cotantheta2))]
            ![0,
              -0.5 * (2 * (r * (r - a2) - a2 * (1 - r) * costheta2) * tmp2m2) * pr * pr
                - 0.5 * (-2 * r * tmp2m2) * ptheta * ptheta
                + (tmp2m2 / tmp3_2
                  * (a2 * (a4 * E2 - 2 * a3 * E * L + 2 * a * E * L * r2 + E2 * r3 * (-4 + r)
                      + a2 * (L2 * (1 - r) + 2 * E2 * r2)) * costheta2
                    + r * (-r * (a4 * E2 - 2 * a3 * E * L + 2 * a * E * L * (4 - 3 * r) * r
                        + a2 * (L2 + 2 * E2 * r * (-2 + r)) + r * (E2 * r3 - L2 * (-2 + r) * (-2 + r)))
                      + L2 * tmp3_2 * cotantheta2))),
              -0.5 * (a2 * Delta * sin2theta * Sigmam2) * pr * pr
                - 0.5 * (a2 * sin2theta * Sigmam2) * ptheta * ptheta
                + (Sigmam2
                  * (L2 * r2 * cotantheta
                    + 0.5 * L2 * (a2 + 2 * r2 + a2 * cos2theta) * cotantheta3
                    + a2 * r * (2 * a2 * E2 - 4 * a * E * L + L2 * (2 - r) + 2 * E2 * r2) * costheta * sintheta / Delta)),
              0]

/-- `MakeCoord(coordin, cst, coord)`: from momenta to derivatives of the coordinates (`lib/KerrBL.C:1193-1215`). -/
noncomputable def makeCoord (a : ℝ) (cst : Cst) (x p : Vec) : Vec :=
  let g := gmunu a x
  let gtt := g 0 0
  let gtp := g 0 3
  let gpp := g 3 3
  let det := gtp * gtp - gtt * gpp
  let detm1 := 1 / det
  let guprr := gmunuUpCoef a x 1 1
  let gupthth := gmunuUpCoef a x 2 2
  let EE := cst.E
  let LL := cst.L
  ![(gtp * LL + gpp * EE) * detm1, guprr * p 1, gupthth * p 2, -(gtt * LL + gtp * EE) * detm1]

/-- `MakeMomentum(coord, cst, coordout)` (`lib/KerrBL.C:1217-1231`). -/
noncomputable def makeMomentum (a : ℝ) (cst : Cst) (x v : Vec) : Vec :=
  let g := gmunu a x
  ![-cst.E, g 1 1 * v 1, g 2 2 * v 2, cst.L]

/-- `computeCst(coord, cst)` (`lib/KerrBL.C:1258-1285`). -/
noncomputable def computeCst (a : ℝ) (x v : Vec) : Cst :=
  let norm := scalarProdOpt a x v v
  let mu : ℝ := if |norm| < |norm + 1| then 0 else 1
  let g := gmunu a x
  let tdot := v 0
  let phidot := v 3
  let EE := -g 0 0 * tdot - g 0 3 * phidot
  let LL := g 3 3 * phidot + g 0 3 * tdot
  let costheta2 := Real.cos (x 2) * Real.cos (x 2)
  let sintheta2 := Real.sin (x 2) * Real.sin (x 2)
  let gthth := g 2 2
  let thetadot := v 2
  let QQ := gthth * thetadot * gthth * thetadot + costheta2 * (a * a * (mu * mu - EE * EE) + LL * LL / sintheta2)
  { mu := mu, E := EE, L := LL, Q := QQ, Qm1 := if QQ = 0 then 1 else 1 / QQ }

/-- What `Normalize4v` does to `rdot`: throw, a NaN (square root of a negative number), or a value. -/
inductive NormRes where
  | error
  | nan
  | ok (rdot : ℝ)

/-- `Normalize4v(coord, part_mass)`: the new `coord[5]` (`lib/KerrBL.C:1111-1190`).  With `a² > 1` the horizon `rhor` is a NaN, with
which the comparison is false. -/
noncomputable def normalize4v (a mass : ℝ) (x v : Vec) : NormRes :=
  let near : Bool := if 1 - a * a < 0 then false else decide (x 1 / (1 + √(1 - a * a)) < 2)
  let g := gmunu a x
  let gtt := g 0 0
  let gtph := g 0 3
  let grr := g 1 1
  let gthth := g 2 2
  let gphph := g 3 3
  let tdot := v 0
  let rdot := v 1
  let thdot := v 2
  let phdot := v 3
  let finish (arglim argrac : ℝ) : NormRes :=
    let argrac' := if argrac < 0 ∧ |argrac| < arglim then 0 else argrac
    if argrac' < 0 ∧ |argrac'| > arglim then
      if near then .ok (if rdot > 0 then 0 else 0 * -1) else .error
    else if argrac' < 0 then .nan
    else .ok (if rdot > 0 then √argrac' else √argrac' * -1)
  if mass = 0 then
    finish 1e-4 (-(gtt * tdot * tdot + 2 * gtph * phdot * tdot + gthth * thdot * thdot + gphph * phdot * phdot) / grr)
  else if mass > 0 then
    finish 1e-7 (-(1 + gtt * tdot * tdot + 2 * gtph * phdot * tdot + gthth * thdot * thdot + gphph * phdot * phdot) / grr)
  else .error

/-- What `CheckCons` does: throw, a NaN, return 1 without writing `coor_fin`, or return 0 with the new momenta. -/
inductive ConsRes where
  | error
  | nan
  | axis
  | ok (p : Vec)

/-- The new `thetadot` in `CheckCons` (`lib/KerrBL.C:1056-1098`); `nearAxis` is the comparison of line 1084. -/
inductive ThRes where
  | error
  | axis
  | ok (thdot : ℝ)

noncomputable def checkCarter (a : ℝ) (cst : Cst) (nearAxis : Bool) (x v : Vec) : ThRes :=
  let costh := Real.cos (x 2)
  let sinth := Real.sin (x 2)
  let sinthm2 := 1 / (sinth * sinth)
  let costh2 := costh * costh
  let limarg := 1e-6 * cst.Q
  let limargbis := 0.1 * cst.Q
  let mu2 := cst.mu * cst.mu
  let EE2 := cst.E * cst.E
  let LL2 := cst.L * cst.L
  let Sigma := x 1 * x 1 + a * a * costh2
  let Qtest := Sigma * Sigma * v 2 * v 2 + costh2 * (a * a * (mu2 - EE2) + LL2 * sinthm2)
  if |Qtest - cst.Q| * cst.Qm1 > 1e-6 then
    let argsqrt := cst.Q - costh2 * (a * a * (mu2 - EE2) + LL2 * sinthm2)
    let final (arg : ℝ) : ThRes := .ok (if v 2 < 0 then √arg / Sigma * -1 else √arg / Sigma)
    if argsqrt < 0 ∧ |argsqrt| ≤ limarg then final 0
    else if argsqrt < 0 ∧ |argsqrt| > limarg then
      if nearAxis then .axis
      else if |argsqrt| > limargbis then .error
      else final 0
    else final argsqrt
  else .ok (v 2)

/-- `CheckCons(coor_init, cst, coor_fin)` (`lib/KerrBL.C:1038-1109`). -/
noncomputable def checkCons (a : ℝ) (cst : Cst) (nearAxis : Bool) (x p : Vec) : ConsRes :=
  let v := makeCoord a cst x p
  match checkCarter a cst nearAxis x v with
  | .error => .error
  | .axis => .axis
  | .ok th =>
    match normalize4v a cst.mu x ![v 0, v 1, th, v 3] with
    | .error => .error
    | .nan => .nan
    | .ok rd => .ok (makeMomentum a cst x ![v 0, rd, th, v 3])

end Gyoto.KerrBL
