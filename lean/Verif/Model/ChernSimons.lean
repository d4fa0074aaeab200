import Verif.Model.KerrMotion
import Verif.Model.Matrix4
import Verif.Model.Static
import Verif.Model.Orbits

/-!
# The Chern-Simons metric (`lib/ChernSimons.C`)

Doubles are reals; `a` is `spin_` and `z` is `dzetaCS_`.  A division by zero (infinite or NaN in the code) is excluded by the hypotheses
of the theorems.
-/

namespace Gyoto.ChernSimons

open Gyoto.MetricAlg

/-- `gmunu(pos, mu, nu)` (`lib/ChernSimons.C:70-97`). -/
noncomputable def gmunuCoef (a z : ℝ) (pos : Vec) (mu nu : Fin 4) : ℝ :=
  let r := pos 1
  let sth2 := Real.sin (pos 2) * Real.sin (pos 2)
  let cth2 := Real.cos (pos 2) * Real.cos (pos 2)
  let r2 := r * r
  let r3 := r2 * r
  let a2 := a * a
  let sigma := r2 + a2 * cth2
  let ff := 1 - 2 / r
  if mu = 0 ∧ nu = 0 then -ff - 2 * a2 / r3 * cth2
  else if mu = 1 ∧ nu = 1 then 1 / ff + a2 / (ff * r2) * (cth2 - 1 / ff)
  else if mu = 2 ∧ nu = 2 then sigma
  else if mu = 3 ∧ nu = 3 then r2 * sth2 + a2 * sth2 * (1 + 2 / r * sth2)
  else if (mu = 0 ∧ nu = 3) ∨ (mu = 3 ∧ nu = 0) then
    -2 * a / r * sth2 + 5 / 8 * z * a / (r2 * r2) * (1 + 12 / 7 * 1 / r + 27 / 10 * 1 / r2) * sth2
  else 0

/-- `gmunu(g, pos)`, which is the generic one (`lib/ChernSimons.C:99-102`, `lib/Metric.C:310-317`). -/
noncomputable def gmunu (a z : ℝ) (pos : Vec) : Tensor := Static.fill (gmunuCoef a z pos)

/-- `gmunu_up(gup, pos)` (`lib/ChernSimons.C:115-120`); `none` when it divides by zero. -/
noncomputable def gmunuUp (a z : ℝ) (pos : Vec) : Option Tensor := Matrix4.matrix4CircularInvert (gmunu a z pos)

/-- The numerical horizon of `diff` (`lib/ChernSimons.C:43`, `:133`); `none` stands for NaN, the root of a negative number. -/
noncomputable def rsink (a : ℝ) : Option ℝ := if 1 - a * a < 0 then none else some (1 + √(1 - a * a) + 0.2)

/-- Comparison with a number that may be a NaN. -/
def below (r : ℝ) : Option ℝ → Prop
  | none => False
  | some s => r < s

/-- `diff(coordGen, cst, res)` (`lib/ChernSimons.C:126-290`). -/
noncomputable def diff (a z : ℝ) (cst : KerrBL.Cst) (x p : Vec) : KerrBL.DiffRes :=
  let a2 := a * a
  let r := x 1
  open Classical in
  if r < 0 then .error
  else if below r (rsink a) then .stop
  else
    let r2 := r * r
    let r3 := r2 * r
    let r4 := r2 * r2
    let r5 := r4 * r
    let ff := 1 - 2 / r
    let costheta := Real.cos (x 2)
    let sintheta := Real.sin (x 2)
    let costheta2 := costheta * costheta
    if sintheta = 0 then .error
    else
      let cotantheta := costheta / sintheta
      let cotantheta2 := cotantheta * cotantheta
      let cotantheta3 := cotantheta2 * cotantheta
      let sin2theta := 2 * sintheta * costheta
      let cos2theta := 2 * costheta2 - 1
      let pr := p 1
      let ptheta := p 2
      let a3 := a2 * a
      let Sigma := r2 + a2 * costheta2
      if Sigma = 0 then .error
      else
        let Delta := r2 - 2 * r + a2
        let E := cst.E
        let E2 := E * E
        let L := cst.L
        let L2 := L * L
        let tmp1 := 2 * Delta * Sigma
        if tmp1 = 0 then .error
        else if Delta = 0 then .error
        else
          let tmp2 := r2 + a2 * costheta2
          if tmp2 = 0 then .error
          else
            .ok
              ![1 / (2 * ff * r4) * (2 * (r * (-2 * a * L + E * r3 + a2 * E * (2 + r)) + a2 * E * (a2 + r * (-2 + r)) * costheta2))
                  - 1 / (2 * ff * r4) * a2 / r2 * (costheta2 - 1 / ff) * (2 * (E * r4))
                  + 1 / (2 * ff * r4) * a * L * (189 + 120 * r + 70 * r2) * z / (56 * r2 * r2),
                (ff + a2 / r2 * (1 - ff * costheta2)) * pr,
                1 / r2 * (1 - a2 / r2 * costheta2) * ptheta,
                -1 / (2 * ff * r4) * (-2 * (r * (2 * a * E + L * (-2 + r)) + L * (a2 + r * (-2 + r)) * cotantheta2))
                  + 1 / (2 * ff * r4) * a2 / r2 * (costheta2 - 1 / ff)
                    * (-2 * (r * (2 * a * E + L * (-2 + r)) + L * (r * (-2 + r)) * cotantheta2))
                  + -1 / (2 * ff * r4) * a * E * (189 + 120 * r + 70 * r2) * z / (56 * r2 * r2)]
              ![0,
                (-1 / r4 * (r * (r - a2) - a2 * (1 - r) * costheta2) + 2 * a2 * costheta2 / r4) * pr * pr
                  + 1 / r3 * (1 - 2 * a2 / r2 * costheta2) * ptheta * ptheta
                  + (1 / (r4 * r4 * ff * ff)
                      * (costheta2 * a2 * E2 * r3 * (r - 4) - 2 * r3 * a * E * L * (4 - 3 * r) - r2 * a2 * (L2 + 2 * E2 * r * (r - 2))
                        - r3 * (E2 * r3 - L2 * (r - 2) * (r - 2)) + L2 * cotantheta2 * r4 * r * ff * ff * (1 + 2 * a2 / (ff * r2)))
                    - 2 * a2 / (r4 * r4 * r2 * ff * ff) * (costheta2 + 1 / ff)
                      * (-r3 * (E2 * r3 - L2 * (r - 2) * (r - 2)) + L2 * cotantheta2 * r5 * ff * ff * (1 + 2 * a2 / (ff * r2))))
                  + -a * E * L * z / (56 * r4 * r2 * (r - 2)) * (-1323 + 36 * r + 70 * r2 + 210 * r2 * r)
                    / (r2 * (r - 2) + 2 * a2 * costheta2 * (r - 2) + 2 * a2 * r),
                -0.5 * (a2 * sin2theta * ff / r2) * pr * pr
                  - 0.5 * (a2 * sin2theta * 1 / r4) * ptheta * ptheta
                  + (1 / r4
                      * (L2 * r2 * cotantheta + 0.5 * L2 * (a2 + 2 * r2 + a2 * cos2theta) * cotantheta3
                        + a2 / (ff * r) * (L2 * (2 - r) + 2 * E2 * r2) * costheta * sintheta)
                    - 2 * a2 * costheta2 / (r4 * r2) * (L2 * r2 * cotantheta + L2 * r2 * cotantheta3))
                  + a3 * E * L * z * (189 + 120 * r + 70 * r2) * costheta * sintheta
                    / (56 * r4 * r4 * (a2 + r * (r - 2) * (1 + 2 * a2 / r2 * costheta2))),
                0]

/-- `circularVelocity(coor, vel, dir)` when `keplerian_` is false (`lib/ChernSimons.C:292-334`); the debugging output is left out. -/
noncomputable def circularVelocity (a z : ℝ) (coor : Vec) (_dir : ℝ) : Vec :=
  let sinth := Real.sin (coor 2)
  let rr := coor 1 * sinth
  let r2 := rr * rr
  let r3 := r2 * rr
  let r4 := r3 * rr
  let r5 := r4 * rr
  let a2 := a * a
  let fact := -112 * r5 + 567 * z + 300 * rr * z + 140 * r2 * z
  Orbits.finishVel (gmunu a z coor)
    ((a * fact + 56 * r5 * r2 * √(4 * (r3 - a2) / r4 + a2 * fact * fact / (3136 * r5 * r5 * r4))) / (112 * r5 * (r3 - a2)))

end Gyoto.ChernSimons
