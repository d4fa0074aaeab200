import Verif.Model.KerrMotion
import Verif.Model.Static
import Mathlib.Analysis.SpecialFunctions.Pow.Real

/-!
# Circular orbits: what the metrics know about them

`circularVelocity`, `getSpecificAngularMomentum`, `getPotential`, `getRms`, `getRmb`, `zamoVelocity` of `lib/KerrBL.C`,
`lib/SchwarzschildHarmonic.C`, `lib/ReissnerNordstrom.C` and `lib/RezzollaZhidenko.C`.

Doubles are reals; a division by zero and the power or logarithm of a number that has none are excluded by the hypotheses of the
theorems.  The debugging output is left out.
-/

namespace Gyoto.Orbits

open Gyoto.MetricAlg Gyoto.KerrBL Gyoto.Static

/-- The end that the four `circularVelocity` share: the motion of angular velocity `vel[3]`, normalised with the metric `g`
(`lib/KerrBL.C:578-579`, `lib/SchwarzschildHarmonic.C:115-116`, `lib/ReissnerNordstrom.C:150-151`, `lib/RezzollaZhidenko.C:314-315`). -/
noncomputable def finishVel (g : Tensor) (omega : ℝ) : Vec :=
  let t := sysPrimeToTdot g ![0, 0, omega]
  ![t, 0, 0, omega * t]

/-- `KerrBL::circularVelocity(coor, vel, dir)` when `keplerian_` is false (`lib/KerrBL.C:557-583`). -/
noncomputable def kerrVel (a : ℝ) (coor : Vec) (dir : ℝ) : Vec :=
  let sinth := Real.sin (coor 2)
  finishVel (gmunu a coor) (1 / (dir * (coor 1 * sinth) ^ (1.5 : ℝ) + a))

/-- `SchwarzschildHarmonic::circularVelocity` (`lib/SchwarzschildHarmonic.C:106-117`). -/
noncomputable def shVel (coor : Vec) (dir : ℝ) : Vec :=
  let sinth := Real.sin (coor 2)
  let rBL := coor 1 + 1
  finishVel (fill (shForm coor)) (1 / (dir * (rBL * sinth) ^ (1.5 : ℝ)))

/-- `ReissnerNordstrom::circularVelocity` (`lib/ReissnerNordstrom.C:140-153`). -/
noncomputable def rnVel (q : ℝ) (coor : Vec) (dir : ℝ) : Option Vec :=
  let sinth := Real.sin (coor 2)
  let r := coor 1 * sinth
  if q * q > r then none
  else some (finishVel (fill (rnForm q coor)) (1 / (dir * r ^ (1.5 : ℝ)) * √(1 - q * q / r)))

/-- `RezzollaZhidenko::circularVelocity` (`lib/RezzollaZhidenko.C:300-320`); `dir` is not used. -/
noncomputable def rzVel (m : RZ) (coor : Vec) (_dir : ℝ) : Vec :=
  let sinth := Real.sin (coor 2)
  let rr := coor 1 * sinth
  let coord : Vec := ![coor 0, rr, Real.pi * 0.5, coor 3]
  let Np := m.Nprime rr
  let NN := √(m.N2 rr)
  finishVel (fill (m.form coord)) (√(Np * NN / rr))

/-- `KerrBL::zamoVelocity` (`lib/KerrBL.C:585-600`). -/
noncomputable def kerrZamo (a : ℝ) (coor : Vec) : Vec :=
  let g := gmunu a coor
  let gtt := g 0 0
  let gpp := g 3 3
  let gtp := g 0 3
  let fact := gtt * gpp - gtp * gtp
  let ut2 := -gpp / fact
  let omega := -gtp / gpp
  ![√ut2, 0, 0, omega * √ut2]

/-- `KerrBL::getSpecificAngularMomentum(rr)` (`lib/KerrBL.C:140-144`). -/
noncomputable def kerrL (a rr : ℝ) : ℝ := (rr * rr - 2 * a * √rr + a * a) / (rr ^ (1.5 : ℝ) - 2 * √rr + a)

/-- `ReissnerNordstrom::getSpecificAngularMomentum(rr)` (`lib/ReissnerNordstrom.C:190-198`). -/
noncomputable def rnL (q rr : ℝ) : Option ℝ :=
  let q2 := q * q
  let r2 := rr * rr
  if rr < q2 ∨ 1 - 2 / rr + q2 / r2 = 0 then none else some (√(rr - q2) / (1 - 2 / rr + q2 / r2))

/-- `RezzollaZhidenko::getSpecificAngularMomentum(rr)` (`lib/RezzollaZhidenko.C:133-136`). -/
noncomputable def rzL (m : RZ) (rr : ℝ) : ℝ :=
  let NN := √(m.N2 rr)
  let N3 := NN * NN * NN
  √(rr * rr * rr * m.Nprime rr / N3)

/-- `KerrBL::getPotential(pos, l_cst)` (`lib/KerrBL.C:146-160`). -/
noncomputable def kerrPotential (a : ℝ) (pos : Vec) (l : ℝ) : ℝ :=
  let gtt := gmunuCoef a pos 0 0
  let gtp := gmunuCoef a pos 0 3
  let gpp := gmunuCoef a pos 3 3
  let Omega := -(gtp + l * gtt) / (gpp + l * gtp)
  0.5 * Real.log |gtt + 2 * Omega * gtp + Omega * Omega * gpp| - Real.log |gtt + Omega * gtp|

/-- `ReissnerNordstrom::getPotential(pos, l_cst)` (`lib/ReissnerNordstrom.C:155-188`). -/
noncomputable def rnPotential (q : ℝ) (pos : Vec) (l : ℝ) : Option ℝ :=
  let rr := pos 1
  let r2 := rr * rr
  let sth := Real.sin (pos 2)
  let sth2 := sth * sth
  let q2 := q * q
  let term := r2 - 2 * rr + q2
  if r2 * sth2 - term * l * l / r2 = 0 then none
  else
    let logarg := term * sth2 / (r2 * sth2 - term * l * l / r2)
    if logarg < 0 then none else some (-1 / 2 * Real.log logarg)

/-- `RezzollaZhidenko::getPotential(pos, l_cst)` (`lib/RezzollaZhidenko.C:138-146`). -/
noncomputable def rzPotential (m : RZ) (pos : Vec) (l : ℝ) : Option ℝ :=
  let gtt := m.form pos 0 0
  let gpp := m.form pos 3 3
  if gpp = 0 then none
  else
    let NN2 := m.N2 (pos 1)
    let NN := √NN2
    let Omega := -l * gtt / gpp
    some (-2 * Real.log |NN| + 0.5 * Real.log |-NN2 + gpp * Omega * Omega|)

/-- `KerrBL::getRms()` (`lib/KerrBL.C:127-133`). -/
noncomputable def kerrRms (a : ℝ) : ℝ :=
  let a2 := a * a
  let z1 := 1 + (1 - a2) ^ (1 / 3 : ℝ) * ((1 + a) ^ (1 / 3 : ℝ) + (1 - a) ^ (1 / 3 : ℝ))
  let z2 := (3 * a2 + z1 * z1) ^ (1 / 2 : ℝ)
  3 + z2 - ((3 - z1) * (3 + z1 + 2 * z2)) ^ (1 / 2 : ℝ)

/-- `KerrBL::getRmb()` (`lib/KerrBL.C:136-138`). -/
noncomputable def kerrRmb (a : ℝ) : ℝ := 2 - a + 2 * √(1 - a)

end Gyoto.Orbits
