import Verif.Model.MetricAlg
import Mathlib.Analysis.SpecialFunctions.Trigonometric.Basic
import Mathlib.Analysis.Real.Sqrt

/-!
# The Kerr metric in Boyer-Lindquist coordinates (`lib/KerrBL.C`)

Doubles are reals; a division by zero (infinite or NaN in the code) is excluded by the hypotheses of the theorems.  `a` is `spin_`;
`a2_`, `a3_`, `a4_` are its powers, as `spin(a)` keeps them (`lib/KerrBL.C:93-101`).
-/

namespace Gyoto.KerrBL

open Gyoto.MetricAlg

/-- A matrix filled with zeros, then the five components that stationary, axisymmetric, circular metrics set
(`lib/KerrBL.C:164-180`). -/
def circ (tt rr hh pp tp : ℝ) : Tensor := ![![tt, 0, 0, tp], ![0, rr, 0, 0], ![0, 0, hh, 0], ![tp, 0, 0, pp]]

/-- `gmunu(g, pos)` (`lib/KerrBL.C:162-181`). -/
noncomputable def gmunu (a : ℝ) (pos : Vec) : Tensor :=
  let r := pos 1
  let sth2 := Real.sin (pos 2) * Real.sin (pos 2)
  let cth2 := Real.cos (pos 2) * Real.cos (pos 2)
  let r2 := r * r
  let a2 := a * a
  let sigma := r2 + a2 * cth2
  let delta := r2 - 2 * r + a2
  circ (-1 + 2 * r / sigma) (sigma / delta) sigma ((r2 + a2 + 2 * r * a2 * sth2 / sigma) * sth2) (-2 * a * r * sth2 / sigma)

/-- `gmunu(pos, mu, nu)` (`lib/KerrBL.C:183-203`). -/
noncomputable def gmunuCoef (a : ℝ) (pos : Vec) (mu nu : Fin 4) : ℝ :=
  let r := pos 1
  let sth2 := Real.sin (pos 2) * Real.sin (pos 2)
  let cth2 := Real.cos (pos 2) * Real.cos (pos 2)
  let r2 := r * r
  let a2 := a * a
  let sigma := r2 + a2 * cth2
  let delta := r2 - 2 * r + a2
  if mu = 0 ∧ nu = 0 then -(1 - 2 * r / sigma)
  else if mu = 1 ∧ nu = 1 then sigma / delta
  else if mu = 2 ∧ nu = 2 then sigma
  else if mu = 3 ∧ nu = 3 then (r2 + a2 + 2 * r * a2 * sth2 / sigma) * sth2
  else if (mu = 0 ∧ nu = 3) ∨ (mu = 3 ∧ nu = 0) then -2 * a * r * sth2 / sigma
  else 0

/-- `gmunu_up(gup, pos)` (`lib/KerrBL.C:205-224`). -/
noncomputable def gmunuUp (a : ℝ) (pos : Vec) : Tensor :=
  let r := pos 1
  let sth2 := Real.sin (pos 2) * Real.sin (pos 2)
  let cth2 := Real.cos (pos 2) * Real.cos (pos 2)
  let r2 := r * r
  let a2 := a * a
  let sigma := r2 + a2 * cth2
  let delta := r2 - 2 * r + a2
  let xi := (r2 + a2) * (r2 + a2) - a2 * delta * sth2
  circ (-xi / (delta * sigma)) (delta / sigma) (1 / sigma) ((delta - a2 * sth2) / (sigma * delta * sth2)) (-2 * a * r / (sigma * delta))

/-- `gmunu_up(pos, mu, nu)` (`lib/KerrBL.C:226-249`). -/
noncomputable def gmunuUpCoef (a : ℝ) (pos : Vec) (mu nu : Fin 4) : ℝ :=
  let r := pos 1
  let sth2 := Real.sin (pos 2) * Real.sin (pos 2)
  let cth2 := Real.cos (pos 2) * Real.cos (pos 2)
  let r2 := r * r
  let a2 := a * a
  let sigma := r2 + a2 * cth2
  let delta := r2 - 2 * r + a2
  let xi := (r2 + a2) * (r2 + a2) - a2 * delta * sth2
  if mu = 0 ∧ nu = 0 then -xi / (delta * sigma)
  else if mu = 1 ∧ nu = 1 then delta / sigma
  else if mu = 2 ∧ nu = 2 then 1 / sigma
  else if mu = 3 ∧ nu = 3 then (delta - a2 * sth2) / (sigma * delta * sth2)
  else if (mu = 0 ∧ nu = 3) ∨ (mu = 3 ∧ nu = 0) then -2 * a * r / (sigma * delta)
  else 0

/-- `christoffel(dst, pos)` (`lib/KerrBL.C:251-310`): `dst[α][μ][ν]`. -/
noncomputable def christoffel (a : ℝ) (pos : Vec) : Fin 4 → Tensor :=
  let r := pos 1
  let sth := Real.sin (pos 2)
  let cth := Real.cos (pos 2)
  let a2 := a * a
  let sth2 := sth * sth
  let cth2 := cth * cth
  let s2th := 2 * sth * cth
  let ctgth := cth / sth
  let r2 := r * r
  let Sigma := r2 + a2 * cth2
  let Sigma2 := Sigma * Sigma
  let Delta := r2 - 2 * r + a2
  let Deltam1 := 1 / Delta
  let Sigmam1 := 1 / Sigma
  let Sigmam2 := Sigmam1 * Sigmam1
  let Sigmam3 := Sigmam2 * Sigmam1
  let a2cthsth := a2 * cth * sth
  let rSigmam1 := r * Sigmam1
  let Deltam1Sigmam2 := Deltam1 * Sigmam2
  let r2plusa2 := r2 + a2
  let d111 := (1 - r) * Deltam1 + rSigmam1
  let d112 := -a2cthsth * Sigmam1
  let d122 := -Delta * rSigmam1
  let d133 := -Delta * sth2 * (r + (a2 * (-2 * r2 + Sigma) * sth2) / Sigma2) / Sigma
  let d103 := a * Delta * (-2 * r2 + Sigma) * sth2 * Sigmam3
  let d100 := -Delta * (-2 * r2 + Sigma) * Sigmam3
  let d211 := a2cthsth * Deltam1 * Sigmam1
  let d212 := rSigmam1
  let d222 := -a2cthsth * Sigmam1
  let d233 := -sth * cth * Sigmam3 * (Delta * Sigma2 + 2 * r * r2plusa2 * r2plusa2)
  let d203 := a * r * r2plusa2 * s2th * Sigmam3
  let d200 := -2 * a2cthsth * r * Sigmam3
  let d313 := Deltam1 * Sigmam2 * (r * Sigma * (Sigma - 2 * r) + a2 * (Sigma - 2 * r2) * sth2)
  let d323 := Sigmam2 * ctgth * (-(Sigma + Delta) * a2 * sth2 + r2plusa2 * r2plusa2)
  let d301 := a * (2 * r2 - Sigma) * Deltam1Sigmam2
  let d302 := -2 * a * r * ctgth * Sigmam2
  let d013 := -a * sth2 * Deltam1Sigmam2 * (2 * r2 * r2plusa2 + Sigma * (r2 - a2))
  let d023 := Sigmam2 * a * a2 * r * sth2 * s2th
  let d001 := (a2 + r2) * (2 * r2 - Sigma) * Deltam1Sigmam2
  let d002 := -a2 * r * s2th * Sigmam2
  ![![![0, d001, d002, 0], ![d001, 0, 0, d013], ![d002, 0, 0, d023], ![0, d013, d023, 0]],
    ![![d100, 0, 0, d103], ![0, d111, d112, 0], ![0, d112, d122, 0], ![d103, 0, 0, d133]],
    ![![d200, 0, 0, d203], ![0, d211, d212, 0], ![0, d212, d222, 0], ![d203, 0, 0, d233]],
    ![![0, d301, d302, 0], ![d301, 0, 0, d313], ![d302, 0, 0, d323], ![0, d313, d323, 0]]]

/-- `ScalarProd` (`lib/KerrBL.C:312-337`). -/
noncomputable def scalarProdOpt (a : ℝ) (pos u1 u2 : Vec) : ℝ :=
  let g := gmunu a pos
  g 0 0 * u1 0 * u2 0 + g 1 1 * u1 1 * u2 1 + g 2 2 * u1 2 * u2 2 + g 3 3 * u1 3 * u2 3 + g 0 3 * u1 0 * u2 3 + g 3 0 * u1 3 * u2 0

/-- `computeNBeta` (`lib/KerrBL.C:339-354`). -/
noncomputable def nBeta (a : ℝ) (coord : Vec) : ℝ × (Fin 3 → ℝ) :=
  let rr := coord 1
  let r2 := rr * rr
  let cost2 := Real.cos (coord 2) * Real.cos (coord 2)
  let sint2 := Real.sin (coord 2) * Real.sin (coord 2)
  let spin2 := a * a
  let Delta := r2 - 2 * rr + spin2
  let rho2 := r2 + spin2 * cost2
  let B2 := r2 + spin2 + 2 * spin2 * rr * sint2 / rho2
  (√(Delta / B2), ![0, 0, -2 * a * rr / (rho2 * (r2 + spin2) + 2 * spin2 * rr * sint2)])

end Gyoto.KerrBL
