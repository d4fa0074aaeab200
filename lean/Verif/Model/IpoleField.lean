import Verif.Model.MetricAlg
import Mathlib.Analysis.SpecialFunctions.Log.Basic
import Mathlib.Analysis.SpecialFunctions.Trigonometric.Basic

/-!
# `Generic::computeB4vect_ipole`: the magnetic field by way of modified Kerr-Schild coordinates

Exact reals; `none` for an exception, an infinity or NaN.  Only spherical coordinates and a positive radius: the only caller refuses other
metrics than `KerrBL` (`lib/Blob.C:659-663`).
-/

namespace Gyoto.IpoleField

open Gyoto.MetricAlg

/-- `B_1`, `B_2`, `B_3` (`lib/Astrobj.C:1501-1540`). -/
noncomputable def primitive (config : String) (rr theta : ℝ) : Option (ℝ × ℝ × ℝ) :=
  let dx1 : ℝ := 0.025
  let dx2 : ℝ := 0.025
  let gdet := √(Real.pi * Real.pi * rr ^ 6 * Real.sin theta ^ 2)
  if config = "Vertical" then
    if gdet = 0 then none else
      let F11 := Real.exp (Real.log rr - dx1) * Real.sin (theta - dx2 * Real.pi)
      let F12 := Real.exp (Real.log rr - dx1) * Real.sin (theta + dx2 * Real.pi)
      let F21 := Real.exp (Real.log rr + dx1) * Real.sin (theta - dx2 * Real.pi)
      let F22 := Real.exp (Real.log rr + dx1) * Real.sin (theta + dx2 * Real.pi)
      some (-(F11 - F12 + F21 - F22) / (2 * dx2 * gdet), (F11 + F12 - F21 - F22) / (2 * dx1 * gdet), 0)
  else if config = "Radial" then
    if gdet = 0 then none else
      let F11 := 1 - Real.cos (theta - dx2 * Real.pi)
      let F12 := 1 - Real.cos (theta + dx2 * Real.pi)
      let F21 := 1 - Real.cos (theta - dx2 * Real.pi)
      let F22 := 1 - Real.cos (theta + dx2 * Real.pi)
      some (-(F11 - F12 + F21 - F22) / (2 * dx2 * gdet), (F11 + F12 - F21 - F22) / (2 * dx1 * gdet), 0)
  else if config = "Toroidal" then some (0, 0, 1)
  else none

/-- `Ucon_KSm` (`lib/Astrobj.C:1542-1549`). -/
noncomputable def ucon (spin rr : ℝ) (vel : Vec) : Vec :=
  let dtKS_drBL := 2 * rr / (rr * rr - 2 * rr + spin * spin)
  let dphiKS_drBL := spin / (rr * rr - 2 * rr + spin * spin)
  ![vel 0 + vel 1 * dtKS_drBL, vel 1 / rr, vel 2 / Real.pi, vel 3 + vel 1 * dphiKS_drBL]

/-- `gcov_ks` (`lib/Astrobj.C:1559-1568`). -/
noncomputable def gcovKs (spin rr theta : ℝ) : Tensor :=
  let rho2 := rr * rr + spin * spin * Real.cos theta * Real.cos theta
  let s2 := Real.sin theta * Real.sin theta
  let g01 := 2 * rr / rho2
  let g03 := -2 * spin * rr * Real.sin theta * Real.sin theta / rho2
  let g13 := -spin * Real.sin theta * Real.sin theta * (1 + 2 * rr / rho2)
  ![![-1 + 2 * rr / rho2, g01, 0, g03], ![g01, 1 + 2 * rr / rho2, 0, g13], ![0, 0, rho2, 0],
    ![g03, g13, 0, s2 * (rho2 + spin * spin * Real.sin theta * Real.sin theta * (1 + 2 * rr / rho2))]]

/-- `dxdX` (`lib/Astrobj.C:1571-1580`); `hslope` is zero. -/
noncomputable def dxdX (rr : ℝ) : Tensor := ![![1, 0, 0, 0], ![0, rr, 0, 0], ![0, 0, Real.pi, 0], ![0, 0, 0, 1]]

/-- `gcov_ksm` (`lib/Astrobj.C:1582-1591`). -/
noncomputable def gcovKsm (spin rr theta : ℝ) : Tensor := fun mu nu =>
  ∑ lam, ∑ kap, gcovKs spin rr theta lam kap * dxdX rr lam mu * dxdX rr kap nu

/-- The magnetic field in Kerr-Schild coordinates, then in those of Boyer and Lindquist (`lib/Astrobj.C:1593-1612`). -/
noncomputable def field (spin rr theta : ℝ) (B : ℝ × ℝ × ℝ) (vel : Vec) : Option Vec :=
  let U := ucon spin rr vel
  let ucov : Vec := fun mu => ∑ nu, gcovKsm spin rr theta mu nu * U nu
  let delta := rr ^ 2 - 2 * rr + spin ^ 2
  if delta = 0 ∨ rr * rr + spin * spin * Real.cos theta * Real.cos theta = 0 ∨ U 0 = 0 then none else
    let B0 := B.1 * ucov 1 + B.2.1 * ucov 2 + B.2.2 * ucov 3
    let B1 := (B.1 + B0 * U 1) / U 0
    let B2 := (B.2.1 + B0 * U 2) / U 0
    let B3 := (B.2.2 + B0 * U 3) / U 0
    some ![B0 - B1 * 2 * rr ^ 2 / delta, B1 * rr, B2 * Real.pi, B3 - B1 * spin * rr / delta]

/-- `computeB4vect_ipole(B4vect, magneticConfig, co, cph, spin)` (`lib/Astrobj.C:1471-1616`). -/
noncomputable def ipole (config : String) (spin : ℝ) (cph vel : Vec) : Option Vec :=
  if cph 1 ≤ 0 then none else do
    let B ← primitive config (cph 1) (cph 2)
    field spin (cph 1) (cph 2) B vel

end Gyoto.IpoleField
