import Verif.Model.Static
import Mathlib.Analysis.SpecialFunctions.Pow.Real
import Mathlib.Analysis.SpecialFunctions.Sqrt

/-!
# The Keplerian motion and the Keplerian observer of `Minkowski`

Doubles are reals; `pow` is the power of reals.  A state holds 8 numbers: the coordinates and their derivatives with respect to proper
time.  `diff` is modelled for a massive particle with `keplerian_` set; otherwise it is that of every metric
(`lib/Minkowski.C:240-241`), which other modules cover.  Where the code divides by zero (the axis in spherical coordinates, `tdot` nul)
the value is infinite or NaN in the code: these places are excluded by the hypotheses of the theorems.
-/

namespace Gyoto.MinkowskiKepler

open Gyoto.MetricAlg Gyoto.KerrBL

/-- `xi[0..7]`: coordinates and their derivatives (`lib/Minkowski.C:248-252`, `:271-272`, `:277-292`). -/
structure State where
  /-- `xi[0]`. -/
  t : ℝ
  /-- `xi[1]`. -/
  x : ℝ
  /-- `xi[2]`. -/
  y : ℝ
  /-- `xi[3]`. -/
  z : ℝ
  /-- `xi[4]`. -/
  td : ℝ
  /-- `xi[5]`. -/
  xd : ℝ
  /-- `xi[6]`. -/
  yd : ℝ
  /-- `xi[7]`. -/
  zd : ℝ

/-- The Cartesian coordinates of a place given by `r`, `theta`, `phi`, and their derivatives (`lib/Minkowski.C:287-301`). -/
noncomputable def toCartesian (s : State) : State :=
  let r := s.x
  let theta := s.y
  let phi := s.z
  let rdot := s.xd
  let thetadot := s.yd
  let phidot := s.zd
  let sth := Real.sin theta
  let cth := Real.cos theta
  let sph := Real.sin phi
  let cph := Real.cos phi
  { t := s.t
    x := r * sth * cph
    y := r * sth * sph
    z := r * cth
    td := s.td
    xd := rdot * sth * cph + r * thetadot * cth * cph - r * phidot * sth * sph
    yd := rdot * sth * sph + r * thetadot * cth * sph + r * phidot * sth * cph
    zd := rdot * cth - r * thetadot * sth }

/-- `tdotdot`, `xdotdot`, `ydotdot`, `zdotdot` from the Cartesian state and `r3` (`lib/Minkowski.C:336-346`). -/
noncomputable def newton (s : State) (r3 : ℝ) : ℝ × ℝ × ℝ × ℝ :=
  let tdot3 := s.td * s.td * s.td
  let tdotdot := -tdot3 * (s.x * s.xd + s.y * s.yd + s.z * s.zd) / r3
  (tdotdot,
   (-s.x * tdot3 / r3 + tdotdot * s.xd) / s.td,
   (-s.y * tdot3 / r3 + tdotdot * s.yd) / s.td,
   (-s.z * tdot3 / r3 + tdotdot * s.zd) / s.td)

/-- `diff` of a massive particle in Cartesian coordinates with `keplerian_` (`lib/Minkowski.C:231-379`); `none`: it returns 1. -/
noncomputable def diffCartesian (s : State) : Option State :=
  let r3 := (s.x * s.x + s.y * s.y + s.z * s.z) ^ (1.5 : ℝ)
  if r3 = 0 then none
  else
    let n := newton s r3
    some { t := s.td, x := s.xd, y := s.yd, z := s.zd, td := n.1, xd := n.2.1, yd := n.2.2.1, zd := n.2.2.2 }

/-- `rdotdot`, `thetadotdot`, `phidotdot` (`lib/Minkowski.C:359-370`) from `r`, `rdot`, the Cartesian state and the second derivatives of
its coordinates. -/
noncomputable def back (r rdot : ℝ) (c : State) (xdotdot ydotdot zdotdot : ℝ) : ℝ × ℝ × ℝ :=
  let x := c.x
  let y := c.y
  let z := c.z
  let xdot := c.xd
  let ydot := c.yd
  let zdot := c.zd
  let rdotdot := (xdotdot * x + ydotdot * y + zdotdot * z + xdot * xdot + ydot * ydot + zdot * zdot - rdot * rdot) / r
  let thetadotdot := ((z * rdotdot - zdotdot * r)
      - ((z * rdot - zdot * r) * (2 * rdot * r * r * r - zdot * z * r * r - z * z * rdot * r) / (r * r * r * r - z * z * r * r)))
    * (r * r * r * r - z * z * r * r) ^ (-0.5 : ℝ)
  let phidotdot := ((ydotdot * x - y * xdotdot) * (x * x + y * y) - 2 * (ydot * x - y * xdot) * (x * xdot + y * ydot))
    / ((x * x + y * y) * (x * x + y * y))
  (rdotdot, thetadotdot, phidotdot)

/-- `diff` of a massive particle in spherical coordinates with `keplerian_` (`lib/Minkowski.C:231-379`); `none`: it returns 1. -/
noncomputable def diffSpherical (s : State) : Option State :=
  let r := s.x
  let r3 := r * r * r
  if r3 = 0 then none
  else
    let c := toCartesian s
    let n := newton c r3
    let b := back r s.xd c n.2.1 n.2.2.1 n.2.2.2
    some { t := s.td, x := s.xd, y := s.yd, z := s.zd, td := n.1, xd := b.1, yd := b.2.1, zd := b.2.2 }

/-! ## The observer -/

/-- `fourvel`, `screen1`, `screen2`, `screen3`. -/
structure Frame where
  /-- `fourvel`. -/
  u : Vec
  /-- `screen1`. -/
  e1 : Vec
  /-- `screen2`. -/
  e2 : Vec
  /-- `screen3`. -/
  e3 : Vec

/-- What `observerTetrad` computes for a Keplerian observer (`lib/Minkowski.C:190-219`); `none`: it throws ("bad values"). -/
noncomputable def keplerFrame (pos : Vec) : Option Frame :=
  let g := Static.mkGmunu .spherical pos
  let gtt := g 0 0
  let grr := g 1 1
  let gthth := g 2 2
  let gpp := g 3 3
  let omega := 1 / (pos 1) ^ (1.5 : ℝ)
  let ut2 := -1 / (gtt + gpp * omega * omega)
  if ut2 ≤ 0 ∨ grr ≤ 0 ∨ gthth ≤ 0 then none
  else
    let ut := √ut2
    let fact1 := gpp * omega / gtt
    let fact2 := gtt * fact1 * fact1 + gpp
    if fact2 ≤ 0 then none
    else
      let a2 := 1 / √fact2
      let a1 := -a2 * fact1
      some { u := ![ut, 0, 0, omega * ut]
             e1 := ![-a1, 0, 0, -a2]
             e2 := ![0, 0, -1 / √gthth, 0]
             e3 := ![0, -1 / √grr, 0, 0] }

/-- `Generic::observerTetrad(GYOTO_OBSKIND_KEPLERIAN, …)` on what the vectors hold (`lib/Metric.C:755-768`): `circularVelocity` throws
without `keplerian_` (`:562-568`), otherwise it gives a velocity and the frame is built again from it.  `again` stands for this second
construction, which other modules cover. -/
def genericFrame (keplerian : Bool) (again : Option Frame) : Option Frame :=
  if keplerian then again else none

/-- `Minkowski::observerTetrad(GYOTO_OBSKIND_KEPLERIAN, …)` in spherical coordinates (`lib/Minkowski.C:182-221`). -/
noncomputable def observerFrame (keplerian : Bool) (again : Option Frame) (pos : Vec) : Option Frame :=
  (keplerFrame pos).bind fun _ => genericFrame keplerian again

end Gyoto.MinkowskiKepler
