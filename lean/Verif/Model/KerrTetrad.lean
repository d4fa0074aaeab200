import Verif.Model.KerrMotion

/-!
# The observer's tetrad in the Kerr metric (`lib/KerrBL.C:1294-1337`)

Doubles are reals.
-/

namespace Gyoto.KerrBL

open Gyoto.MetricAlg

/-- `fourvel`, `screen1`, `screen2`, `screen3` after `observerTetrad`. -/
structure Tetrad where
  u : Vec
  s1 : Vec
  s2 : Vec
  s3 : Vec

/-- `observerTetrad(pos, fourvel, screen1, screen2, screen3)` (`lib/KerrBL.C:1294-1337`); `none` when `normalizeFourVel` divides
by zero. -/
noncomputable def tetrad (a : ℝ) (pos fourvel : Vec) : Option Tetrad :=
  let g := gmunu a pos
  (normalizeFourVel g fourvel).map fun uu =>
    let gtt := g 0 0
    let grr := g 1 1
    let gthth := g 2 2
    let gpp := g 3 3
    let gtp := g 0 3
    let rho2 := gtp * gtp - gtt * gpp
    let ud := dualOneForm g uu
    let cst1 := -1 / √(-(uu 0 * ud 0 + uu 3 * ud 3) * rho2)
    let cst2 := -1 / √(gthth * (1 + ud 2 * uu 2))
    let cst3 := -1 / √(-grr * (1 + ud 2 * uu 2) * (uu 0 * ud 0 + uu 3 * ud 3))
    { u := uu
      s1 := ![cst1 * ud 3, 0, 0, -cst1 * ud 0]
      s2 := ![cst2 * uu 0 * ud 2, cst2 * uu 1 * ud 2, cst2 * (1 + uu 2 * ud 2), cst2 * uu 3 * ud 2]
      s3 := ![cst3 * uu 0 * ud 1, -cst3 * (uu 0 * ud 0 + uu 3 * ud 3), 0, cst3 * uu 3 * ud 1] }

end Gyoto.KerrBL
