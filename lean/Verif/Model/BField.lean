import Verif.Model.MetricAlg
import Mathlib.Analysis.SpecialFunctions.Pow.Real
import Mathlib.Analysis.SpecialFunctions.Trigonometric.Basic

/-!
# Magnetic field vector of an emitter (`lib/Astrobj.C:1248-1469`)

Doubles are reals.  `none`: an error is thrown or the result is not a number (a division by zero or the square root of a negative
number makes some component infinite or NaN).  `g` is the metric at the point, `vel` the emitter's four-velocity.
-/

namespace Gyoto.BField

open Gyoto.MetricAlg

/-- Division, without a finite result when the divisor is zero. -/
noncomputable def div? (a b : ℝ) : Option ℝ := if b = 0 then none else some (a / b)

/-- `sqrt`, NaN for negative numbers. -/
noncomputable def sqrt? (a : ℝ) : Option ℝ := if a < 0 then none else some (√a)

/-- Vertical configuration, spherical coordinates (`lib/Astrobj.C:1305-1314`). -/
noncomputable def verticalSph (g : Tensor) (vel : Vec) (theta : ℝ) : Option Vec :=
  (sqrt? (g 1 1)).bind fun sr => (sqrt? (g 2 2)).bind fun st =>
  (div? (vel 1 * sr * Real.cos theta - vel 2 * st * Real.sin theta) (vel 0 * g 0 0 + vel 3 * g 0 3)).bind fun A =>
  (div? 1 (1 + g 0 0 * A * A)).bind fun q => (sqrt? q).bind fun al =>
  (div? (al * Real.cos theta) sr).bind fun b1 => (div? (-al * Real.sin theta) st).bind fun b2 =>
  some ![-al * A, b1, b2, 0]

/-- Radial configuration, spherical coordinates (`lib/Astrobj.C:1335-1342`). -/
noncomputable def radialSph (g : Tensor) (vel : Vec) : Option Vec :=
  (sqrt? (g 1 1)).bind fun sr => (div? (vel 1 * sr) (vel 0 * g 0 0 + vel 3 * g 0 3)).bind fun A =>
  (div? 1 (1 + g 0 0 * A * A)).bind fun q => (sqrt? q).bind fun al =>
  (div? al sr).bind fun b1 => some ![-al * A, b1, 0, 0]

/-- Toroidal configuration, spherical coordinates (`lib/Astrobj.C:1365-1376`). -/
noncomputable def toroidalSph (g : Tensor) (vel : Vec) : Option Vec :=
  if vel 0 = 0 then none else
  let omega := vel 3 / vel 0
  (div? (g 0 3 + omega * g 3 3) (g 0 0 + omega * g 0 3)).bind fun A =>
  (div? 1 (A * A * g 0 0 - 2 * g 0 3 * A + g 3 3)).bind fun bp2 =>
  if bp2 < 0 then none else some ![-√bp2 * A, 0, 0, √bp2]

/-- Poloidal configuration, spherical coordinates (`lib/Astrobj.C:1396-1402`). -/
noncomputable def poloidalSph (g : Tensor) (vel : Vec) : Option Vec :=
  (div? 1 (g 0 0 * vel 0 * vel 0 + g 2 2 * vel 2 * vel 2)).bind fun A =>
  (div? (g 2 2 * vel 2 * vel 2 * A) (g 0 0)).bind fun x => (sqrt? x).bind fun b0 =>
  (div? (A * g 0 0 * vel 0 * vel 0) (g 2 2)).bind fun y => (sqrt? y).bind fun b2 =>
  some ![b0, 0, b2, 0]

/-- Sign of the cosine (`lib/Astrobj.C:1437`). -/
noncomputable def hemisphere (theta : ℝ) : ℝ :=
  if theta = Real.pi / 2 then 1 else Real.cos theta / |Real.cos theta|

/-- Parabolic configuration, spherical coordinates (`lib/Astrobj.C:1424-1449`).  Off the equator `hemisphere` divides by a
non-zero number; `M_PI/2.` is taken to be exact. -/
noncomputable def parabolicSph (g : Tensor) (vel : Vec) (rr theta par : ℝ) : Option Vec :=
  if par < 0 ∨ par > 1.25 then none else
  let sgn := hemisphere theta
  let ut := g 0 0 * vel 0
  let ur := g 1 1 * vel 1
  let uth := g 2 2 * vel 2
  (div? (uth * par * rr ^ (par - 3) * (1 - |Real.cos theta|)) (Real.sin theta)).bind fun x =>
  let f0 := 0.5 * ur * sgn * rr ^ (par - 2) - x
  let f1 := -0.5 * ut * sgn * rr ^ (par - 2)
  let f2 := if theta = 0 then 0 else 0.5 * ut * (1 - |Real.cos theta|) / Real.sin theta * rr ^ (par - 3) * par
  let f : Vec := ![f0, f1, f2, 0]
  (sqrt? (scalarProd g f f)).bind fun n =>
  (div? (f 0) n).bind fun b0 => (div? (f 1) n).bind fun b1 => (div? (f 2) n).bind fun b2 => (div? (f 3) n).bind fun b3 =>
  some ![b0, b1, b2, b3]

/-- Cartesian coordinates, from the space direction (`lib/Astrobj.C:1316-1324, 1344-1354, 1406-1413`). -/
noncomputable def cartesian (g : Tensor) (vel : Vec) (bx y z : ℝ) : Option Vec :=
  (div? (-(vel 0 * (g 0 1 * bx + g 0 2 * y + g 0 3 * z) + vel 1 * (g 1 1 * bx + g 1 2 * y + g 1 3 * z) +
      vel 2 * (g 1 2 * bx + g 2 2 * y + g 2 3 * z) + vel 3 * (g 1 3 * bx + g 2 3 * y + g 3 3 * z)))
    (g 0 0 * vel 0 + g 0 1 * vel 1 + g 0 2 * vel 2 + g 0 3 * vel 3)).bind fun A =>
  (sqrt? (g 0 0 * A * A + g 1 1 * bx * bx + g 2 2 * y * y + g 3 3 * z * z +
    2 * (g 0 1 * bx * A + g 0 2 * y * A + g 0 3 * z * A + g 1 2 * bx * y + g 1 3 * bx * z + g 2 3 * y * z))).bind fun n =>
  (div? 1 n).bind fun alpha => some ![alpha * A, alpha * bx, alpha * y, alpha * z]

/-- Toroidal configuration, Cartesian coordinates (`lib/Astrobj.C:1377-1385`). -/
noncomputable def toroidalCart (g : Tensor) (vel : Vec) (xx yy : ℝ) : Option Vec :=
  (div? (-(vel 0 * (xx * g 0 2 - yy * g 0 1) + vel 1 * (xx * g 1 2 - yy * g 1 1) + vel 2 * (xx * g 2 2 - yy * g 1 2) +
      vel 3 * (xx * g 2 3 - yy * g 1 3)))
    (g 0 0 * vel 0 + g 0 1 * vel 1 + g 0 2 * vel 2 + g 0 3 * vel 3)).bind fun A =>
  (sqrt? (g 0 0 * A * A + g 1 1 * yy * yy + g 2 2 * xx * xx + 2 * (g 0 2 * xx * A - g 0 1 * yy * A - g 1 2 * xx * yy))).bind fun n =>
  (div? 1 n).bind fun alpha => some ![alpha * A, -alpha * yy, alpha * xx, 0]

/-- Poloidal configuration, Cartesian coordinates (`lib/Astrobj.C:1403-1413`, radii from `1283-1284`). -/
noncomputable def poloidalCart (g : Tensor) (vel : Vec) (xx yy zz : ℝ) : Option Vec :=
  let rcyl := √(xx * xx + yy * yy)
  let rr := √(xx * xx + yy * yy + zz * zz)
  (div? (xx * zz) (rr * rcyl)).bind fun bx => (div? (yy * zz) (rr * rcyl)).bind fun y => (div? (-rcyl) rr).bind fun z =>
  cartesian g vel bx y z

/-- The configurations (`lib/Astrobj.C:1303-1465`). -/
inductive Config where
  | vertical | radial | toroidal | poloidal | parabolic

/-- Reading of `magneticConfig` (`lib/Astrobj.C:1304, 1334, 1364, 1395, 1423, 1464`): configuration and whether it is reversed. -/
def parse (s : String) : Option (Config × Bool) :=
  if s = "Vertical" ∨ s = "Vertical-n" then some (.vertical, s == "Vertical-n")
  else if s = "Radial" ∨ s = "Radial-n" then some (.radial, s == "Radial-n")
  else if s = "Toroidal" ∨ s = "Toroidal-n" then some (.toroidal, s == "Toroidal-n")
  else if s = "Poloidal" ∨ s = "Poloidal-n" then some (.poloidal, s == "Poloidal-n")
  else if s = "Parabolic" ∨ s = "Parabolic-n" then some (.parabolic, s == "Parabolic-n")
  else none

/-- The vector before reversal (`lib/Astrobj.C:1303-1465`); other coordinate kinds are an error (`1299`). -/
noncomputable def vector (kind : CoordKind) (g : Tensor) (vel pos : Vec) (par : ℝ) : Config → Option Vec :=
  match kind with
  | .spherical => fun c => match c with
    | .vertical => verticalSph g vel (pos 2)
    | .radial => radialSph g vel
    | .toroidal => toroidalSph g vel
    | .poloidal => poloidalSph g vel
    | .parabolic => parabolicSph g vel (pos 1) (pos 2) par
  | .cartesian => fun c => match c with
    | .vertical => cartesian g vel 0 0 1
    | .radial => cartesian g vel (pos 1) (pos 2) (pos 3)
    | .toroidal => toroidalCart g vel (pos 1) (pos 2)
    | .poloidal => poloidalCart g vel (pos 1) (pos 2) (pos 3)
    | .parabolic => none

/-- `Generic::computeB4vect` (`lib/Astrobj.C:1248-1469`). -/
noncomputable def computeB4vect (kind : CoordKind) (g : Tensor) (name : String) (vel pos : Vec) (par : ℝ) : Option Vec :=
  (parse name).bind fun (c, rev) => (vector kind g vel pos par c).map fun b =>
    if rev then ![b 0 * -1, b 1 * -1, b 2 * -1, b 3 * -1] else b

end Gyoto.BField
