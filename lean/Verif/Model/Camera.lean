import Verif.Model.MetricAlg
import Mathlib.Analysis.SpecialFunctions.Trigonometric.Inverse
import Mathlib.Analysis.SpecialFunctions.Trigonometric.Arctan
import Mathlib.Analysis.SpecialFunctions.Complex.Arg
import Mathlib.Algebra.Order.Floor.Ring
import Mathlib.Tactic.Positivity
import Mathlib.Tactic.FieldSimp

/-!
# The camera (`lib/Screen.C`)

Doubles are reals, `sincos`, `acos`, `atan` are the real functions, `atan2(y, x)` is the argument of `x + iy`. The metric enters by
its kind of coordinates, its length unit and the value of `gmunu` at a point. `none`: an error was thrown or the result is
not a number. -/

namespace Gyoto.Camera

open Gyoto.MetricAlg (Vec Tensor)

abbrev Vec3 := Fin 3 → ℝ

/-- `gg_->coordKind()`. -/
inductive CoordKind where
  | cartesian
  | spherical
deriving DecidableEq

/-- `anglekind_` (`include/GyotoScreen.h:202`). -/
inductive AngleKind where
  | equatorial
  | rectilinear
  | spherical
deriving DecidableEq

/-- C's `atan2`. -/
noncomputable def atan2 (y x : ℝ) : ℝ := Complex.arg ⟨x, y⟩

/-- `Gyoto::cartesianToSpherical` (`lib/Utils.C:325-329`); not a number at the origin. -/
noncomputable def cartesianToSpherical (c : Vec3) : Option Vec3 :=
  let r := √(c 0 * c 0 + c 1 * c 1 + c 2 * c 2)
  if r = 0 then none else some ![r, Real.arccos (c 2 / r), atan2 (c 1) (c 0)]

/-- `Gyoto::sphericalToCartesian` (`lib/Utils.C:331-337`). -/
noncomputable def sphericalToCartesian (s : Vec3) : Vec3 :=
  ![s 0 * Real.sin (s 1) * Real.cos (s 2), s 0 * Real.sin (s 1) * Real.sin (s 2), s 0 * Real.cos (s 1)]

/-- The members of `Screen` used here (`include/GyotoScreen.h:165-260`). -/
structure Screen where
  tobs : ℝ
  distance : ℝ
  euler : Vec3
  ex : Vec3
  ey : Vec3
  ez : Vec3

/-- `Screen::computeBaseVectors` (`lib/Screen.C:986-1006`). -/
noncomputable def computeBaseVectors (s : Screen) : Screen :=
  let ca := Real.cos (s.euler 0)
  let sa := Real.sin (s.euler 0)
  let cb := Real.cos (s.euler 1)
  let sb := Real.sin (s.euler 1)
  let cc := Real.cos (s.euler 2)
  let sc := Real.sin (s.euler 2)
  { s with
    ex := ![ca * cc - sa * cb * sc, sa * cc + ca * cb * sc, sb * sc]
    ey := ![-ca * sc - sa * cb * cc, -sa * sc + ca * cb * cc, sb * cc]
    ez := ![sb * sa, -sb * ca, cb] }

/-- `Screen::coordToXYZ` (`lib/Screen.C:1066-1083`). -/
noncomputable def coordToXYZ (k : CoordKind) (pos : Vec) : Vec3 :=
  match k with
  | .spherical => ![pos 1 * Real.sin (pos 2) * Real.cos (pos 3), pos 1 * Real.sin (pos 2) * Real.sin (pos 3),
      pos 1 * Real.cos (pos 2)]
  | .cartesian => ![pos 1, pos 2, pos 3]

/-- `Screen::coordToSky` (`lib/Screen.C:1008-1017`); `ul` is 1 or `unitLength()`. -/
noncomputable def coordToSky (k : CoordKind) (ul : ℝ) (s : Screen) (pos : Vec) : Vec3 :=
  let xyz := coordToXYZ k pos
  fun i => (xyz 0 * s.ex i + xyz 1 * s.ey i + xyz 2 * s.ez i) * ul

/-- `xyz` in `Screen::skyToCoord` (`lib/Screen.C:1022-1032`). -/
noncomputable def skyToXYZ (ul : ℝ) (s : Screen) (sky : Vec3) : Vec3 :=
  let alpha := sky 0 * (1 / ul)
  let delta := sky 1 * (1 / ul)
  let zobs := sky 2 * (1 / ul)
  let ca := Real.cos (s.euler 0)
  let sa := Real.sin (s.euler 0)
  let cb := Real.cos (s.euler 1)
  let sb := Real.sin (s.euler 1)
  let cc := Real.cos (s.euler 2)
  let sc := Real.sin (s.euler 2)
  ![(-cb * sa * sc + ca * cc) * alpha + (ca * cb * sc + cc * sa) * delta + sb * sc * zobs,
    (-cb * cc * sa - ca * sc) * alpha + (ca * cb * cc - sa * sc) * delta + cc * sb * zobs,
    sa * sb * alpha - ca * sb * delta + cb * zobs]

/-- `Screen::skyToCoord` (`lib/Screen.C:1019-1047`): the three space coordinates written. -/
noncomputable def skyToCoord (k : CoordKind) (ul : ℝ) (s : Screen) (sky : Vec3) : Option Vec3 :=
  match k with
  | .cartesian => some (skyToXYZ ul s sky)
  | .spherical => cartesianToSpherical (skyToXYZ ul s sky)

/-- `Screen::setObserverPos` (`lib/Screen.C:302-331`); `c` is `GYOTO_C`. -/
noncomputable def setObserverPos (k : CoordKind) (ul c : ℝ) (s : Screen) (coord : Vec) : Option Screen :=
  let s := { s with tobs := coord 0 * ul / c }
  match k with
  | .spherical => some <| computeBaseVectors { s with
      distance := coord 1 * ul
      euler := ![Real.pi, Real.pi - coord 2, -Real.pi / 2 - coord 3] }
  | .cartesian =>
    let rks := √(coord 1 * coord 1 + coord 2 * coord 2 + coord 3 * coord 3)
    if rks = 0 then none
    else
      let thetaks := Real.arccos (coord 3 / rks)
      let phiks := atan2 (coord 2) (coord 1)
      some <| computeBaseVectors { s with
        distance := rks * ul
        euler := ![Real.pi, Real.pi - thetaks, -Real.pi / 2 - phiks] }

/-- `Screen::getObserverPos` (`lib/Screen.C:433-465`). -/
noncomputable def getObserverPos (k : CoordKind) (ul c : ℝ) (s : Screen) : Vec :=
  let r0 := s.distance / ul
  let theta0 := Real.pi - s.euler 1
  let phi0 := -Real.pi / 2 - s.euler 2
  match k with
  | .cartesian => ![s.tobs * c / ul, r0 * Real.cos phi0 * Real.sin theta0, r0 * Real.sin phi0 * Real.sin theta0,
      r0 * Real.cos theta0]
  | .spherical => ![s.tobs * c / ul, r0, theta0, phi0]

/-- The setters that touch the orientation or the axes (`lib/Screen.C:165-254`, `lib/Screen.C:302-331`). -/
inductive Op where
  | setProjection (paln incl arg : ℝ)
  | setProjectionDist (dist paln incl arg : ℝ)
  | distance (d : ℝ)
  | PALN (a : ℝ)
  | inclination (a : ℝ)
  | argument (a : ℝ)
  | metric
  | observerPos (k : CoordKind) (ul c : ℝ) (coord : Vec)

/-- One call; `none` if it throws. -/
noncomputable def Op.run (s : Screen) : Op → Option Screen
  | .setProjection p i a => some <| computeBaseVectors { s with euler := ![p, i, a] }
  | .setProjectionDist d p i a => some <| computeBaseVectors { s with distance := d, euler := ![p, i, a] }
  | .distance d => some <| computeBaseVectors { s with distance := d }
  | .PALN a => some <| computeBaseVectors { s with euler := ![a, s.euler 1, s.euler 2] }
  | .inclination a => some <| computeBaseVectors { s with euler := ![s.euler 0, a, s.euler 2] }
  | .argument a => some <| computeBaseVectors { s with euler := ![s.euler 0, s.euler 1, a] }
  | .metric => some <| computeBaseVectors s
  | .observerPos k ul c coord => setObserverPos k ul c s coord

/-! ### Direction of a ray (`lib/Screen.C:540-685`) -/

/-- Spherical angles `a`, `b` of the ray for two screen angles (`lib/Screen.C:580-639`), computed with
`boost::multiprecision`. -/
noncomputable def sphericalAngles (kind : AngleKind) (dangle1 dangle2 angle1 angle2 : ℝ) : ℝ × ℝ :=
  match kind with
  | .spherical => (angle1 + dangle1, angle2 + dangle2)
  | .rectilinear => (Real.arctan √(angle1 * angle1 + angle2 * angle2), atan2 angle2 angle1)
  | .equatorial => (Real.arccos (Real.cos angle1 * Real.cos angle2), atan2 (Real.tan angle2) (Real.sin angle1))

theorem ceil_lt {s b : ℝ} (h : s > b) : ⌈(s - 2 * Real.pi - b) / (2 * Real.pi)⌉₊ < ⌈(s - b) / (2 * Real.pi)⌉₊ := by
  have hp := Real.pi_pos
  have e : (s - 2 * Real.pi - b) / (2 * Real.pi) = (s - b) / (2 * Real.pi) - 1 := by field_simp; ring
  have h1 : 0 < (s - b) / (2 * Real.pi) := by apply div_pos <;> linarith
  rw [e]
  have h2 := Nat.ceil_pos.2 h1
  have h3 := Nat.le_ceil ((s - b) / (2 * Real.pi))
  have : ⌈(s - b) / (2 * Real.pi) - 1⌉₊ ≤ ⌈(s - b) / (2 * Real.pi)⌉₊ - 1 := by
    rw [Nat.ceil_le]
    push_cast [h2]
    linarith
  omega

/-- `while (s > b) s -= 2.*M_PI;` (`lib/Screen.C:643`). -/
noncomputable def lowerGt (b s : ℝ) : ℝ := if s > b then lowerGt b (s - 2 * Real.pi) else s
termination_by ⌈(s - b) / (2 * Real.pi)⌉₊
decreasing_by exact ceil_lt (by assumption)

/-- `while (s < b) s += 2.*M_PI;` (`lib/Screen.C:644` and `lib/Screen.C:650`). -/
noncomputable def raiseLt (b s : ℝ) : ℝ := if s < b then raiseLt b (s + 2 * Real.pi) else s
termination_by ⌈(b - s) / (2 * Real.pi)⌉₊
decreasing_by
  have := ceil_lt (s := -s) (b := -b) (by linarith)
  rw [show b - (s + 2 * Real.pi) = -s - 2 * Real.pi - -b by ring, show b - s = -s - -b by ring]
  exact this

theorem floor_lt {s b : ℝ} (h : s ≥ b) : ⌊(s - 2 * Real.pi - b) / (2 * Real.pi) + 1⌋₊ < ⌊(s - b) / (2 * Real.pi) + 1⌋₊ := by
  have hp := Real.pi_pos
  have e : (s - 2 * Real.pi - b) / (2 * Real.pi) + 1 = (s - b) / (2 * Real.pi) := by field_simp; ring
  have h1 : 0 ≤ (s - b) / (2 * Real.pi) := by apply div_nonneg <;> linarith
  rw [e, Nat.floor_add_one h1]
  omega

/-- `while (s >= b) s -= 2.*M_PI;` (`lib/Screen.C:649`). -/
noncomputable def lowerGe (b s : ℝ) : ℝ := if s ≥ b then lowerGe b (s - 2 * Real.pi) else s
termination_by ⌊(s - b) / (2 * Real.pi) + 1⌋₊
decreasing_by exact floor_lt (by assumption)

/-- "Move these two angles to [0,pi], [0,2pi]" (`lib/Screen.C:641-652`). -/
noncomputable def moveAngles (a b : ℝ) : ℝ × ℝ :=
  let s1 := raiseLt (-Real.pi) (lowerGt Real.pi a)
  let p : ℝ × ℝ := if s1 < 0 then (-s1, b + Real.pi) else (s1, b)
  (p.1, raiseLt 0 (lowerGe (2 * Real.pi) p.2))

/-- `vel` before rotation (`lib/Screen.C:663-665`). -/
noncomputable def velOf (a b : ℝ) : Vec3 := ![-Real.sin a * Real.cos b, -Real.sin a * Real.sin b, -Real.cos a]

/-- Rotations of `vel` by `dangle1_`, `dangle2_` and, for observers not at infinity, the position angle (`lib/Screen.C:666-685`). -/
noncomputable def rotateVel (kind : AngleKind) (atInfinity : Bool) (dangle1 dangle2 euler0 : ℝ) (vel : Vec3) : Vec3 :=
  if kind = .spherical then vel
  else
    let c := Real.cos dangle1
    let s := Real.sin dangle1
    let r : Vec3 := ![c * vel 0 + s * vel 2, vel 1, -s * vel 0 + c * vel 2]
    let c := Real.cos dangle2
    let s := Real.sin dangle2
    let v : Vec3 := ![r 0, c * r 1 - s * r 2, s * r 1 + c * r 2]
    if atInfinity then v
    else
      let c := Real.cos (Real.pi - euler0)
      let s := Real.sin (Real.pi - euler0)
      ![c * r 0 - s * v 1, s * r 0 + c * v 1, v 2]

/-- The direction used for a pair of screen angles. -/
noncomputable def velFor (kind : AngleKind) (atInfinity : Bool) (dangle1 dangle2 euler0 angle1 angle2 : ℝ) : Vec3 :=
  let ab := sphericalAngles kind dangle1 dangle2 angle1 angle2
  let ab := moveAngles ab.1 ab.2
  rotateVel kind atInfinity dangle1 dangle2 euler0 (velOf ab.1 ab.2)

/-- The tangent vector for an observer with a local frame (`lib/Screen.C:780-795`). -/
def rayFrame (u e1 e2 e3 : Vec) (vel : Vec3) : Vec := fun k => vel 0 * e1 k + vel 1 * e2 k + vel 2 * e3 k + u k

/-- Space components for an observer at infinity (`lib/Screen.C:688-741`); errors: too near, on the axis. -/
noncomputable def rayInfinity (k : CoordKind) (s : Screen) (g : Tensor) (pos : Vec) (vel : Vec3) : Option Vec3 :=
  match k with
  | .cartesian =>
    if pos 1 * pos 1 + pos 2 * pos 2 + pos 3 * pos 3 < 20 then none
    else some ![∑ i, vel i * s.ex i, ∑ i, vel i * s.ey i, ∑ i, vel i * s.ez i]
  | .spherical =>
    if pos 2 = 0 ∨ pos 2 = Real.pi ∨ pos 1 < 20 ∨ g 1 1 ≤ 0 ∨ g 2 2 ≤ 0 ∨ g 3 3 ≤ 0 then none
    else
      let sp := Real.sin (s.euler 0)
      let cp := Real.cos (s.euler 0)
      some ![-vel 2 / √(g 1 1), (-sp * vel 0 + cp * vel 1) / √(g 2 2), (cp * vel 0 + sp * vel 1) / √(g 3 3)]

/-- The 8-vector launched by an observer at infinity (`lib/Screen.C:577` and `lib/Screen.C:688-744`). -/
noncomputable def launchInfinity (k : CoordKind) (s : Screen) (gmunu : Vec → Tensor) (pos : Vec) (vel : Vec3) :
    Option (Fin 8 → ℝ) :=
  match rayInfinity k s (gmunu pos) pos vel with
  | none => none
  | some v => (MetricAlg.nullifyCoord gmunu ![pos 0, pos 1, pos 2, pos 3, 0, v 0, v 1, v 2]).map Prod.fst

/-- Screen components of the polarisation basis (`lib/Screen.C:804-810`). -/
noncomputable def polarBasis (a b : ℝ) : Vec3 × Vec3 :=
  let ca := Real.cos a
  let sa := Real.sin a
  let cb := Real.cos b
  let sb := Real.sin b
  (![-sb * sb * (1 - ca) - ca, sb * cb * (1 - ca), cb * sa], ![-sb * cb * (1 - ca), cb * cb * (1 - ca) + ca, -sb * sa])

/-- Components of a screen vector for an observer at infinity, spherical coordinates (`lib/Screen.C:815-832`). -/
noncomputable def screenToSpherical (euler0 : ℝ) (g : Tensor) (e : Vec3) : Vec3 :=
  let so := Real.sin euler0
  let co := Real.cos euler0
  ![-e 2 / √(g 1 1), (-so * e 0 + co * e 1) / √(g 2 2), (co * e 0 + so * e 1) / √(g 3 3)]

/-- Same in Cartesian coordinates (`lib/Screen.C:859-876`); `theta`, `phi` are the angles of the position. -/
noncomputable def screenToCartesian (euler0 theta phi : ℝ) (e : Vec3) : Vec3 :=
  let so := Real.sin euler0
  let co := Real.cos euler0
  let ct := Real.cos theta
  let st := Real.sin theta
  let cp := Real.cos phi
  let sp := Real.sin phi
  ![e 0 * (-co * sp - so * ct * cp) + e 1 * (-so * sp + co * ct * cp) - e 2 * st * cp,
    e 0 * (co * cp - so * ct * sp) + e 1 * (so * cp + co * ct * sp) - e 2 * st * sp,
    e 0 * st * so - e 1 * st * co - e 2 * ct]

/-- Screen angles of pixel `(i, j)` (`lib/Screen.C:488-538`), `1 ≤ i, j ≤ npix`; `none`: error or not a number. -/
noncomputable def pixelAngles (kind : AngleKind) (fov azimuthalFov : ℝ) (npix i j : Nat) : Option (ℝ × ℝ) :=
  match kind with
  | .spherical =>
    if npix = 1 then none
    else some (((i : ℝ) - 1) * fov / (2 * ((npix : ℝ) - 1)),
      Real.pi - ((j : ℝ) - 1) * azimuthalFov / ((npix : ℝ) - 1))
  | .equatorial =>
    let delta := fov / npix
    some (-delta * ((i : ℝ) - ((npix : ℝ) + 1) / 2), delta * ((j : ℝ) - ((npix : ℝ) + 1) / 2))
  | .rectilinear =>
    if fov ≥ Real.pi then none
    else
      let delta := 2 * Real.tan (fov * 0.5) / npix
      some (-delta * ((i : ℝ) - ((npix : ℝ) + 1) / 2), delta * ((j : ℝ) - ((npix : ℝ) + 1) / 2))

/-- The move to `dmax_` of an observer farther away (`lib/Screen.C:556-576`): position and angles. -/
noncomputable def rescale (k : CoordKind) (robs dmax : ℝ) (pos : Vec) (angle1 angle2 : ℝ) : Vec × ℝ × ℝ :=
  if robs > dmax then
    let scale := robs / dmax
    (match k with
     | .spherical => ![pos 0 - (robs - dmax), dmax, pos 2, pos 3]
     | .cartesian => ![pos 0 - (robs - dmax), pos 1 / scale, pos 2 / scale, pos 3 / scale],
     angle1 * scale, angle2 * scale)
  else (pos, angle1, angle2)

end Gyoto.Camera
