import Verif.Model.UniformSphere

/-!
# How far objects extend (`lib/Torus.C`, `lib/FixedStar.C`, `lib/Star.C`)

Doubles are reals; `DBL_MAX` in `rmax_` is `none`.
-/

namespace Gyoto.Extent

open Gyoto.USphere Real

/-- `rr` of `Photon::hit` (`lib/Photon.C:659-668`). -/
noncomputable def rr (k : Kind) (c : P3) : ℝ :=
  match k with
  | .spherical => c.1
  | .cartesian => √(c.1 * c.1 + c.2.1 * c.2.1 + c.2.2 * c.2.2)

/-- The test `rr<rmax` of `Photon::hit` (`lib/Photon.C:300`, `:677`): `Impact` is called only where it holds. -/
def asked (rmax : Option ℝ) (r : ℝ) : Prop :=
  match rmax with
  | none => True
  | some m => r < m

/-! ## `Torus` -/

/-- The members of a `Torus` (`include/GyotoTorus.h`), those of `Standard` and `Generic` that it uses. -/
structure Torus where
  c : ℝ
  critical : ℝ
  safety : ℝ
  rmax : Option ℝ

/-- The constructor (`lib/Torus.C:50-59`). -/
noncomputable def Torus.new : Torus := ⟨3.5, 0.25, 0.3, none⟩

/-- `largeRadius(c)` (`lib/Torus.C:82`). -/
def Torus.largeRadius (t : Torus) (c : ℝ) : Torus := { t with c := c }

/-- `smallRadius(a)` (`lib/Torus.C:87-90`). -/
noncomputable def Torus.smallRadius (t : Torus) (a : ℝ) : Torus := { t with critical := a * a, safety := a * a * 1.1 }

/-- `smallRadius()` (`lib/Torus.C:77`). -/
noncomputable def Torus.getSmall (t : Torus) : ℝ := √t.critical

/-- `rMax()` (`lib/Torus.C:101-106`): the object after the call; its `rmax` is what is returned. -/
noncomputable def Torus.rMax (t : Torus) : Torus :=
  match t.rmax with
  | none => { t with rmax := some (3 * (t.c + √t.critical)) }
  | some _ => t

/-- `operator()` (`lib/Torus.C:130-146`). -/
noncomputable def Torus.value (t : Torus) (k : Kind) (p : P3) : ℝ :=
  let (drproj, h) := match k with
    | .spherical => (p.1 * sin p.2.1 - t.c, p.1 * cos p.2.1)
    | .cartesian => (√(p.1 * p.1 + p.2.1 * p.2.1) - t.c, p.2.2)
  drproj * drproj + h * h

open Classical in
/-- `deltaMax` (`lib/Torus.C:148-152`). -/
noncomputable def Torus.deltaMax (t : Torus) (k : Kind) (p : P3) : ℝ :=
  let d2 := t.value k p
  let d2 := if d2 < t.critical then t.critical else d2
  0.1 * √d2

/-- `pos2` of `getVelocity` (`lib/Torus.C:154-171`): where the circular velocity is taken. -/
noncomputable def Torus.velocityAt (k : Kind) (p : P3) : P3 :=
  match k with
  | .cartesian => (p.1, p.2.1, 0)
  | .spherical => (p.1 * sin p.2.1, π * 0.5, p.2.2)

/-- Calls on a `Torus`. -/
inductive TCall where
  | large (c : ℝ)
  | small (a : ℝ)
  | rMax

noncomputable def Torus.call (t : Torus) : TCall → Torus
  | .large c => t.largeRadius c
  | .small a => t.smallRadius a
  | .rMax => t.rMax

/-! ## `FixedStar` -/

/-- The members of a `FixedStar` and the kind of coordinates of its metric. -/
structure Fixed where
  kind : Kind
  pos : P3
  sphere : Sphere

/-- `position(v)` (`lib/FixedStar.C:179-185`); `none` is the error. -/
noncomputable def Fixed.position (f : Fixed) (v : List ℝ) : Option Fixed :=
  match v with
  | [a, b, c] => some { f with pos := (a, b, c), sphere := f.sphere.setRadius f.sphere.radius }
  | _ => none

/-- `radius(r)` (`lib/FixedStar.C:147-158`). -/
noncomputable def Fixed.radius (f : Fixed) (r : ℝ) : Fixed := { f with sphere := f.sphere.setRadius r }

/-- `metric(gg)` (`lib/FixedStar.C:139-145`). -/
noncomputable def Fixed.metric (f : Fixed) (k : Kind) : Fixed := { f with kind := k, sphere := f.sphere.setRadius f.sphere.radius }

/-- `rMax()` (`lib/FixedStar.C:160-174`). -/
noncomputable def Fixed.rMax (f : Fixed) : Fixed :=
  match f.sphere.rmax with
  | none =>
    let m := match f.kind with
      | .spherical => 3 * (f.pos.1 + f.sphere.radius)
      | .cartesian => 3 * (√(f.pos.1 * f.pos.1 + f.pos.2.1 * f.pos.2.1 + f.pos.2.2 * f.pos.2.2) + f.sphere.radius)
    { f with sphere := { f.sphere with rmax := some m } }
  | some _ => f

/-- The position given by `getCartesian` (`lib/FixedStar.C:84-121`). -/
noncomputable def Fixed.centre (f : Fixed) : P3 :=
  match f.kind with
  | .cartesian => f.pos
  | .spherical => (f.pos.1 * sin f.pos.2.1 * cos f.pos.2.2, f.pos.1 * sin f.pos.2.1 * sin f.pos.2.2, f.pos.1 * cos f.pos.2.1)

/-- `operator()` (`lib/UniformSphere.C:140-192`), the metric not being `SchwarzschildHarmonic`. -/
noncomputable def Fixed.value (f : Fixed) (p : P3) : Option ℝ := USphere.value f.kind false f.centre p

/-- Calls on a `FixedStar`. -/
inductive FCall where
  | position (v : List ℝ)
  | radius (r : ℝ)
  | metric (k : Kind)
  | rMax

/-- One call, the error being caught. -/
noncomputable def Fixed.call (f : Fixed) : FCall → Fixed
  | .position v => (f.position v).getD f
  | .radius r => f.radius r
  | .metric k => f.metric k
  | .rMax => f.rMax

/-! ## `Star` -/

open Classical in
/-- The loop of `Star::rMax` (`lib/Star.C:194-200`) over the points of the orbit that are computed. -/
noncomputable def starLoop (k : Kind) : List P3 → ℝ → ℝ
  | [], m => m
  | p :: ps, m =>
    let m := if p.1 > m then p.1 else m
    let m := match k with
      | .cartesian =>
        let m := if p.2.1 > m then p.2.1 else m
        if p.2.2 > m then p.2.2 else m
      | .spherical => m
    starLoop k ps m

/-- `Star::rMax()` (`lib/Star.C:189-204`): what is kept and returned.  `orbit` are the points from `imin_` to `imax_`; `i0` is the index of the first
one in it. -/
noncomputable def starRMax (k : Kind) (orbit : List P3) (i0 : ℕ) (rmax : Option ℝ) : Option ℝ :=
  match rmax with
  | some m => some m
  | none =>
    match orbit[i0]? with
    | none => none
    | some p => some (starLoop k orbit p.1 * 3)

end Gyoto.Extent
