import Verif.Model.MetricAlg
import Verif.Model.Transfer
import Verif.Model.UniformSphere
import Mathlib.Analysis.SpecialFunctions.Trigonometric.Arctan

/-!
# Spheres that move on a path of their own (`lib/FreeStar.C`, `lib/Blob.C`, `lib/Plasmoid.C`) or grow (`lib/InflateStar.C`)

Doubles are reals. A `std::vector<double>` is a list. An array of doubles that has not been written since `new double[4]` is `none`:
reading it is undefined. A quotient by zero is undefined too (`Out.ub`). The messages on the standard output are left out.
-/

namespace Gyoto.Moving

open Gyoto.MetricAlg (Vec Tensor scalarProd normalizeFourVel)
open Gyoto.Transfer (Out)
open Gyoto.USphere (Kind P3 Sphere)

/-- What these objects ask of a metric: `coordKind()`, `gmunu(g, pos)`, `circularVelocity(pos, vel)` (with `dir=1`). -/
structure Met where
  kind : Kind
  g : Vec → Tensor
  circ : Vec → Vec

/-- A call returns, or throws (the object may have been changed), or is undefined. -/
inductive Res (α : Type) where
  | ok (x : α)
  | throws (x : α)
  | ub

/-- A quotient in `double`, undefined for zero. -/
noncomputable def quot (a b : ℝ) : Out ℝ := if b = 0 then .ub else .ok (a / b)

/-- Sequence of two actions. -/
def bind {α β : Type} (x : Out α) (f : α → Out β) : Out β :=
  match x with
  | .ok a => f a
  | .throws => .throws
  | .ub => .ub

/-- The last lines of `getCartesian` (`lib/FreeStar.C:189-191`, `lib/Blob.C:850-852`, `lib/Plasmoid.C:591-593`). -/
noncomputable def cartesian (c : P3) : P3 :=
  (c.1 * Real.sin c.2.1 * Real.cos c.2.2, c.1 * Real.sin c.2.1 * Real.sin c.2.2, c.1 * Real.cos c.2.1)

/-- `xprime`, `yprime`, `zprime` (`lib/FreeStar.C:193-198`, `lib/Blob.C:854-859`, `lib/Plasmoid.C:595-600`). -/
noncomputable def derivatives (c : P3) (vel : Vec) : P3 :=
  (c.1 * Real.sin c.2.1 * Real.sin c.2.2 * vel 2, -c.1 * Real.sin c.2.1 * Real.cos c.2.2 * vel 2, 0)

/-! ## `FreeStar` -/

/-- The members of `FreeStar` (`include/GyotoFreeStar.h:58-60`) and the metric `gg_`. -/
structure Free where
  pos : Option Vec
  vel : Option Vec
  posSet : Bool
  metric : Option Met

/-- The constructor (`lib/FreeStar.C:49-62`). -/
def Free.new : Free := ⟨none, none, false, none⟩

/-- `metric(gg)` (`lib/Astrobj.C:127`). -/
def Free.setMetric (f : Free) (m : Met) : Free := { f with metric := some m }

/-- `initPosition(v)` (`lib/FreeStar.C:93-99`): `v` is read without a test of its size. -/
def Free.initPosition (f : Free) : List ℝ → Res Free
  | a :: b :: c :: d :: _ => .ok { f with pos := some ![a, b, c, d], posSet := true }
  | _ => .ub

open Classical in
/-- `initVelocity(v)` (`lib/FreeStar.C:110-133`). -/
noncomputable def Free.initVelocity (f : Free) (v : List ℝ) : Res Free :=
  if f.posSet = false then .throws f
  else
    match v with
    | a :: b :: c :: _ =>
      let u : Vec := ![1, a, b, c]
      let f' := { f with vel := some u }
      match f.metric with
      | none => .throws f'
      | some m =>
        match f.pos with
        | none => .ub
        | some p =>
          if scalarProd (m.g p) u u ≥ 0 then .throws f'
          else
            match normalizeFourVel (m.g p) u with
            | none => .ub
            | some w => .ok { f with vel := some w }
    | _ => .ub

/-- `initVelocity()` (`lib/FreeStar.C:135-141`). -/
def Free.getInitVelocity (f : Free) : Out (List ℝ) :=
  match f.vel with
  | none => .ub
  | some u => .ok [u 1, u 2, u 3]

/-- `initPosition()` (`lib/FreeStar.C:101-108`). -/
def Free.getInitPosition (f : Free) : Out (List ℝ) :=
  match f.pos with
  | none => .ub
  | some p => .ok [p 0, p 1, p 2, p 3]

/-- `initCoord(v)` (`lib/FreeStar.C:143-152`). -/
def Free.initCoord (f : Free) : List ℝ → Res Free
  | a :: b :: c :: d :: e :: x :: y :: z :: _ => .ok { f with pos := some ![a, b, c, d], vel := some ![e, x, y, z] }
  | _ => .ub

/-- `getVelocity(pos, vel)` (`lib/FreeStar.C:201-209`): the position is not used. -/
def Free.getVelocity (f : Free) (_pos : Vec) : Out Vec :=
  match f.metric with
  | none => .throws
  | some _ =>
    match f.vel with
    | none => .ub
    | some u => .ok u

/-- `r`, `theta`, `phi` of `getCartesian` (`lib/FreeStar.C:178-186`), with the velocity, for one date. -/
noncomputable def Free.path (f : Free) (t : ℝ) : Out (P3 × Vec) :=
  match f.pos with
  | none => bind (f.getVelocity 0) fun _ => .ub
  | some p =>
    bind (f.getVelocity p) fun u =>
      bind (quot (u 1) (u 0)) fun v1 => bind (quot (u 2) (u 0)) fun v2 => bind (quot (u 3) (u 0)) fun v3 =>
        .ok ((p 1 + v1 * (t - p 0), p 2 + v2 * (t - p 0), p 3 + v3 * (t - p 0)), u)

/-- `getCartesian` for one date (`lib/FreeStar.C:167-199`): position and derivatives. -/
noncomputable def Free.getCartesian (f : Free) (t : ℝ) : Out (P3 × P3) :=
  bind (f.path t) fun x => .ok (cartesian x.1, derivatives x.1 x.2)

/-! ## `Blob` -/

/-- `blobMotionType_` (`lib/Blob.C:193-202`). -/
inductive Motion where
  | equatorial
  | conical
  | cylindrical
deriving DecidableEq

/-- The members of `Blob` that say where it is (`include/GyotoBlob.h:77-79`), and `gg_`. -/
structure Blob where
  c : Vec
  v : Fin 3 → ℝ
  kind : Motion
  metric : Option Met

/-- The constructor (`lib/Blob.C:75-108`). -/
def Blob.new : Blob := ⟨0, 0, .equatorial, none⟩

open Classical in
/-- `init4Coord(v)` (`lib/Blob.C:161-172`). -/
noncomputable def Blob.init4Coord (b : Blob) : List ℝ → Res Blob
  | [t, r, th, ph] =>
    let b' := { b with c := ![t, r, th, ph] }
    if (b.kind = .cylindrical ∨ b.kind = .equatorial) ∧ th ≠ Real.pi / 2 then .throws b' else .ok b'
  | _ => .throws b

/-- `init3Velo(v)` (`lib/Blob.C:179-186`). -/
def Blob.init3Velo (b : Blob) : List ℝ → Res Blob
  | [x, y, z] => .ok { b with v := ![x, y, z] }
  | _ => .throws b

/-- `blobMotionType(kind)` (`lib/Blob.C:193-202`). -/
def Blob.motionType (b : Blob) (k : String) : Res Blob :=
  if k = "Equatorial" then .ok { b with kind := .equatorial }
  else if k = "HelicalConical" then .ok { b with kind := .conical }
  else if k = "HelicalCylindrical" then .ok { b with kind := .cylindrical }
  else .throws b

/-- `blobMotionType()` (`lib/Blob.C:203-205`). -/
def Motion.name : Motion → String
  | .equatorial => "Equatorial"
  | .conical => "HelicalConical"
  | .cylindrical => "HelicalCylindrical"

/-- `r`, `theta`, `phi` of `getCartesian` (`lib/Blob.C:817-847`). -/
noncomputable def Blob.path (b : Blob) (t : ℝ) : Out P3 :=
  match b.kind with
  | .conical =>
    let r := b.c 1 + b.v 0 * (t - b.c 0)
    bind (quot (b.c 1 * b.c 1 * b.v 2) (b.v 0)) fun k => bind (quot 1 (b.c 1)) fun i0 => bind (quot 1 r) fun i =>
      .ok (r, b.c 2, b.c 3 + k * (i0 - i))
  | .cylindrical =>
    let tmp := b.v 1 * (t - b.c 0)
    .ok (b.c 1 / 2 * (Real.exp tmp + Real.exp (-tmp)), 2 * Real.arctan (Real.exp tmp), b.c 3 + b.v 2 * (t - b.c 0))
  | .equatorial => .ok (b.c 1, Real.pi / 2, b.c 3 + b.v 2 * (t - b.c 0))

/-- `getCartesian` for one date (`lib/Blob.C:800-860`) without the derivatives. -/
noncomputable def Blob.getCartesian (b : Blob) (t : ℝ) : Out P3 := bind (b.path t) fun c => .ok (cartesian c)

/-- `getCartesian` with the derivatives (`lib/Blob.C:854-859`): `vel` is declared at line 815 and nothing is written to it. -/
noncomputable def Blob.getDerivatives (b : Blob) (t : ℝ) : Out P3 := bind (b.path t) fun _ => .ub

/-- `vel` of `getVelocity` before `normalizeFourVel` (`lib/Blob.C:867-888`). -/
noncomputable def Blob.rate (b : Blob) (pos : Vec) : Out Vec :=
  match b.kind with
  | .equatorial => .ok ![1, 0, 0, b.v 2]
  | .conical => bind (quot (b.v 2 * b.c 1 * b.c 1) (pos 1 * pos 1)) fun w => .ok ![1, b.v 0, 0, w]
  | .cylindrical =>
    let tmp := b.v 1 * (pos 0 - b.c 0)
    bind (quot (b.c 1) (pos 1)) fun q =>
      .ok ![1, b.c 1 * b.v 1 / 2 * (Real.exp tmp - Real.exp (-tmp)), q * b.v 1, b.v 2]

/-- `getVelocity(pos, vel)` (`lib/Blob.C:862-895`). -/
noncomputable def Blob.getVelocity (b : Blob) (pos : Vec) : Out Vec :=
  match b.metric with
  | none => .throws
  | some m => bind (b.rate pos) fun u =>
    match normalizeFourVel (m.g pos) u with
    | none => .ub
    | some w => .ok w

/-- An element of an XML file that the class `Blob` reads. -/
inductive BlobElement where
  | init4Coord (v : List ℝ)
  | init3Velo (v : List ℝ)
  | motionType (k : String)

/-- What `fillElement` writes (`lib/Object.C:399-419`), in the order of the list of properties (`lib/Blob.C:48-53`). -/
def Blob.write (b : Blob) : List BlobElement :=
  [.init4Coord [b.c 0, b.c 1, b.c 2, b.c 3], .init3Velo [b.v 0, b.v 1, b.v 2], .motionType b.kind.name]

/-- `setParameters` (`lib/Object.C:421-440`): the elements in the order of the file; an exception ends the reading. -/
noncomputable def Blob.read : List BlobElement → Blob → Res Blob
  | [], b => .ok b
  | e :: rest, b =>
    let x := match e with
      | .init4Coord v => b.init4Coord v
      | .init3Velo v => b.init3Velo v
      | .motionType k => b.motionType k
    match x with
    | .ok b => Blob.read rest b
    | .throws b => .throws b
    | .ub => .ub

/-! ## `Plasmoid` -/

/-- `flag_` (`lib/Plasmoid.C:448-455`). -/
inductive Flag where
  | none
  | helical
  | equatorial
deriving DecidableEq

/-- `varyRadius_` (`lib/Plasmoid.C:546-550`). -/
inductive Vary where
  | none
  | constant
  | varying
deriving DecidableEq

/-- The members of `Plasmoid` that say where it is and how large (`include/GyotoPlasmoid.h:68-74`), those of `UniformSphere`, and `gg_`. -/
structure Plasmoid where
  pos : Option Vec
  vel : Option Vec
  flag : Flag
  posSet : Bool
  radiusMax : ℝ
  vary : Vary
  sphere : Sphere
  metric : Option Met

/-- `motionType(type)` (`lib/Plasmoid.C:448-455`). -/
def Plasmoid.motionType (p : Plasmoid) (k : String) : Res Plasmoid :=
  if k = "Helical" then .ok { p with flag := .helical }
  else if k = "Equatorial" then .ok { p with flag := .equatorial }
  else .throws p

/-- `Radius(vary)` (`lib/Plasmoid.C:546-550`). -/
def Plasmoid.setVary (p : Plasmoid) (k : String) : Res Plasmoid :=
  if k = "Constant" then .ok { p with vary := .constant }
  else if k = "Varying" then .ok { p with vary := .varying }
  else .throws p

/-- `initPosition(v)` (`lib/Plasmoid.C:464-470`). -/
def Plasmoid.initPosition (p : Plasmoid) : List ℝ → Res Plasmoid
  | a :: b :: c :: d :: _ => .ok { p with pos := some ![a, b, c, d], posSet := true }
  | _ => .ub

open Classical in
/-- `initVelocity(v)` (`lib/Plasmoid.C:481-502`). -/
noncomputable def Plasmoid.initVelocity (p : Plasmoid) (v : List ℝ) : Res Plasmoid :=
  if p.posSet = false then .throws p
  else
    match v with
    | a :: b :: c :: _ =>
      let u : Vec := ![1, a, b, c]
      let p' := { p with vel := some u }
      match p.metric with
      | none => .throws p'
      | some m =>
        match p.pos with
        | none => .ub
        | some x => if scalarProd (m.g x) u u ≥ 0 then .throws p' else .ok p'
    | _ => .ub

open Classical in
/-- `radiusMax(rr)` (`lib/Plasmoid.C:536-540`). -/
noncomputable def Plasmoid.setRadiusMax (p : Plasmoid) (r : ℝ) : Res Plasmoid :=
  if r < 0.2 then .throws p else .ok { p with radiusMax := r }

/-- `radius(r)` of `UniformSphere`. -/
noncomputable def Plasmoid.setRadius (p : Plasmoid) (r : ℝ) : Plasmoid := { p with sphere := p.sphere.setRadius r }

/-- `getVelocity(pos, vel)` (`lib/Plasmoid.C:603-628`); the branch `"Helical-Ejection"` is out of reach, `motionType` refusing it. -/
noncomputable def Plasmoid.getVelocity (p : Plasmoid) (pos : Vec) : Out Vec :=
  match p.metric with
  | none => .throws
  | some m =>
    match p.flag with
    | .none => .throws
    | .helical =>
      match p.vel with
      | none => .ub
      | some u =>
        match normalizeFourVel (m.g pos) ![1, u 1, 0, u 3] with
        | none => .ub
        | some w => .ok w
    | .equatorial => .ok (m.circ pos)

/-- `r`, `theta`, `phi` of `getCartesian` (`lib/Plasmoid.C:563-589`). -/
noncomputable def Plasmoid.path (p : Plasmoid) (t : ℝ) : Out P3 :=
  match p.flag with
  | .none => .throws
  | .helical =>
    match p.pos, p.vel with
    | some c, some u =>
      let r := c 1 + u 1 * (t - c 0)
      bind (quot (c 1 * c 1 * u 3) (u 1)) fun k => bind (quot 1 (c 1)) fun i0 => bind (quot 1 r) fun i =>
        .ok (r, c 2, c 3 + k * (i0 - i))
    | _, _ => .ub
  | .equatorial =>
    match p.pos with
    | none => .ub
    | some c =>
      bind (p.getVelocity c) fun u => bind (quot (u 3) (u 0)) fun w => .ok (c 1, Real.pi / 2, c 3 + w * (t - c 0))

/-- `getCartesian` for one date, without the derivatives (`lib/Plasmoid.C:552-601`). -/
noncomputable def Plasmoid.getCartesian (p : Plasmoid) (t : ℝ) : Out P3 := bind (p.path t) fun c => .ok (cartesian c)

open Classical in
/-- `Impact` up to the call to `Standard::Impact` (`lib/Plasmoid.C:631-657`); `t` is the date of the first end of the step. -/
noncomputable def Plasmoid.impact (p : Plasmoid) (t : ℝ) : Res Plasmoid :=
  match p.pos with
  | none => .ub
  | some c =>
    match p.vary with
    | .varying => if t ≤ c 0 then .ok (p.setRadius 0.4) else .ok (p.setRadius (0.4 + 0.001 * (t - c 0)))
    | .constant => .ok (p.setRadius p.radiusMax)
    | .none => .throws p

/-- The setters that an XML file or `set(Property, …)` reaches: the properties of the class (`lib/Plasmoid.C:44-53`), the metric and the
radius. -/
inductive PlasmoidCall where
  | initPosition (v : List ℝ)
  | initVelocity (v : List ℝ)
  | radiusMax (r : ℝ)
  | radius (r : ℝ)
  | metric (m : Met)

/-- One such call; `none` is undefined. An exception is caught. -/
noncomputable def Plasmoid.call (p : Plasmoid) (c : PlasmoidCall) : Option Plasmoid :=
  let get : Res Plasmoid → Option Plasmoid := fun x =>
    match x with
    | .ok p => some p
    | .throws p => some p
    | .ub => none
  match c with
  | .initPosition v => get (p.initPosition v)
  | .initVelocity v => get (p.initVelocity v)
  | .radiusMax r => get (p.setRadiusMax r)
  | .radius r => some (p.setRadius r)
  | .metric m => some { p with metric := some m }

/-- A sequence of such calls. -/
noncomputable def Plasmoid.calls (p : Plasmoid) (l : List PlasmoidCall) : Option Plasmoid :=
  l.foldlM (fun p c => p.call c) p

/-- The constructor (`lib/Plasmoid.C:55-97`), with the sphere that `UniformSphere("Plasmoid")` makes. -/
def Plasmoid.new (s : Sphere) : Plasmoid := ⟨none, none, .none, false, 1, .none, s, none⟩

/-! ## `InflateStar` -/

/-- `DBL_MAX`. -/
noncomputable def dblMax : ℝ := 2 ^ 1024 - 2 ^ 971

/-- The members of `InflateStar` (`include/GyotoInflateStar.h:58-60`) and its sphere. -/
structure Inflate where
  tInit : ℝ
  tStop : ℝ
  rStop : ℝ
  sphere : Sphere

/-- The constructor (`lib/InflateStar.C:90-98`), with the sphere that `Star()` makes. -/
noncomputable def Inflate.new (s : Sphere) : Inflate := ⟨0, 0, dblMax, s⟩

open Classical in
/-- `radiusAt(time)` (`lib/InflateStar.C:70-80`). -/
noncomputable def Inflate.radiusAt (s : Inflate) (t : ℝ) : ℝ :=
  if t ≥ s.tStop then s.rStop
  else if t > s.tInit then s.sphere.radius + (t - s.tInit) / (s.tStop - s.tInit) * (s.rStop - s.sphere.radius)
  else s.sphere.radius

/-- `Impact` up to the call to `UniformSphere::Impact` (`lib/InflateStar.C:116-127`); `t` is the date of the first end of the step. -/
noncomputable def Inflate.impact (s : Inflate) (t : ℝ) : Inflate :=
  let r := s.radiusAt t
  { s with sphere := { s.sphere with critical := r * r, safety := r * r * 1.1 + 0.1 } }

/-- `emission` (`lib/InflateStar.C:129-139`) at the date `t`; `none`: a null pointer is followed or a division by zero. -/
noncomputable def Inflate.emission (s : Inflate) (nu dsem t : ℝ) : Option ℝ :=
  let r := s.radiusAt t
  let r0 := s.sphere.radius
  if r * r * r = 0 then none
  else (s.sphere.emission nu dsem).map fun e => r0 * r0 * r0 / (r * r * r) * e

/-- `transmission`, inherited (`lib/UniformSphere.C:227-242`). -/
noncomputable def Inflate.transmission (s : Inflate) (nu dsem : ℝ) : Option ℝ := s.sphere.transmission nu dsem

/-- `radius(r)`, inherited (`lib/UniformSphere.C:259-263`). -/
noncomputable def Inflate.setRadius (s : Inflate) (r : ℝ) : Inflate := { s with sphere := s.sphere.setRadius r }

end Gyoto.Moving
