import Verif.Model.GridRead
import Verif.Model.PhiTheta
import Verif.Model.ThinDisk
import Mathlib.Analysis.SpecialFunctions.Complex.Arg

/-!
# Thick disks read from a grid (`lib/Disk3D.C`)

Doubles are reals, arrays are lists (`Verif.Model.GridRead`).  FITS input and output, and the setters handing over bare pointers
(`:130-140`), are not modelled.
-/

namespace Gyoto.Disk3D

open Gyoto.GridRead Gyoto.PhiTheta Gyoto.ThinDisk Real

/-- The members of the class and of its base that are used (`include/GyotoDisk3D.h:62-110`). -/
structure Disk where
  emissquant : Option (List ℝ)
  opacity : Option (List ℝ)
  velocity : Option (List ℝ)
  dnu : ℝ
  nu0 : ℝ
  nnu : ℕ
  dphi : ℝ
  phimin : ℝ
  nphi : ℕ
  phimax : ℝ
  repeatPhi : ℕ
  dz : ℝ
  zmin : ℝ
  nz : ℕ
  zmax : ℝ
  dr : ℝ
  rin : ℝ
  nr : ℕ
  rout : ℝ
  zsym : Bool
  tPattern : ℝ
  omegaPattern : ℝ
  radtransf : Bool

/-- The constructor (`lib/Disk3D.C:83-93`); `big` is `DBL_MAX`. -/
noncomputable def init (big : ℝ) : Disk where
  emissquant := none
  opacity := none
  velocity := none
  dnu := 1
  nu0 := 0
  nnu := 0
  dphi := 0
  phimin := -big
  nphi := 0
  phimax := big
  repeatPhi := 1
  dz := 0
  zmin := -big
  nz := 0
  zmax := big
  dr := 0
  rin := -big
  nr := 0
  rout := big
  zsym := true
  tPattern := 0
  omegaPattern := 0
  radtransf := false

/-- The copy constructor (`lib/Disk3D.C:95-120`). -/
def clone (d : Disk) : M Disk := do
  let e ← copyArray (d.nnu * d.nphi * d.nz * d.nr) d.emissquant
  let o ← copyArray (d.nnu * d.nphi * d.nz * d.nr) d.opacity
  let v ← copyArray (3 * d.nphi * d.nz * d.nr) d.velocity
  pure { d with emissquant := e, opacity := o, velocity := v }

/-- The methods that change a disk. -/
inductive Op where
  | copyEmissquant (pattern : Option (List ℝ)) (n0 n1 n2 n3 : ℕ)
  | copyOpacity (opac : Option (List ℝ)) (n0 n1 n2 n3 : ℕ)
  | copyVelocity (velocity : Option (List ℝ)) (n0 n1 n2 : ℕ)
  | repeatPhi (n : ℕ)
  | rin (x : ℝ)
  | rout (x : ℝ)
  | zmin (x : ℝ)
  | zmax (x : ℝ)
  | phimin (x : ℝ)
  | phimax (x : ℝ)
  | nu0 (x : ℝ)
  | dnu (x : ℝ)
  | zsym (b : Bool)
  | tPattern (x : ℝ)
  | omegaPattern (x : ℝ)
  | opticallyThin (b : Bool)

/-- What `copyEmissquant` frees when the dimensions change (`lib/Disk3D.C:150-163`). -/
def resize (n0 n1 n2 n3 : ℕ) (d : Disk) : Disk :=
  let d := if d.nphi ≠ n1 then { d with velocity := none } else d
  let d := if d.nz ≠ n2 then { d with velocity := none } else d
  let d := if d.nr ≠ n3 then { d with velocity := none } else d
  { d with nnu := n0, nphi := n1, nz := n2, nr := n3 }

/-- `copyEmissquant` (`lib/Disk3D.C:142-177`). -/
noncomputable def copyEmissquant (pattern : Option (List ℝ)) (n0 n1 n2 n3 : ℕ) (d : Disk) : Disk × Option Fail :=
  let d := { d with emissquant := none }
  match pattern with
  | none => (d, none)
  | some p =>
    let d := resize n0 n1 n2 n3 d
    let nel := n0 * n1 * n2 * n3
    if nel = 0 then (d, some .error)
    else if d.nr = 1 ∨ d.nz = 1 ∨ d.nphi = 1 then (d, some .error)
    else
      let d := { d with dr := (d.rout - d.rin) / ((d.nr - 1 : ℕ) : ℝ), dz := (d.zmax - d.zmin) / ((d.nz - 1 : ℕ) : ℝ) }
      if d.repeatPhi = 0 then (d, some .error)
      else
        let d := { d with dphi := (d.phimax - d.phimin) / (((d.nphi - 1) * d.repeatPhi : ℕ) : ℝ) }
        match memcpy nel p with
        | .error e => (d, some e)
        | .ok l => ({ d with emissquant := some l }, none)

/-- `copyOpacity` (`lib/Disk3D.C:186-204`). -/
def copyOpacity (opac : Option (List ℝ)) (n0 n1 n2 n3 : ℕ) (d : Disk) : Disk × Option Fail :=
  let d := if d.opacity.isSome then { d with opacity := none, radtransf := false } else d
  match opac with
  | none => (d, none)
  | some p =>
    if d.nnu ≠ n0 ∨ d.nphi ≠ n1 ∨ d.nz ≠ n2 ∨ d.nr ≠ n3 then (d, some .error)
    else
      match memcpy (d.nnu * d.nphi * d.nz * d.nr) p with
      | .error e => (d, some e)
      | .ok l => ({ d with opacity := some l, radtransf := true }, none)

/-- `copyVelocity` (`lib/Disk3D.C:207-222`). -/
def copyVelocity (velocity : Option (List ℝ)) (n0 n1 n2 : ℕ) (d : Disk) : Disk × Option Fail :=
  let d := { d with velocity := none }
  match velocity with
  | none => (d, none)
  | some p =>
    if d.emissquant = none then (d, some .error)
    else if d.nphi ≠ n0 ∨ d.nz ≠ n1 ∨ d.nr ≠ n2 then (d, some .error)
    else
      match memcpy (3 * d.nphi * d.nz * d.nr) p with
      | .error e => (d, some e)
      | .ok l => ({ d with velocity := some l }, none)

/-- One call: the disk afterwards, and what went wrong if anything (`lib/Disk3D.C:76-81`, `:225-274`, `lib/Astrobj.C:154`). -/
noncomputable def step (d : Disk) : Op → Disk × Option Fail
  | .copyEmissquant p a b c e => copyEmissquant p a b c e d
  | .copyOpacity p a b c e => copyOpacity p a b c e d
  | .copyVelocity p a b c => copyVelocity p a b c d
  | .repeatPhi n =>
    let d := { d with repeatPhi := n }
    (if d.nphi > 1 ∧ d.repeatPhi > 0 then
      { d with dphi := (d.phimax - d.phimin) / (((d.nphi - 1) * d.repeatPhi : ℕ) : ℝ) } else d, none)
  | .rin x =>
    let d := { d with rin := x }
    (if d.nr > 1 then { d with dr := (d.rout - d.rin) / ((d.nr - 1 : ℕ) : ℝ) } else d, none)
  | .rout x =>
    let d := { d with rout := x }
    (if d.nr > 1 then { d with dr := (d.rout - d.rin) / ((d.nr - 1 : ℕ) : ℝ) } else d, none)
  | .zmin x =>
    let d := { d with zmin := x }
    (if d.nz > 1 then { d with dz := (d.zmax - d.zmin) / ((d.nz - 1 : ℕ) : ℝ) } else d, none)
  | .zmax x =>
    let d := { d with zmax := x }
    (if d.nz > 1 then { d with dz := (d.zmax - d.zmin) / ((d.nz - 1 : ℕ) : ℝ) } else d, none)
  | .phimin x =>
    let d := { d with phimin := x }
    (if d.nphi > 1 then { d with dphi := (d.phimax - d.phimin) / ((d.nphi - 1 : ℕ) : ℝ) } else d, none)
  | .phimax x =>
    let d := { d with phimax := x }
    (if d.nphi > 1 then { d with dphi := (d.phimax - d.phimin) / ((d.nphi - 1 : ℕ) : ℝ) } else d, none)
  | .nu0 x => ({ d with nu0 := x }, none)
  | .dnu x => ({ d with dnu := x }, none)
  | .zsym b => ({ d with zsym := b }, none)
  | .tPattern x => ({ d with tPattern := x }, none)
  | .omegaPattern x => ({ d with omegaPattern := x }, none)
  | .opticallyThin b => ({ d with radtransf := b }, none)

/-- A position in cylindrical coordinates `(r, z, phi)` (`lib/Disk3D.C:620-641`). -/
noncomputable def cylindrical (kind : Kind) (co : ℕ → ℝ) : ℝ × ℝ × ℝ :=
  match kind with
  | .spherical =>
    let rs := co 1
    let zz := rs * cos (co 2)
    (√(rs * rs - zz * zz), zz, co 3)
  | .cartesian => (√(co 1 * co 1 + co 2 * co 2), co 3, Complex.arg ⟨co 1, co 2⟩)

/-- The index of the frequency (`lib/Disk3D.C:614-618`). -/
noncomputable def freqIndex (d : Disk) (nu : ℝ) : M ℕ :=
  if nu ≤ d.nu0 then .ok 0
  else if d.dnu = 0 then .error .ub
  else do
    let k ← toSize ⌊(nu - d.nu0) / d.dnu + 0.5⌋
    .ok (if k ≥ d.nnu then d.nnu - 1 else k)

/-- The index of the azimuth, already turned (`lib/Disk3D.C:648-656`). -/
noncomputable def phiIndex (d : Disk) (phi : ℝ) : M ℕ :=
  let phi := wrapDown (2 * π) (2 * π) (wrapUp (2 * π) 0 phi)
  if phi < d.phimin then .ok 0
  else if phi > d.phimax then .ok (d.nphi - 1)
  else do
    let k ← toSize ⌊(phi - d.phimin) / d.dphi + 0.5⌋
    if d.nphi = 0 then .error .ub else .ok (k % d.nphi)

/-- The index of the height (`lib/Disk3D.C:659-664`). -/
noncomputable def zIndex (d : Disk) (zz : ℝ) : M ℕ := do
  let zz := if zz < 0 ∧ d.zmin ≥ 0 then zz * (-1) else zz
  let k ← toSize ⌊(zz - d.zmin) / d.dz + 0.5⌋
  if k = d.nz then .ok (d.nz - 1)
  else if k > d.nz then .error .error
  else .ok k

/-- The index of the radius (`lib/Disk3D.C:667-670`). -/
noncomputable def radIndex (d : Disk) (rr : ℝ) : M ℕ := do
  let k ← toSize ⌊(rr - d.rin) / d.dr + 0.5⌋
  if k = d.nr then .ok (d.nr - 1)
  else if k > d.nr then .error .error
  else .ok k

/-- `getIndices(i, co, nu)` (`lib/Disk3D.C:611-672`). -/
noncomputable def getIndices (d : Disk) (kind : Kind) (co : ℕ → ℝ) (nu : ℝ) : M (ℕ × ℕ × ℕ × ℕ) := do
  let i0 ← freqIndex d nu
  let c := cylindrical kind co
  if d.dphi * d.dz * d.dr = 0 then .error .error
  else do
    let i1 ← phiIndex d (c.2.2 - d.omegaPattern * (co 0 - d.tPattern))
    let i2 ← zIndex d c.2.1
    let i3 ← radIndex d c.1
    .ok (i0, i1, i2, i3)

/-- The rates of the azimuth, the height and the cylindrical radius read in `getVelocity` (`lib/Disk3D.C:676-681`, `:706`). -/
noncomputable def rates (d : Disk) (kind : Kind) (pos : ℕ → ℝ) : M (ℝ × ℝ × ℝ) :=
  if d.velocity = none then .error .error
  else do
    let (_, i1, i2, i3) ← getIndices d kind pos 0
    let off : ℤ := (i3 : ℤ) * 3 * d.nphi * d.nz + (i2 : ℤ) * 3 * d.nphi + (i1 : ℤ) * 3
    let p ← read d.velocity (off + 0)
    let z ← read d.velocity (off + 1)
    let r ← read d.velocity (off + 2)
    .ok (p, z, r)

/-- The same rates in spherical coordinates (`lib/Disk3D.C:684-692`). -/
noncomputable def sphericalRates (pos : ℕ → ℝ) (phiprime zprime rprime : ℝ) : ℝ × ℝ × ℝ :=
  let rsph := pos 1
  let th := pos 2
  let zz := rsph * cos th
  let rcyl := √(rsph * rsph - zz * zz)
  let v1 := (rcyl * rprime + zz * zprime) / rsph
  (v1, (v1 * cos th - zprime) / (rsph * sin th), phiprime)

/-! ## The walk along the photon -/

/-- Outside of the grid, for the height `z` and the cylindrical radius `r` (`lib/Disk3D.C:762-769`, `:807-814`). -/
def Outside (d : Disk) (z r : ℝ) : Prop :=
  (d.zsym = true ∧ ((d.zmin < 0 ∧ z < d.zmin) ∨ (d.zmin ≥ 0 ∧ z < -d.zmax))) ∨ (d.zsym = false ∧ z < d.zmin) ∨
    z > d.zmax ∨ r > d.rout ∨ r < d.rin

/-- Height and cylindrical radius of the point of spherical coordinates `(r, theta)` (`lib/Disk3D.C:753-754`, `:776-779`). -/
noncomputable def heightRadius (p : ℝ × ℝ) : ℝ × ℝ :=
  let z := p.1 * cos p.2
  (z, √(p.1 * p.1 - z * z))

/-- The step in time (`lib/Disk3D.C:734-738`). -/
noncomputable def deltat : ℝ := 0.1

theorem deltat_pos : 0 < deltat := by norm_num [deltat]

theorem walk_dec {t t1 : ℝ} (h : t1 + deltat < t) : ⌈(t - deltat - t1) / deltat⌉₊ < ⌈(t - t1) / deltat⌉₊ := by
  have := measure_dec deltat_pos (show 0 < t - t1 by linarith [deltat_pos])
  rwa [show t - t1 - deltat = t - deltat - t1 by ring] at this

open Classical in
/-- The first loop: the entry point (`lib/Disk3D.C:760-780`); `pos` gives `(r, theta)` of the photon at a date. -/
noncomputable def entry (d : Disk) (pos : ℝ → ℝ × ℝ) (t1 t : ℝ) : ℝ :=
  if _h : t1 + deltat < t ∧ Outside d (heightRadius (pos t)).1 (heightRadius (pos t)).2 then entry d pos t1 (t - deltat) else t
termination_by ⌈(t - t1) / deltat⌉₊
decreasing_by exact walk_dec _h.1

open Classical in
/-- The second loop: the dates at which `processHitQuantities` is called (`lib/Disk3D.C:795-830`). -/
noncomputable def hits (d : Disk) (pos : ℝ → ℝ × ℝ) (t1 t : ℝ) : List ℝ :=
  if _h : t1 + deltat < t then
    let t' := t - deltat
    if Outside d (heightRadius (pos t')).1 (heightRadius (pos t')).2 then []
    else t' :: (if d.radtransf then hits d pos t1 t' else [])
  else if t1 < t then
    if Outside d (heightRadius (pos t1)).1 (heightRadius (pos t1)).2 then [] else [t1]
  else []
termination_by ⌈(t - t1) / deltat⌉₊
decreasing_by exact walk_dec _h

open Classical in
/-- `Impact` (`lib/Disk3D.C:710-836`) for a photon whose worldline is `pos` between the dates `t1` and `t2` of two neighbouring points: what is
returned, and the dates at which `processHitQuantities` is called. -/
noncomputable def impact (d : Disk) (pos : ℝ → ℝ × ℝ) (t1 t2 : ℝ) : ℕ × List ℝ :=
  let r1 := (pos t1).1
  let r2 := (pos t2).1
  let z1 := (heightRadius (pos t1)).1
  let z2 := (heightRadius (pos t2)).1
  let rtol := 2 * d.rout
  if r1 > rtol ∧ r2 > rtol ∧ z1 * z2 > 0 then (0, [])
  else
    let t := entry d pos t1 t2
    if t ≤ t1 + deltat then (0, []) else (1, hits d pos t1 t)

end Gyoto.Disk3D
