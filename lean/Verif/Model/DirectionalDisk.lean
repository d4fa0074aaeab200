import Verif.Model.GridRead
import Verif.Model.MetricAlg
import Verif.Model.ThinDisk

/-!
# Disks whose emission depends on the direction (`lib/DirectionalDisk.C`)

Doubles are reals, arrays are lists (`Verif.Model.GridRead`).  FITS input and output, and the setters handing over bare pointers
(`:121-127`), are not modelled.
-/

namespace Gyoto.DirectionalDisk

open Gyoto.GridRead Gyoto.MetricAlg Gyoto.ThinDisk

/-- The members of the class (`include/GyotoDirectionalDisk.h:57-88`). -/
structure Disk where
  emission : Option (List ℝ)
  radius : Option (List ℝ)
  cosi : Option (List ℝ)
  freq : Option (List ℝ)
  lampAltitude : ℝ
  nnu : ℕ
  ni : ℕ
  nr : ℕ
  minComputed : ℝ
  maxComputed : ℝ
  minLamp : ℝ
  maxLamp : ℝ
  average : Bool

/-- The constructor (`lib/DirectionalDisk.C:68-79`); `tiny` and `big` are `DBL_MIN` and `DBL_MAX`. -/
noncomputable def init (tiny big : ℝ) : Disk where
  emission := none
  radius := none
  cosi := none
  freq := none
  lampAltitude := 10
  nnu := 0
  ni := 0
  nr := 0
  minComputed := tiny
  maxComputed := big
  minLamp := 1
  maxLamp := 1e30
  average := false

/-- The copy constructor (`lib/DirectionalDisk.C:81-109`). -/
def clone (d : Disk) : M Disk := do
  let e ← copyArray (d.nnu * d.ni * d.nr) d.emission
  let f ← copyArray d.nnu d.freq
  let c ← copyArray d.ni d.cosi
  let r ← copyArray d.nr d.radius
  pure { d with emission := e, freq := f, cosi := c, radius := r }

/-- `GYOTO_eV2Hz` (`include/GyotoDefs.h`); only its being more than 1 matters. -/
noncomputable def eV2Hz : ℝ := 2.417989348e14

/-- The methods that change a disk. -/
inductive Op where
  | copyIntensity (pattern : Option (List ℝ)) (n0 n1 n2 : ℕ)
  | copyGridRadius (rad : Option (List ℝ)) (n : ℕ)
  | copyGridCosi (cosi : Option (List ℝ)) (n : ℕ)
  | copyGridFreq (freq : Option (List ℝ)) (n : ℕ)
  | averageOverAngle (b : Bool)
  | lampAltitude (z : ℝ)
  | lampCutOffs (v : List ℝ)

/-- What `copyIntensity` frees when the dimensions change (`lib/DirectionalDisk.C:137-151`). -/
def resize (n0 n1 n2 : ℕ) (d : Disk) : Disk :=
  let d := if d.nnu ≠ n0 then { d with freq := none } else d
  let d := if d.ni ≠ n1 then { d with freq := none, cosi := none } else d
  let d := if d.nr ≠ n2 then { d with freq := none, cosi := none, radius := none } else d
  { d with nnu := n0, ni := n1, nr := n2 }

/-- `copyIntensity` (`lib/DirectionalDisk.C:129-160`). -/
def copyIntensity (pattern : Option (List ℝ)) (n0 n1 n2 : ℕ) (d : Disk) : Disk × Option Fail :=
  let d := { d with emission := none }
  match pattern with
  | none => (d, none)
  | some p =>
    let d := resize n0 n1 n2 d
    let nel := n0 * n1 * n2
    if nel = 0 then (d, some .error)
    else match memcpy nel p with
      | .error e => (d, some e)
      | .ok l => ({ d with emission := some l }, none)

/-- `copyGridRadius` (`lib/DirectionalDisk.C:166-183`). -/
def copyGridRadius (rad : Option (List ℝ)) (n : ℕ) (d : Disk) : Disk × Option Fail :=
  let d := { d with radius := none }
  match rad with
  | none => (d, none)
  | some p =>
    if d.emission = none then (d, some .error)
    else if d.nr ≠ n then (d, some .error)
    else match memcpy d.nr p with
      | .error e => (d, some e)
      | .ok l => ({ d with radius := some l }, none)

/-- `copyGridCosi` (`lib/DirectionalDisk.C:186-202`). -/
def copyGridCosi (cosi : Option (List ℝ)) (n : ℕ) (d : Disk) : Disk × Option Fail :=
  let d := { d with cosi := none }
  match cosi with
  | none => (d, none)
  | some p =>
    if d.emission = none then (d, some .error)
    else if d.ni ≠ n then (d, some .error)
    else match memcpy d.ni p with
      | .error e => (d, some e)
      | .ok l => ({ d with cosi := some l }, none)

/-- `copyGridFreq` (`lib/DirectionalDisk.C:204-220`). -/
def copyGridFreq (freq : Option (List ℝ)) (n : ℕ) (d : Disk) : Disk × Option Fail :=
  let d := { d with freq := none }
  match freq with
  | none => (d, none)
  | some p =>
    if d.emission = none then (d, some .error)
    else if d.nnu ≠ n then (d, some .error)
    else match memcpy d.nnu p with
      | .error e => (d, some e)
      | .ok l => ({ d with freq := some l }, none)

/-- One call: the disk afterwards and what was thrown (`lib/DirectionalDisk.C:223-251` for the last three). -/
noncomputable def step (d : Disk) : Op → Disk × Option Fail
  | .copyIntensity p a b c => copyIntensity p a b c d
  | .copyGridRadius p n => copyGridRadius p n d
  | .copyGridCosi p n => copyGridCosi p n d
  | .copyGridFreq p n => copyGridFreq p n d
  | .averageOverAngle b => ({ d with average := b }, none)
  | .lampAltitude z => ({ d with lampAltitude := z }, none)
  | .lampCutOffs v =>
    match v with
    | [x, y] => ({ d with minLamp := x * eV2Hz, maxLamp := y * eV2Hz }, none)
    | _ => (d, some .error)

/-- `lampcutoffsinev()` (`lib/DirectionalDisk.C:253-257`). -/
def lampCutOffs (d : Disk) : List ℝ := [d.minLamp, d.maxLamp]

/-! ## The look-up -/

/-- `for (i=…; x > p[i]; --i) {}`; before the first element the unsigned index wraps around. -/
noncomputable def searchDown (p : Option (List ℝ)) (x : ℝ) : ℕ → M ℕ
  | 0 => do
    let v ← read p 0
    if x > v then .error .ub else pure 0
  | i + 1 => do
    let v ← read p ((i + 1 : ℕ) : ℤ)
    if x > v then searchDown p x i else pure (i + 1)

/-- The index in radius or in cosine (`lib/DirectionalDisk.C:452-466`, `:468-478`). -/
noncomputable def upIndex (p : Option (List ℝ)) (n : ℕ) (x : ℝ) : M ℕ :=
  if p = none then .error .error
  else do
    let last ← read p ((n : ℤ) - 1)
    if x ≥ last then pure (n - 1) else searchUp p x n 0

/-- The index in frequency (`lib/DirectionalDisk.C:480-491`). -/
noncomputable def freqIndex (p : Option (List ℝ)) (n : ℕ) (nu : ℝ) : M ℕ :=
  if p = none then .error .error
  else do
    let last ← read p ((n : ℤ) - 1)
    if nu ≤ last then pure (n - 1) else searchDown p nu (n - 1)

/-- `getIndices` (`lib/DirectionalDisk.C:449-493`). -/
noncomputable def getIndices (d : Disk) (kind : Kind) (co : ℕ → ℝ) (cosi nu : ℝ) : M (ℕ × ℕ × ℕ) := do
  let i2 ← upIndex d.radius d.nr (projectedRadius kind co)
  let i1 ← upIndex d.cosi d.ni cosi
  let i0 ← freqIndex d.freq d.nnu nu
  pure (i0, i1, i2)

/-! ## The emission -/

/-- A factor that may not be a number (`none`: the comparisons with it are false). -/
abbrev MaybeNaN := Option ℝ

/-- The shift between the lamp and the disk (`lib/DirectionalDisk.C:503-506`); an infinite value is refused later on (`:514`). -/
noncomputable def lampShift (a zz rr : ℝ) : M MaybeNaN :=
  let den := rr * rr * rr + 2 * a * rr ^ (1.5 : ℝ) - 3 * rr * rr
  let q := zz * zz + a * a
  if rr < 0 ∨ den < 0 ∨ q = 0 ∨ (q - 2 * zz) / q < 0 then .ok none
  else if den = 0 then .error .error
  else .ok (some ((rr ^ (1.5 : ℝ) + a) / √den * √((q - 2 * zz) / q)))

/-- The cut-offs (`lib/DirectionalDisk.C:508-521`): an exception, or whether the frequency is within the band of the lamp. -/
noncomputable def inBand (d : Disk) (shift : MaybeNaN) (nu : ℝ) : M Bool :=
  match shift with
  | none => .ok true
  | some s =>
    let lo := d.minLamp * s
    let hi := d.maxLamp * s
    if lo < d.minComputed ∨ hi > d.maxComputed then .error .error
    else if nu < lo ∨ nu > hi then .ok false
    else .ok true

/-- The cosine of the angle with the normal (`lib/DirectionalDisk.C:524-543`); `p` is the tangent to the photon, `u` the velocity of the
disk.  A division by zero has no value. -/
noncomputable def cosine (g : Tensor) (p u : Vec) : M ℝ :=
  let normal : Vec := ![0, 0, -1, 0]
  let nn := scalarProd g normal normal
  if nn ≤ 0 then .error .error
  else
    let np := 1 / √nn * scalarProd g normal p
    let up := scalarProd g u p
    if up = 0 then .error .ub
    else
      let c := |-np / up|
      if c > 1 then (if |c - 1| > 0.005 then .error .error else .ok 1) else .ok c

/-- `emission_[i2*(ni_*nnu_)+i1*nnu_+i0]`. -/
def cell (d : Disk) (i0 i1 i2 : ℕ) : M ℝ := read d.emission ((i2 * (d.ni * d.nnu) + i1 * d.nnu + i0 : ℕ) : ℤ)

/-- The interpolation in frequency and radius (`lib/DirectionalDisk.C:591-595`, `:691-695`). -/
noncomputable def mix2 (I00 I10 I01 I11 rationu ratior : ℝ) : ℝ :=
  I00 + (I10 - I00) * rationu + (I01 - I00) * ratior + (I11 - I01 - I10 + I00) * rationu * ratior

/-- `(x-a)/(b-a)`; a division by zero has no value. -/
noncomputable def ratio (x a b : ℝ) : M ℝ := if b - a = 0 then .error .ub else .ok ((x - a) / (b - a))

/-- Outside of the range in cosine (`lib/DirectionalDisk.C:582-596`). -/
noncomputable def bilinear (d : Disk) (i0 i1 i2 : ℕ) (nu rr : ℝ) : M ℝ := do
  let I00 ← cell d (i0 + 1) i1 (i2 - 1)
  let I01 ← cell d (i0 + 1) i1 i2
  let I10 ← cell d i0 i1 (i2 - 1)
  let I11 ← cell d i0 i1 i2
  let fl ← read d.freq ((i0 + 1 : ℕ) : ℤ)
  let fu ← read d.freq i0
  let rl ← read d.radius ((i2 - 1 : ℕ) : ℤ)
  let ru ← read d.radius i2
  let x ← ratio nu fl fu
  let z ← ratio rr rl ru
  pure (mix2 I00 I10 I01 I11 x z)

/-- Within the range in cosine (`lib/DirectionalDisk.C:598-628`). -/
noncomputable def trilinear (d : Disk) (i0 i1 i2 : ℕ) (nu cosi rr : ℝ) : M ℝ :=
  if i1 = 0 then .error .error
  else do
    let I000 ← cell d (i0 + 1) (i1 - 1) (i2 - 1)
    let I100 ← cell d i0 (i1 - 1) (i2 - 1)
    let I110 ← cell d i0 i1 (i2 - 1)
    let I010 ← cell d (i0 + 1) i1 (i2 - 1)
    let I001 ← cell d (i0 + 1) (i1 - 1) i2
    let I101 ← cell d i0 (i1 - 1) i2
    let I111 ← cell d i0 i1 i2
    let I011 ← cell d (i0 + 1) i1 i2
    let fl ← read d.freq ((i0 + 1 : ℕ) : ℤ)
    let fu ← read d.freq i0
    let cl ← read d.cosi ((i1 - 1 : ℕ) : ℤ)
    let cu ← read d.cosi i1
    let rl ← read d.radius ((i2 - 1 : ℕ) : ℤ)
    let ru ← read d.radius i2
    let x ← ratio nu fl fu
    let y ← ratio cosi cl cu
    let z ← ratio rr rl ru
    pure (I000 + (I100 - I000) * x + (I010 - I000) * y + (I001 - I000) * z + (I110 - I010 - I100 + I000) * x * y +
      (I011 - I010 - I001 + I000) * y * z + (I101 - I001 - I100 + I000) * x * z +
      (I111 - I011 - I101 - I110 + I100 + I001 + I010 - I000) * x * y * z)

/-- The loop over the cosines (`lib/DirectionalDisk.C:643-660`) for one of the four columns: `n` turns from `ii`, with the sums so far. -/
noncomputable def trapezes (d : Disk) (i0 i2 : ℕ) : ℕ → ℕ → ℝ → ℝ → M (ℝ × ℝ)
  | 0, _, s, w => .ok (s, w)
  | n + 1, ii, s, w => do
    let c1 ← read d.cosi ((ii + 1 : ℕ) : ℤ)
    let c0 ← read d.cosi ii
    let e1 ← cell d i0 (ii + 1) i2
    let e0 ← cell d i0 ii i2
    trapezes d i0 i2 n (ii + 1) (s + 0.5 * (c1 - c0) * (e1 + e0)) (w + (c1 - c0))

/-- The mean over the cosines (`lib/DirectionalDisk.C:643-690`); a division by zero has no value. -/
noncomputable def meanCosi (d : Disk) (i0 i2 : ℕ) : M ℝ := do
  let (s, w) ← trapezes d i0 i2 (d.ni - 1) 0 0 0
  if w = 0 then .error .ub else .ok (s / w)

/-- With the mean over the cosines (`lib/DirectionalDisk.C:630-696`). -/
noncomputable def averaged (d : Disk) (i0 i2 : ℕ) (nu rr : ℝ) : M ℝ := do
  let I00 ← meanCosi d (i0 + 1) (i2 - 1)
  let I01 ← meanCosi d (i0 + 1) i2
  let I10 ← meanCosi d i0 (i2 - 1)
  let I11 ← meanCosi d i0 i2
  let fl ← read d.freq ((i0 + 1 : ℕ) : ℤ)
  let fu ← read d.freq i0
  let rl ← read d.radius ((i2 - 1 : ℕ) : ℤ)
  let ru ← read d.radius i2
  let x ← ratio nu fl fu
  let z ← ratio rr rl ru
  pure (mix2 I00 I10 I01 I11 x z)

/-- From the angle to the intensity (`lib/DirectionalDisk.C:549-697`). -/
noncomputable def intensity (d : Disk) (kind : Kind) (co : ℕ → ℝ) (cosi nu : ℝ) : M ℝ := do
  let rr := co 1
  let (i0, i1, i2) ← getIndices d kind co cosi nu
  let r0 ← read d.radius 0
  let rn ← read d.radius ((d.nr : ℤ) - 1)
  if rr ≤ r0 ∨ rr ≥ rn then pure 0
  else
    let fn ← read d.freq ((d.nnu : ℤ) - 1)
    let f0 ← read d.freq 0
    if nu ≤ fn ∨ nu ≥ f0 then pure 0
    else if i2 = 0 ∨ i0 = d.nnu - 1 then .error .error
    else if d.average then averaged d i0 i2 nu rr
    else
      let c0 ← read d.cosi 0
      let cn ← read d.cosi ((d.ni : ℤ) - 1)
      if cosi ≤ c0 ∨ cosi ≥ cn then bilinear d i0 i1 i2 nu rr else trilinear d i0 i1 i2 nu cosi rr

/-- `emission` (`lib/DirectionalDisk.C:495-697`): `a` is the spin, `g` the metric at the photon, `p` its tangent, `co` the position and `u`
the velocity of the disk.  The metric is always `KerrBL` (`:699-705`). -/
noncomputable def emission (d : Disk) (a : ℝ) (g : Tensor) (nu : ℝ) (p : Vec) (co : ℕ → ℝ) (u : Vec) : M ℝ := do
  let shift ← lampShift a d.lampAltitude (co 1)
  let ok ← inBand d shift nu
  if ok then do
    let c ← cosine g p u
    intensity d .spherical co c nu
  else pure 0

end Gyoto.DirectionalDisk
