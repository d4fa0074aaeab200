import Verif.Model.GridRead
import Verif.Model.PhiTheta
import Mathlib.Analysis.SpecialFunctions.Exp

/-!
# Disks read from a grid (`lib/PatternDisk.C`)

Doubles are reals, arrays are lists (`Verif.Model.GridRead`).  The memory of the caller given to the methods that copy is a list.
Reading from FITS files, and `setEmission`, `setVelocity`, `radius(double*)`, which hand over a pointer without its size, are not modelled.
Products of sizes are natural numbers; `nphi_-1` for `nphi_` zero, which wraps around in the code, only enters `dphi_`, which is computed
again before it is used.
-/

namespace Gyoto.PatternDisk

open Gyoto.GridRead Gyoto.PhiTheta Real

/-- The members of the class and of its bases that are used (`include/GyotoPatternDisk.h:62-105`). -/
structure Disk where
  emission : Option (List ℝ)
  opacity : Option (List ℝ)
  velocity : Option (List ℝ)
  radius : Option (List ℝ)
  Omega : ℝ
  t0 : ℝ
  dnu : ℝ
  nu0 : ℝ
  nnu : ℕ
  dphi : ℝ
  phimin : ℝ
  nphi : ℕ
  phimax : ℝ
  repeatPhi : ℕ
  dr : ℝ
  nr : ℕ
  rin : ℝ
  rout : ℝ
  radtransf : Bool
  dir : ℤ

/-- The constructor (`lib/PatternDisk.C:62-72`, `lib/ThinDisk.C:60-65`); `big` is `DBL_MAX`. -/
noncomputable def init (big : ℝ) : Disk where
  emission := none
  opacity := none
  velocity := none
  radius := none
  Omega := 0
  t0 := 0
  dnu := 1
  nu0 := 0
  nnu := 0
  dphi := 0
  phimin := 0
  nphi := 0
  phimax := 2 * π
  repeatPhi := 1
  dr := 0
  nr := 0
  rin := 0
  rout := big
  radtransf := false
  dir := 1

/-- The copy constructor (`lib/PatternDisk.C:74-101`). -/
def clone (d : Disk) : M Disk := do
  let e ← copyArray (d.nnu * d.nphi * d.nr) d.emission
  let o ← copyArray (d.nnu * d.nphi * d.nr) d.opacity
  let v ← copyArray (2 * d.nphi * d.nr) d.velocity
  let r ← copyArray (2 * d.nphi * d.nr) d.radius
  pure { d with emission := e, opacity := o, velocity := v, radius := r }

/-- The methods that change a disk. -/
inductive Op where
  | copyIntensity (pattern : Option (List ℝ)) (n0 n1 n2 : ℕ)
  | copyOpacity (opac : Option (List ℝ)) (n0 n1 n2 : ℕ)
  | copyVelocity (velocity : Option (List ℝ)) (n0 n1 : ℕ)
  | copyGridRadius (rad : Option (List ℝ)) (n : ℕ)
  | repeatPhi (n : ℕ)
  | phimin (x : ℝ)
  | phimax (x : ℝ)
  | innerRadius (x : ℝ)
  | outerRadius (x : ℝ)
  | patternVelocity (x : ℝ)
  | nu0 (x : ℝ)
  | dnu (x : ℝ)
  | opticallyThin (b : Bool)
  | dir (n : ℤ)

/-- The step in azimuth as the setters compute it. -/
noncomputable def phiStep (d : Disk) : ℝ := (d.phimax - d.phimin) / (((d.nphi - 1) * d.repeatPhi : ℕ) : ℝ)

/-- What `copyIntensity` frees when the dimensions change (`lib/PatternDisk.C:135-151`). -/
def resize (n0 n1 n2 : ℕ) (d : Disk) : Disk :=
  let d := if d.nnu ≠ n0 then { d with opacity := none } else d
  let d := if d.nphi ≠ n1 then { d with opacity := none, velocity := none } else d
  let d := if d.nr ≠ n2 then { d with opacity := none, velocity := none, radius := none } else d
  { d with nnu := n0, nphi := n1, nr := n2 }

/-- `copyIntensity` (`lib/PatternDisk.C:129-170`). -/
noncomputable def copyIntensity (pattern : Option (List ℝ)) (n0 n1 n2 : ℕ) (d : Disk) : Disk × Option Fail :=
  let d := { d with emission := none }
  match pattern with
  | none => (d, none)
  | some p =>
    let d := resize n0 n1 n2 d
    let nel := n0 * n1 * n2
    if nel = 0 then (d, some .error)
    else if d.nr = 1 then (d, some .error)
    else
      let d := { d with dr := (d.rout - d.rin) / ((d.nr - 1 : ℕ) : ℝ) }
      if d.repeatPhi = 0 then (d, some .error)
      else
        let d := { d with dphi := if d.nphi > 1 then phiStep d else d.dphi }
        match memcpy nel p with
        | .error e => (d, some e)
        | .ok l => ({ d with emission := some l }, none)

/-- `copyOpacity` (`lib/PatternDisk.C:176-193`). -/
def copyOpacity (opac : Option (List ℝ)) (n0 n1 n2 : ℕ) (d : Disk) : Disk × Option Fail :=
  let d := if d.opacity.isSome then { d with opacity := none, radtransf := false } else d
  match opac with
  | none => (d, none)
  | some p =>
    if d.nnu ≠ n0 ∨ d.nphi ≠ n1 ∨ d.nr ≠ n2 then (d, some .error)
    else
      match memcpy (d.nnu * d.nphi * d.nr) p with
      | .error e => (d, some e)
      | .ok l => ({ d with opacity := some l, radtransf := true }, none)

/-- `copyVelocity` (`lib/PatternDisk.C:197-214`). -/
def copyVelocity (velocity : Option (List ℝ)) (n0 n1 : ℕ) (d : Disk) : Disk × Option Fail :=
  let d := { d with velocity := none }
  match velocity with
  | none => (d, none)
  | some p =>
    if d.emission = none then (d, some .error)
    else if d.nphi ≠ n0 ∨ d.nr ≠ n1 then (d, some .error)
    else
      match memcpy (2 * d.nphi * d.nr) p with
      | .error e => (d, some e)
      | .ok l => ({ d with velocity := some l }, none)

/-- `copyGridRadius` (`lib/PatternDisk.C:217-236`). -/
noncomputable def copyGridRadius (rad : Option (List ℝ)) (n : ℕ) (d : Disk) : Disk × Option Fail :=
  let d := { d with radius := none }
  match rad with
  | none => (d, none)
  | some p =>
    if d.emission = none then (d, some .error)
    else if d.nr ≠ n then (d, some .error)
    else
      match memcpy d.nr p with
      | .error e => (d, some e)
      | .ok l =>
        let d := { d with radius := some l }
        match read d.radius 0, read d.radius ((d.nr : ℤ) - 1) with
        | .ok a, .ok b => ({ d with rin := a, rout := b, dr := (b - a) / ((d.nr - 1 : ℕ) : ℝ) }, none)
        | _, _ => (d, some .ub)

/-- One call: the disk afterwards, and what went wrong if anything (`lib/PatternDisk.C:239-263`, `:922-933`, `lib/Astrobj.C:154`,
`lib/ThinDisk.C:105`). -/
noncomputable def step (d : Disk) : Op → Disk × Option Fail
  | .copyIntensity p a b c => copyIntensity p a b c d
  | .copyOpacity p a b c => copyOpacity p a b c d
  | .copyVelocity p a b => copyVelocity p a b d
  | .copyGridRadius p n => copyGridRadius p n d
  | .repeatPhi n =>
    let d := { d with repeatPhi := n }
    (if (d.nphi - 1) * d.repeatPhi > 0 then { d with dphi := phiStep d } else d, none)
  | .phimin x =>
    let d := { d with phimin := x }
    (if d.nphi > 1 then { d with dphi := phiStep d } else d, none)
  | .phimax x =>
    let d := { d with phimax := x }
    (if d.nphi > 1 then { d with dphi := phiStep d } else d, none)
  | .innerRadius x =>
    let d := { d with rin := x }
    (if d.nr > 1 ∧ d.radius = none then { d with dr := (d.rout - d.rin) / ((d.nr - 1 : ℕ) : ℝ) } else d, none)
  | .outerRadius x =>
    let d := { d with rout := x }
    (if d.nr > 1 ∧ d.radius = none then { d with dr := (d.rout - d.rin) / ((d.nr - 1 : ℕ) : ℝ) } else d, none)
  | .patternVelocity x => ({ d with Omega := x }, none)
  | .nu0 x => ({ d with nu0 := x }, none)
  | .dnu x => ({ d with dnu := x }, none)
  | .opticallyThin b => ({ d with radtransf := b }, none)
  | .dir n => ({ d with dir := n }, none)

/-- C's `fmod`, for a non-zero divisor. -/
noncomputable def fmod (x y : ℝ) : ℝ := if 0 ≤ x / y then x - y * ⌊x / y⌋ else x - y * ⌈x / y⌉

/-- The azimuth folded into one of the repetitions (`lib/PatternDisk.C:613`, `:683`, `:802`). -/
noncomputable def fold (d : Disk) (phi : ℝ) : ℝ :=
  if d.repeatPhi > 1 then fmod (phi - d.phimin) ((d.phimax - d.phimin) / (d.repeatPhi : ℝ)) + d.phimin else phi

/-- The index of the frequency (`lib/PatternDisk.C:602-606`). -/
noncomputable def freqIndex (d : Disk) (nu : ℝ) : M ℕ :=
  if nu ≤ d.nu0 then .ok 0
  else if d.dnu = 0 then .error .ub
  else do
    let k ← toSize ⌊(nu - d.nu0) / d.dnu + 0.5⌋
    .ok (if k ≥ d.nnu then d.nnu - 1 else k)

/-- The index of the azimuth (`lib/PatternDisk.C:611-632`). -/
noncomputable def phiIndex (d : Disk) (t phi : ℝ) : M ℕ :=
  let phi := wrapUp (2 * π) 0 (phi - d.Omega * (t - d.t0))
  if d.nphi > 1 then
    if d.repeatPhi > 1 ∧ d.phimax = d.phimin then .error .ub
    else
      let phi := fold d phi
      if phi < d.phimin then .ok 0
      else if phi > d.phimax then .ok d.nphi
      else if d.dphi = 0 then .error .ub
      else do
        let k ← toSize (⌊(phi - d.phimin) / d.dphi⌋ + 1)
        if k = 0 ∨ k = d.nphi then .error .error else .ok k
  else .ok 0

/-- The index of the radius (`lib/PatternDisk.C:642-664`). -/
noncomputable def radIndex (d : Disk) (r : ℝ) : M ℕ :=
  if d.radius.isSome then do
    let last ← read d.radius ((d.nr : ℤ) - 1)
    if r ≥ last then .ok d.nr
    else searchUp d.radius r (d.nr + 1) 0
  else if d.dr = 0 then .error .error
  else do
    let k ← toSize (⌊(r - d.rin) / d.dr⌋ + 1)
    .ok (if k ≥ d.nr then d.nr - 1 else k)

/-- `getIndices(i, co, nu)` (`lib/PatternDisk.C:600-666`), for a point at the date `t`, the projected radius `r` and the azimuth `phi`. -/
noncomputable def getIndices (d : Disk) (t r phi nu : ℝ) : M (ℕ × ℕ × ℕ) := do
  let i0 ← freqIndex d nu
  let i1 ← phiIndex d t phi
  let i2 ← radIndex d r
  .ok (i0, i1, i2)

/-- The radii on both sides (`lib/PatternDisk.C:700-706`, `:752-758`, `:822-828`, `:867-873`). -/
noncomputable def radii (d : Disk) (i2 : ℕ) : M (ℝ × ℝ) :=
  if d.radius.isSome then do
    let lo ← read d.radius ((i2 : ℤ) - 1)
    let hi ← read d.radius i2
    pure (lo, hi)
  else pure (d.rin + ((i2 : ℝ) - 1) * d.dr, d.rin + (i2 : ℝ) * d.dr)

/-- The columns on both sides, their azimuths and the azimuth of the point (`lib/PatternDisk.C:730-749`, `:843-864`). -/
noncomputable def columns (d : Disk) (i1 : ℕ) (phi : ℝ) : ℤ × ℤ × ℝ × ℝ × ℝ :=
  if (i1 = 0 ∨ i1 = d.nphi) ∧ d.repeatPhi = 1 then
    ((d.nphi : ℤ) - 1, 0, d.phimin + ((d.nphi : ℝ) - 1) * d.dphi, d.phimin + 2 * π, if phi < d.phimin then phi + 2 * π else phi)
  else ((i1 : ℤ) - 1, i1, d.phimin + ((i1 : ℝ) - 1) * d.dphi, d.phimin + (i1 : ℝ) * d.dphi, phi)

/-- The interpolation in one array, `off` elements after its start, for several columns (`lib/PatternDisk.C:760-794`, `:875-900`). -/
noncomputable def bilinear (p : Option (List ℝ)) (off : ℤ) (nr : ℕ) (il iu : ℤ) (i2 : ℕ) (cp cr : ℝ) : M ℝ := do
  let v00 ← read p (off + il * nr + ((i2 : ℤ) - 1))
  let v10 ← read p (off + iu * nr + ((i2 : ℤ) - 1))
  let v11 ← read p (off + iu * nr + i2)
  let v01 ← read p (off + il * nr + i2)
  pure (v00 + cp * (v10 - v00) + cr * (v01 - v00) + cr * cp * (v11 - v01 + v00 - v10))

/-- The interpolation with one column (`lib/PatternDisk.C:693-719`, `:818-837`). -/
noncomputable def linear (p : Option (List ℝ)) (off : ℤ) (i2 : ℕ) (cr : ℝ) : M ℝ := do
  let lo ← read p (off + ((i2 : ℤ) - 1))
  let hi ← read p (off + i2)
  pure (lo + cr * (hi - lo))

/-- `emission(nu, dsem, _, co)` (`lib/PatternDisk.C:792-908`). -/
noncomputable def emission (d : Disk) (nu dsem t r phi : ℝ) : M ℝ := do
  let (_, i1, i2) ← getIndices d t r phi nu
  let phi := fold d phi
  if r < d.rin ∨ r > d.rout then pure 0
  else if d.nnu > 1 then .error .error
  else do
    let iem ← (if d.nphi = 1 then do
        let _ ← read d.emission ((i2 : ℤ) - 1)
        let _ ← read d.emission i2
        let (lo, hi) ← radii d i2
        if r < lo ∨ r > hi then .error .error
        else linear d.emission 0 i2 ((r - lo) / (hi - lo))
      else do
        let (il, iu, plo, phi', p) := columns d i1 phi
        let (lo, hi) ← radii d i2
        let _ ← bilinear d.emission 0 d.nr il iu i2 0 0
        if p < plo ∨ p > phi' ∨ r < lo ∨ r > hi then .error .error
        else bilinear d.emission 0 d.nr il iu i2 ((p - plo) / (phi' - plo)) ((r - lo) / (hi - lo)) : M ℝ)
    if ¬d.radtransf then pure iem
    else if d.opacity = none then pure 0
    else do
      let o ← read d.opacity ((i1 : ℤ) * d.nr + i2)
      if o * dsem ≠ 0 then pure (iem * (1 - exp (-(o * dsem)))) else pure 0

/-- `transmission(nu, dsem, _, co)` (`lib/PatternDisk.C:910-922`). -/
noncomputable def transmission (d : Disk) (nu dsem t r phi : ℝ) : M ℝ :=
  if ¬d.radtransf then pure 0
  else if d.opacity = none then pure 1
  else do
    let (_, i1, i2) ← getIndices d t r phi nu
    let o ← read d.opacity ((i1 : ℤ) * d.nr + i2)
    if o = 0 then pure 1 else pure (exp (-o * dsem))

/-- `getVelocity(pos, vel)` up to the rates `dphi/dt` and `dr/dt` when there is an array of velocities (`lib/PatternDisk.C:668-797`); `none`
when the velocity is arbitrary. -/
noncomputable def velocityRates (d : Disk) (t r phi : ℝ) : M (Option (ℝ × ℝ)) :=
  if d.dir ≠ 1 then .error .error
  else do
    let (_, i1, i2) ← getIndices d t r phi 0
    let phi := fold d phi
    if r < d.rin ∨ r > d.rout then pure none
    else if d.nphi = 1 then do
      let _ ← linear d.velocity 0 i2 0
      let _ ← linear d.velocity d.nr i2 0
      let (lo, hi) ← radii d i2
      if r < lo ∨ r > hi then .error .error
      else do
        let rp ← linear d.velocity 0 i2 ((r - lo) / (hi - lo))
        let pp ← linear d.velocity d.nr i2 ((r - lo) / (hi - lo))
        pure (some (pp, rp))
    else do
      let (il, iu, plo, phi', p) := columns d i1 phi
      let (lo, hi) ← radii d i2
      let _ ← bilinear d.velocity (d.nr * d.nphi) d.nr il iu i2 0 0
      let _ ← bilinear d.velocity 0 d.nr il iu i2 0 0
      if p < plo ∨ p > phi' ∨ r < lo ∨ r > hi then .error .error
      else do
        let rp ← bilinear d.velocity 0 d.nr il iu i2 ((p - plo) / (phi' - plo)) ((r - lo) / (hi - lo))
        let pp ← bilinear d.velocity (d.nr * d.nphi) d.nr il iu i2 ((p - plo) / (phi' - plo)) ((r - lo) / (hi - lo))
        pure (some (pp, rp))

end Gyoto.PatternDisk
