import Verif.Model.DirectionalDisk
import Verif.Model.LoreneOrbits

/-!
# Neutron stars with a tabulated atmosphere (`lib/NeutronStarModelAtmosphere.C`)

Doubles are reals, arrays are lists (`Verif.Model.GridRead`). The setters handing over bare pointers (`:123-129`) are not modelled. Of a FITS file the
four images are kept; an image without elements is left out.
-/

namespace Gyoto.Atmosphere

open Gyoto.GridRead Gyoto.MetricAlg Gyoto.Lorene
open Gyoto.DirectionalDisk (searchDown upIndex freqIndex mix2 ratio)

/-- The members (`include/GyotoNeutronStarModelAtmosphere.h:50-66`). -/
structure Star where
  file : String
  emission : Option (List ℝ)
  surfgrav : Option (List ℝ)
  cosi : Option (List ℝ)
  freq : Option (List ℝ)
  nnu : ℕ
  ni : ℕ
  nsg : ℕ
  average : Bool

/-- The constructor (`lib/NeutronStarModelAtmosphere.C:77-84`). -/
def Star.new : Star := ⟨"", none, none, none, none, 0, 0, 0, false⟩

/-- The copy constructor (`lib/NeutronStarModelAtmosphere.C:86-111`): `filename_` is not in the list. -/
def Star.clone (s : Star) : M Star := do
  let e ← copyArray (s.nnu * s.ni * s.nsg) s.emission
  let f ← copyArray s.nnu s.freq
  let c ← copyArray s.ni s.cosi
  let g ← copyArray s.nsg s.surfgrav
  pure { s with emission := e, freq := f, cosi := c, surfgrav := g, file := "" }

/-- The contents of a file: an image of three axes and three vectors, that may be missing. In an image the first axis varies fastest. -/
structure File where
  emission : Option (ℕ × ℕ × ℕ × List ℝ)
  freq : Option (List ℝ)
  cosi : Option (List ℝ)
  surfgrav : Option (List ℝ)

/-- The methods that change a star. -/
inductive Op where
  | copyIntensity (pattern : Option (List ℝ)) (n0 n1 n2 : ℕ)
  | copyGridSurfgrav (sg : Option (List ℝ)) (n : ℕ)
  | copyGridCosi (cosi : Option (List ℝ)) (n : ℕ)
  | copyGridFreq (freq : Option (List ℝ)) (n : ℕ)
  | averageOverAngle (b : Bool)
  | file (name : String) (f : File)

/-- What `copyIntensity` frees when the dimensions change (`lib/NeutronStarModelAtmosphere.C:139-153`). -/
def Star.resize (n0 n1 n2 : ℕ) (s : Star) : Star :=
  let s := if s.nnu ≠ n0 then { s with freq := none } else s
  let s := if s.ni ≠ n1 then { s with freq := none, cosi := none } else s
  let s := if s.nsg ≠ n2 then { s with freq := none, cosi := none, surfgrav := none } else s
  { s with nnu := n0, ni := n1, nsg := n2 }

/-- `copyIntensity` (`lib/NeutronStarModelAtmosphere.C:131-161`). -/
def Star.copyIntensity (pattern : Option (List ℝ)) (n0 n1 n2 : ℕ) (s : Star) : Star × Option Fail :=
  let s := { s with emission := none }
  match pattern with
  | none => (s, none)
  | some p =>
    let s := s.resize n0 n1 n2
    let nel := n0 * n1 * n2
    if nel = 0 then (s, some .error)
    else match memcpy nel p with
      | .error e => (s, some e)
      | .ok l => ({ s with emission := some l }, none)

/-- `copyGridSurfgrav` (`lib/NeutronStarModelAtmosphere.C:168-185`). -/
def Star.copyGridSurfgrav (sg : Option (List ℝ)) (n : ℕ) (s : Star) : Star × Option Fail :=
  let s := { s with surfgrav := none }
  match sg with
  | none => (s, none)
  | some p =>
    if s.emission = none then (s, some .error)
    else if s.nsg ≠ n then (s, some .error)
    else match memcpy s.nsg p with
      | .error e => (s, some e)
      | .ok l => ({ s with surfgrav := some l }, none)

/-- `copyGridCosi` (`lib/NeutronStarModelAtmosphere.C:189-205`). -/
def Star.copyGridCosi (cosi : Option (List ℝ)) (n : ℕ) (s : Star) : Star × Option Fail :=
  let s := { s with cosi := none }
  match cosi with
  | none => (s, none)
  | some p =>
    if s.emission = none then (s, some .error)
    else if s.ni ≠ n then (s, some .error)
    else match memcpy s.ni p with
      | .error e => (s, some e)
      | .ok l => ({ s with cosi := some l }, none)

/-- `copyGridFreq` (`lib/NeutronStarModelAtmosphere.C:208-225`). -/
def Star.copyGridFreq (freq : Option (List ℝ)) (n : ℕ) (s : Star) : Star × Option Fail :=
  let s := { s with freq := none }
  match freq with
  | none => (s, none)
  | some p =>
    if s.emission = none then (s, some .error)
    else if s.nnu ≠ n then (s, some .error)
    else match memcpy s.nnu p with
      | .error e => (s, some e)
      | .ok l => ({ s with freq := some l }, none)

/-- `fitsRead(filename)` (`lib/NeutronStarModelAtmosphere.C:246-353`): the star as it is when the function returns or throws. -/
def Star.fitsRead (name : String) (f : File) (s : Star) : Star × Option Fail :=
  let s := { s with file := name }
  match f.emission with
  | none => (s, some .error)
  | some (n0, n1, n2, e) =>
    let s := { s with nnu := n0, ni := n1, nsg := n2, emission := some e }
    match f.freq with
    | none => (s, some .error)
    | some l =>
      if l.length ≠ n0 then (s, some .error)
      else
        let s := { s with freq := some l }
        match f.cosi with
        | none => (s, some .error)
        | some l =>
          if l.length ≠ n1 then (s, some .error)
          else
            let s := { s with cosi := some l }
            match f.surfgrav with
            | none => (s, some .error)
            | some l => if l.length ≠ n2 then (s, some .error) else ({ s with surfgrav := some l }, none)

/-- One call: the star afterwards and what was thrown (`lib/NeutronStarModelAtmosphere.C:228-239` for the last two). -/
def Star.step (s : Star) : Op → Star × Option Fail
  | .copyIntensity p a b c => s.copyIntensity p a b c
  | .copyGridSurfgrav p n => s.copyGridSurfgrav p n
  | .copyGridCosi p n => s.copyGridCosi p n
  | .copyGridFreq p n => s.copyGridFreq p n
  | .averageOverAngle b => ({ s with average := b }, none)
  | .file name f => s.fitsRead name f

/-- `fitsWrite(filename)` (`lib/NeutronStarModelAtmosphere.C:355-418`): what is written, or nothing if an array is missing. -/
def Star.fitsWrite (s : Star) : Option File := do
  let e ← s.emission
  let f ← s.freq
  let c ← s.cosi
  let g ← s.surfgrav
  return ⟨some (s.nnu, s.ni, s.nsg, e), some f, some c, some g⟩

/-- `fillProperty` for the name of the file (`lib/NeutronStarModelAtmosphere.C:68-75`). -/
def Star.written (s : Star) : String :=
  match s.file.toList with
  | '!' :: l => String.ofList l
  | _ => s.file

/-! ## The emission -/

/-- `emission_[i0*ni_*nsg_+i1*nsg_+i2]` (`lib/NeutronStarModelAtmosphere.C:693-696`, `:713-720`, `:748-757`). -/
def cell (s : Star) (i0 i1 i2 : ℕ) : M ℝ := read s.emission ((i0 * s.ni * s.nsg + i1 * s.nsg + i2 : ℕ) : ℤ)

/-- The index of the gravity (`lib/NeutronStarModelAtmosphere.C:448-467`). -/
noncomputable def gravIndex (s : Star) (sg : ℝ) : M ℕ :=
  if s.surfgrav = none then .error .error else if s.nsg = 1 then .ok 1 else upIndex s.surfgrav s.nsg sg

/-- `getIndices` once the gravity is known (`lib/NeutronStarModelAtmosphere.C:448-494`). -/
noncomputable def getIndices (s : Star) (sg cosi nu : ℝ) : M (ℕ × ℕ × ℕ) := do
  let i2 ← gravIndex s sg
  let i1 ← upIndex s.cosi s.ni cosi
  let i0 ← freqIndex s.freq s.nnu nu
  pure (i0, i1, i2)

/-- `isgl`, `isgu` and `ratiosg` (`lib/NeutronStarModelAtmosphere.C:661-670`, `:699-700`, `:724-725`, `:772-773`): with one gravity the quotient of zero by
zero is replaced. -/
noncomputable def gravCell (s : Star) (i2 : ℕ) (sg : ℝ) : M (ℕ × ℕ × ℝ) :=
  if s.nsg = 1 then do
    let _ ← read s.surfgrav 0
    pure (0, 0, 0)
  else do
    let gl ← read s.surfgrav ((i2 - 1 : ℕ) : ℤ)
    let gu ← read s.surfgrav i2
    let z ← ratio sg gl gu
    pure (i2 - 1, i2, z)

/-- `rationu` (`lib/NeutronStarModelAtmosphere.C:698`, `:722`, `:771`). -/
noncomputable def freqRatio (s : Star) (i0 : ℕ) (nu : ℝ) : M ℝ := do
  let fl ← read s.freq ((i0 + 1 : ℕ) : ℤ)
  let fu ← read s.freq i0
  ratio nu fl fu

/-- Outside of the range in cosine (`lib/NeutronStarModelAtmosphere.C:689-704`). -/
noncomputable def bilinear (s : Star) (i0 i1 i2 : ℕ) (nu sg : ℝ) : M ℝ := do
  let (gl, gu, z) ← gravCell s i2 sg
  let I00 ← cell s (i0 + 1) i1 gl
  let I01 ← cell s (i0 + 1) i1 gu
  let I10 ← cell s i0 i1 gl
  let I11 ← cell s i0 i1 gu
  let x ← freqRatio s i0 nu
  pure (mix2 I00 I10 I01 I11 x z)

/-- Within the range in cosine (`lib/NeutronStarModelAtmosphere.C:705-735`). -/
noncomputable def trilinear (s : Star) (i0 i1 i2 : ℕ) (nu cosi sg : ℝ) : M ℝ :=
  if i1 = 0 then .error .error
  else do
    let (gl, gu, z) ← gravCell s i2 sg
    let I000 ← cell s (i0 + 1) (i1 - 1) gl
    let I100 ← cell s i0 (i1 - 1) gl
    let I110 ← cell s i0 i1 gl
    let I010 ← cell s (i0 + 1) i1 gl
    let I001 ← cell s (i0 + 1) (i1 - 1) gu
    let I101 ← cell s i0 (i1 - 1) gu
    let I111 ← cell s i0 i1 gu
    let I011 ← cell s (i0 + 1) i1 gu
    let cl ← read s.cosi ((i1 - 1 : ℕ) : ℤ)
    let cu ← read s.cosi i1
    let x ← freqRatio s i0 nu
    let y ← ratio cosi cl cu
    pure (I000 + (I100 - I000) * x + (I010 - I000) * y + (I001 - I000) * z + (I110 - I010 - I100 + I000) * x * y +
      (I011 - I010 - I001 + I000) * y * z + (I101 - I001 - I100 + I000) * x * z +
      (I111 - I011 - I101 - I110 + I100 + I001 + I010 - I000) * x * y * z)

/-- The loop over the cosines (`lib/NeutronStarModelAtmosphere.C:744-761`) for one of the four columns: `n` turns from `ii`, with the sums so far. -/
noncomputable def trapezes (s : Star) (i0 i2 : ℕ) : ℕ → ℕ → ℝ → ℝ → M (ℝ × ℝ)
  | 0, _, t, w => .ok (t, w)
  | n + 1, ii, t, w => do
    let c1 ← read s.cosi ((ii + 1 : ℕ) : ℤ)
    let c0 ← read s.cosi ii
    let e1 ← cell s i0 (ii + 1) i2
    let e0 ← cell s i0 ii i2
    trapezes s i0 i2 n (ii + 1) (t + 0.5 * (c1 - c0) * (e1 + e0)) (w + (c1 - c0))

/-- The mean over the cosines (`lib/NeutronStarModelAtmosphere.C:744-767`); a division by zero has no value. -/
noncomputable def meanCosi (s : Star) (i0 i2 : ℕ) : M ℝ := do
  let (t, w) ← trapezes s i0 i2 (s.ni - 1) 0 0 0
  if w = 0 then .error .ub else .ok (t / w)

/-- With the mean over the cosines (`lib/NeutronStarModelAtmosphere.C:736-778`). -/
noncomputable def averaged (s : Star) (i0 i2 : ℕ) (nu sg : ℝ) : M ℝ := do
  let (gl, gu, z) ← gravCell s i2 sg
  let I00 ← meanCosi s (i0 + 1) gl
  let I01 ← meanCosi s (i0 + 1) gu
  let I10 ← meanCosi s i0 gl
  let I11 ← meanCosi s i0 gu
  let x ← freqRatio s i0 nu
  pure (mix2 I00 I10 I01 I11 x z)

/-- From the gravity and the angle to the intensity (`lib/NeutronStarModelAtmosphere.C:630-780`). -/
noncomputable def intensity (s : Star) (sg cosi nu : ℝ) : M ℝ := do
  let (i0, i1, i2) ← getIndices s sg cosi nu
  let g0 ← read s.surfgrav 0
  let gn ← read s.surfgrav ((s.nsg : ℤ) - 1)
  if 1 < s.nsg ∧ (sg ≤ g0 ∨ sg ≥ gn) then .error .error
  else
    let fn ← read s.freq ((s.nnu : ℤ) - 1)
    let f0 ← read s.freq 0
    if nu ≤ fn ∨ nu ≥ f0 then pure 0
    else if i2 = 0 ∨ i0 = s.nnu - 1 then .error .error
    else if s.average then do
      let I ← averaged s i0 i2 nu sg
      pure (I / 1e3)
    else
      let c0 ← read s.cosi 0
      let cn ← read s.cosi ((s.ni : ℤ) - 1)
      let I ← if cosi ≤ c0 ∨ cosi ≥ cn then bilinear s i0 i1 i2 nu sg else trilinear s i0 i1 i2 nu cosi sg
      pure (I / 1e3)

/-- `GYOTO_C` (`include/GyotoDefs.h:487`), in metres per second. -/
noncomputable def lightSpeed : ℝ := 299792458

/-- The acceleration of the matter at a point, in covariant components, and the inverse metric there, `grr` and `gtt`
(`lib/NeutronStarModelAtmosphere.C:429-438`, `:564-573`); a component along the azimuth is refused. -/
structure Accel where
  r : ℝ
  t : ℝ
  p : ℝ
  grr : ℝ
  gtt : ℝ

/-- The fields at a place off the axis: `a` are the components of the acceleration in the basis of Lorene. -/
noncomputable def accelAt (sl : Slice) (a : Fin 3 → ℝ → ℝ → ℝ → ℝ) (rr th phi : ℝ) : Accel :=
  { r := a 0 rr th phi, t := rr * a 1 rr th phi, p := rr * Real.sin th * a 2 rr th phi,
    grr := (sl.gcon 0 0).val rr th phi, gtt := 1 / rr * (1 / rr) * (sl.gcon 1 1).val rr th phi }

/-- `accelvecNorm2` (`lib/NeutronStarModelAtmosphere.C:440`, `:580`). -/
def Accel.norm2 (a : Accel) : ℝ := a.grr * a.r * a.r + a.gtt * a.t * a.t

/-- `sgloc` (`lib/NeutronStarModelAtmosphere.C:445`, `:585`, `:51`). -/
noncomputable def Accel.gravity (a : Accel) : ℝ := √a.norm2 * lightSpeed * lightSpeed / 1e4 * 100

/-- The cosine (`lib/NeutronStarModelAtmosphere.C:574-576`, `:594-627`) for the light `l` and the velocity `u` of the matter; a division by zero has no value. -/
noncomputable def cosine (g : Tensor) (a : Accel) (l u : Vec) : M ℝ :=
  let accelvec : Vec := ![0, a.r * a.grr, a.t * a.gtt, 0]
  let np := 1 / √a.norm2 * scalarProd g accelvec l
  let up := scalarProd g u l
  if up = 0 then .error .ub
  else
    let c := -np / up
    if c > 1 then (if |c - 1| > 0.005 then .error .error else .ok 1) else if c < 0 then .ok 0 else .ok c

/-- `emission` (`lib/NeutronStarModelAtmosphere.C:498-782`): `g` is the metric at the light, `l` its tangent, `co` the place and `u` the velocity of the
matter, `surf` the radius of the surface. -/
noncomputable def emission (s : Star) (sl : Slice) (a : Fin 3 → ℝ → ℝ → ℝ → ℝ) (surf : ℝ → ℝ → ℝ) (g : Tensor) (nu : ℝ) (l co u : Vec) : M ℝ :=
  if |surf (co 2) (co 3) - co 1| > 1e-4 then .ok 0
  else if co 1 = 0 then .error .error
  else if co 1 * Real.sin (co 2) = 0 then .error .error
  else
    let A := accelAt sl a (co 1) (co 2) (co 3)
    if A.p ≠ 0 then .error .error
    else if A.norm2 ≤ 0 then .error .error
    else do
      let c ← cosine g A l u
      intensity s A.gravity c nu

end Gyoto.Atmosphere
