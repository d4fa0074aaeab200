import Verif.Model.Spectrum
import Mathlib.Analysis.SpecialFunctions.Trigonometric.Arctan
import Mathlib.Analysis.SpecialFunctions.Trigonometric.Inverse
import Mathlib.Analysis.Real.Sqrt

/-!
# Uniform spheres (`lib/UniformSphere.C`)

Doubles are reals; a null `SmartPointer` that is followed throws (`none`).  `DBL_MAX` in `rmax_` is `none`.  The position of the centre, which the
derived classes compute in `getCartesian`, is a parameter.
-/

namespace Gyoto.USphere

open Gyoto.Spectra Real

/-- The members of `UniformSphere`, and those of `Astrobj::Standard` and `Astrobj::Generic` that it uses (`include/GyotoUniformSphere.h:96-102`,
`include/GyotoStandardAstrobj.h:94-95`, `include/GyotoAstrobj.h:245-255`). -/
structure Sphere where
  radius : ℝ
  critical : ℝ
  safety : ℝ
  isotropic : Bool
  radtransf : Bool
  spectrum : Option (ℝ → ℝ)
  opacity : Option (ℝ → ℝ)
  dltmor : ℝ
  dltmod : ℝ
  rmax : Option ℝ

/-- `radius(double)` (`lib/UniformSphere.C:259-263`). -/
noncomputable def Sphere.setRadius (s : Sphere) (r : ℝ) : Sphere :=
  { s with radius := r, critical := r * r, safety := r * r * (11 / 10) + 1 / 10 }

/-- `spectrum(sp)` (`lib/UniformSphere.C:131`). -/
def Sphere.setSpectrum (s : Sphere) (sp : Option (ℝ → ℝ)) : Sphere := { s with spectrum := sp }

/-- `opacity(sp)` (`lib/UniformSphere.C:134-137`). -/
def Sphere.setOpacity (s : Sphere) (sp : Option (ℝ → ℝ)) : Sphere := { s with radtransf := sp.isSome, opacity := sp }

/-- `opticallyThin(flag)` (`lib/Astrobj.C:154`). -/
def Sphere.opticallyThin (s : Sphere) (flag : Bool) : Sphere := { s with radtransf := flag }

/-- `emission` (`lib/UniformSphere.C:211-225`). -/
noncomputable def Sphere.emission (s : Sphere) (nu dsem : ℝ) : Option ℝ :=
  if s.isotropic then
    if s.radtransf then some dsem else some 1
  else if s.radtransf then do
    let I ← s.spectrum
    let a ← s.opacity
    pure (slab (I nu) (a nu) dsem)
  else do
    let I ← s.spectrum
    pure (I nu)

open Classical in
/-- `transmission` (`lib/UniformSphere.C:227-242`). -/
noncomputable def Sphere.transmission (s : Sphere) (nu dsem : ℝ) : Option ℝ :=
  if s.radtransf = false then some 0
  else do
    let a ← s.opacity
    if a nu = 0 then pure 1 else pure (exp (-(a nu) * dsem))

/-- What `processHitQuantities` does for one frequency (`lib/Astrobj.C:254-261`, `:440-441`; the same at `:405-412`), the redshift being 1: the
intensity received and the transmission of the photon. -/
noncomputable def Sphere.hit (s : Sphere) (nu dsem : ℝ) (p : ℝ × ℝ) : Option (ℝ × ℝ) := do
  let e ← s.emission nu dsem
  let t ← s.transmission nu dsem
  pure (p.1 + e * p.2, p.2 * t)

/-- A ray followed backwards through stretches of the sphere. -/
noncomputable def Sphere.ray (s : Sphere) (nu : ℝ) : List ℝ → ℝ × ℝ → Option (ℝ × ℝ)
  | [], p => some p
  | ds :: rest, p => (s.hit nu ds p).bind (s.ray nu rest)

/-- The two kinds of coordinates (`lib/UniformSphere.C:159-179`). -/
inductive Kind where
  | cartesian
  | spherical

/-- A point in Cartesian coordinates. -/
abbrev P3 := ℝ × ℝ × ℝ

/-- `coord_ph` from the spatial coordinates of the photon (`lib/UniformSphere.C:159-179`). -/
noncomputable def photonPos (k : Kind) (harmonic : Bool) (c : P3) : P3 :=
  match k with
  | .cartesian => c
  | .spherical =>
    if harmonic then ((c.1 + 1) * sin c.2.1 * cos c.2.2, (c.1 + 1) * sin c.2.1 * sin c.2.2, (c.1 + 1) * cos c.2.1)
    else (c.1 * sin c.2.1 * cos c.2.2, c.1 * sin c.2.1 * sin c.2.2, c.1 * cos c.2.1)

/-- `coord_st` for the metric `SchwarzschildHarmonic` (`lib/UniformSphere.C:152-158`); `none` where the divisions are by zero. -/
noncomputable def harmonicStar (st : P3) : Option P3 :=
  let r := √(st.1 * st.1 + st.2.1 * st.2.1 + st.2.2 * st.2.2)
  if r = 0 then none
  else if st.1 = 0 then none
  else
    let theta := arccos (st.2.2 / r)
    let phi := arctan (st.2.1 / st.1)
    some (st.1 + sin theta * cos phi, st.2.1 + sin theta * sin phi, st.2.2 + cos theta)

/-- `dx*dx + dy*dy + dz*dz` (`lib/UniformSphere.C:181-191`). -/
def dist2 (p q : P3) : ℝ :=
  let dx := p.1 - q.1
  let dy := p.2.1 - q.2.1
  let dz := p.2.2 - q.2.2
  dx * dx + dy * dy + dz * dz

/-- `operator()(coord)` (`lib/UniformSphere.C:140-192`) for a star at `st`. -/
noncomputable def value (k : Kind) (harmonic : Bool) (st c : P3) : Option ℝ :=
  if harmonic then (harmonicStar st).map (dist2 (photonPos k harmonic c))
  else some (dist2 (photonPos k harmonic c) st)

open Classical in
/-- `deltaMax` (`lib/UniformSphere.C:194-209`) for a star at `st`. -/
noncomputable def Sphere.deltaMax (s : Sphere) (k : Kind) (harmonic : Bool) (st c : P3) : Option ℝ :=
  let r := match k with
    | .cartesian => √(c.1 * c.1 + c.2.1 * c.2.1 + c.2.2 * c.2.2)
    | .spherical => c.1
  if ∃ m, s.rmax = some m ∧ r > m then some (r * (1 / 2))
  else (value k harmonic st c).map fun v => max (s.dltmod * √v) (s.dltmor * s.radius)

end Gyoto.USphere
