import Verif.Model.Interp
import Verif.Model.Kappa
import Verif.Model.SphAcc
import Verif.Model.MetricAlg
import Verif.Model.UniformSphere

/-!
# The flared disk (`lib/FlaredDiskSynchrotron.C`, setters and reading of `lib/GridData2D.C`)

Doubles are reals. Arrays are lists; a null pointer is `none`; `memcpy` copies the first elements of what is given and is undefined behaviour if
there are not enough. A number that is not one is `none`. `M_PI` is π. The FITS library is replaced by what a file holds (`File`).
-/

namespace Gyoto.Flared

open Gyoto.MetricAlg
open Gyoto.Interp (Grid dblMax)
open Gyoto.Synch (Kappa KappaCall boltzmannCGS electronMassCGS c2CGS cCGS chargeCGS)
open Gyoto.SphAcc (slabs protonMassCGS)
open Gyoto.USphere (Kind)

/-! ## The grid -/

/-- `rmin(rmn)` (`lib/GridData2D.C:73-76`). -/
noncomputable def setRmin (g : Grid) (x : ℝ) : Grid :=
  { g with rmin := x, dr := if g.nr > 1 then (g.rmax - x) / ((g.nr : ℝ) - 1) else g.dr }

/-- `rmax(rmx)` (`lib/GridData2D.C:79-82`). -/
noncomputable def setRmax (g : Grid) (x : ℝ) : Grid :=
  { g with rmax := x, dr := if g.nr > 1 then (x - g.rmin) / ((g.nr : ℝ) - 1) else g.dr }

/-- `phimin(phimn)` (`lib/GridData2D.C:91-96`), after its test. -/
noncomputable def setPhimin (g : Grid) (x : ℝ) : Grid :=
  { g with phimin := x, dphi := if g.nphi > 1 then (g.phimax - x) / ((g.nphi : ℝ) - 1) else g.dphi }

/-- `phimax(phimx)` (`lib/GridData2D.C:99-104`), after its test. -/
noncomputable def setPhimax (g : Grid) (x : ℝ) : Grid :=
  { g with phimax := x, dphi := if g.nphi > 1 then (x - g.phimin) / ((g.nphi : ℝ) - 1) else g.dphi }

/-- `tmin(tmn)` (`lib/GridData2D.C:110-113`). -/
noncomputable def setTmin (g : Grid) (x : ℝ) : Grid :=
  { g with tmin := x, dt := if g.nt > 1 then (g.tmax - x) / ((g.nt : ℝ) - 1) else g.dt }

/-- `tmax(tmx)` (`lib/GridData2D.C:116-119`). -/
noncomputable def setTmax (g : Grid) (x : ℝ) : Grid :=
  { g with tmax := x, dt := if g.nt > 1 then (x - g.tmin) / ((g.nt : ℝ) - 1) else g.dt }

/-- What `fitsReadHDU` does with the sizes of an image (`lib/GridData2D.C:153-163`). -/
noncomputable def setSizes (g : Grid) (nr nphi nt : ℕ) : Grid :=
  { g with
    nt := nt, dt := if nt > 1 then (g.tmax - g.tmin) / ((nt : ℝ) - 1) else g.dt
    nphi := nphi, dphi := if nphi > 1 then (g.phimax - g.phimin) / ((nphi : ℝ) - 1) else g.dphi
    nr := nr, dr := if nr > 1 then (g.rmax - g.rmin) / ((nr : ℝ) - 1) else g.dr }

/-- `GridData2D()` (`lib/GridData2D.C:43-51`). -/
noncomputable def newGrid : Grid :=
  { phimin := 0, phimax := 2 * Real.pi, dphi := 0, tmin := -dblMax, tmax := dblMax, dt := 0, rmin := 0, rmax := dblMax, dr := 0, nphi := 0, nt := 0,
    nr := 0 }

/-! ## The members and the setters -/

/-- The members (`include/GyotoFlaredDiskSynchrotron.h:53-79`) but the name of the file. -/
structure Disk where
  grid : Grid
  synch : Kappa
  hoverR : ℝ
  nMax : ℝ
  TMax : ℝ
  BMax : Option ℝ
  beta : ℝ
  density : Option (List ℝ)
  velocity : Option (List ℝ)
  field : Option (List ℝ)
  times : Option (List ℝ)
  sigma : ℝ
  deltat : ℝ
  gamm1 : ℝ
  flag : Bool

/-- The constructor (`lib/FlaredDiskSynchrotron.C:67-79`). -/
noncomputable def Disk.new : Disk :=
  { grid := newGrid, synch := .new, hoverR := 0, nMax := 0, TMax := 0, BMax := some 0, beta := 1, density := none, velocity := none, field := none,
    times := none, sigma := 1, deltat := 0, gamm1 := 5 / 3, flag := false }

/-- What becomes of the object: a call returns, or throws, or its behaviour is undefined. -/
inductive Res where
  | ok (s : Disk)
  | thrown (s : Disk)
  | ub

/-- An image: three sizes and its values. -/
structure Image where
  nr : ℕ
  nphi : ℕ
  nt : ℕ
  data : List ℝ

/-- The contents of a FITS file: keywords that may be missing, images. The field may be missing; the dates are a list of any length. -/
structure File where
  tmin : Option ℝ
  tmax : Option ℝ
  rmin : Option ℝ
  rmax : Option ℝ
  phimin : Option ℝ
  phimax : Option ℝ
  density : Image
  velocity : Image
  field : Option Image
  times : List ℝ

/-- `fits_read_subset` into a new array of `n` zeros (`lib/GridData2D.C:165-175`, `:198-206`): as much as the image holds is written. -/
def readInto (n : ℕ) (data : List ℝ) : Option (List ℝ) :=
  if data.length ≤ n then some (data ++ List.replicate (n - data.length) 0) else none

/-- `memcpy` of `n` numbers. -/
def copyOf (n : ℕ) (data : List ℝ) : Option (List ℝ) := if n ≤ data.length then some (data.take n) else none

/-- `sqrt(8.*M_PI*numberDensityMax_cgs_*GYOTO_BOLTZMANN_CGS*temperatureMax_/beta_)` (`lib/FlaredDiskSynchrotron.C:207`, `:223`, `:236`). -/
noncomputable def fieldMax (n T beta : ℝ) : Option ℝ :=
  let x := 8 * Real.pi * n * boltzmannCGS * T / beta
  if beta = 0 ∨ x < 0 then none else some √x

/-- The setters and the ways of giving data. -/
inductive Call where
  | rmin (x : ℝ)
  | rmax (x : ℝ)
  | phimin (x : ℝ)
  | phimax (x : ℝ)
  | tmin (x : ℝ)
  | tmax (x : ℝ)
  | hoverR (x : ℝ)
  | timeTranslation (x : ℝ)
  | numberDensityMax (x : ℝ)
  | temperatureMax (x : ℝ)
  | polytropicIndex (x : ℝ)
  | betaAtMax (x : ℝ)
  | magnetization (x : ℝ)
  | kappaIndex (x : ℝ)
  | copyDensity (data : Option (List ℝ)) (nr nphi nt : ℕ)
  | copyVelocity (data : Option (List ℝ)) (nr nphi nt : ℕ)
  | copyBvector (data : Option (List ℝ)) (nr nphi nt : ℕ)
  | copyTimeArray (data : Option (List ℝ)) (n : ℕ)
  | file (f : File)

/-- The number of cells. -/
def Disk.cells (s : Disk) : ℕ := s.grid.nt * s.grid.nphi * s.grid.nr

/-- `timeTranslation_inMunit(dt)` (`lib/FlaredDiskSynchrotron.C:155-170`). -/
noncomputable def Disk.timeTranslation (s : Disk) (dt : ℝ) : Res :=
  let g := setTmin s.grid (s.grid.tmin - s.deltat + dt)
  let g := setTmax g (s.grid.tmax - s.deltat + dt)
  let s := { s with grid := g, deltat := dt }
  if s.grid.nt = 0 then .thrown s
  else match s.times with
    | none => .thrown s
    | some D =>
      if s.grid.nt ≤ D.length then .ok { s with times := some ((D.take s.grid.nt).map (· + dt) ++ D.drop s.grid.nt) }
      else .ub

/-- `copyDensity(density, naxes)` (`lib/FlaredDiskSynchrotron.C:255-288`). -/
def Disk.copyDensity (s : Disk) (data : Option (List ℝ)) (nr nphi nt : ℕ) : Res :=
  let s := { s with density := none }
  match data with
  | none => .ok s
  | some l =>
    let s := if s.grid.nt ≠ nt ∨ s.grid.nphi ≠ nphi ∨ s.grid.nr ≠ nr then { s with velocity := none } else s
    let s := { s with grid := { s.grid with nt := nt, nphi := nphi, nr := nr } }
    if nr * nphi * nt = 0 then .thrown s
    else match copyOf (nr * nphi * nt) l with
      | none => .ub
      | some l => .ok { s with density := some l }

/-- `copyVelocity(velocity, naxes)` (`lib/FlaredDiskSynchrotron.C:293-316`). -/
def Disk.copyVelocity (s : Disk) (data : Option (List ℝ)) (nr nphi nt : ℕ) : Res :=
  let s := { s with velocity := none }
  match data with
  | none => .ok s
  | some l =>
    if s.density = none then .thrown s
    else if s.grid.nt ≠ nt ∨ s.grid.nphi ≠ nphi ∨ s.grid.nr ≠ nr then .thrown s
    else match copyOf (2 * nt * nphi * nr) l with
      | none => .ub
      | some l => .ok { s with velocity := some l }

/-- `copyBvector(Bvector, naxes)` (`lib/FlaredDiskSynchrotron.C:321-345`). -/
def Disk.copyBvector (s : Disk) (data : Option (List ℝ)) (nr nphi nt : ℕ) : Res :=
  let s := { s with field := none }
  match data with
  | none => .ok s
  | some l =>
    if s.density = none then .thrown s
    else if s.grid.nt ≠ nt ∨ s.grid.nphi ≠ nphi ∨ s.grid.nr ≠ nr then .thrown s
    else match copyOf (4 * nt * nphi * nr) l with
      | none => .ub
      | some l => .ok { s with field := some l, flag := true }

/-- `copyTimeArray(time_array, ntimes)` (`lib/FlaredDiskSynchrotron.C:349-365`). -/
def Disk.copyTimeArray (s : Disk) (data : Option (List ℝ)) (n : ℕ) : Res :=
  let s := { s with times := none }
  match data with
  | none => .ok s
  | some l =>
    if s.grid.nt ≠ n then .thrown s
    else match copyOf n l with
      | none => .ub
      | some l => .ok { s with times := some l }

/-- The keywords (`lib/FlaredDiskSynchrotron.C:390-436`) of dates and radii. -/
noncomputable def Disk.keys (s : Disk) (f : File) : Grid :=
  let g := s.grid
  let g := match f.tmin with | some x => setTmin g (x + s.deltat) | none => g
  let g := match f.tmax with | some x => setTmax g (x + s.deltat) | none => g
  let g := match f.rmin with | some x => setRmin g x | none => g
  match f.rmax with | some x => setRmax g x | none => g

/-- `phimn<0. or phimn>2.*M_PI` (`lib/GridData2D.C:92`, `:100`). -/
def Bad (x : ℝ) : Prop := x < 0 ∨ x > 2 * Real.pi

open Classical in
/-- The images (`lib/FlaredDiskSynchrotron.C:438-497`) for the grid `g`. The number of dates that is compared is that of the images
(`:485`, `lib/GridData2D.C:210`), so that this test does nothing. -/
noncomputable def Disk.images (s : Disk) (g : Grid) (f : File) : Res :=
  let g := setSizes g f.density.nr f.density.nphi f.density.nt
  let n := f.density.nt * f.density.nphi * f.density.nr
  match readInto n f.density.data with
  | none => .ub
  | some d =>
    let g := setSizes g f.velocity.nr f.velocity.nphi f.velocity.nt
    match readInto (f.velocity.nt * f.velocity.nphi * f.velocity.nr * 2) f.velocity.data with
    | none => .ub
    | some v =>
      let s := { s with grid := g, density := some d, velocity := some v }
      if f.density.nr ≠ f.velocity.nr ∨ f.density.nphi ≠ f.velocity.nphi ∨ f.density.nt ≠ f.velocity.nt then .thrown s
      else
        let dates := fun (s : Disk) =>
          match readInto s.grid.nt f.times with
          | none => Res.ub
          | some D => .ok { s with times := some D }
        match f.field with
        | none => dates s
        | some B =>
          let g := setSizes s.grid B.nr B.nphi B.nt
          match readInto (B.nt * B.nphi * B.nr * 4) B.data with
          | none => .ub
          | some b =>
            let s := { s with grid := g, flag := true, field := some b }
            if f.density.nr ≠ B.nr ∨ f.density.nphi ≠ B.nphi ∨ f.density.nt ≠ B.nt then .thrown s else dates s

open Classical in
/-- `file(f)`, `fitsRead(filename)` (`lib/FlaredDiskSynchrotron.C:127-133`, `:370-499`). -/
noncomputable def Disk.file (s : Disk) (f : File) : Res :=
  let g := s.keys f
  match f.phimin with
  | some x => if Bad x then .thrown { s with grid := g } else rest (setPhimin g x)
  | none => rest g
where
  rest (g : Grid) : Res :=
    match f.phimax with
    | some x => if Bad x then .thrown { s with grid := g } else s.images (setPhimax g x) f
    | none => s.images g f

open Classical in
/-- One call. The setters: `lib/FlaredDiskSynchrotron.C:139-149`, `:199-208`, `:221-224`, `:228`, `:232-237`, `:241-242`, `:247-249`. -/
noncomputable def Disk.call (s : Disk) : Call → Res
  | .rmin x => .ok { s with grid := setRmin s.grid x }
  | .rmax x => .ok { s with grid := setRmax s.grid x }
  | .phimin x => if Bad x then .thrown s else .ok { s with grid := setPhimin s.grid x }
  | .phimax x => if Bad x then .thrown s else .ok { s with grid := setPhimax s.grid x }
  | .tmin x => .ok { s with grid := setTmin s.grid x }
  | .tmax x => .ok { s with grid := setTmax s.grid x }
  | .hoverR x => .ok { s with hoverR := x }
  | .timeTranslation x => s.timeTranslation x
  | .numberDensityMax x => .ok { s with nMax := x * 1e-6, BMax := fieldMax (x * 1e-6) s.TMax s.beta }
  | .temperatureMax x => .ok { s with TMax := x, BMax := fieldMax s.nMax x s.beta }
  | .polytropicIndex x => .ok { s with gamm1 := x - 1 }
  | .betaAtMax x => if x ≤ 0 then .thrown s else .ok { s with beta := x, BMax := fieldMax s.nMax s.TMax x }
  | .magnetization x => .ok { s with sigma := x }
  | .kappaIndex x => .ok { s with synch := s.synch.call (.kappaindex x) }
  | .copyDensity l a b c => s.copyDensity l a b c
  | .copyVelocity l a b c => s.copyVelocity l a b c
  | .copyBvector l a b c => s.copyBvector l a b c
  | .copyTimeArray l n => s.copyTimeArray l n
  | .file f => s.file f

/-- `numberDensityMax()` (`lib/FlaredDiskSynchrotron.C:176-185`). -/
noncomputable def Disk.numberDensityMax (s : Disk) : ℝ := s.nMax * 1e6

/-- `polytropicIndex()` (`lib/FlaredDiskSynchrotron.C:230`). -/
noncomputable def Disk.polytropicIndex (s : Disk) : ℝ := s.gamm1 + 1

/-- An array of the original and what is copied of it: nothing if there is none, `none` if it is shorter than `n`. -/
def copyArray (n : ℕ) : Option (List ℝ) → Option (Option (List ℝ))
  | none => some none
  | some l => (copyOf n l).map some

/-- The copy constructor (`lib/FlaredDiskSynchrotron.C:81-115`); `none` where more is copied than there is. -/
def Disk.copy (s : Disk) : Option Disk := do
  let d ← copyArray s.cells s.density
  let v ← copyArray (2 * s.cells) s.velocity
  let b ← copyArray (4 * s.cells) s.field
  let t ← copyArray s.grid.nt s.times
  return { s with density := d, velocity := v, field := b, times := t }

/-! ## The disk -/

/-- `rproj`, `rcyl` (`lib/FlaredDiskSynchrotron.C:509`, `:514`, `:540`, `:544`, `:693`, `:697`). -/
noncomputable def rho : Kind → Vec → ℝ
  | .spherical, p => p 1 * Real.sin (p 2)
  | .cartesian, p => √(p 1 * p 1 + p 2 * p 2)

/-- `zz` (`lib/FlaredDiskSynchrotron.C:541`, `:545`); `zpos` (`:510`, `:513`) is its absolute value. -/
noncomputable def height : Kind → Vec → ℝ
  | .spherical, p => p 1 * Real.cos (p 2)
  | .cartesian, p => p 3

open Classical in
/-- `operator()` (`lib/FlaredDiskSynchrotron.C:502-527`). -/
noncomputable def Disk.delta (s : Disk) (k : Kind) (p : Vec) : ℝ :=
  if rho k p < s.grid.rmin ∨ rho k p > s.grid.rmax then 1 else |height k p| - rho k p * s.hoverR

/-- Interpolation in an array that may be null, from the element `k` on. -/
noncomputable def Disk.value (s : Disk) (a : Option (List ℝ)) (k : ℕ) (t phi r : ℝ) : Interp.Out ℝ :=
  match a with
  | none => .error .ub
  | some l => s.grid.interpolate Real.pi t phi r (l.drop k) s.times

open Classical in
/-- The two tests on the place (`lib/FlaredDiskSynchrotron.C:553-556`, `:707-710`). -/
noncomputable def Disk.inGrid (s : Disk) (k : Kind) (p : Vec) : Prop :=
  ¬ (rho k p < s.grid.rmin ∨ rho k p > s.grid.rmax) ∧ ¬ Bad (p 3)

open Classical in
/-- `getVelocity(pos, vel)` (`lib/FlaredDiskSynchrotron.C:687-747`) for the metric `g`. -/
noncomputable def Disk.getVelocity (s : Disk) (k : Kind) (g : Tensor) (p : Vec) : Interp.Out Vec :=
  if ¬ s.inGrid k p then .error .thrown
  else do
    let vr ← s.value s.velocity 0 (p 0) (p 3) (rho k p)
    let vphi ← s.value s.velocity s.cells (p 0) (p 3) (rho k p)
    match k with
    | .spherical =>
      let v0 := sysPrimeToTdot g ![vr, 0, vphi]
      .ok ![v0, vr * v0, 0, vphi * v0]
    | .cartesian => .error .thrown

/-- `zfactor` (`lib/FlaredDiskSynchrotron.C:570`); `none` is a NaN or an infinity. -/
noncomputable def Disk.zfactor (s : Disk) (k : Kind) (p : Vec) : Option ℝ :=
  let H := s.hoverR * rho k p
  if H = 0 then none else some (1 - height k p * height k p / (H * H))

/-- `number_density` and `temperature` (`lib/FlaredDiskSynchrotron.C:571-577`) for the interpolated value `S` and `zfactor`; powers of numbers that
are not positive are left out. -/
noncomputable def Disk.gas (s : Disk) (S z : ℝ) : Option (ℝ × ℝ) :=
  if S ≤ 0 ∨ z ≤ 0 ∨ s.gamm1 = 0 then none
  else some (S * s.nMax * z ^ (1 / s.gamm1), S ^ s.gamm1 * s.TMax * z)

/-- What `hypergeom(kappaIndex, thetae)` of `lib/Utils.C:289-322` gives. -/
abbrev Hyper := ℝ → ℝ → ℝ

/-- The field (`lib/FlaredDiskSynchrotron.C:590-620`): the strength that is used, and the angle of the light `l` with the field. -/
noncomputable def Disk.tableField (s : Disk) (g : Tensor) (k : Kind) (p l u : Vec) : Interp.Out (ℝ × ℝ) := do
  let b0 ← s.value s.field 0 (p 0) (p 3) (rho k p)
  let b1 ← s.value s.field s.cells (p 0) (p 3) (rho k p)
  let b2 ← s.value s.field (2 * s.cells) (p 0) (p 3) (rho k p)
  let b3 ← s.value s.field (3 * s.cells) (p 0) (p 3) (rho k p)
  match project g ![b0, b1, b2, b3] u with
  | some b =>
    let e : Vec := l + scalarProd g l u • u
    let c := scalarProd g e b / (MetricAlg.norm g e * MetricAlg.norm g b)
    if MetricAlg.norm g e * MetricAlg.norm g b = 0 ∨ c < -1 ∨ 1 < c then .error .thrown
    else if Real.sin (Real.arccos c) = 0 then .error .thrown
    else
      match s.BMax with
      | some M => .ok (M * √(b 1 ^ 2 + b 2 ^ 2 + b 3 ^ 2), Real.arccos c)
      | none => .error .nan
  | none => .error .thrown

/-- What is set in the spectrum (`lib/FlaredDiskSynchrotron.C:617`, `:625`, `:632-633`, `:648-652`). -/
noncomputable def settings (F : Hyper) (kappa n T B angle : ℝ) (av : Bool) : List KappaCall :=
  let thetae := boltzmannCGS * T / (electronMassCGS * c2CGS)
  [.averaged av, .numberdensityCGS n, .cyclotronFreq (chargeCGS * B / (2 * Real.pi * electronMassCGS * cCGS)), .thetae thetae, .angle angle,
    .hypergeometric (F kappa thetae)]

/-- From the gas and the field to the light (`lib/FlaredDiskSynchrotron.C:640-684`). -/
noncomputable def Disk.shine (s : Disk) (F : Hyper) (L dsem n T B angle : ℝ) (av : Bool) (nus : List ℝ) : Transfer.Out (Disk × List (ℝ × ℝ)) :=
  Synch.bind ((s.synch.run (settings F s.synch.kappa n T B angle av)).radiativeQ nus) fun (synch, ja) =>
    Synch.bind (slabs (dsem * L) ja) fun out => .ok ({ s with synch := synch }, out)

/-- How an interpolation that does not return enters the rest: a NaN is not a result. -/
def lift {α : Type} : Interp.Out α → Transfer.Out α
  | .ok a => .ok a
  | .error .thrown => .throws
  | .error _ => .ub

open Classical in
/-- `radiativeQ(Inu, Taunu, nu_ems, nbnu, dsem, coord_ph, coord_obj)` (`lib/FlaredDiskSynchrotron.C:529-685`) at `p`, for light with the tangent `l`,
where the object is at `q`; `g` is the metric, `L` the unit of length. -/
noncomputable def Disk.radiativeQ (s : Disk) (F : Hyper) (g : Vec → Tensor) (k : Kind) (L dsem : ℝ) (p l q : Vec) (nus : List ℝ) :
    Transfer.Out (Disk × List (ℝ × ℝ)) :=
  if ¬ s.inGrid k p then .throws
  else
    Synch.bind (lift (s.value s.density 0 (p 0) (p 3) (rho k p))) fun S =>
      match (s.zfactor k p).bind (s.gas S) with
      | none => .ub
      | some (n, T) =>
        if s.flag then
          Synch.bind (lift (s.getVelocity k (g q) q)) fun u =>
            Synch.bind (lift (s.tableField (g p) k p l u)) fun (B, angle) => s.shine F L dsem n T B angle false nus
        else
          let x := 4 * Real.pi * s.sigma * protonMassCGS * cCGS * cCGS * n
          if x < 0 then .ub else s.shine F L dsem n T √x 0 true nus

end Gyoto.Flared
