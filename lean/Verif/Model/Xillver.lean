import Verif.Model.DirectionalDisk
import Mathlib.Analysis.SpecialFunctions.Pow.Real
import Mathlib.Analysis.SpecialFunctions.Trigonometric.Basic

/-!
# The illumination of `XillverReflection`: the lamp, the table and the spin of the metric

Doubles are reals.  Errors are those of `GridRead`: `.error` for an exception, `.ub` for a read outside of an array, a quotient by zero, or
a loop that does not end.  The reflected spectrum (`lib/XillverReflection.C:900-998`) is in `XillverRefl`; the FITS files are not modelled.
-/

namespace Gyoto.Xillver

open Gyoto.GridRead
open Gyoto.DirectionalDisk (upIndex mix2 ratio)

/-! ## The lamp -/

/-- `radius` and date of the lamp, and the spin of the metric (`lib/XillverReflection.C:84-86`). -/
structure Lamp where
  /-- `aa_`. -/
  aa : ℝ
  /-- `lampradius_`. -/
  radius : ℝ
  /-- `timelampphizero_`. -/
  zero : ℝ

/-- `lampperiod` (`lib/XillverReflection.C:381`, `:828`). -/
noncomputable def Lamp.period (l : Lamp) : ℝ := 2 * Real.pi * (l.radius ^ (1.5 : ℝ) + l.aa)

/-- `fmod`, which keeps the sign of its first argument. -/
noncomputable def fmod (x y : ℝ) : M ℝ :=
  if y = 0 then .error .ub else .ok (if 0 ≤ x then x - |y| * ⌊x / |y|⌋ else x - |y| * ⌈x / |y|⌉)

/-- `timelampphizero(tt)` (`lib/XillverReflection.C:375-383`). -/
noncomputable def Lamp.setZero (tt : ℝ) (l : Lamp) : M Lamp :=
  if l.radius = 0 then .error .error
  else do
    let z ← fmod tt l.period
    pure { l with zero := z }

/-- `while (timehit<0.) timehit+=lampperiod` (`lib/XillverReflection.C:830-834`), at most `n` turns. -/
noncomputable def forward (p : ℝ) : ℕ → ℝ → M ℝ
  | 0, t => if t < 0 then .error .ub else .ok t
  | n + 1, t => if t < 0 then forward p n (t + p) else .ok t

/-- `dphi` in `emission` (`lib/XillverReflection.C:828-864`).  The number of turns of the first loop is enough for it to end when the period
is positive.  The check before the two last loops makes them at most one turn each. -/
noncomputable def Lamp.dphi (l : Lamp) (t phi : ℝ) : M ℝ := do
  let lampperiod := l.period
  let timehit ← forward lampperiod ⌈-t / lampperiod⌉₊ t
  let timerescale ← fmod timehit lampperiod
  let philamp := (timerescale - l.zero) / lampperiod * 2 * Real.pi
  let dphi := phi - philamp
  if dphi < -2 * Real.pi ∨ dphi > 4 * Real.pi then .error .error
  else
    let dphi := if dphi < 0 then dphi + 2 * Real.pi else dphi
    let dphi := if dphi > 2 * Real.pi then dphi - 2 * Real.pi else dphi
    if dphi < 0 ∨ dphi > 2 * Real.pi then .error .error else .ok dphi

/-! ## The table -/

/-- The arrays of the illumination (`lib/XillverReflection.C:81-83`). -/
structure Table where
  illumination : Option (List ℝ)
  radius : Option (List ℝ)
  phi : Option (List ℝ)
  nr : ℕ
  nphi : ℕ

/-- `getIndicesIllum` (`lib/XillverReflection.C:784-821`) for a projected radius `rr` and an azimuth `phi`. -/
noncomputable def Table.indices (s : Table) (rr phi : ℝ) : M (ℕ × ℕ) :=
  if phi ≤ 0 ∨ phi > 2 * Real.pi then .error .error
  else do
    let p0 ← read s.phi 0
    let phi := if phi < p0 then phi + 2 * Real.pi else phi
    if s.radius = none then .error .error
    else
      let i0 ← searchUp s.radius rr s.nr 0
      let i1 ← upIndex s.phi s.nphi phi
      pure (i0, i1)

/-- `fluxillum` in `emission` (`lib/XillverReflection.C:840`, `:866-898`) in spherical coordinates on the equator; `none` when the function returns zero before. -/
noncomputable def Table.flux (s : Table) (rr dphi : ℝ) : M (Option ℝ) := do
  let r0 ← read s.radius 0
  let rn ← read s.radius ((s.nr : ℤ) - 1)
  if rr ≤ r0 ∨ rr ≥ rn then .ok none
  else
    let (iru, ip) ← s.indices rr dphi
    if iru = 0 ∨ ip = 0 then .error .error
    else
      let irl := iru - 1
      let pn ← read s.phi ((s.nphi : ℤ) - 1)
      let (iphil, iphiu) := if dphi > pn then (s.nphi - 1, 0) else (ip - 1, ip)
      let F00 ← read s.illumination ((s.nphi * irl + iphil : ℕ) : ℤ)
      let F01 ← read s.illumination ((s.nphi * irl + iphiu : ℕ) : ℤ)
      let F10 ← read s.illumination ((s.nphi * iru + iphil : ℕ) : ℤ)
      let F11 ← read s.illumination ((s.nphi * iru + iphiu : ℕ) : ℤ)
      let rl ← read s.radius irl
      let ru ← read s.radius iru
      let ratior ← ratio rr rl ru
      let pl ← read s.phi iphil
      let pu ← read s.phi iphiu
      let ratiophi ← if dphi > pn then ratio dphi pl (2 * Real.pi + pu) else ratio dphi pl pu
      pure (some (mix2 F00 F10 F01 F11 ratior ratiophi))

/-! ## The metric -/

/-- The metrics of the program, by an identity: whether `kind()` is `KerrBL` or `KerrKS`, and the spin. -/
abbrev World := ℕ → Bool × ℝ

/-- `gg_`, the metrics that know the object (`hook`), and `aa_`. -/
structure Link where
  gg : Option ℕ
  hooks : List ℕ
  aa : ℝ

/-- A call that matters to the link: `metric(gg)` on the object, or a new spin for a metric. -/
inductive Call where
  | metric (m : ℕ)
  | spin (m : ℕ) (a : ℝ)

/-- `metric(gg)` (`lib/XillverReflection.C:152-161`), the new spin of a metric and `tell` (`:163-179`); the flag is an exception. -/
def call (w : World) (l : Link) : Call → World × Link × Bool
  | .metric m =>
    let l := match l.gg with
      | none => l
      | some g => { l with hooks := l.hooks.erase g }
    if (w m).1 then (w, { gg := some m, hooks := m :: l.hooks, aa := (w m).2 }, false)
    else (w, l, true)
  | .spin m a =>
    let w' : World := fun k => if k = m then ((w k).1, a) else w k
    if m ∈ l.hooks ∧ l.gg = some m then (w', { l with aa := a }, false) else (w', l, false)

/-- The copy constructor (`lib/XillverReflection.C:91-128`, `lib/Astrobj.C:109-114`): `copy` is the clone of the metric; nothing is hooked. -/
def clone (copy : ℕ) (l : Link) : Link := ⟨l.gg.map fun _ => copy, [], l.aa⟩

end Gyoto.Xillver
