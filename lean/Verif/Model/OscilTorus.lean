import Verif.Model.KerrBL
import Verif.Model.HitQuantities
import Mathlib.Analysis.SpecialFunctions.Pow.Real
import Mathlib.Analysis.SpecialFunctions.Trigonometric.Basic
import Mathlib.Algebra.Order.Floor.Ring
import Mathlib.Algebra.Order.Archimedean.Real.Basic

/-!
# The torus with oscillations (`lib/OscilTorus.C`)

Doubles are reals, `M_PI` is exact. `.nan` and `.ub`: a number computed is not one (a quotient by zero, the square root of a negative number, a power of
a number that is not positive), or what is read does not exist; `.throws`: an error. A metric is `KerrBL`, the only one accepted
(`lib/OscilTorus.C:354-355`): its spin, or `none` before it is set. A central density that is not positive is taken as not a number, also where `pow`
would give one for an integer exponent.
-/

namespace Gyoto.OscTorus

open Gyoto.MetricAlg Gyoto.KerrBL
open Gyoto.Transfer (Out)

/-- `perturb_t` (`include/GyotoOscilTorus.h:51`). -/
inductive Perturb where
  | radial | vertical | x | plus | breathing
  deriving DecidableEq

/-- `perturbKind(k)`, the name only (`lib/OscilTorus.C:78-87`). -/
def parse (k : String) : Option Perturb :=
  if k = "Radial" then some .radial
  else if k = "Vertical" then some .vertical
  else if k = "X" then some .x
  else if k = "Plus" then some .plus
  else if k = "Breathing" then some .breathing
  else none

/-- `perturbKind()` (`lib/OscilTorus.C:90-100`). -/
def name : Perturb → String
  | .radial => "Radial"
  | .vertical => "Vertical"
  | .x => "X"
  | .plus => "Plus"
  | .breathing => "Breathing"

/-- The cached values (`include/GyotoOscilTorus.h:63-72`). -/
structure Cache where
  sigma : ℝ
  alpha : ℝ
  w1 : ℝ
  w2 : ℝ
  omr2 : ℝ
  omth2 : ℝ
  Omega : ℝ
  lc : ℝ
  grr : ℝ
  ghh : ℝ

/-- The members (`include/GyotoOscilTorus.h:46-73`). -/
structure Osc where
  spin : Option ℝ
  c : ℝ
  mode : ℕ
  K : ℝ
  n : ℝ
  rho : ℝ
  kind : Perturb
  I : ℝ
  hold : Bool
  cache : Cache

/-- The constructor (`lib/OscilTorus.C:134-161`). -/
noncomputable def Osc.new : Osc := ⟨none, 10.8, 0, 0.01, 0.01, 0.01, .radial, 0.1, false, ⟨0, 0, 0, 0, 0, 0, 0, 0, 0, 0⟩⟩

/-- `posc` (`lib/OscilTorus.C:318`, `:369`). -/
noncomputable def posc (c : ℝ) : Vec := ![0, c, Real.pi / 2, 0]

/-- `Omegac_` (`lib/OscilTorus.C:324`, `:375`). -/
noncomputable def Omega (a c : ℝ) : ℝ := 1 / (c ^ (1.5 : ℝ) + a)

/-- `lc_` (`lib/OscilTorus.C:376`). -/
noncomputable def lc (a c : ℝ) : ℝ :=
  -(Omega a c * gmunu a (posc c) 3 3 + gmunu a (posc c) 0 3) / (Omega a c * gmunu a (posc c) 0 3 + gmunu a (posc c) 0 0)

/-- `omr2_` (`lib/OscilTorus.C:379-380`). -/
noncomputable def omr2 (a c : ℝ) : ℝ := 1 - 6 / c + 8 * a * c ^ (-1.5 : ℝ) - 3 * a * a / (c * c)

/-- `omth2_` (`lib/OscilTorus.C:381-382`). -/
noncomputable def omth2 (a c : ℝ) : ℝ := 1 - 4 * a * c ^ (-1.5 : ℝ) + 3 * a * a / (c * c)

/-- `sigmaminus2` and `sigmaplus2` (`lib/OscilTorus.C:410-417`, `:435-442`): `e` is -1 or 1. -/
noncomputable def sigma2 (n p q e : ℝ) : ℝ :=
  ((2 * n + 1) * (p + q) + e * √(4 * n * (n + 1) * (p - q) * (p - q) + (p + q) * (p + q))) / (2 * n)

/-- `w1_` (`lib/OscilTorus.C:419-421`, `:444-446`). -/
noncomputable def weight1 (n p q s2 : ℝ) : ℝ := -(p * (2 * q + 2 * n * q - n * s2)) / (q - p)

/-- `w2_` (`lib/OscilTorus.C:422-424`, `:447-449`). -/
noncomputable def weight2 (n p q s2 : ℝ) : ℝ := q * (2 * p + 2 * n * p - n * s2) / (q - p)

/-- What `alpha_` takes the root of (`lib/OscilTorus.C:425-430`, `:450-455`). -/
noncomputable def radicand (n p q s2 : ℝ) : ℝ := (n + 2) * (s2 - (p + q)) / (2 * n * s2 - (2 * n + 1) * (p + q))

/-- How an update ends, and the object afterwards. -/
inductive Upd where
  | done (o : Osc)
  | throws (o : Osc)
  | nan

open Classical in
/-- The values of the kind (`lib/OscilTorus.C:388-461`). -/
noncomputable def Osc.modeValues (o : Osc) (p q : ℝ) : Option Cache :=
  let alpha0 := √(o.n * √p * √q / Real.pi)
  if o.n < 0 then none
  else
    match o.kind with
    | .radial => some { o.cache with sigma := √p, alpha := alpha0 * √(2 * (o.n + 1) * p) }
    | .vertical => some { o.cache with sigma := √q, alpha := alpha0 * √(2 * (o.n + 1) * q) }
    | .x => some { o.cache with sigma := √(p + q), alpha := alpha0 * √(4 * (o.n + 1) * (o.n + 2) * p * q) }
    | .plus =>
      if o.n = 0 ∨ q - p = 0 ∨ sigma2 o.n p q (-1) < 0 ∨ 2 * o.n * sigma2 o.n p q (-1) - (2 * o.n + 1) * (p + q) = 0 ∨
          radicand o.n p q (sigma2 o.n p q (-1)) < 0 then none
      else some { o.cache with sigma := √(sigma2 o.n p q (-1)), w1 := weight1 o.n p q (sigma2 o.n p q (-1)),
                               w2 := weight2 o.n p q (sigma2 o.n p q (-1)), alpha := alpha0 * √(radicand o.n p q (sigma2 o.n p q (-1))) }
    | .breathing =>
      if o.n = 0 ∨ q - p = 0 ∨ sigma2 o.n p q 1 < 0 ∨ 2 * o.n * sigma2 o.n p q 1 - (2 * o.n + 1) * (p + q) = 0 ∨
          radicand o.n p q (sigma2 o.n p q 1) < 0 then none
      else some { o.cache with sigma := √(sigma2 o.n p q 1), w1 := weight1 o.n p q (sigma2 o.n p q 1),
                               w2 := weight2 o.n p q (sigma2 o.n p q 1), alpha := alpha0 * √(radicand o.n p q (sigma2 o.n p q 1)) }

/-- Where the numbers of the centre are numbers. -/
def CentreOk (a c : ℝ) : Prop :=
  0 < c ∧ 0 < c * c - 2 * c + a * a ∧ c ^ (1.5 : ℝ) + a ≠ 0 ∧ Omega a c * gmunu a (posc c) 0 3 + gmunu a (posc c) 0 0 ≠ 0

/-- The object after `g_rr_`, `g_thth_`, `Omegac_`, `lc_`, `omr2_`, `omth2_` are set (`lib/OscilTorus.C:371-382`). -/
noncomputable def Osc.withCentre (o : Osc) (a : ℝ) : Osc :=
  { o with cache := { o.cache with grr := gmunu a (posc o.c) 1 1, ghh := gmunu a (posc o.c) 2 2, Omega := Omega a o.c, lc := lc a o.c,
                                   omr2 := omr2 a o.c, omth2 := omth2 a o.c } }

open Classical in
/-- `updateCachedValues()` (`lib/OscilTorus.C:366-462`). -/
noncomputable def Osc.update (o : Osc) : Upd :=
  if o.hold then .done o
  else
    match o.spin with
    | none => .done o
    | some a =>
      if o.c = 0 then .done o
      else if ¬ CentreOk a o.c then .nan
      else
        let o1 := o.withCentre a
        if omr2 a o.c ≤ 0 ∨ omth2 a o.c ≤ 0 then .throws o1
        else
          match o1.modeValues (omr2 a o.c) (omth2 a o.c) with
          | none => .nan
          | some k => .done { o1 with cache := k }

/-- What can be asked. -/
inductive Op where
  | largeRadius (v : ℝ)
  | largeRadiusUnit (v : ℝ)
  | polyIndex (v : ℝ)
  | kind (k : Perturb)
  | mode (m : ℕ)
  | polyCst (v : ℝ)
  | centralDensity (v : ℝ)
  | intensity (v : ℝ)
  | metric (spin : Option ℝ)
  | spin (a : ℝ)

/-- One request: `largeRadius(v)` (`lib/OscilTorus.C:68-69`, `include/GyotoProperty.h:108-115`: with a unit, `v` is the value once converted, and the
cached values are not updated), `polyIndex`, `perturbKind`, the members without a cached value (`lib/OscilTorus.C:70-75`), `metric`
(`lib/OscilTorus.C:346-360`), and a change of the spin of the metric, which is told (`lib/OscilTorus.C:362-364`). -/
noncomputable def Osc.step (o : Osc) : Op → Upd
  | .largeRadius v => { o with c := v }.update
  | .largeRadiusUnit v => .done { o with c := v }
  | .polyIndex v => { o with n := v }.update
  | .kind k => { o with kind := k }.update
  | .mode m => .done { o with mode := m }
  | .polyCst v => .done { o with K := v }
  | .centralDensity v => .done { o with rho := v }
  | .intensity v => .done { o with I := v }
  | .metric none => .done { o with spin := none }
  | .metric (some a) => { o with spin := some a }.update
  | .spin a =>
    match o.spin with
    | none => .done o
    | some _ => { o with spin := some a }.update

/-- `poly` (`lib/OscilTorus.C:256`, `:328`) and `centralp` (`:257`, `:329`). -/
noncomputable def Osc.poly (o : Osc) : ℝ := (o.n + 1) / o.n
noncomputable def Osc.pressure (o : Osc) : ℝ := o.K * o.rho ^ o.poly

/-- `ut_central2` (`lib/OscilTorus.C:331`). -/
noncomputable def utCentral2 (a c : ℝ) : ℝ :=
  -1 / (gmunu a (posc c) 0 0 + gmunu a (posc c) 3 3 * Omega a c * Omega a c + 2 * gmunu a (posc c) 0 3 * Omega a c)

/-- `beta2` (`lib/OscilTorus.C:330-333`). -/
noncomputable def Osc.beta2 (o : Osc) (a : ℝ) : ℝ :=
  2 * o.n * (o.poly * o.pressure / o.rho) / (o.c * o.c * utCentral2 a o.c * Omega a o.c * Omega a o.c)

open Classical in
/-- `computeXbYb(pos, xb, yb)` (`lib/OscilTorus.C:314-344`). -/
noncomputable def Osc.xy (o : Osc) (pos : Vec) : Out (ℝ × ℝ) :=
  match o.spin with
  | none => .ub
  | some a =>
    if o.n = 0 ∨ o.rho ≤ 0 ∨ ¬ CentreOk a o.c ∨
        gmunu a (posc o.c) 0 0 + gmunu a (posc o.c) 3 3 * Omega a o.c * Omega a o.c + 2 * gmunu a (posc o.c) 0 3 * Omega a o.c = 0 then .ub
    else if o.beta2 a ≤ 0 then .throws
    else .ok (1 / √(o.beta2 a) * √(gmunu a (posc o.c) 1 1) * (pos 1 - o.c) / o.c,
              1 / √(o.beta2 a) * √(gmunu a (posc o.c) 2 2) * (Real.pi / 2 - pos 2) / o.c)

/-- `uu` (`lib/OscilTorus.C:213-231`). -/
noncomputable def Osc.shape (o : Osc) (x y : ℝ) : ℝ :=
  match o.kind with
  | .radial => x
  | .vertical => y
  | .x => x * y
  | .plus => 1 + o.cache.w1 * x * x + o.cache.w2 * y * y
  | .breathing => 1 + o.cache.w1 * x * x + o.cache.w2 * y * y

/-- The phase (`lib/OscilTorus.C:236`, `:286`, `:290`). -/
noncomputable def Osc.phase (o : Osc) (t φ : ℝ) : ℝ := o.mode * φ - o.cache.Omega * (o.cache.sigma + o.mode) * t

/-- `ff` (`lib/OscilTorus.C:233-238`). -/
noncomputable def Osc.f (o : Osc) (t φ x y : ℝ) : ℝ :=
  o.cache.omr2 * x * x + o.cache.omth2 * y * y - 1 + o.I * o.cache.sigma * o.cache.alpha * o.shape x y * Real.cos (o.phase t φ)

/-- `operator()(pos)` (`lib/OscilTorus.C:203-242`). -/
noncomputable def Osc.value (o : Osc) (pos : Vec) : Out ℝ := HitQ.Out.bind (o.xy pos) fun p => .ok (o.f (pos 0) (pos 3) p.1 p.2)

/-- `vr` and `vth` (`lib/OscilTorus.C:262-282`). -/
noncomputable def Osc.flow (o : Osc) (x y : ℝ) : ℝ × ℝ :=
  match o.kind with
  | .radial => (1, 0)
  | .vertical => (0, 1)
  | .x => (y, x)
  | .plus => (2 * o.cache.w1 * x, 2 * o.cache.w2 * y)
  | .breathing => (2 * o.cache.w1 * x, 2 * o.cache.w2 * y)

/-- `u_r` (`lib/OscilTorus.C:284-286`). -/
noncomputable def Osc.ur (o : Osc) (t φ x y : ℝ) : ℝ :=
  -o.I * √(o.pressure / o.rho) * √o.cache.grr * o.cache.alpha * (o.flow x y).1 * Real.sin (o.phase t φ)

/-- `u_th` (`lib/OscilTorus.C:288-290`). -/
noncomputable def Osc.uth (o : Osc) (t φ x y : ℝ) : ℝ :=
  o.I * √(o.pressure / o.rho) * √o.cache.ghh * o.cache.alpha * (o.flow x y).2 * Real.sin (o.phase t φ)

/-- The denominator of `u_t2` (`lib/OscilTorus.C:293`). -/
noncomputable def Osc.denom (o : Osc) (a : ℝ) (pos : Vec) : ℝ :=
  gmunuUp a pos 0 0 + o.cache.lc * o.cache.lc * gmunuUp a pos 3 3 - 2 * o.cache.lc * gmunuUp a pos 0 3

open Classical in
/-- `getVelocity(pos, vel)` (`lib/OscilTorus.C:244-312`). -/
noncomputable def Osc.getVelocity (o : Osc) (pos : Vec) : Out Vec :=
  match o.spin with
  | none => .ub
  | some a =>
    HitQ.Out.bind (o.xy pos) fun p =>
      let up := gmunuUp a pos
      let ur := o.ur (pos 0) (pos 3) p.1 p.2
      let uth := o.uth (pos 0) (pos 3) p.1 p.2
      let ut2 := (-1 - up 1 1 * ur * ur - up 2 2 * uth * uth) / o.denom a pos
      if Real.sin (pos 2) = 0 ∨ pos 1 * pos 1 - 2 * pos 1 + a * a = 0 ∨
          pos 1 * pos 1 + a * a * (Real.cos (pos 2) * Real.cos (pos 2)) = 0 ∨ o.denom a pos = 0 then .ub
      else if ut2 < 0 then .throws
      else
        let ut := -√ut2
        let uph := -o.cache.lc * ut
        .ok ![up 0 0 * ut + up 0 3 * uph, up 1 1 * ur, up 2 2 * uth, up 3 3 * uph + up 0 3 * ut]

/-! ## The file of areas and the emission -/

/-- The loop of `emittingArea(f)` (`lib/OscilTorus.C:114-128`) on a file of lines of two numbers; `newline`: the last line ends with a line feed.
`prev` is what `tt` and `area` hold: where nothing is left to read, `>>` leaves them as they are (the stream is not good: no conversion is tried).
Lines with other contents are not modelled. -/
noncomputable def readArea (newline : Bool) : Option (ℝ × ℝ) → List (ℝ × ℝ) → Out (List (ℝ × ℝ))
  | none, [] => .ub
  | some p, [] => open Classical in .ok (if p.2 = 0 then [] else [p])
  | _, r :: rest =>
    open Classical in
    if r.2 = 0 then .ok []
    else if rest.isEmpty ∧ newline = false then .ok [r]
    else HitQ.Out.bind (readArea newline (some r) rest) fun l => .ok (r :: l)

/-- The members for the areas (`include/GyotoOscilTorus.h:53`, `:58-61`). -/
structure Areas where
  file : String
  rows : List (ℝ × ℝ)
  cross : Bool

/-- The copy (`lib/OscilTorus.C:163-176`): `emitting_area_` is not in the list. -/
def Areas.copy (s : Areas) : Areas := { s with file := "" }

/-- The reduction of the date (`lib/OscilTorus.C:490`): the first of `t`, `t - P`, `t - 2 P` and so on that is not above `P`, for `P` positive. -/
noncomputable def reduceDate (P t : ℝ) : ℝ := if t > P then t - P * ((⌈t / P⌉ : ℤ) - 1 : ℝ) else t

open Classical in
/-- `ii` (`lib/OscilTorus.C:488-495`). -/
noncomputable def seek (t : ℝ) : List (ℝ × ℝ) → ℕ
  | [] => 0
  | [_] => 0
  | r :: r' :: rest => if t > r.1 then seek t (r' :: rest) + 1 else 0

open Classical in
/-- `area` (`lib/OscilTorus.C:496-501`). -/
noncomputable def areaAt (rows : List (ℝ × ℝ)) (t : ℝ) : Out ℝ :=
  let ii := seek t rows
  match rows[ii]? with
  | none => .ub
  | some r =>
    if ii = 0 ∨ ii = rows.length - 1 then .ok r.2
    else
      match rows[ii - 1]? with
      | none => .ub
      | some l => if l.1 - r.1 = 0 then .ub else .ok (l.2 + (t - l.1) * (r.2 - l.2) / (l.1 - r.1))

open Classical in
/-- `emission` (`lib/OscilTorus.C:464-508`), `rt` for `flag_radtransf_`. -/
noncomputable def Osc.emission (o : Osc) (s : Areas) (rt : Bool) (t : ℝ) : Out ℝ :=
  if rt then .throws
  else if s.cross = false then .ok 1
  else if o.mode ≠ 0 then .throws
  else if o.kind = .vertical ∨ o.kind = .x then .throws
  else if o.cache.Omega * o.cache.sigma ≤ 0 then .ub
  else
    HitQ.Out.bind (areaAt s.rows (reduceDate (2 * Real.pi / (o.cache.Omega * o.cache.sigma)) t)) fun A =>
      if A ≤ 0 then .throws else .ok (1 / A)

end Gyoto.OscTorus
