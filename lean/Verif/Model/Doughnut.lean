import Verif.Model.Functors
import Verif.Model.Orbits
import Verif.Model.SphAcc
import Mathlib.Analysis.SpecialFunctions.Trigonometric.Inverse

/-!
# The Polish doughnut (`lib/PolishDoughnut.C`)

Doubles are reals. What the object computes with `ridders` may be a NaN: such members are `Option ℝ`, and `none` is "not a number" (a search that would
not end is counted with them). `DeltaWm1_`, that the constructor does not set, is `none` until it is written. What the metric computes (`getRms`, `getRmb`,
`getSpecificAngularMomentum`, `getPotential`) is a number; where this is in doubt there is a theorem on it. `aa_` and `aa2_` are never used. The exponents
`CST_POLY_INDEX` and `CST_POLY_INDEX_M1` are 3/2 and 2/3.
-/

namespace Gyoto.Doughnut

open Gyoto.MetricAlg
open Gyoto.Transfer (Out)
open Gyoto.Synch
open Gyoto.SphAcc (slabs protonMassCGS)

/-- What the object asks of a metric. -/
structure Hole where
  g : Vec → Tensor
  gUp : Vec → Tensor
  rms : ℝ
  rmb : ℝ
  ell : ℝ → ℝ
  pot : Vec → ℝ → ℝ
  circular : Vec → Vec
  unit : ℝ

/-- The members (`include/GyotoPolishDoughnut.h:90-126`). -/
structure Torus where
  metric : Option Hole
  l0 : ℝ
  lam : ℝ
  Ws : Option ℝ
  Wc : Option ℝ
  cusp : Option ℝ
  centre : Option ℝ
  outer : Option ℝ
  dW : Option (Option ℝ)
  enthalpy : ℝ
  temperature : ℝ
  beta : ℝ
  magnetization : ℝ
  oversampling : ℕ
  averaged : Bool
  brems : Bool
  deltaPL : ℝ
  adaf : Bool
  adafT : ℝ
  adafN : ℝ
  changeCusp : Bool
  roche : Bool
  rinner : Bool
  rin : Option ℝ
  synch : Thermal
  pl : PL
  ff : Brems

/-- The largest double. -/
noncomputable def dblMax : ℝ := (2 - 2 ^ (-52 : ℤ)) * 2 ^ 1023

/-- The constructor (`lib/PolishDoughnut.C:93-127`); that of the power law is at `lib/PowerLawSynchrotronSpectrum.C:33-38`. -/
noncomputable def Torus.new : Torus :=
  { metric := none, l0 := 10, lam := 1 / 2, Ws := some 0, Wc := some 0, cusp := some 0, centre := some 0, outer := some 0, dW := none, enthalpy := 1,
    temperature := 1e10, beta := 0, magnetization := -1, oversampling := 10, averaged := false, brems := false, deltaPL := 0, adaf := false, adafT := 0,
    adafN := 0, changeCusp := false, roche := false, rinner := false, rin := some 10, synch := .new, pl := ⟨0, 0, 1, 0, false, 1, dblMax⟩, ff := .new }

/-- The object afterwards, whether the call returns or throws. -/
inductive Res where
  | ok (s : Torus)
  | thrown (s : Torus)

open Classical in
/-- What `ridders` returns (`lib/Functors.C:34-63`). -/
noncomputable def root (f : ℝ → ℝ) (r1 r2 : ℝ) : Option ℝ :=
  if h : ∃ r n, Functors.ridders f r1 r2 n = .done r then some h.choose else none

/-- `intersection_t::operator()` (`lib/PolishDoughnut.C:893-900`). -/
def Hole.cross (h : Hole) (l0 r : ℝ) : ℝ := h.ell r - l0

/-- `getPotential` in the plane of the equator (`lib/PolishDoughnut.C:215-218`, `:282-283`, `:292-293`). -/
noncomputable def Hole.plane (h : Hole) (l0 r : ℝ) : ℝ := h.pot ![0, r, Real.pi / 2, 0] l0

/-- `outerradius_t::operator()` (`lib/PolishDoughnut.C:902-909`). -/
noncomputable def Hole.rel (h : Hole) (l0 Ws dW r : ℝ) : ℝ := (h.plane l0 r - Ws) * dW

open Classical in
/-- `1./(W_centre_ - W_surface_)` (`lib/PolishDoughnut.C:219`, `:294`); an infinity is not a number. -/
noncomputable def gap (Wc Ws : Option ℝ) : Option ℝ := do
  let c ← Wc
  let s ← Ws
  if c - s = 0 then none else some (1 / (c - s))

/-- `outerradius.ridders(r_centre_, far)` (`lib/PolishDoughnut.C:250-252`, `:296-299`). -/
noncomputable def Hole.outer (h : Hole) (l0 far : ℝ) (Ws dW centre : Option ℝ) : Option ℝ := do
  let w ← Ws
  let d ← dW
  let c ← centre
  root (h.rel l0 w d) c far

/-- The members that `lambda(lam)` writes before its test (`lib/PolishDoughnut.C:192-242`); they may be a torus already. -/
noncomputable def Torus.fill (s : Torus) (h : Hole) (lam : ℝ) : Torus :=
  let lms := h.ell h.rms
  let lmb := h.ell h.rmb
  let l0 := lam * (lmb - lms) + lms
  let cusp := root (h.cross l0) h.rmb h.rms
  let centre := root (h.cross l0) h.rms 1000
  let Ws := cusp.map (h.plane l0)
  let Wc := centre.map (h.plane l0)
  { s with roche := true, rinner := false, lam := lam, l0 := l0, rin := cusp, cusp := if s.changeCusp then cusp.map (· * 1.25) else cusp,
           centre := centre, Ws := Ws, Wc := Wc, dW := some (gap Wc Ws) }

/-- The last of them (`lib/PolishDoughnut.C:243-252`). -/
noncomputable def Torus.close (s : Torus) (h : Hole) : Torus := { s with outer := h.outer s.l0 5000 s.Ws (gap s.Wc s.Ws) s.centre }

open Classical in
/-- `lambda(lam)` (`lib/PolishDoughnut.C:191-267`). -/
noncomputable def Torus.lambda (s : Torus) (lam : ℝ) : Res :=
  match s.metric with
  | none => .ok { s with roche := true, rinner := false, lam := lam }
  | some h =>
    if lam > 0.99 then .thrown (s.fill h lam)
    else if ((s.fill h lam).close h).outer = none then .thrown ((s.fill h lam).close h)
    else .ok ((s.fill h lam).close h)

open Classical in
/-- `angmomrinner(v)` after its first test (`lib/PolishDoughnut.C:277-310`). -/
noncomputable def Torus.place (s : Torus) (l0 : ℝ) (rin : Option ℝ) : Res :=
  let s := { s with l0 := l0, rin := rin, cusp := rin }
  match s.metric with
  | none => .ok s
  | some h =>
    let Ws := rin.map (h.plane l0)
    let centre := rin.bind fun r => root (h.cross l0) r 1000
    let s := { s with Ws := Ws, centre := centre }
    if ∃ r c, rin = some r ∧ centre = some c ∧ (c < r ∨ c > 1000) then .thrown s
    else
      let Wc := centre.map (h.plane l0)
      let dW := gap Wc Ws
      .ok { s with Wc := Wc, dW := some dW, outer := h.outer l0 1000 Ws dW centre }

/-- `angmomrinner(v)` (`lib/PolishDoughnut.C:269-310`). -/
noncomputable def Torus.angmomrinner (s : Torus) (v : List ℝ) : Res :=
  let s := { s with rinner := true, roche := false }
  match v with
  | [l0, rin] => s.place l0 (some rin)
  | _ => .thrown s

/-- What `metric(met)` and `tell(met)` do with the parameters (`lib/PolishDoughnut.C:459-460`, `:468-469`): the getters give `l0_`, `rintorus_` and
`lambda_` back. -/
noncomputable def Torus.again (s : Torus) : Res :=
  if s.rinner then ({ s with rinner := true, roche := false } : Torus).place s.l0 s.rin else if s.roche then s.lambda s.lam else .ok s

/-- The calls. `mutated h` is a change of the parameters of the metric itself, which tells its hooks; `xmlADAF v` is the reading of an element `ADAF` that
contains the numbers `v`. The enthalpy is given in joules per cubic metre. -/
inductive Call where
  | lambda (x : ℝ)
  | angmomrinner (v : List ℝ)
  | changeCusp (b : Bool)
  | metric (h : Option Hole)
  | mutated (h : Hole)
  | enthalpy (x : ℝ)
  | temperature (x : ℝ)
  | beta (x : ℝ)
  | magnetization (x : ℝ)
  | oversampling (n : ℕ)
  | averaged (b : Bool)
  | brems (b : Bool)
  | nonThermal (v : List ℝ)
  | adafparams (v : List ℝ)
  | adaf (b : Bool)
  | xmlADAF (v : List ℝ)

/-- `adafparams(v)` (`lib/PolishDoughnut.C:414-420`). -/
def Torus.adafparams (s : Torus) : List ℝ → Res
  | [T, n] => .ok { s with adaf := true, adafT := T, adafN := n }
  | _ => .thrown s

/-- One call. The setters are at `lib/PolishDoughnut.C:350-358`, `:375-388`, `:391-400`, `:401-407`, `:427`; `setParameter` at `:430-442`; `metric` at
`:449-463`, `tell` at `:464-473`. One joule per cubic metre is ten ergs per cubic centimetre. -/
noncomputable def Torus.call (s : Torus) : Call → Res
  | .lambda x => s.lambda x
  | .angmomrinner v => s.angmomrinner v
  | .changeCusp b => .ok { s with changeCusp := b }
  | .metric h => ({ s with metric := h } : Torus).again
  | .mutated h => match s.metric with
    | none => .ok s
    | some _ => ({ s with metric := some h } : Torus).again
  | .enthalpy x => .ok { s with enthalpy := 10 * x }
  | .temperature x => .ok { s with temperature := x }
  | .beta x => .ok { s with beta := x }
  | .magnetization x => .ok { s with magnetization := x }
  | .oversampling n => .ok { s with oversampling := n }
  | .averaged b => .ok { s with averaged := b, synch := s.synch.call (.averaged b), pl := { s.pl with averaged := b } }
  | .brems b => .ok { s with brems := b }
  | .nonThermal v => match v with
    | [d, p] => .ok { s with deltaPL := d, pl := { s.pl with p := p } }
    | _ => .thrown s
  | .adafparams v => s.adafparams v
  | .adaf b => .ok { s with adaf := b }
  | .xmlADAF v => if v = [] then .ok s else s.adafparams v

/-- `lambda()`, `angmomrinner()` (`lib/PolishDoughnut.C:181-190`, `:311-322`). -/
def Torus.getLambda (s : Torus) : ℝ := s.lam

def Torus.getRinner (s : Torus) : ℝ × Option ℝ := (s.l0, s.rin)

/-- `fillProperty` (`lib/PolishDoughnut.C:74-80`): which of `Lambda` and `AngMomRinner` are written. -/
def Torus.written (s : Torus) : Bool × Bool := (s.roche, s.rinner)

/-! ## The shape and the motion -/

/-- What `operator()` returns: a number, or an infinity or a NaN. -/
inductive Val (α : Type) where
  | num (x : α)
  | nan
  | inf

open Classical in
/-- `operator()` (`lib/PolishDoughnut.C:511-554`). The comparisons with a NaN are false. Where `term` is zero the potential is minus infinity. -/
noncomputable def Torus.delta (s : Torus) (h : Hole) (p : Vec) : Val ℝ :=
  if ∃ r, s.rin = some r ∧ p 1 < r then .num 1
  else
    let term := h.gUp p 0 0 - 2 * s.l0 * h.gUp p 0 3 + s.l0 * s.l0 * h.gUp p 3 3
    if term > 0 then .num 1
    else if term = 0 then .inf
    else
      match s.Ws with
      | none => .nan
      | some W =>
        let tmp := W - h.pot p s.l0
        let rproj := p 1 * Real.sin (p 2)
        match s.cusp with
        | none => .num tmp
        | some c => if rproj < c then .num (|tmp| + (c - rproj)) else .num tmp

open Classical in
/-- `getVelocity(pos, vel)` (`lib/PolishDoughnut.C:555-577`); a zero denominator is `ub`. -/
noncomputable def Torus.velocity (s : Torus) (h : Hole) (p : Vec) : Out Vec :=
  if s.adaf then .ok (h.circular p)
  else
    let gtt := h.g p 0 0
    let gtph := h.g p 0 3
    let gphph := h.g p 3 3
    if s.l0 * gtph + gphph = 0 then .ub
    else
      let Omega := -(s.l0 * gtt + gtph) / (s.l0 * gtph + gphph)
      let n := gtt + 2 * gtph * Omega + gphph * Omega * Omega
      if n = 0 then .ub
      else
        let ut2 := -1 / n
        if ut2 < 0 then .throws else .ok ![√ut2, 0, 0, Omega * √ut2]

/-! ## The gas -/

/-- `CST_MU_ELEC` (`lib/PolishDoughnut.C:89`). -/
noncomputable def muElec : ℝ := 1.1428571428571427937015414

/-- `GYOTO_ATOMIC_MASS_UNIT_CGS` (`include/GyotoDefs.h:537`). -/
noncomputable def atomicMassCGS : ℝ := 1.660537781e-24

/-- `g_tp*g_tp-g_tt*g_pp` (`lib/PolishDoughnut.C:678-686`). -/
def area (g : Tensor) : ℝ := g 0 3 * g 0 3 - g 0 0 * g 3 3

open Classical in
/-- `ww` (`lib/PolishDoughnut.C:667-675`). -/
noncomputable def height (ww : ℝ) : Out ℝ :=
  if ww ≤ 0 then if |ww| < 1e-9 then if ww ≠ 0 then .ok |ww| else .ok 1e-9 else .throws else .ok ww

/-- Density, temperature and strength of the field. -/
structure Gas where
  n : ℝ
  T : ℝ
  B : ℝ

/-- The density of the gas of a given enthalpy (`lib/PolishDoughnut.C:703-708`). -/
noncomputable def density (kappa x : ℝ) : ℝ := (x - kappa * x ^ (1 + 2 / 3 : ℝ)) / (c2CGS * muElec * atomicMassCGS)

open Classical in
/-- `kappa` and `kappam` (`lib/PolishDoughnut.C:687-695`), for the gap `D` of the potential and the area `c` at the centre. With `beta_` zero and no average
`kappam` is the product of an infinity and zero. -/
noncomputable def Torus.kappas (s : Torus) (D c : ℝ) : Val (ℝ × ℝ) :=
  if s.averaged then .num (s.enthalpy ^ (-(2 / 3) : ℝ) * D / (3 / 2 + 1), 0)
  else if s.beta = 0 then .nan
  else if 1 + 1 / s.beta = 0 then .inf
  else
    let kappa := s.enthalpy ^ (-(2 / 3) : ℝ) * D / ((3 / 2 + 1) * (1 + 1 / s.beta))
    .num (kappa, c ^ (-(2 / 3) : ℝ) / s.beta * kappa)

/-- `enthalpy` (`lib/PolishDoughnut.C:696-702`) at the height `w`, for the areas `A` there and `c` at the centre. -/
noncomputable def Torus.profile (s : Torus) (k km w c A : ℝ) : ℝ :=
  s.enthalpy * (w * (k + km * c ^ (2 / 3 : ℝ)) / (k + km * A ^ (2 / 3 : ℝ))) ^ (3 / 2 : ℝ)

/-- `magnetic_pressure` and `fact_b` (`lib/PolishDoughnut.C:711-721`), for the enthalpy `x`; with an average and `beta_` zero the pressure is infinite. -/
noncomputable def Torus.pressure (s : Torus) (k km A x : ℝ) : Val (ℝ × ℝ) :=
  if s.averaged then if s.beta = 0 then .inf else .num (k * x ^ (1 + 2 / 3 : ℝ) / s.beta, 24 * Real.pi)
  else .num (km * A ^ (2 / 3 : ℝ) * x ^ (1 + 2 / 3 : ℝ), 8 * Real.pi)

open Classical in
/-- `bnorm` (`lib/PolishDoughnut.C:722-731`). -/
noncomputable def Torus.field (s : Torus) (k km A x : ℝ) : Val ℝ :=
  if s.magnetization ≠ -1 then
    let y := 4 * Real.pi * s.magnetization * protonMassCGS * cCGS * cCGS * density k x
    if y < 0 then .nan else .num √y
  else
    match s.pressure k km A x with
    | .num (pm, f) => if f * pm < 0 then .nan else .num √(f * pm)
    | .nan => .nan
    | .inf => .inf

open Classical in
/-- From the height `w` to the gas (`lib/PolishDoughnut.C:676-731`, `:758-760`), for the gap `D`, the areas `c` and `A`. Powers of negative numbers are NaNs;
what is infinite is not followed. -/
noncomputable def Torus.gas (s : Torus) (D c A w : ℝ) : Val Gas :=
  if s.enthalpy ≤ 0 ∨ c ≤ 0 ∨ A ≤ 0 then .inf
  else
    match s.kappas D c with
    | .nan => .nan
    | .inf => .inf
    | .num (k, km) =>
      if k + km * A ^ (2 / 3 : ℝ) = 0 then .inf
      else if w * (k + km * c ^ (2 / 3 : ℝ)) / (k + km * A ^ (2 / 3 : ℝ)) < 0 then .nan
      else
        let x := s.profile k km w c A
        let n := density k x
        let nc := density k s.enthalpy
        if n < 0 ∨ nc < 0 then .nan
        else if nc = 0 then .inf
        else
          match s.field k km A x with
          | .nan => .nan
          | .inf => .inf
          | .num B => .num ⟨n, s.temperature * nc ^ (-(2 / 3) : ℝ) * n ^ (2 / 3 : ℝ), B⟩

/-- `b4vec` (`lib/PolishDoughnut.C:734-737`), if the root in it is that of a positive number. -/
noncomputable def Torus.bvec (s : Torus) (g : Tensor) (B : ℝ) : Vec :=
  let bphi := B / √(g 3 3 + 2 * s.l0 * g 0 3 + s.l0 * s.l0 * g 0 0)
  ![bphi * s.l0, 0, 0, bphi]

/-! ## The light -/

/-- The functions of Bessel `K1`, `K2`, `K3` that are asked (`lib/Utils.C:251-287`). -/
structure Bessels where
  k1 : ℝ → ℝ
  k2 : ℝ → ℝ
  k3 : ℝ → ℝ

/-- `Inu` is 0 and `Taunu` is 1 (`lib/PolishDoughnut.C:651`, `:783`, `:797`). -/
def dark (nus : List ℝ) : List (ℝ × ℝ) := nus.map fun _ => (0, 1)

/-- `Theta_elec` (`lib/PolishDoughnut.C:763-764`). -/
noncomputable def thetaE (T : ℝ) : ℝ := boltzmannCGS * T / (electronMassCGS * c2CGS)

open Classical in
/-- `coef_ther` (`lib/PolishDoughnut.C:770-785`) where the function goes on. -/
noncomputable def coefTher (b : Bessels) (th : ℝ) : ℝ :=
  if th > 0.01 then (3 * b.k3 (1 / th) + b.k1 (1 / th)) / (4 * b.k2 (1 / th)) - 1 else 1.5 * th

/-- `number_density_PL` (`lib/PolishDoughnut.C:790-791`). -/
noncomputable def Torus.densityPL (s : Torus) (b : Bessels) (n th : ℝ) : ℝ := (s.pl.p - 2) / (s.pl.p - 1) * s.deltaPL * coefTher b th * n

/-- `nuc` (`lib/PolishDoughnut.C:792-793`). -/
noncomputable def cyclotron (B : ℝ) : ℝ := chargeCGS * B / (2 * Real.pi * electronMassCGS * cCGS)

/-- The sum of the coefficients, frequency by frequency (`lib/PolishDoughnut.C:857-869`). -/
def addUp (l m : List (ℝ × ℝ)) : List (ℝ × ℝ) := List.zipWith (fun x y => (x.1 + y.1, x.2 + y.2)) l m

/-- All the frequencies of the bremsstrahlung. -/
noncomputable def Brems.all (f : Brems) : List ℝ → Out (List (ℝ × ℝ))
  | [] => .ok []
  | nu :: l => bind (f.pass nu) fun p => bind (Brems.all f l) fun ps => .ok (p :: ps)

/-- The coefficients (`lib/PolishDoughnut.C:803-869`) for the gas and the angle of the field; the spectra are changed. -/
noncomputable def Torus.coefs (s : Torus) (b : Bessels) (n T B angle : ℝ) (nus : List ℝ) : Out (Torus × List (ℝ × ℝ)) :=
  let th := thetaE T
  let synch := s.synch.run [.temperature T, .numberdensityCGS n, .angle angle, .cyclotronFreq (cyclotron B), .besselK2 (b.k2 (1 / th))]
  bind (synch.radiativeQ nus) fun (synch, ja) =>
    bind (if s.deltaPL ≠ 0 then
        if s.pl.p = 1 then .ub else ({ s.pl with n := s.densityPL b n th, angle := angle, nu0 := cyclotron B } : PL).radiativeQ nus
      else .ok (s.pl, [])) fun (pl, jaPL) =>
      let ff := if s.brems then (s.ff.temperature T).numberdensityCGS n else s.ff
      bind (if s.brems then Brems.all ff nus else .ok []) fun jaB =>
        let l := if s.deltaPL > 0 then addUp ja jaPL else ja
        .ok ({ s with synch := synch, pl := pl, ff := ff }, if s.brems then addUp l jaB else l)

open Classical in
/-- From the gas and the angle to the light (`lib/PolishDoughnut.C:763-885`). -/
noncomputable def Torus.shine (s : Torus) (b : Bessels) (L dsem n T B angle : ℝ) (nus : List ℝ) : Out (Torus × List (ℝ × ℝ)) :=
  if ¬ thetaE T > 1e-5 then .ok (s, dark nus)
  else if B < 1e-5 then .ok (s, dark nus)
  else bind (s.coefs b n T B angle nus) fun (s, ja) => bind (slabs (dsem * L) ja) fun out => .ok (s, out)

open Classical in
/-- The flow of Yuan and Broderick (`lib/PolishDoughnut.C:646-662`): density, temperature and field at `(rr, theta)`, or nothing near the axis. -/
noncomputable def Torus.adafGas (s : Torus) (rr theta : ℝ) : Option Gas :=
  let zz := rr * |Real.cos theta|
  let rcyl := rr * Real.sin theta
  if zz > 10 * rcyl then none
  else
    let n := s.adafN * (rr / 2) ^ (-1.1 : ℝ) * Real.exp (-zz * zz / (2 * rcyl * rcyl))
    some ⟨n, s.adafT * (rr / 2) ^ (-0.84 : ℝ), √(8 * Real.pi * 1 / 10 * n * protonMassCGS * cCGS * cCGS * 2 / (12 * rr))⟩

open Classical in
/-- `radiativeQ(Inu, Taunu, nu_ems, nbnu, dsem, coord_ph, coord_obj)` (`lib/PolishDoughnut.C:622-886`): the light is at `p` with the tangent `l`, the object
at `q`. With a temperature that is not a number neither comparison of `Theta_elec` holds and there is no light. -/
noncomputable def Torus.radiativeQ (s : Torus) (b : Bessels) (h : Hole) (dsem : ℝ) (p l q : Vec) (nus : List ℝ) : Out (Torus × List (ℝ × ℝ)) :=
  if s.adaf then
    if ¬ s.averaged then .throws
    else
      match s.adafGas (p 1) (p 2) with
      | none => .ok (s, dark nus)
      | some G => s.shine b h.unit dsem G.n G.T G.B 0 nus
  else
    match s.dW with
    | none => .ub
    | some dW =>
      let ww := do
        let d ← dW
        let w ← s.Ws
        some ((h.pot ![0, p 1, p 2, 0] s.l0 - w) * d)
      bind (match ww with | none => .ok none | some w => bind (height w) fun w => .ok (some w)) fun ww =>
        bind (s.velocity h q) fun u =>
          let e : Vec := l + scalarProd (h.g p) l u • u
          let ln := scalarProd (h.g p) e e
          if ln ≤ 0 then .throws
          else
            match ww, s.centre, s.Wc, s.Ws with
            | some w, some c, some Wc, some Ws =>
              match s.gas (Wc - Ws) (area (h.g ![0, c, Real.pi / 2, 0])) (area (h.g p)) w with
              | .inf => .ub
              | .nan => .ok (s, dark nus)
              | .num G =>
                if h.g p 3 3 + 2 * s.l0 * h.g p 0 3 + s.l0 * s.l0 * h.g p 0 0 ≤ 0 then .ub
                else
                  let x := scalarProd (h.g p) e (s.bvec (h.g p) G.B) / (√ln * G.B)
                  if G.B = 0 then .ok (s, dark nus)
                  else if x < -1 ∨ 1 < x then .ub
                  else if Real.sin (Real.arccos x) = 0 then .throws
                  else s.shine b h.unit dsem G.n G.T G.B (Real.arccos x) nus
            | _, _, _, _ => .ok (s, dark nus)

open Classical in
/-- `Impact(ph, index, data)` (`lib/PolishDoughnut.C:474-509`), up to the loop over the dates: it throws, sees nothing, goes on with the loop of the ADAF, or
with that of `Standard`. -/
inductive Path where
  | throws
  | nothing
  | flow
  | standard

open Classical in
/-- Which of them, for the place `p` of the light. -/
noncomputable def Torus.path (s : Torus) (h : Hole) (p : Vec) : Path :=
  if s.beta = 1 then .throws
  else if s.adaf then if p 1 * Real.sin (p 2) < h.rms then .nothing else .flow
  else .standard

/-! ## Channels -/

/-- The frequencies at which the emission is computed (`lib/PolishDoughnut.C:598-608`): the array `bo` as a list, channel by channel, for `m` subchannels.
With `m = 0` the index of the last element is computed from `0 - 1` and the write is outside of the arrays; with `m = 0` `som1` is also infinite. -/
noncomputable def cuts (m : ℕ) (lo hi : ℝ) : List ℝ :=
  ((List.range m).map fun (j : ℕ) => lo + (j : ℝ) * ((hi - lo) * (1 / (m : ℝ)))) ++ [hi]

/-- The sum of one channel (`lib/PolishDoughnut.C:610-616`): `I` are the values of this channel, `x` the frequencies. -/
noncomputable def channelSum (m : ℕ) (I x : List ℝ) : Option ℝ :=
  (List.range m).foldl (fun acc j => do
    let a ← acc
    let i0 ← I[j]?
    let i1 ← I[j + 1]?
    let x0 ← x[j]?
    let x1 ← x[j + 1]?
    some (a + (i1 + i0) * 0.5 * |x1 - x0|)) (some 0)

/-- The ends of the channels (`boundaries[chaninds[2*i]]`, `boundaries[chaninds[2*i+1]]`); `none` is reading outside of an array. -/
def ends (boundaries : List ℝ) (chaninds : List ℕ) (nbnu : ℕ) : Option (List (ℝ × ℝ)) :=
  (List.range nbnu).mapM fun i => do
    let i1 ← chaninds[2 * i]?
    let i2 ← chaninds[2 * i + 1]?
    let a ← boundaries[i1]?
    let b ← boundaries[i2]?
    some (a, b)

/-- `integrateEmission(I, boundaries, chaninds, nbnu, …)` (`lib/PolishDoughnut.C:578-620`). `emission` gives the values at all the frequencies at once;
channel `i` has the elements from `i * (m + 1)` on. -/
noncomputable def Torus.integrate (s : Torus) (emission : List ℝ → Out (List ℝ)) (boundaries : List ℝ) (chaninds : List ℕ) (nbnu : ℕ) : Out (List ℝ) :=
  let m := s.oversampling
  if m = 0 ∧ 0 < nbnu then .ub
  else
    match ends boundaries chaninds nbnu with
    | none => .ub
    | some es =>
      let bo := es.flatMap fun (lo, hi) => cuts m lo hi
      bind (emission bo) fun Inu =>
        match (List.range nbnu).mapM fun i => channelSum m ((Inu.drop (i * (m + 1))).take (m + 1)) ((bo.drop (i * (m + 1))).take (m + 1)) with
        | none => .ub
        | some l => .ok l

end Gyoto.Doughnut
