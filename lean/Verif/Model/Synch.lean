import Verif.Model.Transfer
import Verif.Model.SpectrumKinds
import Mathlib.Analysis.SpecialFunctions.Pow.Real
import Mathlib.Analysis.SpecialFunctions.Trigonometric.Basic
import Mathlib.Analysis.SpecialFunctions.Gamma.Basic
import Mathlib.Data.Fin.VecNotation

/-!
# What hot plasmas emit and absorb (`lib/ThermalSynchrotronSpectrum.C`, `lib/PowerLawSynchrotronSpectrum.C`,
`lib/ThermalBremsstrahlungSpectrum.C`)

Doubles are reals. `pow` is `Real.rpow`, which agrees with it for a positive base. Where the code divides by zero, or raises a negative
number to a power that is not an integer, the model says `ub` (the code goes on with a NaN or an infinity); `GYOTO_ERROR` is `throws`.
Branches that a macro or a local constant disables (`useWZ00`, `USE_IPOLE_FORMALISM`, `usePMT83`) are left out. `bessk0`, `bessk1`,
`bessk` are what they return.
-/

namespace Gyoto.Synch

open Gyoto.Transfer (Out)
open Gyoto.SpectrumKinds (BlackBody)

/-- One piece of code after the other. -/
def bind {α β : Type} : Out α → (α → Out β) → Out β
  | .ok a, f => f a
  | .throws, _ => .throws
  | .ub, _ => .ub

/-! ## Constants (`include/GyotoDefs.h:488-543`) -/

noncomputable def cCGS : ℝ := 2.99792458e10
noncomputable def c2CGS : ℝ := 8.98755178736817668096e20
noncomputable def boltzmannCGS : ℝ := 1.3806504e-16
noncomputable def planckCGS : ℝ := 6.62606896e-27
noncomputable def planckOverBoltzmann : ℝ := 4.7992373449498869688e-11
noncomputable def planckOverC2 : ℝ := 7.3724959997591407964e-51
noncomputable def electronMassCGS : ℝ := 9.10938188e-28
noncomputable def chargeCGS : ℝ := 4.80320427e-10
noncomputable def thomsonCGS : ℝ := 6.6524e-25
noncomputable def alphaF : ℝ := 0.00729927
noncomputable def eulerMascheroni : ℝ := 0.577216
noncomputable def inuToSI : ℝ := 0.001
noncomputable def jnuToSI : ℝ := inuToSI * 100
noncomputable def anuToSI : ℝ := 100

/-! ## The sum over the angles -/

/-- `th0+double(jj)*hh` (`lib/ThermalSynchrotronSpectrum.C:397-403`). -/
noncomputable def angleAt (N j : ℕ) : ℝ := 0.01 + (j : ℝ) * ((Real.pi - 0.01 - 0.01) / (N : ℝ))

/-- The loop over the angles for some coefficients at once, each a function of the angle (`lib/ThermalSynchrotronSpectrum.C:397-409`,
`lib/PowerLawSynchrotronSpectrum.C:334-349`); the sums are made in parallel, as in the code. -/
noncomputable def sweep {ι : Type} (N : ℕ) (f : ℝ → Out (ι → ℝ)) : Out (ι → ℝ) :=
  let hh := (Real.pi - 0.01 - 0.01) / (N : ℝ)
  let start := bind (f (angleAt N 0)) fun v => .ok ((fun _ => 0 : ι → ℝ), fun i => v i * Real.sin (angleAt N 0))
  let all := (List.range N).foldl (fun acc jj => bind acc fun (cur, prev) => bind (f (angleAt N (jj + 1))) fun v =>
    let next := fun i => v i * Real.sin (angleAt N (jj + 1))
    .ok ((fun i => cur i + 0.5 * 0.5 * hh * (prev i + next i)), next)) start
  bind all fun (cur, _) => .ok cur

/-! ## Thermal synchrotron -/

/-- The members of `ThermalSynchrotron` (`include/GyotoThermalSynchrotronSpectrum.h:52-58`). -/
structure Thermal where
  bb : BlackBody
  T : ℝ
  n : ℝ
  angle : ℝ
  nu0 : ℝ
  averaged : Bool
  K2 : ℝ

/-- The constructor (`lib/ThermalSynchrotronSpectrum.C:42-50`). -/
noncomputable def Thermal.new : Thermal := ⟨.new (2 * planckOverC2), 10000, 0, 0, 1, false, 1⟩

/-- The setters. -/
inductive ThermalCall where
  | temperature (T : ℝ)
  | numberdensityCGS (n : ℝ)
  | angle (a : ℝ)
  | cyclotronFreq (nu0 : ℝ)
  | averaged (b : Bool)
  | besselK2 (k : ℝ)

/-- One setter (`lib/ThermalSynchrotronSpectrum.C:64-88`). -/
noncomputable def Thermal.call (s : Thermal) : ThermalCall → Thermal
  | .temperature T => { s with T := T, bb := s.bb.call (.temperature T) }
  | .numberdensityCGS n => { s with n := n }
  | .angle a => { s with angle := a }
  | .cyclotronFreq nu0 => { s with nu0 := nu0 }
  | .averaged b => { s with averaged := b }
  | .besselK2 k => { s with K2 := k }

/-- Setters one after the other. -/
noncomputable def Thermal.run (s : Thermal) (l : List ThermalCall) : Thermal := l.foldl Thermal.call s

/-- `Theta_elec` (`lib/ThermalSynchrotronSpectrum.C:109-110`). -/
noncomputable def Thermal.theta (s : Thermal) : ℝ := s.T * boltzmannCGS / (electronMassCGS * c2CGS)

/-- `xx` (`lib/ThermalSynchrotronSpectrum.C:163-164`), if it is a nonnegative number: otherwise powers of it are not defined. -/
noncomputable def Thermal.xx (s : Thermal) (nu : ℝ) : Out ℝ :=
  let nus := 2 / 9 * s.nu0 * s.theta * s.theta * Real.sin s.angle
  if nus = 0 then .ub else if nu / nus < 0 then .ub else .ok (nu / nus)

/-- The factor common to the emission coefficients (`lib/ThermalSynchrotronSpectrum.C:167-170`). -/
noncomputable def Thermal.front (s : Thermal) : ℝ := s.n * chargeCGS * chargeCGS * s.nu0 / cCGS

/-- `jnuCGS` (`lib/ThermalSynchrotronSpectrum.C:107-174`). -/
noncomputable def Thermal.j (s : Thermal) (nu : ℝ) : Out ℝ :=
  bind (s.xx nu) fun x =>
    .ok (s.front * (Real.exp (-x ^ (1 / 3 : ℝ)) * √2 * Real.pi / 27 * Real.sin s.angle *
      (x ^ (1 / 2 : ℝ) + (2 : ℝ) ^ (11 / 12 : ℝ) * x ^ (1 / 6 : ℝ)) ^ (2 : ℝ)))

/-- `jQnuCGS` (`lib/ThermalSynchrotronSpectrum.C:176-210`). -/
noncomputable def Thermal.jQ (s : Thermal) (nu : ℝ) : Out ℝ :=
  bind (s.xx nu) fun x =>
    .ok (s.front * (Real.exp (-x ^ (1 / 3 : ℝ)) * √2 * Real.pi / 27 * Real.sin s.angle *
      (x ^ (1 / 2 : ℝ) + (7 * s.theta ^ (24 / 25 : ℝ) + 35) / (10 * s.theta ^ (24 / 25 : ℝ) + 75) * (2 : ℝ) ^ (11 / 12 : ℝ) *
        x ^ (1 / 6 : ℝ)) ^ (2 : ℝ)))

/-- `jVnuCGS` (`lib/ThermalSynchrotronSpectrum.C:217-251`). -/
noncomputable def Thermal.jV (s : Thermal) (nu : ℝ) : Out ℝ :=
  bind (s.xx nu) fun x =>
    .ok (s.front * (Real.exp (-x ^ (1 / 3 : ℝ)) * Real.cos s.angle / s.theta *
      (Real.pi / 3 + Real.pi / 3 * x ^ (1 / 3 : ℝ) + 2 / 300 * √x + 2 * Real.pi / 19 * x ^ (2 / 3 : ℝ))))

/-- `alphanuCGS`, `alphaQnuCGS`, `alphaUnuCGS`, `alphaVnuCGS` for the value `j` of the emission coefficient
(`lib/ThermalSynchrotronSpectrum.C:253-295`). -/
noncomputable def Thermal.alpha (s : Thermal) (nu j : ℝ) : Out ℝ :=
  match s.bb.eval planckOverBoltzmann nu with
  | none => .ub
  | some B =>
    let BB := B / inuToSI
    if BB = 0 then if j = 0 then .ok 0 else .throws else .ok (j / BB)

/-- What the Bessel functions of `lib/Utils.C` return. -/
structure Bessel where
  k0 : ℝ → ℝ
  k1 : ℝ → ℝ
  k2 : ℝ → ℝ

/-- `rQnuCGS` (`lib/ThermalSynchrotronSpectrum.C:297-329`). -/
noncomputable def Thermal.rQ (b : Bessel) (s : Thermal) (nu : ℝ) : Out ℝ :=
  bind (s.xx nu) fun x =>
    if x = 0 then .ub
    else if b.k2 (1 / s.theta) = 0 then .ub
    else
      let f0 := 2.011 * Real.exp (-19.78 * x ^ (-0.5175 : ℝ)) - Real.cos (39.89 * x ^ (-0.5 : ℝ)) * Real.exp (-70.16 * x ^ (-0.6 : ℝ)) -
        0.011 * Real.exp (-1.69 * x ^ (-0.5 : ℝ))
      let fm := f0 + (0.011 * Real.exp (-1.69 * x ^ (-0.5 : ℝ)) - 0.003135 * x ^ (4 / 3 : ℝ)) * 1 / 2 *
        (1 + Real.tanh (10 * Real.log (0.6648 * x ^ (-0.5 : ℝ))))
      .ok (s.n * chargeCGS ^ (2 : ℝ) * s.nu0 ^ (2 : ℝ) * Real.sin s.angle ^ (2 : ℝ) / (electronMassCGS * cCGS * nu ^ (3 : ℝ)) *
        fm * (b.k1 (1 / s.theta) / b.k2 (1 / s.theta) + 6 * s.theta))

/-- `rVnuCGS` (`lib/ThermalSynchrotronSpectrum.C:336-369`). -/
noncomputable def Thermal.rV (b : Bessel) (s : Thermal) (nu : ℝ) : Out ℝ :=
  bind (s.xx nu) fun x =>
    if x = 0 then .ub
    else if b.k2 (1 / s.theta) = 0 then .ub
    else
      .ok (2 * s.n * chargeCGS ^ (2 : ℝ) * s.nu0 / (electronMassCGS * cCGS * nu ^ (2 : ℝ)) *
        (b.k0 (1 / s.theta) - 0.4379 * Real.log (1 + 1.3414 * x ^ (-0.7515 : ℝ))) / b.k2 (1 / s.theta) * Real.cos s.angle)

/-- `operator()(nu, opacity, ds)` (`lib/ThermalSynchrotronSpectrum.C:99-105`). -/
noncomputable def Thermal.increment (s : Thermal) (nu ds : ℝ) : Out ℝ :=
  bind (s.j nu) fun j => bind (s.alpha nu j) fun a => .ok (j * (ds * 100) * Real.exp (-a * (ds * 100)) * inuToSI)

/-- One turn of the loop of the unpolarised `radiativeQ` (`lib/ThermalSynchrotronSpectrum.C:389-420`). The angles of the average are set in
the object itself: the last one stays. -/
noncomputable def Thermal.pass (s : Thermal) (nu : ℝ) : Out (Thermal × ℝ × ℝ) :=
  match s.bb.eval planckOverBoltzmann nu with
  | none => .ub
  | some BB =>
    bind (if s.averaged = false then bind (s.j nu) fun j => .ok (s, j)
      else bind (sweep (ι := Fin 1) 100 fun th => bind (({ s with angle := th } : Thermal).j nu) fun j => .ok ![j]) fun v =>
        .ok ({ s with angle := angleAt 100 100 }, v 0)) fun (s', jnucur) =>
      let j := jnucur * jnuToSI
      if BB = 0 then if jnucur = 0 then .ok (s', j, 0) else .throws
      else .ok (s', j, j / BB)

/-- The frequencies one after the other. -/
def each {σ β : Type} (f : σ → ℝ → Out (σ × β)) : σ → List ℝ → Out (σ × List β)
  | s, [] => .ok (s, [])
  | s, nu :: l => bind (f s nu) fun (s', b) => bind (each f s' l) fun (s'', bs) => .ok (s'', b :: bs)

open Classical in
/-- The unpolarised `radiativeQ` (`lib/ThermalSynchrotronSpectrum.C:371-421`): the object afterwards, and `jnu`, `alphanu`. -/
noncomputable def Thermal.radiativeQ (s : Thermal) (nus : List ℝ) : Out (Thermal × List (ℝ × ℝ)) :=
  if s.theta < 0.01 then .ok (s, nus.map fun _ => (0, 0)) else each Thermal.pass s nus

/-- The eleven coefficients at one angle, in the order of the arguments (`lib/ThermalSynchrotronSpectrum.C:456-466`). -/
noncomputable def Thermal.coefs (b : Bessel) (s : Thermal) (nu : ℝ) : Out (Fin 11 → ℝ) :=
  bind (s.j nu) fun jI => bind (s.jQ nu) fun jQ => bind (s.jV nu) fun jV =>
  bind (s.alpha nu jI) fun aI => bind (s.alpha nu jQ) fun aQ => bind (s.alpha nu 0) fun aU => bind (s.alpha nu jV) fun aV =>
  bind (s.rQ b nu) fun rQ => bind (s.rV b nu) fun rV =>
    .ok ![jI, jQ, 0, jV, aI, aQ, aU, aV, rQ, 0, rV]

/-- The factors of the last lines (`lib/ThermalSynchrotronSpectrum.C:531-543`). -/
noncomputable def toSI (v : Fin 11 → ℝ) : Fin 11 → ℝ := fun i => if i.1 < 4 then v i * jnuToSI else v i * anuToSI

/-- One turn of the loop of the polarised `radiativeQ` (`lib/ThermalSynchrotronSpectrum.C:450-545`). -/
noncomputable def Thermal.passP (b : Bessel) (s : Thermal) (nu : ℝ) : Out (Thermal × (Fin 11 → ℝ)) :=
  bind (if s.averaged = false then bind (s.coefs b nu) fun v => .ok (s, v)
    else bind (sweep 100 fun th => ({ s with angle := th } : Thermal).coefs b nu) fun v =>
      .ok ({ s with angle := angleAt 100 100 }, v)) fun (s', v) => .ok (s', toSI v)

open Classical in
/-- The polarised `radiativeQ` (`lib/ThermalSynchrotronSpectrum.C:424-546`). -/
noncomputable def Thermal.radiativeQP (b : Bessel) (s : Thermal) (nus : List ℝ) : Out (Thermal × List (Fin 11 → ℝ)) :=
  if s.theta < 0.01 then .ok (s, nus.map fun _ _ => 0) else each (Thermal.passP b) s nus

/-! ## Power-law synchrotron -/

/-- The members of `PowerLawSynchrotron` but the black body, which is not used
(`include/GyotoPowerLawSynchrotronSpectrum.h:53-59`). -/
structure PL where
  n : ℝ
  angle : ℝ
  nu0 : ℝ
  p : ℝ
  averaged : Bool
  gmin : ℝ
  gmax : ℝ

open Classical in
/-- The test at the head of each coefficient (`lib/PowerLawSynchrotronSpectrum.C:122-123`) and what must hold for the powers and quotients
of these functions to be defined: `gamma_min` and `gamma_max` positive with different powers, `cyclotron_freq*sin(angle)` and `nu` not zero and
of the same sign. -/
noncomputable def PL.guard (s : PL) (nu : ℝ) : Out Unit :=
  if s.nu0 = 0 ∨ nu / s.nu0 < 0 then .ub
  else if s.gmax < √(nu / s.nu0) then .throws
  else if s.gmin ≤ 0 ∨ s.gmax ≤ 0 ∨ s.gmin ^ (1 - s.p) - s.gmax ^ (1 - s.p) = 0 then .ub
  else if s.nu0 * Real.sin s.angle = 0 ∨ nu / (s.nu0 * Real.sin s.angle) ≤ 0 then .ub
  else .ok ()

/-- `numberdensityCGS_*e*e*cyclotron_freq_/c` (`lib/PowerLawSynchrotronSpectrum.C:133-135`). -/
noncomputable def PL.front (s : PL) : ℝ := s.n * chargeCGS * chargeCGS * s.nu0 / cCGS

/-- `Js` of `jnuCGS` (`lib/PowerLawSynchrotronSpectrum.C:127-132`); `tgamma` is Euler's function. -/
noncomputable def PL.Js (s : PL) (nu : ℝ) : ℝ :=
  (3 : ℝ) ^ (s.p / 2) * (s.p - 1) * Real.sin s.angle / (2 * (s.p + 1) * (s.gmin ^ (1 - s.p) - s.gmax ^ (1 - s.p))) *
    Real.Gamma ((3 * s.p - 1) / 12) * Real.Gamma ((3 * s.p + 19) / 12) * (nu / (s.nu0 * Real.sin s.angle)) ^ ((1 - s.p) / 2)

/-- `jnuCGS` (`lib/PowerLawSynchrotronSpectrum.C:103-140`). -/
noncomputable def PL.j (s : PL) (nu : ℝ) : Out ℝ :=
  bind (s.guard nu) fun _ => if s.p + 1 = 0 then .ub else .ok (s.front * s.Js nu)

/-- `jQnuCGS` (`lib/PowerLawSynchrotronSpectrum.C:142-162`). -/
noncomputable def PL.jQ (s : PL) (nu : ℝ) : Out ℝ :=
  bind (s.guard nu) fun _ => if s.p + 1 = 0 ∨ s.p + 7 / 3 = 0 then .ub else .ok (s.front * (s.Js nu * (s.p + 1) / (s.p + 7 / 3)))

open Classical in
/-- `jVnuCGS` (`lib/PowerLawSynchrotronSpectrum.C:169-189`). At a right angle, which is no double, `1/tan` is 0. -/
noncomputable def PL.jV (s : PL) (nu : ℝ) : Out ℝ :=
  bind (s.guard nu) fun _ => if s.p < 0 ∨ s.p + 1 = 0 then .ub
    else .ok (s.front * (s.Js nu * (171 / 250 * s.p ^ (49 / 100 : ℝ) / Real.tan s.angle *
      (nu / (3 * s.nu0 * Real.sin s.angle)) ^ (-0.5 : ℝ))))

/-- `As` of `alphanuCGS` (`lib/PowerLawSynchrotronSpectrum.C:213-217`). -/
noncomputable def PL.As (s : PL) (nu : ℝ) : ℝ :=
  (3 : ℝ) ^ ((s.p + 1) / 2) * (s.p - 1) / (4 * (s.gmin ^ (1 - s.p) - s.gmax ^ (1 - s.p))) *
    Real.Gamma ((3 * s.p + 2) / 12) * Real.Gamma ((3 * s.p + 22) / 12) * (nu / (s.nu0 * Real.sin s.angle)) ^ (-(s.p + 2) / 2)

/-- `numberdensityCGS_*e*e/(nu*m*c)` (`lib/PowerLawSynchrotronSpectrum.C:218-220`). -/
noncomputable def PL.frontA (s : PL) (nu : ℝ) : ℝ := s.n * chargeCGS * chargeCGS / (nu * electronMassCGS * cCGS)

/-- `alphanuCGS` (`lib/PowerLawSynchrotronSpectrum.C:191-224`). -/
noncomputable def PL.a (s : PL) (nu : ℝ) : Out ℝ := bind (s.guard nu) fun _ => .ok (s.frontA nu * s.As nu)

open Classical in
/-- `alphaQnuCGS` (`lib/PowerLawSynchrotronSpectrum.C:226-246`). -/
noncomputable def PL.aQ (s : PL) (nu : ℝ) : Out ℝ :=
  bind (s.guard nu) fun _ => if 17 / 500 * s.p - 43 / 1250 < 0 then .ub
    else .ok (s.frontA nu * (s.As nu * (17 / 500 * s.p - 43 / 1250) ^ (43 / 500 : ℝ)))

open Classical in
/-- `alphaVnuCGS` (`lib/PowerLawSynchrotronSpectrum.C:253-274`); `abs` is taken to be the function on doubles. At a right angle,
which is no double, the power of the sine makes it 0. -/
noncomputable def PL.aV (s : PL) (nu : ℝ) : Out ℝ :=
  bind (s.guard nu) fun _ =>
    if 71 / 100 * s.p + 22 / 625 < 0 ∨ Real.sin s.angle ≤ 0 then .ub
    else .ok (s.frontA nu * (s.As nu * (71 / 100 * s.p + 22 / 625) ^ (197 / 500 : ℝ) *
      (31 / 10 * Real.sin s.angle ^ (-48 / 25 : ℝ) - 31 / 10) ^ (64 / 125 : ℝ) * (nu / s.nu0 / Real.sin s.angle) ^ (-0.5 : ℝ) *
      Real.cos s.angle / |Real.cos s.angle|))

/-- `rho_per` (`lib/PowerLawSynchrotronSpectrum.C:286-288`). -/
noncomputable def PL.rhoPer (s : PL) : ℝ :=
  s.n * chargeCGS * chargeCGS / (electronMassCGS * cCGS * s.nu0 * Real.sin s.angle) * (s.p - 1) *
    (s.gmin ^ (1 - s.p) - s.gmax ^ (1 - s.p)) ^ (-1 : ℝ)

open Classical in
/-- `rQnuCGS` (`lib/PowerLawSynchrotronSpectrum.C:276-294`). -/
noncomputable def PL.rQ (s : PL) (nu : ℝ) : Out ℝ :=
  bind (s.guard nu) fun _ => if s.gmin > 1e2 then .throws
    else .ok (s.rhoPer * (s.nu0 * Real.sin s.angle / nu) ^ (3 : ℝ) * s.gmin ^ (2 - s.p) *
      (1 - (2 * s.nu0 * s.gmin ^ (2 : ℝ) * Real.sin s.angle / 3 / nu) ^ (s.p / 2 - 1)))

open Classical in
/-- `rVnuCGS` (`lib/PowerLawSynchrotronSpectrum.C:301-319`). -/
noncomputable def PL.rV (s : PL) (nu : ℝ) : Out ℝ :=
  bind (s.guard nu) fun _ => if s.gmin > 1e2 then .throws
    else if s.p + 1 = 0 then .ub
    else .ok (2 * s.rhoPer * (s.p + 2) / (s.p + 1) * (s.nu0 * Real.sin s.angle / nu) ^ (2 : ℝ) * s.gmin ^ (-(s.p + 1)) *
      Real.log s.gmin * (1 / Real.tan s.angle))

/-- One turn of the loop of the unpolarised `radiativeQ` (`lib/PowerLawSynchrotronSpectrum.C:326-356`): ten intervals. -/
noncomputable def PL.pass (s : PL) (nu : ℝ) : Out (PL × ℝ × ℝ) :=
  bind (if s.averaged = false then bind (s.j nu) fun j => bind (s.a nu) fun a => .ok (s, j, a)
    else bind (sweep (ι := Fin 2) 10 fun th => bind (({ s with angle := th } : PL).j nu) fun j =>
        bind (({ s with angle := th } : PL).a nu) fun a => .ok ![j, a]) fun v =>
      .ok ({ s with angle := angleAt 10 10 }, v 0, v 1)) fun (s', j, a) => .ok (s', j * jnuToSI, a * anuToSI)

/-- The unpolarised `radiativeQ` (`lib/PowerLawSynchrotronSpectrum.C:321-357`). -/
noncomputable def PL.radiativeQ (s : PL) (nus : List ℝ) : Out (PL × List (ℝ × ℝ)) := each PL.pass s nus

/-- The eleven coefficients at one angle (`lib/PowerLawSynchrotronSpectrum.C:370-380`). -/
noncomputable def PL.coefs (s : PL) (nu : ℝ) : Out (Fin 11 → ℝ) :=
  bind (s.j nu) fun jI => bind (s.jQ nu) fun jQ => bind (s.jV nu) fun jV =>
  bind (s.a nu) fun aI => bind (s.aQ nu) fun aQ => bind (s.aV nu) fun aV =>
  bind (s.rQ nu) fun rQ => bind (s.rV nu) fun rV =>
    .ok ![jI, jQ, 0, jV, aI, aQ, 0, aV, rQ, 0, rV]

/-- One turn of the loop of the polarised `radiativeQ` (`lib/PowerLawSynchrotronSpectrum.C:363-455`). -/
noncomputable def PL.passP (s : PL) (nu : ℝ) : Out (PL × (Fin 11 → ℝ)) :=
  bind (if s.averaged = false then bind (s.coefs nu) fun v => .ok (s, v)
    else bind (sweep 10 fun th => ({ s with angle := th } : PL).coefs nu) fun v =>
      .ok ({ s with angle := angleAt 10 10 }, v)) fun (s', v) => .ok (s', toSI v)

/-- The polarised `radiativeQ` (`lib/PowerLawSynchrotronSpectrum.C:359-456`). -/
noncomputable def PL.radiativeQP (s : PL) (nus : List ℝ) : Out (PL × List (Fin 11 → ℝ)) := each PL.passP s nus

/-! ## Thermal bremsstrahlung -/

/-- The members of `ThermalBremsstrahlung` but `Tm05_`, which is not used (`include/GyotoThermalBremsstrahlungSpectrum.h:52-56`). -/
structure Brems where
  bb : BlackBody
  T : ℝ
  Tm1 : ℝ
  n : ℝ

/-- The constructor (`lib/ThermalBremsstrahlungSpectrum.C:41-48`). -/
noncomputable def Brems.new : Brems := ⟨.new (2 * planckOverC2), 10000, 1 / 10000, 0⟩

/-- The setters (`lib/ThermalBremsstrahlungSpectrum.C:61-69`). -/
noncomputable def Brems.temperature (s : Brems) (T : ℝ) : Brems :=
  { s with T := T, Tm1 := 1 / T, bb := s.bb.call (.temperature T) }

noncomputable def Brems.numberdensityCGS (s : Brems) (n : ℝ) : Brems := { s with n := n }

open Classical in
/-- `Fei` (`lib/ThermalBremsstrahlungSpectrum.C:100-109`). -/
noncomputable def Brems.Fei (s : Brems) : ℝ :=
  let th := s.T * boltzmannCGS / (electronMassCGS * c2CGS)
  let F := s.n * s.n * thomsonCGS * cCGS * alphaF * electronMassCGS * c2CGS
  if th < 1 then F * (4 * √(2 * th / (Real.pi * Real.pi * Real.pi)) * (1 + 1.781 * th ^ (1.34 : ℝ)))
  else F * (9 * th / (2 * Real.pi) * (Real.log (1.123 * th + 0.42) + 1.5))

open Classical in
/-- `gaunt` (`lib/ThermalBremsstrahlungSpectrum.C:112-115`). -/
noncomputable def Brems.gaunt (s : Brems) (nu : ℝ) : ℝ :=
  let fact := s.T * boltzmannCGS / (planckCGS * nu)
  if fact ≤ 1 then √(3 / Real.pi * fact) else √3 / Real.pi * Real.log (4 / Real.exp eulerMascheroni * fact)

/-- `jnuCGS` (`lib/ThermalBremsstrahlungSpectrum.C:87-126`). -/
noncomputable def Brems.j (s : Brems) (nu : ℝ) : ℝ :=
  1 / (4 * Real.pi) * planckOverBoltzmann * s.Tm1 * Real.exp (-planckOverBoltzmann * nu * s.Tm1) * s.Fei * s.gaunt nu

/-- One turn of the loop of `radiativeQ` (`lib/ThermalBremsstrahlungSpectrum.C:147-162`); the infinite coefficient is `ub`. -/
noncomputable def Brems.pass (s : Brems) (nu : ℝ) : Out (ℝ × ℝ) :=
  match s.bb.eval planckOverBoltzmann nu with
  | none => .ub
  | some BB =>
    let j := s.j nu * jnuToSI
    if BB = 0 then if j = 0 then .ok (j, 0) else .ub else .ok (j, j / BB)

end Gyoto.Synch
