import Verif.Model.Synch
import Mathlib.Algebra.Order.Floor.Ring
import Mathlib.Data.Real.Archimedean

/-!
# What electrons with a kappa distribution emit and absorb (`lib/KappaDistributionSynchrotronSpectrum.C`)

The conventions are those of `Model/Synch`: doubles are reals, `pow` is `Real.rpow` for a positive base, `ub` stands for a NaN or an
infinity, `throws` for `GYOTO_ERROR`. A pole of `tgamma` is `ub` (the code goes on with an infinity or a NaN), and so is a frequency that
is 0. The black body, which is not used, is left out.
-/

namespace Gyoto.Synch

open Gyoto.Transfer (Out)

/-- The members of `KappaDistributionSynchrotron` but the black body and `gamma_max_`, which are not used
(`include/GyotoKappaDistributionSynchrotronSpectrum.h:52-60`). -/
structure Kappa where
  n : ℝ
  angle : ℝ
  nu0 : ℝ
  theta : ℝ
  kappa : ℝ
  hyp : ℝ
  averaged : Bool

/-- The constructor (`lib/KappaDistributionSynchrotronSpectrum.C:35-44`). -/
noncomputable def Kappa.new : Kappa := ⟨0, 0, 1, 1, 0, 1, false⟩

/-- The setters. -/
inductive KappaCall where
  | numberdensityCGS (n : ℝ)
  | angle (a : ℝ)
  | cyclotronFreq (nu0 : ℝ)
  | thetae (th : ℝ)
  | kappaindex (k : ℝ)
  | hypergeometric (h : ℝ)
  | averaged (b : Bool)

/-- One setter (`lib/KappaDistributionSynchrotronSpectrum.C:61-86`). -/
noncomputable def Kappa.call (s : Kappa) : KappaCall → Kappa
  | .numberdensityCGS n => { s with n := n }
  | .angle a => { s with angle := a }
  | .cyclotronFreq nu0 => { s with nu0 := nu0 }
  | .thetae th => { s with theta := max th 0.005 }
  | .kappaindex k => { s with kappa := k }
  | .hypergeometric h => { s with hyp := h }
  | .averaged b => { s with averaged := b }

/-- Setters one after the other. -/
noncomputable def Kappa.run (s : Kappa) (l : List KappaCall) : Kappa := l.foldl Kappa.call s

/-- `nuk` (`lib/KappaDistributionSynchrotronSpectrum.C:111`). -/
noncomputable def Kappa.nuk (s : Kappa) : ℝ := s.nu0 * (s.theta * s.kappa) ^ 2 * Real.sin s.angle

open Classical in
/-- `Xk` (`lib/KappaDistributionSynchrotronSpectrum.C:110-112`), if the powers of it, of `kappaindex_` and of `thetae_` are defined. -/
noncomputable def Kappa.X (s : Kappa) (nu : ℝ) : Out ℝ :=
  if s.nuk = 0 ∨ nu / s.nuk ≤ 0 ∨ s.kappa ≤ 0 ∨ s.theta ≤ 0 then .ub else .ok (nu / s.nuk)

open Classical in
/-- `pow(pow(low,-expo)+pow(high,-expo),-1./expo)` (`lib/KappaDistributionSynchrotronSpectrum.C:119`): a negative number makes it a NaN,
and a zero makes the inner power infinite and the outer one 0. -/
noncomputable def bridge (e l h : ℝ) : Out ℝ :=
  if l < 0 ∨ h < 0 then .ub else if l = 0 ∨ h = 0 then .ok 0 else .ok ((l ^ (-e) + h ^ (-e)) ^ (-1 / e))

/-- `Js_low` (`lib/KappaDistributionSynchrotronSpectrum.C:113-114`). -/
noncomputable def Kappa.low (s : Kappa) (X : ℝ) : ℝ :=
  X ^ (1 / 3 : ℝ) * Real.sin s.angle * 4 * Real.pi * Real.Gamma (s.kappa - 4 / 3) / ((3 : ℝ) ^ (7 / 3 : ℝ) * Real.Gamma (s.kappa - 2))

/-- `Js_high` (`lib/KappaDistributionSynchrotronSpectrum.C:115-117`). -/
noncomputable def Kappa.high (s : Kappa) (X : ℝ) : ℝ :=
  X ^ (-(s.kappa - 2) / 2) * Real.sin s.angle * (3 : ℝ) ^ ((s.kappa - 1) / 2) * (s.kappa - 1) * (s.kappa - 2) / 4 *
    Real.Gamma (s.kappa / 4 - 1 / 3) * Real.Gamma (s.kappa / 4 + 4 / 3)

/-- One of the gamma functions of `Js_low` and `Js_high` has a pole. -/
def Kappa.Pole (s : Kappa) : Prop :=
  ∃ m : ℕ, s.kappa - 4 / 3 = -m ∨ s.kappa - 2 = -m ∨ s.kappa / 4 - 1 / 3 = -m ∨ s.kappa / 4 + 4 / 3 = -m

/-- `numberdensityCGS_*e*e*cyclotron_freq_/c` (`lib/KappaDistributionSynchrotronSpectrum.C:121-124`). -/
noncomputable def Kappa.front (s : Kappa) : ℝ := s.n * chargeCGS * chargeCGS * s.nu0 / cCGS

open Classical in
/-- An emission coefficient from its two laws and the exponent that joins them. -/
noncomputable def Kappa.emission (s : Kappa) (nu : ℝ) (e : ℝ) (l h : ℝ → ℝ) : Out ℝ :=
  bind (s.X nu) fun X => if s.Pole then .ub else bind (bridge e (l X) (h X)) fun J => .ok (s.front * J)

/-- `jnuCGS` (`lib/KappaDistributionSynchrotronSpectrum.C:104-128`). -/
noncomputable def Kappa.j (s : Kappa) (nu : ℝ) : Out ℝ := s.emission nu (3 * s.kappa ^ (-3 / 2 : ℝ)) s.low s.high

/-- `jQnuCGS` (`lib/KappaDistributionSynchrotronSpectrum.C:130-154`). -/
noncomputable def Kappa.jQ (s : Kappa) (nu : ℝ) : Out ℝ :=
  s.emission nu (3.7 * s.kappa ^ (-8 / 5 : ℝ)) (fun X => 0.5 * s.low X) fun X => ((4 / 5) ^ 2 + s.kappa / 50) * s.high X

/-- The factors of `Js_low` and `Js_high` in `jVnuCGS` (`lib/KappaDistributionSynchrotronSpectrum.C:170-175`). -/
noncomputable def Kappa.lowV (s : Kappa) (X : ℝ) : ℝ :=
  (3 / 4) ^ 2 * (Real.sin s.angle ^ (-12 / 5 : ℝ) - 1) ^ (12 / 25 : ℝ) * s.kappa ^ (-66 / 125 : ℝ) / s.theta * X ^ (-7 / 20 : ℝ)

noncomputable def Kappa.highV (s : Kappa) (X : ℝ) : ℝ :=
  (7 / 8) ^ 2 * (Real.sin s.angle ^ (-5 / 2 : ℝ) - 1) ^ (11 / 25 : ℝ) * s.kappa ^ (-11 / 25 : ℝ) / s.theta * X ^ (-1 / 2 : ℝ)

open Classical in
/-- `jVnuCGS` (`lib/KappaDistributionSynchrotronSpectrum.C:161-187`); `abs` is taken to be the function on doubles. At a right angle, which
is no double, the powers of the sine make it 0. -/
noncomputable def Kappa.jV (s : Kappa) (nu : ℝ) : Out ℝ :=
  if Real.sin s.angle ≤ 0 then .ub
  else bind (s.emission nu (3 * s.kappa ^ (-3 / 2 : ℝ)) (fun X => s.lowV X * s.low X) fun X => s.highV X * s.high X) fun J =>
    .ok (J * Real.cos s.angle / |Real.cos s.angle|)

/-- `As_low` (`lib/KappaDistributionSynchrotronSpectrum.C:198-201`). -/
noncomputable def Kappa.alow (s : Kappa) (X : ℝ) : ℝ :=
  X ^ (-2 / 3 : ℝ) * (3 : ℝ) ^ (1 / 6 : ℝ) * 10 / 41 * 2 * Real.pi / (s.theta * s.kappa) ^ (10 / 3 - s.kappa) * (s.kappa - 1) *
    (s.kappa - 2) * s.kappa / (3 * s.kappa - 1) * Real.Gamma (5 / 3) * s.hyp

/-- `As_high` without its last factor (`lib/KappaDistributionSynchrotronSpectrum.C:202-204`). -/
noncomputable def Kappa.ahigh (s : Kappa) (X : ℝ) : ℝ :=
  X ^ (-(1 + s.kappa) / 2) * Real.pi ^ (3 / 2 : ℝ) / 3 * (s.kappa - 1) * (s.kappa - 2) * s.kappa / (s.theta * s.kappa) ^ 3 *
    (2 * Real.Gamma (2 + s.kappa / 2) / (2 + s.kappa) - 1)

/-- `numberdensityCGS_*e*e/(nu*m*c)` (`lib/KappaDistributionSynchrotronSpectrum.C:209-211`). -/
noncomputable def Kappa.frontA (s : Kappa) (nu : ℝ) : ℝ := s.n * chargeCGS * chargeCGS / (nu * electronMassCGS * cCGS)

open Classical in
/-- An absorption coefficient from its two laws and the exponent that joins them. -/
noncomputable def Kappa.absorption (s : Kappa) (nu : ℝ) (e : ℝ) (l h : ℝ → ℝ) : Out ℝ :=
  bind (s.X nu) fun X => if 3 * s.kappa - 1 = 0 then .ub else bind (bridge e (l X) (h X)) fun A => .ok (s.frontA nu * A)

open Classical in
/-- `alphanuCGS` (`lib/KappaDistributionSynchrotronSpectrum.C:189-217`). -/
noncomputable def Kappa.a (s : Kappa) (nu : ℝ) : Out ℝ :=
  if -7 / 4 + 8 / 5 * s.kappa ≤ 0 then .ub
  else s.absorption nu ((-7 / 4 + 8 / 5 * s.kappa) ^ (-43 / 50 : ℝ)) s.alow fun X =>
    s.ahigh X * ((3 / s.kappa) ^ (19 / 4 : ℝ) + 3 / 5)

/-- `alphaQnuCGS` (`lib/KappaDistributionSynchrotronSpectrum.C:219-247`). -/
noncomputable def Kappa.aQ (s : Kappa) (nu : ℝ) : Out ℝ :=
  s.absorption nu (7 / 5 * s.kappa ^ (-23 / 20 : ℝ)) (fun X => 25 / 48 * s.alow X) fun X =>
    s.ahigh X * (21 ^ 2 * s.kappa ^ (-(12 / 5) ^ 2 : ℝ) + 11 / 20)

open Classical in
/-- `alphaVnuCGS` (`lib/KappaDistributionSynchrotronSpectrum.C:254-284`). -/
noncomputable def Kappa.aV (s : Kappa) (nu : ℝ) : Out ℝ :=
  if Real.sin s.angle ≤ 0 then .ub
  else bind (s.absorption nu (61 / 50 * s.kappa ^ (-142 / 125 : ℝ) + 7 / 1000)
    (fun X => 77 / 100 / s.theta * (Real.sin s.angle ^ (-114 / 50 : ℝ) - 1) ^ (223 / 500 : ℝ) * s.kappa ^ (-7 / 10 : ℝ) *
      X ^ (-7 / 20 : ℝ) * s.alow X)
    fun X => s.ahigh X * 143 / 10 * s.theta ^ (-116 / 125 : ℝ) * (Real.sin s.angle ^ (-41 / 20 : ℝ) - 1) ^ (1 / 2 : ℝ) *
      (13 ^ 2 * s.kappa ^ (-8 : ℝ) + 13 / 2500 * s.kappa - 263 / 5000 + 47 / 200 / s.kappa) * X ^ (-0.5 : ℝ)) fun A =>
    .ok (A * Real.cos s.angle / |Real.cos s.angle|)

/-- The table of `rQnuCGS` (`lib/KappaDistributionSynchrotronSpectrum.C:296-316`): `none` for the `default`. -/
noncomputable def rhoQ (bin : ℤ) (th X : ℝ) : Option ℝ :=
  if bin = 35 then some (17 * th - 3 * √th + 7 * √th * Real.exp (-5 * th) *
    (1 - Real.exp (-X ^ (0.84 : ℝ) / 30) - Real.sin (X / 10) * Real.exp (-3 / 2 * X ^ (0.471 : ℝ))))
  else if bin = 40 then some (46 / 3 * th - 5 / 3 * √th + 17 / 3 * √th * Real.exp (-5 * th) *
    (1 - Real.exp (-X ^ (0.84 : ℝ) / 18) - Real.sin (X / 6) * Real.exp (-7 / 4 * X ^ (0.5 : ℝ))))
  else if bin = 45 then some (14 * th - 13 / 8 * √th + 9 / 2 * √th * Real.exp (-5 * th) *
    (1 - Real.exp (-X ^ (0.84 : ℝ) / 12) - Real.sin (X / 4) * Real.exp (-2 * X ^ (0.525 : ℝ))))
  else if bin = 50 then some (25 / 2 * th - √th + 5 * √th * Real.exp (-5 * th) *
    (1 - Real.exp (-X ^ (0.84 : ℝ) / 8) - Real.sin (3 * X / 8) * Real.exp (-9 / 4 * X ^ (0.541 : ℝ))))
  else none

/-- The table of `rVnuCGS` (`lib/KappaDistributionSynchrotronSpectrum.C:339-363`). -/
noncomputable def rhoV (bin : ℤ) (th X : ℝ) : Option ℝ :=
  if bin = 35 then some ((th ^ 2 + 2 * th + 1) / (25 / 8 * th ^ 2 + 4 * th + 1) * (1 - 0.17 * Real.log (1 + 0.447 * X ^ (-0.5 : ℝ))))
  else if bin = 40 then some ((th ^ 2 + 54 * th + 50) / (30 / 11 * th ^ 2 + 134 * th + 50) * (1 - 0.17 * Real.log (1 + 0.391 * X ^ (-0.5 : ℝ))))
  else if bin = 45 then some ((th ^ 2 + 43 * th + 38) / (7 / 3 * th ^ 2 + 185 / 2 * th + 38) * (1 - 0.17 * Real.log (1 + 0.348 * X ^ (-0.5 : ℝ))))
  else if bin = 50 then some ((th + 13 / 14) / (2 * th + 13 / 14) * (1 - 0.17 * Real.log (1 + 0.313 * X ^ (-0.5 : ℝ))))
  else none

/-- `int(kappaindex_*10)` for an index that is not negative (`lib/KappaDistributionSynchrotronSpectrum.C:296`). -/
noncomputable def Kappa.bin (s : Kappa) : ℤ := ⌊s.kappa * 10⌋

open Classical in
/-- `rQnuCGS` (`lib/KappaDistributionSynchrotronSpectrum.C:286-322`). -/
noncomputable def Kappa.rQ (s : Kappa) (nu : ℝ) : Out ℝ :=
  bind (s.X nu) fun X => if X < 0.1 then .throws
    else match rhoQ s.bin s.theta X with
      | none => .throws
      | some r => .ok (s.n * (chargeCGS * s.nu0 * Real.sin s.angle) ^ 2 / (electronMassCGS * cCGS * nu ^ 3) * r)

open Classical in
/-- `rVnuCGS` (`lib/KappaDistributionSynchrotronSpectrum.C:329-369`). -/
noncomputable def Kappa.rV (b : Bessel) (s : Kappa) (nu : ℝ) : Out ℝ :=
  bind (s.X nu) fun X => if X < 0.1 then .throws
    else match rhoV s.bin s.theta X with
      | none => .throws
      | some r => if b.k2 (1 / s.theta) = 0 then .ub
        else .ok (2 * s.n * chargeCGS ^ 2 * s.nu0 * Real.cos s.angle * b.k0 (1 / s.theta) /
          (electronMassCGS * cCGS * nu ^ 2 * b.k2 (1 / s.theta)) * r)

/-- `operator()(nu, opacity, ds)` (`lib/KappaDistributionSynchrotronSpectrum.C:96-102`). -/
noncomputable def Kappa.increment (s : Kappa) (nu ds : ℝ) : Out ℝ :=
  bind (s.j nu) fun j => bind (s.a nu) fun a => .ok (j * (ds * 100) * Real.exp (-a * (ds * 100)) * inuToSI)

/-- One turn of the loop of the unpolarised `radiativeQ` (`lib/KappaDistributionSynchrotronSpectrum.C:376-406`). -/
noncomputable def Kappa.pass (s : Kappa) (nu : ℝ) : Out (Kappa × ℝ × ℝ) :=
  bind (if s.averaged = false then bind (s.j nu) fun j => bind (s.a nu) fun a => .ok (s, j, a)
    else bind (sweep (ι := Fin 2) 100 fun th => bind (({ s with angle := th } : Kappa).j nu) fun j =>
        bind (({ s with angle := th } : Kappa).a nu) fun a => .ok ![j, a]) fun v =>
      .ok ({ s with angle := angleAt 100 100 }, v 0, v 1)) fun (s', j, a) => .ok (s', j * jnuToSI, a * anuToSI)

/-- The unpolarised `radiativeQ` (`lib/KappaDistributionSynchrotronSpectrum.C:371-407`). -/
noncomputable def Kappa.radiativeQ (s : Kappa) (nus : List ℝ) : Out (Kappa × List (ℝ × ℝ)) := each Kappa.pass s nus

/-- The eleven coefficients at one angle (`lib/KappaDistributionSynchrotronSpectrum.C:420-430`). -/
noncomputable def Kappa.coefs (b : Bessel) (s : Kappa) (nu : ℝ) : Out (Fin 11 → ℝ) :=
  bind (s.j nu) fun jI => bind (s.jQ nu) fun jQ => bind (s.jV nu) fun jV =>
  bind (s.a nu) fun aI => bind (s.aQ nu) fun aQ => bind (s.aV nu) fun aV =>
  bind (s.rQ nu) fun rQ => bind (s.rV b nu) fun rV =>
    .ok ![jI, jQ, 0, jV, aI, aQ, 0, aV, rQ, 0, rV]

/-- One turn of the loop of the polarised `radiativeQ` (`lib/KappaDistributionSynchrotronSpectrum.C:414-504`). -/
noncomputable def Kappa.passP (b : Bessel) (s : Kappa) (nu : ℝ) : Out (Kappa × (Fin 11 → ℝ)) :=
  bind (if s.averaged = false then bind (s.coefs b nu) fun v => .ok (s, v)
    else bind (sweep 100 fun th => ({ s with angle := th } : Kappa).coefs b nu) fun v =>
      .ok ({ s with angle := angleAt 100 100 }, v)) fun (s', v) => .ok (s', toSI v)

/-- The polarised `radiativeQ` (`lib/KappaDistributionSynchrotronSpectrum.C:409-505`). -/
noncomputable def Kappa.radiativeQP (b : Bessel) (s : Kappa) (nus : List ℝ) : Out (Kappa × List (Fin 11 → ℝ)) := each (Kappa.passP b) s nus

end Gyoto.Synch
