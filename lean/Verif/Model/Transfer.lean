import Verif.Model.Emission
import Mathlib.Analysis.Complex.Trigonometric
import Mathlib.Analysis.Real.Sqrt
import Mathlib.Analysis.Normed.Algebra.MatrixExponential
import Mathlib.LinearAlgebra.Matrix.NonsingularInverse

/-!
# Transmission recorded along a ray (`lib/Photon.C:61-210`, `lib/Photon.C:1172-1261`) and the matrix of one step (`lib/Astrobj.C:706-835`)

Doubles are reals. `size_t(-1)` is the constant `noIndex`. The arrays `transmission_` and `transmissionMatrix_` are lists, the
null pointer is `none`. A call can return (`ok`), throw (`throws`) or have undefined behaviour (`ub`: null pointer, index past
the end). The spectrometer matters only by its number of samples. -/

namespace Gyoto.Transfer

open Gyoto.Emission (Mueller)

inductive Out (α : Type) where
  | ok (a : α)
  | throws
  | ub

/-- `size_t(-1)`. -/
def noIndex : Nat := 2 ^ 64 - 1

/-- The members of `Photon` (`include/GyotoPhoton.h:80-110`). -/
structure Ray where
  freqobs : ℝ
  matFreqobs : Mueller
  /-- `spectro_` and its `nSamples()` -/
  spectro : Option Nat
  trans : Option (List ℝ)
  mats : Option (List Mueller)

/-- `Photon::resetTransmission()` (`lib/Photon.C:191-197`). -/
def resetTransmission (r : Ray) : Ray :=
  match r.spectro, r.trans with
  | some n, some t => { r with freqobs := 1, trans := some (List.replicate n 1 ++ t.drop n) }
  | _, _ => { r with freqobs := 1 }

/-- `Photon::_allocateTransmission()` (`lib/Photon.C:163-175`). Fresh elements are not initialised: any `fresh`. -/
def allocateTransmission (fresh : Nat → List ℝ) (r : Ray) : Ray :=
  let r := { r with trans := none }
  match r.spectro with
  | none => r
  | some n => if n = 0 then r else resetTransmission { r with trans := some (fresh n) }

/-- `Photon::resetTransmissionMatrix()` (`lib/Photon.C:199-212`). -/
def resetTransmissionMatrix (r : Ray) : Ray :=
  match r.spectro, r.mats with
  | some n, some t => { r with matFreqobs := 1, mats := some (List.replicate n 1 ++ t.drop n) }
  | _, _ => r

/-- `Photon::_allocateTransmissionMatrix()` (`lib/Photon.C:177-189`). -/
def allocateTransmissionMatrix (fresh : Nat → List Mueller) (r : Ray) : Ray :=
  let r := { r with mats := none }
  match r.spectro with
  | none => r
  | some n => resetTransmissionMatrix { r with mats := if n = 0 then none else some (fresh n) }

/-- `Photon::transmit(size_t i, double t)` (`lib/Photon.C:1215-1224`). -/
def transmit (r : Ray) (i : Nat) (t : ℝ) : Out Ray :=
  if i = noIndex then .ok { r with freqobs := r.freqobs * t }
  else
    match r.spectro with
    | none => .throws
    | some n =>
      if n ≤ i then .throws
      else
        match r.trans with
        | none => .ub
        | some l =>
          match l[i]? with
          | none => .ub
          | some v => .ok { r with trans := some (l.set i (v * t)) }

/-- `Photon::transmit(size_t i, Matrix4d mat)` (`lib/Photon.C:1230-1235`). -/
noncomputable def transmitMatrix (r : Ray) (i : Nat) (o : Mueller) : Out Ray :=
  if i = noIndex then .ok { r with matFreqobs := r.matFreqobs * o }
  else
    match r.spectro with
    | none => .throws
    | some n =>
      if n ≤ i then .throws
      else
        match r.mats with
        | none => .ub
        | some l =>
          match l[i]? with
          | none => .ub
          | some v => .ok { r with mats := some (l.set i (v * o)) }

/-- `Photon::getTransmission(size_t i)` (`lib/Photon.C:1172-1177`). -/
def getTransmission (r : Ray) (i : Nat) : Out ℝ :=
  if i = noIndex then .ok r.freqobs
  else
    match r.spectro with
    | none => .throws
    | some n =>
      if n ≤ i then .throws
      else
        match r.trans with
        | none => .ub
        | some l =>
          match l[i]? with
          | none => .ub
          | some v => .ok v

/-- The loop of `getTransmissionMax()`: `for (i=0; i<imax; ++i) if (a[i] > transmax) transmax = a[i]`
(`lib/Photon.C:1190-1195` and `lib/Photon.C:1200-1203`). -/
noncomputable def maxLoop : List ℝ → ℝ → ℝ
  | [], acc => acc
  | v :: vs, acc => maxLoop vs (if v > acc then v else acc)

/-- `Photon::getTransmissionMax()` (`lib/Photon.C:1186-1210`), arrays of the right length. -/
noncomputable def getTransmissionMax (r : Ray) (parallelTransport : Bool) : ℝ :=
  if parallelTransport && r.spectro.isSome then maxLoop ((r.mats.getD []).map fun m => m 0 0) 0
  else
    match r.spectro with
    | none => r.freqobs
    | some _ => maxLoop (r.trans.getD []) 0

/-- The four Stokes parameters of one channel. -/
abbrev Stokes := Fin 4 → ℝ

/-- `Photon::transfer(Inu, Qnu, Unu, Vnu, Onu)` (`lib/Photon.C:1240-1257`): channels `i, i+1, …`. Returns the Stokes parameters
written back and the ray. -/
noncomputable def transferFrom (r : Ray) (i : Nat) : List (Stokes × Mueller) → Out (List Stokes × Ray)
  | [] => .ok ([], r)
  | (s, o) :: rest =>
    match r.mats with
    | none => .ub
    | some l =>
      match l[i]? with
      | none => .ub
      | some tau =>
        match transmitMatrix r i o with
        | .ok r =>
          match transferFrom r (i + 1) rest with
          | .ok (out, r) => .ok (tau.mulVec s :: out, r)
          | .throws => .throws
          | .ub => .ub
        | .throws => .throws
        | .ub => .ub

/-- The copy constructor `Photon(const Photon&)` (`lib/Photon.C:70-94`): `memcpy` of the array, assignment of the first matrix
only. -/
def copy (freshT : Nat → List ℝ) (freshM : Nat → List Mueller) (o : Ray) : Out Ray :=
  let r : Ray := { freqobs := o.freqobs, matFreqobs := o.matFreqobs, spectro := none, trans := none, mats := none }
  match o.spectro with
  | none => .ok r
  | some n =>
    let r := allocateTransmissionMatrix freshM (allocateTransmission freshT { r with spectro := some n })
    if n = 0 then .ok r
    else
      match o.trans, r.trans with
      | some src, some _ =>
        if src.length < n then .ub
        else
          let r := allocateTransmissionMatrix freshM { r with trans := some (src.take n) }
          match o.mats, r.mats with
          | some (m0 :: _), some dst => .ok { r with mats := some (dst.set 0 m0) }
          | _, _ => .ub
      | _, _ => .ub

/-! ### The matrix of one step -/

/-- Arguments of `Generic::Omatrix(alphaInu, …, rVnu, sin2Chi, cos2Chi, dsem)` (`lib/Astrobj.C:706-707`). -/
structure Coefs where
  alphaI : ℝ
  alphaQ : ℝ
  alphaU : ℝ
  alphaV : ℝ
  rQ : ℝ
  rU : ℝ
  rV : ℝ
  sin2Chi : ℝ
  cos2Chi : ℝ

/-- `aI`, `aQ`, … (`lib/Astrobj.C:716-721`). -/
structure Rotated where
  aI : ℝ
  aQ : ℝ
  aU : ℝ
  aV : ℝ
  rQ : ℝ
  rU : ℝ
  rV : ℝ

def rotate (c : Coefs) : Rotated where
  aI := c.alphaI
  aV := c.alphaV
  aQ := c.alphaQ * c.cos2Chi - c.alphaU * c.sin2Chi
  aU := c.alphaU * c.cos2Chi + c.alphaQ * c.sin2Chi
  rQ := c.rQ * c.cos2Chi - c.rU * c.sin2Chi
  rU := c.rU * c.cos2Chi + c.rQ * c.sin2Chi
  rV := c.rV

namespace Rotated
variable (a : Rotated)

def alpha2 : ℝ := a.aQ * a.aQ + a.aU * a.aU + a.aV * a.aV
def r2 : ℝ := a.rQ * a.rQ + a.rU * a.rU + a.rV * a.rV
def dot : ℝ := a.aQ * a.rQ + a.aU * a.rU + a.aV * a.rV

/-- `lambda1` (`lib/Astrobj.C:726`). -/
noncomputable def lambda1 : ℝ := √(√((a.alpha2 - a.r2) ^ 2 / 4 + a.dot ^ 2) + (a.alpha2 - a.r2) / 2)
/-- `lambda2` (`lib/Astrobj.C:727`). -/
noncomputable def lambda2 : ℝ := √(√((a.alpha2 - a.r2) ^ 2 / 4 + a.dot ^ 2) - (a.alpha2 - a.r2) / 2)
noncomputable def Theta : ℝ := a.lambda1 ^ 2 + a.lambda2 ^ 2
noncomputable def sigma : ℝ := if a.dot < 0 then -1 else 1

end Rotated

/-- `M2` for given `lambda1`, `lambda2`, `sigma` (`lib/Astrobj.C:760-773`). -/
def M2 (a : Rotated) (l1 l2 sg : ℝ) : Mueller :=
  let m01 := l2 * a.aQ - sg * l1 * a.rQ
  let m02 := l2 * a.aU - sg * l1 * a.rU
  let m03 := l2 * a.aV - sg * l1 * a.rV
  let m12 := sg * l1 * a.aV + l2 * a.rV
  let m13 := -sg * l1 * a.aU - l2 * a.rU
  let m23 := sg * l1 * a.aQ + l2 * a.rQ
  !![0, m01, m02, m03; m01, 0, m12, m13; m02, -m12, 0, m23; m03, -m13, -m23, 0]

/-- `M3` (`lib/Astrobj.C:776-789`). -/
def M3 (a : Rotated) (l1 l2 sg : ℝ) : Mueller :=
  let m01 := l1 * a.aQ + sg * l2 * a.rQ
  let m02 := l1 * a.aU + sg * l2 * a.rU
  let m03 := l1 * a.aV + sg * l2 * a.rV
  let m12 := -sg * l2 * a.aV + l1 * a.rV
  let m13 := sg * l2 * a.aU - l1 * a.rU
  let m23 := -sg * l2 * a.aQ + l1 * a.rQ
  !![0, m01, m02, m03; m01, 0, m12, m13; m02, -m12, 0, m23; m03, -m13, -m23, 0]

/-- `M4` (`lib/Astrobj.C:792-809`). -/
noncomputable def M4 (a : Rotated) : Mueller :=
  let h := (a.alpha2 + a.r2) / 2
  let m01 := a.aV * a.rU - a.aU * a.rV
  let m02 := a.aQ * a.rV - a.aV * a.rQ
  let m03 := a.aU * a.rQ - a.aQ * a.rU
  let m12 := a.aQ * a.aU + a.rQ * a.rU
  let m13 := a.aV * a.aQ + a.rV * a.rQ
  let m23 := a.aU * a.aV + a.rU * a.rV
  !![h, m01, m02, m03; -m01, a.aQ ^ 2 + a.rQ ^ 2 - h, m12, m13;
     -m02, m12, a.aU ^ 2 + a.rU ^ 2 - h, m23; -m03, m13, m23, a.aV ^ 2 + a.rV ^ 2 - h]

open Classical in
/-- `Generic::Omatrix` (`lib/Astrobj.C:706-835`); `L` is `dsem*gg_->unitLength()`. The tests on infinities and NaN, which are
not real numbers, are left out. -/
noncomputable def Omatrix (c : Coefs) (L : ℝ) : Out Mueller :=
  let a := rotate c
  let l1 := a.lambda1
  let l2 := a.lambda2
  if a.Theta = 0 then .ok 1
  else
    let O : Mueller := Real.exp (-a.aI * L) •
      (((Real.cosh (l1 * L) + Real.cos (l2 * L)) / 2) • (1 : Mueller)
        - (Real.sin (l2 * L) / a.Theta) • M2 a l1 l2 a.sigma
        - (Real.sinh (l1 * L) / a.Theta) • M3 a l1 l2 a.sigma
        + ((Real.cosh (l1 * L) - Real.cos (l2 * L)) / a.Theta) • M4 a)
    if ∃ i j, |O i j| > 1 + 1e-12 then .throws else .ok O

/-- `Kmat` of `Generic::Pmatrix` (`lib/Astrobj.C:853-857`). -/
def Kmat (a : Rotated) : Mueller :=
  !![a.aI, a.aQ, a.aU, a.aV; a.aQ, a.aI, a.rV, -a.rU; a.aU, -a.rV, a.aI, a.rQ; a.aV, a.rU, -a.rQ, a.aI]

open Classical in
/-- `Generic::Pmatrix` (`lib/Astrobj.C:837-882`). `Kmat.fullPivLu().solve(b)` is `Kmat⁻¹ b`: `none` if `Kmat` is singular (the
library then returns some matrix, not a solution in general); `.exp()` is the matrix exponential. -/
noncomputable def Pmatrix (c : Coefs) (L : ℝ) : Option Mueller :=
  let a := rotate c
  let K := Kmat a
  let P : Option Mueller :=
    if a.aI * L > 100 then (if IsUnit K.det then some K⁻¹ else none)
    else if √(∑ i, ∑ j, (L • K) i j ^ 2) < 1e-3 then some (L • ((1 : Mueller) - (0.5 : ℝ) • (L • K)))
    else if IsUnit K.det then some (K⁻¹ * (1 - NormedSpace.exp (-L • K))) else none
  match P with
  | none => none
  | some P => if P 0 0 < 0 then some 0 else some P

end Gyoto.Transfer
