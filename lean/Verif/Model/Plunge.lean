import Verif.Model.Orbits

/-!
# The velocity of the gas of thin disks, down to the horizon

`getVelocity` of `lib/ThinDiskProfile.C:216-391`, `lib/StochasticThinDisk.C:317-370`, `lib/ThinDiskGridIntensity.C:330-360`, and that of
`lib/SimBridge.C:831-869` when the motion is prescribed.

Doubles are reals.  What is not a finite number in the code (the square root of a negative number, a quotient by zero) is `none`, except
in `gridVelocity`, where the hypotheses of the theorems exclude it.  A metric is known by what these functions ask: the metric and its
inverse, the radius of the last stable orbit, and how circular orbits are found.  The metric of Konoplya, Rezzolla and Zhidenko, whose
orbits are looked for on `theta` too outside the last stable orbit, is left out, as are the warnings.
-/

namespace Gyoto.Plunge

open Gyoto.MetricAlg Gyoto.KerrBL Gyoto.Orbits Gyoto.Static

/-- How the code finds circular orbits: with formulas for the energy and the angular momentum (`KerrBL`, `RezzollaZhidenko`), as
functions of `xi` and of the radius, or with `circularVelocity(pos, vel, 1)` (`lib/ThinDiskProfile.C:270-300`). -/
inductive Law where
  | formulas (EL : ℝ → ℝ → Option (ℝ × ℝ))
  | velocity (v : Vec → Vec)

/-- What is asked to the metric.  `risco` is the variable of this name: `getRms()`, or zero for two kinds of metrics
(`lib/ThinDiskProfile.C:228-231`).  `subkeplerian` tells the kinds with `xi = 0.7` in a mixed motion (`lib/ThinDiskProfile.C:244-252`). -/
structure Metric where
  g : Vec → Tensor
  gup : Vec → Tensor
  risco : ℝ
  law : Law
  subkeplerian : Prop

/-- `motionkind_` of `ThinDiskProfile`. -/
inductive Motion where
  | circular | radial | mixed

/-- The three errors at the end of `getVelocity` (`lib/ThinDiskProfile.C:379-388`). -/
inductive Fail where
  | radial | circular | velocity
  deriving DecidableEq

/-- `sqrt` -/
noncomputable def root (x : ℝ) : Option ℝ := if x < 0 then none else some √x

/-- `x / y` -/
noncomputable def quot (x y : ℝ) : Option ℝ := if y = 0 then none else some (x / y)

/-- `vel_rad` (`lib/ThinDiskProfile.C:255-261`, `lib/StochasticThinDisk.C:336-342,354-358`, `lib/SimBridge.C:860-866`). -/
noncomputable def radial (g gup : Tensor) : Option Vec :=
  ((quot (-1 - gup 0 0) (g 1 1)).bind root).map fun u => ![-gup 0 0, -u, 0, -gup 0 3]

/-- `E` and `L` for `KerrBL` (`lib/ThinDiskProfile.C:272-275` at `rr`, `lib/ThinDiskProfile.C:309-311` at `risco`). -/
noncomputable def kerrEL (a : ℝ) (_xi r : ℝ) : Option (ℝ × ℝ) :=
  (root (r ^ (1.5 : ℝ) - 3 * √r + 2 * a)).bind fun s =>
    (quot (r ^ (1.5 : ℝ) - 2 * √r + a) (r ^ (0.75 : ℝ) * s)).bind fun E =>
      (quot (r ^ 2 - 2 * a * √r + a * a) (r ^ (0.75 : ℝ) * s)).map fun L => (E, L)

/-- `E` and `L` for `RezzollaZhidenko` (`lib/ThinDiskProfile.C:278-283` at `rr`, `lib/ThinDiskProfile.C:315-319` at `risco`). -/
noncomputable def rzEL (m : RZ) (xi r : ℝ) : Option (ℝ × ℝ) :=
  (root (m.N2 r)).bind fun N =>
    ((quot (N ^ 3) (N - xi ^ 2 * r * m.Nprime r)).bind root).bind fun E =>
      ((quot (r ^ 3 * m.Nprime r) (N - xi ^ 2 * r * m.Nprime r)).bind root).map fun l => (E, xi * l)

/-- `KerrBL` of spin `a`. -/
noncomputable def kerr (a : ℝ) : Metric where
  g := gmunu a
  gup := gmunuUp a
  risco := kerrRms a
  law := .formulas (kerrEL a)
  subkeplerian := False

/-- `RezzollaZhidenko`; `gup` is the inverse that the metric gives. -/
noncomputable def rz (m : RZ) (gup : Vec → Tensor) : Metric where
  g := fun p => fill (m.form p)
  gup := gup
  risco := m.rms
  law := .formulas (rzEL m)
  subkeplerian := True

/-- `u_t = -E`, `u_phi = L`: the components along time and longitude (`lib/ThinDiskProfile.C:292-296`, `lib/ThinDiskProfile.C:327-329`). -/
def raise (gup : Tensor) (el : ℝ × ℝ) : ℝ × ℝ := (gup 0 0 * -el.1 + gup 0 3 * el.2, gup 0 3 * -el.1 + gup 3 3 * el.2)

/-- `circnorm` with its change of sign (`lib/ThinDiskProfile.C:330-335`). -/
noncomputable def circnorm (g : Tensor) (u0 u3 : ℝ) : Option ℝ :=
  (quot 1 (g 1 1)).map fun i =>
    let c := -i * (1 + g 0 0 * u0 ^ 2 + g 3 3 * u3 ^ 2 + 2 * g 0 3 * u0 * u3)
    if c < 0 ∧ |c| < 1e-10 then c * -1 else c

/-- `vel_circ` (`lib/ThinDiskProfile.C:268-350`). -/
noncomputable def circular (M : Metric) (xi : ℝ) (pos : Vec) : Option Vec :=
  open Classical in
  if pos 1 > M.risco then
    match M.law with
    | .formulas EL => (EL xi (pos 1)).map fun el => ![(raise (M.gup pos) el).1, 0, 0, (raise (M.gup pos) el).2]
    | .velocity v => some (v pos)
  else
    match M.law with
    | .formulas EL => (EL xi M.risco).bind fun el =>
        let u := raise (M.gup pos) el
        ((circnorm (M.g pos) u.1 u.2).bind root).map fun w => ![u.1, -w, 0, u.2]
    | .velocity _ => radial (M.g pos) (M.gup pos)

/-- `xi` (`lib/ThinDiskProfile.C:244-252`). -/
noncomputable def xiOf (M : Metric) (k : Motion) : ℝ :=
  open Classical in
  match k with
  | .mixed => if M.subkeplerian then 0.7 else 1
  | _ => 1

/-- `beta_r` and `beta_phi`, which are equal (`lib/ThinDiskProfile.C:354-364`). -/
noncomputable def beta : Motion → ℝ
  | .circular => 1
  | .radial => 0
  | .mixed => 0.8

/-- The mixture of the two velocities (`lib/ThinDiskProfile.C:262,302,349,367-372`). -/
noncomputable def mix (g : Tensor) (b : ℝ) (rad circ : Vec) : Option Vec :=
  (quot (rad 3) (rad 0)).bind fun Or =>
    (quot (circ 3) (circ 0)).bind fun Oc =>
      let O := Oc + (1 - b) * (Or - Oc)
      let v1 := circ 1 + (1 - b) * (rad 1 - circ 1)
      ((quot (1 + g 1 1 * v1 ^ 2) (-g 0 0 - O ^ 2 * g 3 3 - 2 * O * g 0 3)).bind root).map fun v0 => ![v0, v1, 0, O * v0]

/-- `fabs(u2 + 1.) > tol or u2 != u2` is false (`lib/ThinDiskProfile.C:375-388`). -/
def Passes (g : Tensor) (v : Vec) : Prop := ¬(|scalarProd g v v + 1| > 1e-5)

/-- `ThinDiskProfile::getVelocity(pos, vel)` (`lib/ThinDiskProfile.C:216-391`). -/
noncomputable def getVelocity (M : Metric) (k : Motion) (pos : Vec) : Except Fail Vec :=
  open Classical in
  match radial (M.g pos) (M.gup pos) with
  | none => .error .radial
  | some rad =>
    if ¬Passes (M.g pos) rad then .error .radial
    else
      match circular M (xiOf M k) pos with
      | none => .error .circular
      | some circ =>
        if ¬Passes (M.g pos) circ then .error .circular
        else
          match mix (M.g pos) (beta k) rad circ with
          | none => .error .velocity
          | some v => if Passes (M.g pos) v then .ok v else .error .velocity

/-- `ThinDiskGridIntensity::getVelocity(pos, vel)` (`lib/ThinDiskGridIntensity.C:330-360`), and `SimBridge::getVelocity` when the motion is
circular, with `cunninghamvel_`, in `KerrBL` (`lib/SimBridge.C:834-857`). -/
noncomputable def gridVelocity (a : ℝ) (pos : Vec) : Vec :=
  open Classical in
  let risco := kerrRms a
  let rr := pos 1
  if rr > risco then kerrVel a pos 1
  else
    let lambda := (risco * risco - 2 * a * √risco + a * a) / (risco ^ (1.5 : ℝ) - 2 * √risco + a)
    let gamma := √(1 - 2 / (3 * risco))
    let delta := rr * rr - 2 * rr + a * a
    let hh := (2 * rr - a * lambda) / delta
    ![gamma * (1 + 2 / rr * (1 + hh)), -√(2 / (3 * risco)) * (risco / rr - 1) ^ (1.5 : ℝ), 0, gamma / (rr * rr) * (lambda + a * hh)]

/-- `motionkind_` of `StochasticThinDisk`. -/
inductive Kinematics where
  | static | radial | circular

/-- `StochasticThinDisk::getVelocity(pos, vel)` (`lib/StochasticThinDisk.C:317-370`); `circ` is `circularVelocity(pos, vel, 1)`; `none` is the
error at the end. -/
noncomputable def stochVelocity (M : Metric) (circ : Vec → Vec) (k : Kinematics) (pos : Vec) : Option Vec :=
  open Classical in
  match (match k with
    | .static => ((quot (-1) (M.g pos 0 0)).bind root).map fun u => ![u, 0, 0, 0]
    | .radial => radial (M.g pos) (M.gup pos)
    | .circular => if pos 1 > M.risco then some (circ pos) else radial (M.g pos) (M.gup pos) : Option Vec) with
  | none => none
  | some u => if Passes (M.g pos) u then some u else none

end Gyoto.Plunge
