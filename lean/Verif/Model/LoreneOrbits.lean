import Verif.Model.LoreneMotion
import Mathlib.Analysis.SpecialFunctions.Log.Basic

/-!
# Circular orbits in a numerical metric, and the surface of its star

`lib/NumericalMetricLorene.C:349-420` and `2019-2123`, `lib/NeutronStar.C`, `lib/NeutronStarAnalyticEmission.C`.
-/

namespace Gyoto.Lorene

open Gyoto.MetricAlg Gyoto.Three1

/-- What the functions on orbits do: an error, values that are not finite numbers, or a value. -/
inductive Orb (α : Type) where
  | throws
  | nan
  | val (x : α)

/-- What both functions on circular orbits compute first, at radius `rr` (`lib/NumericalMetricLorene.C:379-396` with the sine one,
`lib/NumericalMetricLorene.C:2080-2102`): the velocity `Vzamo` with respect to the observers without angular momentum.  The division by
`1/rr+Br/BB` does not yield a number where it is zero. -/
noncomputable def Slice.zamo (s : Slice) (rr th ph sinth : ℝ) : Orb ℝ :=
  let rsm1 := 1 / (rr * sinth)
  let rm2 := 1 / (rr * rr)
  let sm1 := 1 / sinth
  let B2 := (s.gcov 2 2).val rr th ph
  if B2 ≤ 0 then .throws
  else
    let BB := √B2
    let Br := (s.gcov 2 2).dr rr th ph / (2 * BB)
    let beta_p_r := rsm1 * (s.shift 2).dr rr th ph - rm2 * sm1 * (s.shift 2).val rr th ph
    let NN := s.lapse.val rr th ph
    if NN = 0 then .throws
    else
      let Nr := s.lapse.dr rr th ph
      let DD := B2 * rr * rr / (NN * NN) * beta_p_r * beta_p_r + 4 * Nr / NN * (Br / BB + 1 / rr)
      if DD < 0 then .throws
      else if 1 / rr + Br / BB = 0 then .nan
      else .val (0.5 * (-BB * rr / NN * beta_p_r + √DD) / (1 / rr + Br / BB))

/-- `circularVelocity(coor, vel, dir, indice_time)` (`lib/NumericalMetricLorene.C:2067-2123`).  `boson` is the flag `bosonstarcircular_` and `G` the metric
at `coor`, which `gmunu(coor, ...)` and `ScalarProd` interpolate between dates.  The direction is not used.  From a speed of light on, `ut` is not a number,
and neither is the norm, which is not more than `normtol` away from anything. -/
noncomputable def Slice.circular (s : Slice) (boson : Bool) (G : Tensor) (coor : Vec) (_dir : ℝ) : Orb Vec :=
  if boson then
    let rr := coor 1
    let th := coor 2
    let sinth := Real.sin th
    let ph := coor 3
    if rr ≤ 0 ∨ sinth = 0 then .throws
    else match s.zamo rr th ph sinth with
      | .throws => .throws
      | .nan => .nan
      | .val Vzamo =>
        let g_pp := G 3 3
        if g_pp ≤ 0 then .throws
        else
          let NN := s.lapse.val rr th ph
          let beta_p := 1 / (rr * sinth) * (s.shift 2).val rr th ph
          let Omega := NN * Vzamo / √g_pp - beta_p
          if 1 ≤ Vzamo * Vzamo then .nan
          else
            let ut := 1 / (NN * √(1 - Vzamo * Vzamo))
            let vel : Vec := ![ut, 0, 0, Omega * ut]
            if 1e-6 < |scalarProd G vel vel + 1| then .throws else .val vel
  else .throws

/-- The calls of the four or two slices, one after the other: an error ends them, and what is not a number stays so. -/
noncomputable def Orb.all {α : Type} : List (Orb α) → Orb (List α)
  | [] => .val []
  | .throws :: _ => .throws
  | .nan :: l => match Orb.all l with
    | .throws => .throws
    | _ => .nan
  | .val x :: l => match Orb.all l with
    | .throws => .throws
    | .nan => .nan
    | .val xs => .val (x :: xs)

/-- `circularVelocity(coord, vel, dir)` (`lib/NumericalMetricLorene.C:2019-2065`).  `none`: no date is early enough, and the search reads `times_[-1]`. -/
noncomputable def Dates.circular (d : Dates) (boson : Bool) (coord : Vec) (dir : ℝ) : Option (Orb Vec) :=
  let tt := coord 0
  let G : Tensor := fun μ ν => (d.gmunu coord μ ν).getD 0
  let c k := (d.slice k).circular boson G coord dir
  (search d.times tt d.nb).map fun it =>
    if it + 1 = d.nb then c (d.nb - 1)
    else if it + 2 = d.nb ∨ it = 0 then
      match Orb.all [c it, c (it + 1)] with
      | .val [vel1, vel2] => .val fun ii => (vel2 ii - vel1 ii) / (d.times (it + 1) - d.times it) * (tt - d.times it) + vel1 ii
      | .throws => .throws
      | _ => .nan
    else
      match Orb.all [c (it - 1), c it, c (it + 1), c (it + 2)] with
      | .val [vel1, vel2, vel3, vel4] => .val fun ii =>
        neville tt (d.times (it - 1)) (d.times it) (d.times (it + 1)) (d.times (it + 2)) (vel1 ii) (vel2 ii) (vel3 ii) (vel4 ii)
      | .throws => .throws
      | _ => .nan

/-- `getSpecificAngularMomentum(rr)` (`lib/NumericalMetricLorene.C:349-402`).  A division by zero at the end does not yield a number. -/
noncomputable def Dates.momentum (d : Dates) (rr : ℝ) : Orb ℝ :=
  if 1 < d.nb then .throws
  else
    let s := d.slice 0
    let th := Real.pi / 2
    match s.zamo rr th 0 1 with
    | .throws => .throws
    | .nan => .nan
    | .val Vzamo =>
      let BB := √((s.gcov 2 2).val rr th 0)
      let NN := s.lapse.val rr th 0
      let beta_p := 1 / rr * (s.shift 2).val rr th 0
      if NN - beta_p * BB * rr * Vzamo = 0 then .nan else .val (BB * rr * Vzamo / (NN - beta_p * BB * rr * Vzamo))

/-- `getPotential(pos, l_cst)` (`lib/NumericalMetricLorene.C:404-420`) for the metric `G` at `pos`; `none` is `-DBL_MAX`.  The divisions by zero and the
logarithm of zero do not yield numbers. -/
noncomputable def potential (G : Tensor) (l_cst : ℝ) : Orb (Option ℝ) :=
  let gtt := G 0 0
  let gtph := G 0 3
  let gphph := G 3 3
  if gtt * l_cst * l_cst + 2 * l_cst * gtph + gphph = 0 then .nan
  else
    let u_t_squared := (gtph * gtph - gtt * gphph) / (gtt * l_cst * l_cst + 2 * l_cst * gtph + gphph)
    if u_t_squared < 0 then .val none else if u_t_squared = 0 then .nan else .val (some (-Real.log √u_t_squared))

/-- A star: its slice, the velocity field `v_i`, the factor of Lorentz and the surface (`include/GyotoNumericalMetricLorene.h:70-73`). -/
structure StarData where
  slice : Slice
  v : Fin 3 → ℝ → ℝ → ℝ → ℝ
  lorentz : ℝ → ℝ → ℝ → ℝ
  surf : ℝ → ℝ → ℝ

/-- `NeutronStar::operator()` (`lib/NeutronStar.C:101-114`). -/
def StarData.distance (d : StarData) (coord : Vec) : ℝ := coord 1 - d.surf (coord 2) (coord 3)

/-- `NeutronStar::getVelocity` (`lib/NeutronStar.C:116-157`). -/
noncomputable def StarData.velocity (d : StarData) (pos : Vec) : Orb Vec :=
  let rr := pos 1
  let th := pos 2
  let phi := pos 3
  let rsinth := rr * Real.sin th
  if rr = 0 ∨ rsinth = 0 then .throws
  else
    let rm1 := 1 / rr
    let rm2 := rm1 * rm1
    let sm1 := 1 / Real.sin th
    let sm2 := sm1 * sm1
    let rsm1 := rm1 * sm1
    let v_r := d.v 0 rr th phi
    let v_t := rr * d.v 1 rr th phi
    let v_p := rr * Real.sin th * d.v 2 rr th phi
    let grr := (d.slice.gcon 0 0).val rr th phi
    let gtt := rm2 * (d.slice.gcon 1 1).val rr th phi
    let gpp := rm2 * sm2 * (d.slice.gcon 2 2).val rr th phi
    let lorentz := d.lorentz rr th phi
    let betar := (d.slice.shift 0).val rr th phi
    let betat := rm1 * (d.slice.shift 1).val rr th phi
    let betap := rsm1 * (d.slice.shift 2).val rr th phi
    let lapse := d.slice.lapse.val rr th phi
    if lapse = 0 then .nan
    else .val ![lorentz / lapse, lorentz * (v_r * grr - betar / lapse), lorentz * (v_t * gtt - betat / lapse), lorentz * (v_p * gpp - betap / lapse)]

end Gyoto.Lorene
