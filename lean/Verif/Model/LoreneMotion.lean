import Verif.Model.Lorene

/-!
# Motion and dates in a numerical metric (`lib/NumericalMetricLorene.C`)

Not modelled: the horizon (`computeHorizon` returns zero when there is none), the tests for NaN and infinity at the end of `diff`.
-/

namespace Gyoto.Lorene

open Gyoto.MetricAlg Gyoto.Three1
open Gyoto.Transfer (Out)

/-- `diff(y, res, indice_time)` where `axisymCirc_` is set (`lib/NumericalMetricLorene.C:736-804`). -/
noncomputable def Slice.diffCirc (s : Slice) (y : State31) : State31 :=
  let EE := y.energy
  let rr := y.x 0
  let th := y.x 1
  let phi := y.x 2
  let sth := Real.sin th
  let cth := Real.cos th
  let rsinth := rr * sth
  let r2sinth2 := rsinth * rsinth
  let sinth2 := sth * sth
  let rm1 := 1 / rr
  let rm2 := rm1 * rm1
  let r2 := rr * rr
  let rsm1 := 1 / rsinth
  let sm1 := 1 / sth
  let sm2 := sm1 * sm1
  let Vr := y.v 0
  let Vth := y.v 1
  let Vph := y.v 2
  let NN := s.lapse.val rr th phi
  let NNm1 := 1 / NN
  let N_dr := s.lapse.dr rr th phi
  let N_dt := s.lapse.dt rr th phi
  let betap := rsm1 * (s.shift 2).val rr th phi
  let betap_dr := rsm1 * (s.shift 2).dr rr th phi - rm2 * sm1 * (s.shift 2).val rr th phi
  let betap_dt := rsm1 * (s.shift 2).dt rr th phi - cth * sm2 * rm1 * (s.shift 2).val rr th phi
  let g_rr_dr := (s.gcov 0 0).dr rr th phi
  let g_rr_dt := (s.gcov 0 0).dt rr th phi
  let g_tt_dr := r2 * (s.gcov 1 1).dr rr th phi + 2 * rr * (s.gcov 1 1).val rr th phi
  let g_tt_dt := r2 * (s.gcov 1 1).dt rr th phi
  let g_pp_Lorene := (s.gcov 2 2).val rr th phi
  let g_pp_dr := r2sinth2 * (s.gcov 2 2).dr rr th phi + 2 * rr * sinth2 * g_pp_Lorene
  let g_pp_dt := r2sinth2 * (s.gcov 2 2).dt rr th phi + 2 * cth * sth * r2 * g_pp_Lorene
  let grr := (s.gcon 0 0).val rr th phi
  let gtt := rm2 * (s.gcon 1 1).val rr th phi
  let gpp := rm2 * sm2 * (s.gcon 2 2).val rr th phi
  let K_rp := rsinth * (s.kij 0 2).val rr th phi
  let K_tp := rr * rsinth * (s.kij 1 2).val rr th phi
  let Grrr := 0.5 * grr * g_rr_dr
  let Grrt := 0.5 * grr * g_rr_dt
  let Grtt := 0.5 * grr * -g_tt_dr
  let Grpp := 0.5 * grr * -g_pp_dr
  let Gtrr := 0.5 * gtt * -g_rr_dt
  let Gtrt := 0.5 * gtt * g_tt_dr
  let Gttt := 0.5 * gtt * g_tt_dt
  let Gtpp := 0.5 * gtt * -g_pp_dt
  let Gprp := 0.5 * gpp * g_pp_dr
  let Gptp := 0.5 * gpp * g_pp_dt
  let factor := NNm1 * (Vr * N_dr + Vth * N_dt) - 2 * K_rp * Vr * Vph - 2 * K_tp * Vth * Vph
  { energy := EE * (2 * NN * (K_rp * Vr * Vph + K_tp * Vth * Vph) - (Vr * N_dr + Vth * N_dt))
    x := ![NN * Vr, NN * Vth, NN * Vph - betap]
    v := ![NN * (Vr * factor + 2 * grr * (K_rp * Vph) - Grrr * Vr * Vr - 2 * Grrt * Vr * Vth - Grtt * Vth * Vth - Grpp * Vph * Vph) - grr * N_dr,
      NN * (Vth * factor + 2 * gtt * (K_tp * Vph) - Gttt * Vth * Vth - Gtpp * Vph * Vph - Gtrr * Vr * Vr - 2 * Gtrt * Vr * Vth) - gtt * N_dt,
      NN * (Vph * factor + 2 * gpp * (K_rp * Vr + K_tp * Vth) - 2 * Vph * (Vr * Gprp + Vth * Gptp)) - Vr * betap_dr - Vth * betap_dt] }

/-- `diff(y, res, indice_time)` where it is not (`lib/NumericalMetricLorene.C:582-735`). -/
noncomputable def Slice.diffGen (s : Slice) (y : State31) : State31 :=
  let EE := y.energy
  let rr := y.x 0
  let th := y.x 1
  let phi := y.x 2
  let sth := Real.sin th
  let cth := Real.cos th
  let rsinth := rr * sth
  let r2sinth2 := rsinth * rsinth
  let sinth2 := sth * sth
  let rm1 := 1 / rr
  let rm2 := rm1 * rm1
  let r2 := rr * rr
  let rsm1 := 1 / rsinth
  let sm1 := 1 / sth
  let sm2 := sm1 * sm1
  let Vr := y.v 0
  let Vth := y.v 1
  let Vph := y.v 2
  let NN := s.lapse.val rr th phi
  let NNm1 := 1 / NN
  let N_dr := s.lapse.dr rr th phi
  let N_dt := s.lapse.dt rr th phi
  let N_dp := sth * s.lapse.stdp rr th phi
  let betar := (s.shift 0).val rr th phi
  let betar_dr := (s.shift 0).dr rr th phi
  let betar_dt := (s.shift 0).dt rr th phi
  let betar_dp := sth * (s.shift 0).stdp rr th phi
  let betat_Lorene := (s.shift 1).val rr th phi
  let betat := rm1 * betat_Lorene
  let betat_dr := rm1 * (s.shift 1).dr rr th phi - rm2 * betat_Lorene
  let betat_dt := rm1 * (s.shift 1).dt rr th phi
  let betat_dp := sth * rm1 * (s.shift 1).stdp rr th phi
  let betap_Lorene := (s.shift 2).val rr th phi
  let betap := rsm1 * betap_Lorene
  let betap_dr := rsm1 * (s.shift 2).dr rr th phi - rm2 * sm1 * betap_Lorene
  let betap_dt := rsm1 * (s.shift 2).dt rr th phi - cth * sm2 * rm1 * betap_Lorene
  let betap_dp := rm1 * (s.shift 2).stdp rr th phi
  let g_rr_dr := (s.gcov 0 0).dr rr th phi
  let g_rr_dt := (s.gcov 0 0).dt rr th phi
  let g_rr_dp := sth * (s.gcov 0 0).stdp rr th phi
  let g_tt_dr := r2 * (s.gcov 1 1).dr rr th phi + 2 * rr * (s.gcov 1 1).val rr th phi
  let g_tt_dt := r2 * (s.gcov 1 1).dt rr th phi
  let g_tt_dp := sth * r2 * (s.gcov 1 1).stdp rr th phi
  let g_pp_Lorene := (s.gcov 2 2).val rr th phi
  let g_pp_dr := r2sinth2 * (s.gcov 2 2).dr rr th phi + 2 * rr * sinth2 * g_pp_Lorene
  let g_pp_dt := r2sinth2 * (s.gcov 2 2).dt rr th phi + 2 * cth * sth * r2 * g_pp_Lorene
  let g_pp_dp := sth * r2sinth2 * (s.gcov 2 2).stdp rr th phi
  let g_rt_dr := rr * (s.gcov 0 1).dr rr th phi + (s.gcov 0 1).val rr th phi
  let g_rt_dt := rr * (s.gcov 0 1).dt rr th phi
  let g_rt_dp := rsinth * (s.gcov 0 1).stdp rr th phi
  let g_rp_Lorene := (s.gcov 0 2).val rr th phi
  let g_rp_dr := rsinth * (s.gcov 0 2).dr rr th phi + sth * g_rp_Lorene
  let g_rp_dt := rsinth * (s.gcov 0 2).dt rr th phi + rr * cth * g_rp_Lorene
  let g_rp_dp := sth * rsinth * (s.gcov 0 2).stdp rr th phi
  let g_tp_Lorene := (s.gcov 1 2).val rr th phi
  let g_tp_dr := rr * rsinth * (s.gcov 1 2).dr rr th phi + 2 * rsinth * g_tp_Lorene
  let g_tp_dt := rr * rsinth * (s.gcov 1 2).dt rr th phi + r2 * cth * g_tp_Lorene
  let g_tp_dp := r2sinth2 * (s.gcov 1 2).stdp rr th phi
  let grr := (s.gcon 0 0).val rr th phi
  let gtt := rm2 * (s.gcon 1 1).val rr th phi
  let gpp := rm2 * sm2 * (s.gcon 2 2).val rr th phi
  let grt := rm1 * (s.gcon 0 1).val rr th phi
  let grp := rsm1 * (s.gcon 0 2).val rr th phi
  let gtp := rm1 * rsm1 * (s.gcon 1 2).val rr th phi
  let K_rr := (s.kij 0 0).val rr th phi
  let K_tt := r2 * (s.kij 1 1).val rr th phi
  let K_pp := rsinth * rsinth * (s.kij 2 2).val rr th phi
  let K_rt := rr * (s.kij 0 1).val rr th phi
  let K_rp := rsinth * (s.kij 0 2).val rr th phi
  let K_tp := rr * rsinth * (s.kij 1 2).val rr th phi
  let Grrr := 0.5 * grr * g_rr_dr + 0.5 * grt * (2 * g_rt_dr - g_rr_dt) + 0.5 * grp * (2 * g_rp_dr - g_rr_dp)
  let Grrt := 0.5 * grr * g_rr_dt + 0.5 * grt * g_tt_dr + 0.5 * grp * (g_tp_dr + g_rp_dt - g_rt_dp)
  let Grtt := 0.5 * grr * (2 * g_rt_dt - g_tt_dr) + 0.5 * grt * g_tt_dt + 0.5 * grp * (2 * g_tp_dt - g_tt_dp)
  let Grpp := 0.5 * grr * (2 * g_rp_dp - g_pp_dr) + 0.5 * grt * (2 * g_tp_dp - g_pp_dt) + 0.5 * grp * g_pp_dp
  let Grrp := 0.5 * grr * g_rr_dp + 0.5 * grt * (g_rt_dp + g_tp_dr - g_rp_dt) + 0.5 * grp * g_pp_dr
  let Grtp := 0.5 * grr * (g_rt_dp + g_rp_dt - g_tp_dr) + 0.5 * grt * g_tt_dp + 0.5 * grp * g_pp_dt
  let Gtrr := 0.5 * grt * g_rr_dr + 0.5 * gtt * (2 * g_rt_dr - g_rr_dt) + 0.5 * gtp * (2 * g_rp_dr - g_rr_dp)
  let Gtrt := 0.5 * grt * g_rr_dt + 0.5 * gtt * g_tt_dr + 0.5 * gtp * (g_tp_dr + g_rp_dt - g_rt_dp)
  let Gttt := 0.5 * grt * (2 * g_rt_dt - g_tt_dr) + 0.5 * gtt * g_tt_dt + 0.5 * gtp * (2 * g_tp_dt - g_tt_dp)
  let Gtpp := 0.5 * grt * (2 * g_rp_dp - g_pp_dr) + 0.5 * gtt * (2 * g_tp_dp - g_pp_dt) + 0.5 * gtp * g_pp_dp
  let Gtrp := 0.5 * grt * g_rr_dp + 0.5 * gtt * (g_rt_dp + g_tp_dr - g_rp_dt) + 0.5 * gtp * g_pp_dr
  let Gttp := 0.5 * grt * (g_rt_dp + g_rp_dt - g_tp_dr) + 0.5 * gtt * g_tt_dp + 0.5 * gtp * g_pp_dt
  let Gprr := 0.5 * grp * g_rr_dr + 0.5 * gtp * (2 * g_rt_dr - g_rr_dt) + 0.5 * gpp * (2 * g_rp_dr - g_rr_dp)
  let Gprt := 0.5 * grp * g_rr_dt + 0.5 * gtp * g_tt_dr + 0.5 * gpp * (g_tp_dr + g_rp_dt - g_rt_dp)
  let Gptt := 0.5 * grp * (2 * g_rt_dt - g_tt_dr) + 0.5 * gtp * g_tt_dt + 0.5 * gpp * (2 * g_tp_dt - g_tt_dp)
  let Gppp := 0.5 * grp * (2 * g_rp_dp - g_pp_dr) + 0.5 * gtp * (2 * g_tp_dp - g_pp_dt) + 0.5 * gpp * g_pp_dp
  let Gprp := 0.5 * grp * g_rr_dp + 0.5 * gtp * (g_rt_dp + g_tp_dr - g_rp_dt) + 0.5 * gpp * g_pp_dr
  let Gptp := 0.5 * grp * (g_rt_dp + g_rp_dt - g_tp_dr) + 0.5 * gtp * g_tt_dp + 0.5 * gpp * g_pp_dt
  let VN_d := Vr * N_dr + Vth * N_dt + Vph * N_dp
  let KV2 := K_rr * Vr * Vr + K_tt * Vth * Vth + K_pp * Vph * Vph + 2 * (K_rt * Vr * Vth + K_rp * Vr * Vph + K_tp * Vth * Vph)
  let factor := NNm1 * VN_d - KV2
  let KV_r := K_rr * Vr + K_rt * Vth + K_rp * Vph
  let KV_t := K_rt * Vr + K_tt * Vth + K_tp * Vph
  let KV_p := K_rp * Vr + K_tp * Vth + K_pp * Vph
  { energy := EE * (NN * KV2 - VN_d)
    x := ![NN * Vr - betar, NN * Vth - betat, NN * Vph - betap]
    v := ![NN * (Vr * factor + 2 * grr * KV_r + 2 * grt * KV_t + 2 * grp * KV_p - Grrr * Vr * Vr - 2 * Grrt * Vr * Vth - Grtt * Vth * Vth -
          Grpp * Vph * Vph - 2 * Grrp * Vr * Vph - 2 * Grtp * Vth * Vph) - grr * N_dr - grt * N_dt - grp * N_dp -
        Vr * betar_dr - Vth * betar_dt - Vph * betar_dp,
      NN * (Vth * factor + 2 * grt * KV_r + 2 * gtt * KV_t + 2 * gtp * KV_p - Gttt * Vth * Vth - Gtpp * Vph * Vph - Gtrr * Vr * Vr -
          2 * Gtrt * Vr * Vth - 2 * Gtrp * Vr * Vph - 2 * Gttp * Vth * Vph) - grt * N_dr - gtt * N_dt - gtp * N_dp -
        Vr * betat_dr - Vth * betat_dt - Vph * betat_dp,
      NN * (Vph * factor + 2 * grp * KV_r + 2 * gtp * KV_t + 2 * gpp * KV_p - Gprr * Vr * Vr - 2 * Gprt * Vr * Vth - Gptt * Vth * Vth -
          Gppp * Vph * Vph - 2 * Vph * (Vr * Gprp + Vth * Gptp)) - grp * N_dr - gtp * N_dt - gpp * N_dp -
        Vr * betap_dr - Vth * betap_dt - Vph * betap_dp] }

/-- The slices and their dates: `nb_times_`, `times_`, `lapse_tab_` and so on. -/
structure Dates where
  nb : ℕ
  times : ℕ → ℝ
  slice : ℕ → Slice

/-- `while(tt<times_[it] && it>=0) it--` (`lib/NumericalMetricLorene.C:489-492` and nine other places), from `it = n - 1`.  Where no date is early
enough, `times_[-1]` is read before the index is tested: undefined behaviour, `none`. -/
noncomputable def search (times : ℕ → ℝ) (tt : ℝ) : ℕ → Option ℕ
  | 0 => none
  | n + 1 => if tt < times n then search times tt n else some n

/-- `Interpol3rdOrder` (`lib/NumericalMetricLorene.C:1926-1949`). -/
noncomputable def neville (tt t1 t2 t3 t4 y1 y2 y3 y4 : ℝ) : ℝ :=
  let P12 := ((tt - t2) * y1 + (t1 - tt) * y2) / (t1 - t2)
  let P23 := ((tt - t3) * y2 + (t2 - tt) * y3) / (t2 - t3)
  let P34 := ((tt - t4) * y3 + (t3 - tt) * y4) / (t3 - t4)
  let P123 := ((tt - t3) * P12 + (t1 - tt) * P23) / (t1 - t3)
  let P234 := ((tt - t4) * P23 + (t2 - tt) * P34) / (t2 - t4)
  ((tt - t4) * P123 + (t1 - tt) * P234) / (t1 - t4)

/-- The interpolation of something that each slice has: `gmunu` (`lib/NumericalMetricLorene.C:1245-1269`), `diff` (`489-534`), `computeNBeta`
(`858-933`), `gmunu_up_dr` (`1349-1373`), `computeHorizon` (`1873-1904`).  `computeNBeta` and `diff` write the linear part with both differences
negated. -/
noncomputable def Dates.interp (d : Dates) (tt : ℝ) (f : Slice → ℝ) : Option ℝ :=
  (search d.times tt d.nb).map fun it =>
    if it + 1 = d.nb then f (d.slice it)
    else if it + 2 = d.nb ∨ it = 0 then
      let t1 := d.times it
      let t2 := d.times (it + 1)
      (f (d.slice it) - f (d.slice (it + 1))) / (t1 - t2) * (tt - t1) + f (d.slice it)
    else neville tt (d.times (it - 1)) (d.times it) (d.times (it + 1)) (d.times (it + 2))
      (f (d.slice (it - 1))) (f (d.slice it)) (f (d.slice (it + 1))) (f (d.slice (it + 2)))

/-- What came of a call that may read out of bounds or throw. -/
inductive Res
  | ub
  | throws
  | val (x : ℝ)

/-- The interpolation in `gmunu_up` (`lib/NumericalMetricLorene.C:1125-1189`) and `gmunu_di` (`966-1044`): none of the first three cases returns, so that
the slices `it-1`, …, `it+2` are used in the end; an index without a slice is an error. -/
noncomputable def Dates.interpFall (d : Dates) (tt : ℝ) (f : Slice → ℝ) : Res :=
  match search d.times tt d.nb with
  | none => .ub
  | some it =>
    -- `times_[it+1]` is read for `it == 0` or `it == nb_times_-2`
    if (it + 2 = d.nb ∨ it = 0) ∧ d.nb ≤ it + 1 then .ub
    else if it = 0 then .throws
    else if d.nb ≤ it + 2 then .throws
    else .val (neville tt (d.times (it - 1)) (d.times it) (d.times (it + 1)) (d.times (it + 2))
      (f (d.slice (it - 1))) (f (d.slice it)) (f (d.slice (it + 1))) (f (d.slice (it + 2))))

/-- `gmunu(pos, mu, nu)` (`lib/NumericalMetricLorene.C:1239-1270`). -/
noncomputable def Dates.gmunu (d : Dates) (p : Vec) (μ ν : Fin 4) : Option ℝ := d.interp (p 0) fun s => s.gmunu p μ ν

/-- The lapse of `computeNBeta` (`lib/NumericalMetricLorene.C:848-939`). -/
noncomputable def Dates.lapse (d : Dates) (p : Vec) : Option ℝ := d.interp (p 0) fun s => (s.nBeta p).1

/-- `gmunu_up(gup, x)`. -/
noncomputable def Dates.gmunuUp (d : Dates) (p : Vec) (μ ν : Fin 4) : Res := d.interpFall (p 0) fun s => s.gmunuUp p μ ν

/-- One component of `diff(tt, y, res)` (`lib/NumericalMetricLorene.C:460-537`). -/
noncomputable def Dates.diffAt (d : Dates) (tt : ℝ) (y : State31) (axisymCirc : Bool) (i : Fin 3) : Option ℝ :=
  d.interp tt fun s => (if axisymCirc then s.diffCirc y else s.diffGen y).x i

/-- `diff31(x, dxdt, mass)` (`lib/NumericalMetricLorene.C:454-458`): the date is not part of the state, and zero is passed. -/
noncomputable def Dates.diff31 (d : Dates) (y : State31) (axisymCirc : Bool) (i : Fin 3) : Option ℝ := d.diffAt 0 y axisymCirc i

/-- `christoffel(dst, coord)` (`lib/NumericalMetricLorene.C:1700-1720`); more than one slice is an error. -/
noncomputable def Dates.christoffel (d : Dates) (p : Vec) (α μ ν : Fin 4) : Res :=
  if 1 < d.nb then .throws
  else
    match search d.times (p 0) d.nb with
    | none => .ub
    | some it => .val ((d.slice it).christoffel p α μ ν)

end Gyoto.Lorene
