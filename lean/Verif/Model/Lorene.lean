import Verif.Model.MetricAlg
import Verif.Model.Three1
import Verif.Model.Transfer
import Mathlib.Analysis.SpecialFunctions.Trigonometric.Basic
import Mathlib.Analysis.Real.Sqrt

/-!
# One slice of a numerical metric (`lib/NumericalMetricLorene.C`)

The fields that the Lorene library reads from a file are arbitrary functions of the radius and the angles, each with what `dsdr()`, `dsdt()` and `stdsdp()` give.
Doubles are reals; divisions by zero are excluded by the tests in the code or by the hypotheses of the theorems.
-/

namespace Gyoto.Lorene

open Gyoto.MetricAlg Gyoto.Three1
open Gyoto.Transfer (Out)

/-- A `Lorene::Scalar`: `val_point(r, theta, phi)`, and the same of `dsdr()`, `dsdt()` and `stdsdp()`. -/
structure Scal where
  val : ℝ → ℝ → ℝ → ℝ
  dr : ℝ → ℝ → ℝ → ℝ
  dt : ℝ → ℝ → ℝ → ℝ
  stdp : ℝ → ℝ → ℝ → ℝ

/-- The fields at one date (`include/GyotoNumericalMetricLorene.h:63-67`), with components in the orthonormal basis of Lorene. -/
structure Slice where
  lapse : Scal
  shift : Fin 3 → Scal
  gcov : Fin 3 → Fin 3 → Scal
  gcon : Fin 3 → Fin 3 → Scal
  kij : Fin 3 → Fin 3 → Scal

variable (s : Slice) (p : Vec)

/-- `gmunu(pos, indice_time, mu, nu)` (`lib/NumericalMetricLorene.C:1289-1334`), off the axis: on it there is an error (`:1287-1288`). -/
noncomputable def Slice.gmunu : Tensor :=
  let rr := p 1
  let th := p 2
  let ph := p 3
  let r2 := rr * rr
  let rsinth := rr * Real.sin th
  let rm1 := 1 / rr
  let r2sinth2 := r2 * Real.sin th * Real.sin th
  let lapse := s.lapse.val rr th ph
  let g i := (s.gcov i i).val rr th ph
  let b i := (s.shift i).val rr th ph
  let tt := -lapse * lapse + g 0 * b 0 * b 0 + g 1 * b 1 * b 1 + g 2 * b 2 * b 2
  let tr := g 0 * b 0
  let th' := r2 * g 1 * rm1 * b 1
  let tp := rsinth * g 2 * b 2
  Matrix.of ![![tt, tr, th', tp], ![tr, g 0, 0, 0], ![th', 0, r2 * g 1, 0], ![tp, 0, 0, r2sinth2 * g 2]]

/-- `gmunu_di(pos, indice_time, …)` (`lib/NumericalMetricLorene.C:1046-1122`): the derivatives with respect to the radius. -/
noncomputable def Slice.gmunuDr : Tensor :=
  let rr := p 1
  let th := p 2
  let ph := p 3
  let r2 := rr * rr
  let sinth := Real.sin th
  let sinth2 := sinth * sinth
  let rsinth := rr * Real.sin th
  let lapse := s.lapse.val rr th ph
  let lapsedr := s.lapse.dr rr th ph
  let betap := (s.shift 2).val rr th ph
  let betapdr := (s.shift 2).dr rr th ph
  let g_pp := (s.gcov 2 2).val rr th ph
  let g_ppdr := (s.gcov 2 2).dr rr th ph
  let d00 := -2 * lapsedr * lapse + 2 * (betapdr - betap / rr) * betap * g_pp + betap * betap * g_ppdr + 2 * betap * betap / rsinth * g_pp
  let d03 := (betapdr - betap / rr) * g_pp * rsinth + betap * g_ppdr * rsinth + 2 * betap * g_pp * sinth
  Matrix.of ![![d00, 0, 0, d03], ![0, (s.gcov 0 0).dr rr th ph, 0, 0],
    ![0, 0, r2 * (s.gcov 1 1).dr rr th ph + 2 * rr * (s.gcov 1 1).val rr th ph, 0], ![d03, 0, 0, (g_ppdr * rr + 2 * g_pp) * rr * sinth2]]

/-- The same with respect to the colatitude. -/
noncomputable def Slice.gmunuDth : Tensor :=
  let rr := p 1
  let th := p 2
  let ph := p 3
  let r2 := rr * rr
  let sinth := Real.sin th
  let costh := Real.cos th
  let rsinth := rr * Real.sin th
  let lapse := s.lapse.val rr th ph
  let lapsedth := s.lapse.dt rr th ph
  let betap := (s.shift 2).val rr th ph
  let betapdth := (s.shift 2).dt rr th ph
  let g_pp := (s.gcov 2 2).val rr th ph
  let g_ppdth := (s.gcov 2 2).dt rr th ph
  let d00 := -2 * lapsedth * lapse + 2 * (-costh / sinth * betap + betapdth) * betap * g_pp + betap * betap * g_ppdth +
    2 * betap * betap * g_pp * costh / sinth
  let d03 := (-costh / sinth * betap + betapdth) * g_pp * rsinth + betap * g_ppdth * rsinth + 2 * betap * g_pp * rr * costh
  Matrix.of ![![d00, 0, 0, d03], ![0, (s.gcov 0 0).dt rr th ph, 0, 0], ![0, 0, r2 * (s.gcov 1 1).dt rr th ph, 0],
    ![d03, 0, 0, r2 * sinth * (g_ppdth * sinth + 2 * g_pp * costh)]]

/-- `gmunu_up(gup, x, indice_time)` (`lib/NumericalMetricLorene.C:1191-1236`): what it calls the contravariant metric is read from `gamcov_tab_`. -/
noncomputable def Slice.gmunuUp : Tensor :=
  let rr := p 1
  let th := p 2
  let ph := p 3
  let r2 := rr * rr
  let sinth2 := Real.sin th * Real.sin th
  let rsinth := rr * Real.sin th
  let lapse := s.lapse.val rr th ph
  let lapsem2 := 1 / (lapse * lapse)
  let betap := (s.shift 2).val rr th ph
  let g_up_rr := (s.gcov 0 0).val rr th ph
  let g_up_thth := (s.gcov 1 1).val rr th ph
  let g_up_pp := (s.gcov 2 2).val rr th ph
  let u03 := betap / rsinth * lapsem2
  Matrix.of ![![-lapsem2, 0, 0, u03], ![0, g_up_rr, 0, 0], ![0, 0, g_up_thth * 1 / r2, 0],
    ![u03, 0, 0, 1 / (r2 * sinth2) * (-betap * betap * lapsem2 + g_up_pp)]]

/-- `gmunu_up_dr(pos, indice_time, mu, nu)` for `(0, 0)`, `(0, 3)` and `(3, 3)` (`lib/NumericalMetricLorene.C:1392-1440`). -/
noncomputable def Slice.gmunuUpDr : ℝ × ℝ × ℝ :=
  let rr := p 1
  let th := p 2
  let ph := p 3
  let rsinth := rr * Real.sin th
  let rm1 := 1 / rr
  let rsinthm1 := 1 / rsinth
  let rsinthm2 := rsinthm1 * rsinthm1
  let lapse_val := s.lapse.val rr th ph
  let lapse_valm1 := 1 / lapse_val
  let lapse_valm2 := lapse_valm1 * lapse_valm1
  let lapse_valm3 := lapse_valm2 * lapse_valm1
  let lapsedr := s.lapse.dr rr th ph
  let betap := (s.shift 2).val rr th ph
  let betapdr := (s.shift 2).dr rr th ph
  let g_pp := (s.gcov 2 2).val rr th ph
  let g_ppdr := (s.gcov 2 2).dr rr th ph
  (2 * lapsedr * lapse_valm3,
    lapse_valm2 * rsinthm1 * (-rm1 * betap + betapdr - 2 * betap * lapsedr * lapse_valm1),
    rsinthm2 * (-2 * rm1 * (1 / g_pp - betap * betap * lapse_valm2) -
      (g_ppdr / (g_pp * g_pp) + 2 * betap * (betapdr * lapse_valm2 - betap * lapsedr * lapse_valm3))))

/-- Lapse and shift of one slice, as `computeNBeta` reads them (`lib/NumericalMetricLorene.C:852-872`). -/
noncomputable def Slice.nBeta : ℝ × (Fin 3 → ℝ) :=
  let rr := p 1
  let th := p 2
  let ph := p 3
  (s.lapse.val rr th ph, ![(s.shift 0).val rr th ph, 1 / rr * (s.shift 1).val rr th ph, 1 / (rr * Real.sin th) * (s.shift 2).val rr th ph])

/-- `christoffel(dst, coord, indice_time)` (`lib/NumericalMetricLorene.C:1760-1862`). -/
noncomputable def Slice.christoffel : Fin 4 → Tensor :=
  let rr := p 1
  let th := p 2
  let ph := p 3
  let sinth := Real.sin th
  let costh := Real.cos th
  let r2 := rr * rr
  let rsinth := rr * sinth
  let rm1 := 1 / rr
  let sm1 := 1 / sinth
  let rsm1 := rm1 * sm1
  let sinth2 := sinth * sinth
  let r2sinth2 := r2 * sinth2
  let rm2 := rm1 * rm1
  let NN := s.lapse.val rr th ph
  let Nr := s.lapse.dr rr th ph
  let Nt := s.lapse.dt rr th ph
  let beta_p := rsm1 * (s.shift 2).val rr th ph
  let beta_pr := rsm1 * (s.shift 2).dr rr th ph - rm1 * rsm1 * (s.shift 2).val rr th ph
  let beta_pt := rsm1 * (s.shift 2).dt rr th ph - costh * rsm1 * sm1 * (s.shift 2).val rr th ph
  let Krp := rsinth * (s.kij 0 2).val rr th ph
  let Ktp := rr * rsinth * (s.kij 1 2).val rr th ph
  let grr := (s.gcon 0 0).val rr th ph
  let gtt := rm2 * (s.gcon 1 1).val rr th ph
  let gpp := rsm1 * rsm1 * (s.gcon 2 2).val rr th ph
  let g_rr_r := (s.gcov 0 0).dr rr th ph
  let g_rr_t := (s.gcov 0 0).dt rr th ph
  let g_tt_r := r2 * (s.gcov 1 1).dr rr th ph + 2 * rr * (s.gcov 1 1).val rr th ph
  let g_tt_t := r2 * (s.gcov 1 1).dt rr th ph
  let g_pp_r := r2sinth2 * (s.gcov 2 2).dr rr th ph + 2 * rr * sinth2 * (s.gcov 2 2).val rr th ph
  let g_pp_t := r2sinth2 * (s.gcov 2 2).dt rr th ph + 2 * costh * sinth * r2 * (s.gcov 2 2).val rr th ph
  let d001 := 1 / NN * (Nr - Krp * beta_p)
  let d002 := 1 / NN * (Nt - Ktp * beta_p)
  let d013 := -Krp / NN
  let d023 := -Ktp / NN
  let d100 := NN * grr * (Nr - 2 * Krp * beta_p - beta_p * beta_p / (2 * NN) * g_pp_r)
  let d200 := NN * gtt * (Nt - 2 * Ktp * beta_p - beta_p * beta_p / (2 * NN) * g_pp_t)
  let d103 := -grr * (NN * Krp + 0.5 * beta_p * g_pp_r)
  let d203 := -gtt * (NN * Ktp + 0.5 * beta_p * g_pp_t)
  let d301 := beta_pr + 0.5 * gpp * g_pp_r * beta_p - NN * gpp * Krp + beta_p / NN * (Krp * beta_p - Nr)
  let d302 := beta_pt + 0.5 * gpp * g_pp_t * beta_p - NN * gpp * Ktp + beta_p / NN * (Ktp * beta_p - Nt)
  let d111 := 0.5 * grr * g_rr_r
  let d133 := -0.5 * grr * g_pp_r
  let d112 := 0.5 * grr * g_rr_t
  let d122 := -0.5 * grr * g_tt_r
  let d233 := -0.5 * gtt * g_pp_t
  let d211 := -0.5 * gtt * g_rr_t
  let d222 := 0.5 * gtt * g_tt_t
  let d212 := 0.5 * gtt * g_tt_r
  let d313 := 0.5 * gpp * g_pp_r + beta_p / NN * Krp
  let d323 := 0.5 * gpp * g_pp_t + beta_p / NN * Ktp
  ![![![0, d001, d002, 0], ![d001, 0, 0, d013], ![d002, 0, 0, d023], ![0, d013, d023, 0]],
    ![![d100, 0, 0, d103], ![0, d111, d112, 0], ![0, d112, d122, 0], ![d103, 0, 0, d133]],
    ![![d200, 0, 0, d203], ![0, d211, d212, 0], ![0, d212, d222, 0], ![d203, 0, 0, d233]],
    ![![0, d301, d302, 0], ![d301, 0, 0, d313], ![d302, 0, 0, d323], ![0, d313, d323, 0]]]

/-- `christoffel(coord, alpha, mu, nu, indice_time)` (`lib/NumericalMetricLorene.C:1489-1698`). -/
noncomputable def Slice.christoffel1 : Fin 4 → Tensor :=
  let rr := p 1
  let th := p 2
  let ph := p 3
  let sinth := Real.sin th
  let costh := Real.cos th
  let r2 := rr * rr
  let rsinth := rr * sinth
  let sm1 := 1 / sinth
  let rm1 := 1 / rr
  let rsm1 := rm1 * sm1
  let sinth2 := sinth * sinth
  let r2sinth2 := r2 * sinth2
  let rm2 := rm1 * rm1
  let NN := s.lapse.val rr th ph
  let Nr := s.lapse.dr rr th ph
  let Nt := s.lapse.dt rr th ph
  let beta_p := rsm1 * (s.shift 2).val rr th ph
  let Krp := rsinth * (s.kij 0 2).val rr th ph
  let Ktp := rr * rsinth * (s.kij 1 2).val rr th ph
  -- `kij(1,3)` where the colatitude is meant (`:1566`, `:1690`)
  let Ktp' := rr * rsinth * (s.kij 0 2).val rr th ph
  let grr := (s.gcon 0 0).val rr th ph
  let gtt := 1 / r2 * (s.gcon 1 1).val rr th ph
  -- `g_up_ij(1,1)` where the colatitude is meant (`:1568`)
  let gtt' := 1 / r2 * (s.gcon 0 0).val rr th ph
  let gpp := rsm1 * rsm1 * (s.gcon 2 2).val rr th ph
  let g_pp_r := r2sinth2 * (s.gcov 2 2).dr rr th ph + 2 * rr * sinth2 * (s.gcov 2 2).val rr th ph
  let g_pp_t := r2sinth2 * (s.gcov 2 2).dt rr th ph + 2 * costh * sinth * r2 * (s.gcov 2 2).val rr th ph
  -- `beta_p` where the component in the basis of Lorene is meant (`:1592-1593`, `:1611-1612`)
  let beta_pr := rsm1 * (s.shift 2).dr rr th ph - 1 / (r2 * sinth) * beta_p
  let beta_pt := rsm1 * (s.shift 2).dt rr th ph - costh * rsm1 * sm1 * beta_p
  let gamma_prp := 0.5 * gpp * g_pp_r
  let gamma_ptp := 0.5 * gpp * g_pp_t
  let d001 := 1 / NN * (Nr - Krp * beta_p)
  let d002 := 1 / NN * (Nt - Ktp * beta_p)
  let d013 := -Krp / NN
  let d023 := -Ktp / NN
  let d100 := NN * grr * (Nr - 2 * Krp * beta_p)
  let d200 := NN * gtt' * (Nt - 2 * Ktp' * beta_p)
  let d103 := -NN * grr * Krp
  let d203 := -NN * gtt * Ktp
  let d301 := beta_pr + gamma_prp * beta_p - NN * gpp * Krp + beta_p / NN * (Krp * beta_p - Nr)
  let d302 := beta_pt + gamma_ptp * beta_p - NN * gpp * Ktp + beta_p / NN * (Ktp * beta_p - Nt)
  let d111 := 0.5 * grr * (s.gcov 0 0).dr rr th ph
  let d133 := -0.5 * grr * g_pp_r
  let d112 := 0.5 * grr * (s.gcov 0 0).dt rr th ph
  let d122 := -0.5 * grr * (r2 * (s.gcov 1 1).dr rr th ph + 2 * rr * (s.gcov 1 1).val rr th ph)
  let d233 := -0.5 * rm2 * (s.gcon 1 1).val rr th ph * g_pp_t
  let d211 := -0.5 * rm2 * (s.gcon 1 1).val rr th ph * (s.gcov 0 0).dt rr th ph
  let d222 := 0.5 * rm2 * (s.gcon 1 1).val rr th ph * (r2 * (s.gcov 1 1).dt rr th ph)
  let d212 := 0.5 * rm2 * (s.gcon 1 1).val rr th ph * (r2 * (s.gcov 1 1).dr rr th ph + 2 * rr * (s.gcov 1 1).val rr th ph)
  let d313 := 0.5 * rsm1 * rsm1 * (s.gcon 2 2).val rr th ph * g_pp_r + beta_p / NN * Krp
  let d323 := 0.5 * rsm1 * rsm1 * (s.gcon 2 2).val rr th ph * g_pp_t + beta_p / NN * Ktp'
  ![![![0, d001, d002, 0], ![d001, 0, 0, d013], ![d002, 0, 0, d023], ![0, d013, d023, 0]],
    ![![d100, 0, 0, d103], ![0, d111, d112, 0], ![0, d112, d122, 0], ![d103, 0, 0, d133]],
    ![![d200, 0, 0, d203], ![0, d211, d212, 0], ![0, d212, d222, 0], ![d203, 0, 0, d233]],
    ![![0, d301, d302, 0], ![d301, 0, 0, d313], ![d302, 0, 0, d323], ![0, d313, d323, 0]]]

end Gyoto.Lorene
