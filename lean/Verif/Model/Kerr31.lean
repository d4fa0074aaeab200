import Verif.Model.KerrBL
import Verif.Model.Three1

/-!
# The 3+1 equations of motion in the Kerr metric (`lib/KerrBL.C:356-438`)

Doubles are reals; divisions by zero are excluded by the hypotheses of the theorems.
-/

namespace Gyoto.KerrBL

open Gyoto.MetricAlg Gyoto.Three1

/-- `diff31(x, dxdt, mass)` (`lib/KerrBL.C:356-438`): `x` is `{EE, r, th, ph, Vr, Vth, Vph}` and so is `dxdt`. -/
noncomputable def diff31 (spin : ℝ) (x : State31) : State31 :=
  let EE := x.energy
  let rr := x.x 0
  let r2 := rr * rr
  let th := x.x 1
  let cost := Real.cos th
  let sint := Real.sin th
  let cost2 := cost * cost
  let sint2 := sint * sint
  let Vr := x.v 0
  let Vth := x.v 1
  let Vph := x.v 2
  let spin2 := spin * spin
  let Delta := r2 - 2 * rr + spin2
  let Delta_r := 2 * (rr - 1)
  let rho2 := r2 + spin2 * cost2
  let rho4 := rho2 * rho2
  let B2 := r2 + spin2 + 2 * spin2 * rr * sint2 / rho2
  let B2_squared := B2 * B2
  let B2_r := 2 * rr + 2 * spin2 * sint2 * (spin2 * cost2 - r2) / rho4
  let B2_t := 4 * spin2 * rr * sint * cost * (spin2 + r2) / rho4
  let NN := √(Delta / B2)
  let N_r := 0.5 / NN * (Delta_r * B2 - Delta * B2_r) / B2_squared
  let N_t := -0.5 / NN * Delta * B2_t / B2_squared
  let num := -2 * spin * rr
  let deno := rho2 * (r2 + spin2) + 2 * spin2 * rr * sint2
  let betap := num / deno
  let deno2 := deno * deno
  let num_r := -2 * spin
  let deno_r := 4 * r2 * rr + 2 * spin2 * (sint2 + rr * (1 + cost2))
  let deno_t := -2 * spin2 * cost * sint * Delta
  let betap_r := (num_r * deno - num * deno_r) / deno2
  let betap_t := -(num * deno_t) / deno2
  let gamma_rr := rho2 / Delta
  let gammarr := 1 / gamma_rr
  let gamma_tt := rho2
  let gammatt := 1 / gamma_tt
  let gamma_pp := B2 * sint2
  let gammapp := 1 / gamma_pp
  let Krp := spin * sint2 * (3 * r2 * r2 + spin2 * r2 + spin2 * (r2 - spin2) * cost2) / (rho2 * rho2 * √(Delta * B2))
  let Kyp := 2 * rr * spin2 * spin * sint2 * cost * √Delta / (rho2 * rho2 * √B2)
  let Ktp := -sint * Kyp
  let rho2_r := 2 * rr
  let rho2_t := -2 * spin2 * sint * cost
  let gamma_rr_r := (rho2_r * Delta - rho2 * Delta_r) / (Delta * Delta)
  let gamma_rr_t := rho2_t / Delta
  let gamma_tt_r := rho2_r
  let gamma_tt_t := rho2_t
  let gamma_pp_r := B2_r * sint2
  let gamma_pp_t := B2_t * sint2 + 2 * cost * sint * B2
  let Grrr := 0.5 * gammarr * gamma_rr_r
  let Grrt := 0.5 * gammarr * gamma_rr_t
  let Grtt := -0.5 * gammarr * gamma_tt_r
  let Grpp := -0.5 * gammarr * gamma_pp_r
  let Gttt := 0.5 * gammatt * gamma_tt_t
  let Gtpp := -0.5 * gammatt * gamma_pp_t
  let Gtrr := -0.5 * gammatt * gamma_rr_t
  let Gtrt := 0.5 * gammatt * gamma_tt_r
  let Gprp := 0.5 * gammapp * gamma_pp_r
  let Gptp := 0.5 * gammapp * gamma_pp_t
  let Christo_r := Vr * Vr * Grrr + 2 * Grrt * Vr * Vth + Grtt * Vth * Vth + Grpp * Vph * Vph
  let Christo_th := Gtrr * Vr * Vr + 2 * Gtrt * Vr * Vth + Gttt * Vth * Vth + Gtpp * Vph * Vph
  let Christo_ph := 2 * Gprp * Vr * Vph + 2 * Gptp * Vth * Vph
  let prefact := 1 / NN * Vr * N_r + 1 / NN * Vth * N_t - 2 * Krp * Vr * Vph - 2 * Ktp * Vth * Vph
  let Vrdot := NN * (Vr * prefact + 2 * gammarr * Krp * Vph - Christo_r) - gammarr * N_r
  let Vthdot := NN * (Vth * prefact + 2 * gammatt * Ktp * Vph - Christo_th) - gammatt * N_t
  let Vphdot := NN * (Vph * prefact + 2 * gammapp * (Krp * Vr + Ktp * Vth) - Christo_ph) - Vr * betap_r - Vth * betap_t
  { energy := EE * NN * 2 * (Krp * Vr * Vph + Ktp * Vth * Vph) - EE * (Vr * N_r + Vth * N_t)
    x := ![NN * Vr, NN * Vth, NN * Vph - betap]
    v := ![Vrdot, Vthdot, Vphdot] }

end Gyoto.KerrBL
