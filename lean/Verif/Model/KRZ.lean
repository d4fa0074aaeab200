import Verif.Model.KerrBL
import Verif.Model.Orbits

/-!
# The parametrised metric of Konoplya, Rezzolla and Zhidenko (`lib/KonoplyaRezzollaZhidenko.C`)

Doubles are reals; a division by zero is excluded by the hypotheses of the theorems; so is the radius `r <= 0`, which `gmunu` refuses.
-/

namespace Gyoto.KRZ

open Gyoto.MetricAlg Gyoto.KerrBL Gyoto.Orbits

/-- The members of the object (`spin_`, `spin2_`, `spin3_`, `spin4_`, `deltashorizon_`, `deltasasymptotics_`). -/
structure Metric where
  spin : ℝ
  spin2 : ℝ
  spin3 : ℝ
  spin4 : ℝ
  dh : Fin 6 → ℝ
  da : Fin 4 → ℝ

variable (m : Metric)

/-- `Definer0` (`lib/KonoplyaRezzollaZhidenko.C:191-203`). -/
noncomputable def r0 : ℝ := 1 + √(1 - m.spin2)

/-- The asymptotic parameters (`lib/KonoplyaRezzollaZhidenko.C:214-252`); `epsilon2`, `b20`, `k20`, `w20` are zero. -/
noncomputable def epsilon0 : ℝ := 2 / r0 m - 1 + m.da 0
noncomputable def k00 : ℝ := m.spin2 / (r0 m * r0 m)
noncomputable def w00 : ℝ := (1 + m.spin2 / (r0 m * r0 m)) * m.spin / r0 m + m.da 1
noncomputable def a20 : ℝ := (1 + m.spin2 / (r0 m * r0 m)) * m.spin2 / (r0 m * r0 m)
def a00 : ℝ := m.da 2
def b00 : ℝ := m.da 3
def epsilon2 : ℝ := 0
def b20 : ℝ := 0
def k20 : ℝ := 0
def w20 : ℝ := 0

/-- The horizon parameters (`lib/KonoplyaRezzollaZhidenko.C:269-303`). -/
def a01 : ℝ := m.dh 0
noncomputable def a21 : ℝ := -m.spin4 / (r0 m * r0 m * (r0 m * r0 m)) + m.dh 5
noncomputable def k21 : ℝ := -m.spin2 / (r0 m * r0 m) - m.dh 5
noncomputable def k22 : ℝ := -m.spin2 / (r0 m * r0 m)
noncomputable def k23 : ℝ := m.spin2 / (r0 m * r0 m)
def w01 : ℝ := m.dh 1
def w21 : ℝ := m.dh 2
def b01 : ℝ := m.dh 3
def b21 : ℝ := m.dh 4

variable (r th : ℝ)

/-- `k21/(1.+k22*(1.-r0/rr)/(1.+k23*(1.-r0/rr)))`, which five of the functions compute. -/
noncomputable def frac : ℝ := k21 m / (1 + k22 m * (1 - r0 m / r) / (1 + k23 m * (1 - r0 m / r)))

/-- `N2` (`lib/KonoplyaRezzollaZhidenko.C:311-330`). -/
noncomputable def N2 : ℝ :=
  (1 - r0 m / r) * (1 - epsilon0 m * r0 m / r + (a00 m - epsilon0 m + k00 m) * r0 m ^ 2 / r ^ 2 + a01 m * r0 m ^ 3 / r ^ 3)
    + ((k20 + epsilon2) * r0 m ^ 2 / r ^ 2 + (frac m r + a20 m) * r0 m ^ 3 / r ^ 3 + a21 m * r0 m ^ 4 / r ^ 4)
      * (Real.cos th * Real.cos th)

/-- `B` (`:332-343`). -/
noncomputable def B : ℝ :=
  1 + b00 m * r0 m / r + b01 m * r0 m ^ 2 / r ^ 2 + (b20 * r0 m / r + b21 m * r0 m ^ 2 / r ^ 2) * (Real.cos th * Real.cos th)

/-- `Sigma` (`:345-350`). -/
noncomputable def Sigma : ℝ := 1 + m.spin2 * (Real.cos th * Real.cos th) / r ^ 2

/-- The numerator of `W` (`:361`). -/
noncomputable def Wnum : ℝ :=
  w00 m * r0 m ^ 2 / r ^ 2 + w01 m * r0 m ^ 3 / r ^ 3 + (w20 * r0 m ^ 2 / r ^ 2 + w21 m * r0 m ^ 3 / r ^ 3) * (Real.cos th * Real.cos th)

/-- `W` (`:352-363`). -/
noncomputable def W : ℝ := Wnum m r th / Sigma m r th

/-- The second numerator of `K2` (`:377`). -/
noncomputable def Knum : ℝ :=
  k00 m * r0 m ^ 2 / r ^ 2 + (k20 * r0 m ^ 2 / r ^ 2 + frac m r * r0 m ^ 3 / r ^ 3) * (Real.cos th * Real.cos th)

/-- `K2` (`:365-379`). -/
noncomputable def K2 : ℝ := 1 + m.spin * W m r th / r + Knum m r th / Sigma m r th

/-- `gmunu(pos, mu, nu)` (`:381-395`). -/
noncomputable def gmunu (pos : Vec) : Tensor :=
  let r := pos 1
  let th := pos 2
  let s2 := Real.sin th * Real.sin th
  circ (-(N2 m r th - W m r th * W m r th * s2) / K2 m r th) (Sigma m r th * B m r th * B m r th / N2 m r th)
    (Sigma m r th * (r * r)) (K2 m r th * (r * r) * s2) (-W m r th * r * s2)

/-- `gmunu_up(gup, pos)` and `gmunu_up(pos, mu, nu)` (`:398-413`, `:415-429`). -/
noncomputable def gmunuUp (pos : Vec) : Tensor :=
  let r := pos 1
  let th := pos 2
  let s2 := Real.sin th * Real.sin th
  circ (-K2 m r th / N2 m r th) (N2 m r th / (B m r th * B m r th * Sigma m r th)) (1 / (r * r * Sigma m r th))
    (-(W m r th * W m r th * s2 - N2 m r th) / (r * r * K2 m r th * N2 m r th * s2)) (-W m r th / (r * N2 m r th))

/-- `drN2` (`:431-454`). -/
noncomputable def drN2 : ℝ :=
  r0 m / r ^ 2 * (1 - epsilon0 m * r0 m / r + (a00 m - epsilon0 m + k00 m) * r0 m ^ 2 / r ^ 2 + a01 m * r0 m ^ 3 / r ^ 3)
    + (1 - r0 m / r) * (epsilon0 m * r0 m / r ^ 2 - 2 * (k00 m - epsilon0 m) * r0 m ^ 2 / r ^ 3 - 3 * a01 m * r0 m ^ 3 / r ^ 4)
    - (2 * (k20 + epsilon2) * r0 m ^ 2 / r ^ 3
      + k21 m * k22 m * r0 m ^ 4 / r ^ 5 / ((1 + (k23 m + k22 m) * (1 - r0 m / r)) * (1 + (k23 m + k22 m) * (1 - r0 m / r)))
      + 3 * (frac m r + a20 m) * r0 m ^ 3 / r ^ 4 + 4 * a21 m * r0 m ^ 4 / r ^ 5) * (Real.cos th * Real.cos th)

/-- `dthN2` (`:456-471`). -/
noncomputable def dthN2 : ℝ :=
  -2 * ((k20 + epsilon2) * r0 m ^ 2 / r ^ 2 + (frac m r + a20 m) * r0 m ^ 3 / r ^ 3 + a21 m * r0 m ^ 4 / r ^ 4)
    * Real.cos th * Real.sin th

/-- `drB` (`:473-484`). -/
noncomputable def drB : ℝ :=
  -b00 m * r0 m / r ^ 2 - 2 * b01 m * r0 m ^ 2 / r ^ 3
    - (b20 * r0 m / r ^ 2 + 2 * b21 m * r0 m ^ 2 / r ^ 3) * (Real.cos th * Real.cos th)

/-- `dthB` (`:486-496`). -/
noncomputable def dthB : ℝ := -2 * (b20 * r0 m / r + b21 m * r0 m ^ 2 / r ^ 2) * Real.cos th * Real.sin th

/-- `drSigma`, `dthSigma` (`:498-512`). -/
noncomputable def drSigma : ℝ := -2 * m.spin2 * (Real.cos th * Real.cos th) / r ^ 3
noncomputable def dthSigma : ℝ := -2 * m.spin2 * Real.cos th * Real.sin th / r ^ 2

/-- `drW` (`:514-526`). -/
noncomputable def drW : ℝ :=
  -drSigma m r th * Wnum m r th / (Sigma m r th * Sigma m r th)
    - (2 * w00 m * r0 m ^ 2 / r ^ 3 + 3 * w01 m * r0 m ^ 3 / r ^ 4
      + (2 * w20 * r0 m ^ 2 / r ^ 3 + 3 * w21 m * r0 m ^ 3 / r ^ 4) * (Real.cos th * Real.cos th)) / Sigma m r th

/-- `dthW` (`:528-540`). -/
noncomputable def dthW : ℝ :=
  -dthSigma m r th * Wnum m r th / (Sigma m r th * Sigma m r th)
    - 2 * (w20 * r0 m ^ 2 / r ^ 2 + w21 m * r0 m ^ 3 / r ^ 3 * Real.cos th * Real.sin th) / Sigma m r th

/-- `drK2` (`:542-558`). -/
noncomputable def drK2 : ℝ :=
  m.spin * drW m r th / r - m.spin * W m r th / r ^ 2
    - drSigma m r th * Knum m r th / (Sigma m r th * Sigma m r th)
    - (2 * k00 m * r0 m ^ 2 / r ^ 3 + 2 * k20 * r0 m ^ 2 / r ^ 3
      + k21 m * k22 m * (Real.cos th * Real.cos th) * r0 m ^ 4 / r ^ 5
        / ((1 + (k23 m + k22 m) * (1 - r0 m / r)) * (1 + (k23 m + k22 m) * (1 - r0 m / r)))
      + 3 * frac m r * (Real.cos th * Real.cos th) * r0 m ^ 3 / r ^ 4) / Sigma m r th

/-- `dthK2` (`:560-574`). -/
noncomputable def dthK2 : ℝ :=
  m.spin * dthW m r th / r - dthSigma m r th * Knum m r th / (Sigma m r th * Sigma m r th)
    - 2 * (k20 * r0 m ^ 2 / r ^ 2 + frac m r) * Real.sin th * Real.cos th * r0 m ^ 3 / r ^ 3 / Sigma m r th

/-- The formulas of `christoffel` (`:594-613`), in terms of the five functions and of their derivatives. -/
noncomputable def symbols (r s c N Nr Nh B Br Bh S Sr Sh W Wr Wh K Kr Kh : ℝ) : Fin 4 → Tensor :=
  let d001 := ((r * W ^ 2 * Kr - r * K * W * Wr + K * W ^ 2) * s ^ 2 - r * N * Kr + r * K * Nr) / (2 * r * K * N)
  let d002 := ((W ^ 2 * Kh - K * W * Wh) * s ^ 2 - N * Kh + K * Nh) / (2 * K * N)
  let d013 := -(r * W * Kr - r * K * Wr + K * W) * s ^ 2 / (2 * N)
  let d023 := -(r * W * Kh - r * K * Wh) * s ^ 2 / (2 * N)
  let d100 := ((N * W ^ 2 * Kr - 2 * K * N * W * Wr) * s ^ 2 - N ^ 2 * Kr + K * N * Nr) / (2 * B ^ 2 * K ^ 2 * S)
  let d103 := (r * N * Wr + N * W) * s ^ 2 / (2 * B ^ 2 * S)
  let d111 := (2 * N * S * Br - B * S * Nr + B * N * Sr) / (2 * B * N * S)
  let d112 := (2 * N * S * Bh - B * S * Nh + B * N * Sh) / (2 * B * N * S)
  let d122 := -(r ^ 2 * N * Sr + 2 * r * N * S) / (2 * B ^ 2 * S)
  let d133 := -(r ^ 2 * N * Kr + 2 * r * K * N) * s ^ 2 / (2 * B ^ 2 * S)
  let d200 := -(2 * K * W ^ 2 * c * s - (W ^ 2 * Kh - 2 * K * W * Wh) * s ^ 2 + N * Kh - K * Nh) / (2 * r ^ 2 * K ^ 2 * S)
  let d203 := (2 * W * c * s + s ^ 2 * Wh) / (2 * r * S)
  let d211 := -(2 * B * N * S * Bh - B ^ 2 * S * Nh + B ^ 2 * N * Sh) / (2 * r ^ 2 * N ^ 2 * S)
  let d212 := (r * Sr + 2 * S) / (2 * r * S)
  let d222 := Sh / (2 * S)
  let d233 := -(2 * K * c * s + s ^ 2 * Kh) / (2 * S)
  let d301 := -(r * N * W * Kr - r * K * W * Nr + r * K * N * Wr + K * N * W
    - (r * W ^ 3 * Kr - r * K * W ^ 2 * Wr + K * W ^ 3) * s ^ 2) / (2 * r ^ 2 * K ^ 2 * N)
  let d302 := -(2 * K * N * W * c - (W ^ 3 * Kh - K * W ^ 2 * Wh) * s ^ 3 + (N * W * Kh - K * W * Nh + K * N * Wh) * s)
    / (2 * r * K ^ 2 * N * s)
  let d313 := -((r * W ^ 2 * Kr - r * K * W * Wr + K * W ^ 2) * s ^ 2 - r * N * Kr - 2 * K * N) / (2 * r * K * N)
  let d323 := -((W ^ 2 * Kh - K * W * Wh) * s ^ 3 - 2 * K * N * c - N * s * Kh) / (2 * K * N * s)
  ![![![0, d001, d002, 0], ![d001, 0, 0, d013], ![d002, 0, 0, d023], ![0, d013, d023, 0]],
    ![![d100, 0, 0, d103], ![0, d111, d112, 0], ![0, d112, d122, 0], ![d103, 0, 0, d133]],
    ![![d200, 0, 0, d203], ![0, d211, d212, 0], ![0, d212, d222, 0], ![d203, 0, 0, d233]],
    ![![0, d301, d302, 0], ![d301, 0, 0, d313], ![d302, 0, 0, d323], ![0, d313, d323, 0]]]

/-- `christoffel(dst, pos)` (`:576-664`; `compareKerr` is 0). -/
noncomputable def christoffel (pos : Vec) : Fin 4 → Tensor :=
  let r := pos 1
  let th := pos 2
  symbols r (Real.sin th) (Real.cos th) (N2 m r th) (drN2 m r th) (dthN2 m r th) (B m r th) (drB m r th) (dthB m r th)
    (Sigma m r th) (drSigma m r th) (dthSigma m r th) (W m r th) (drW m r th) (dthW m r th) (K2 m r th) (drK2 m r th) (dthK2 m r th)

/-- The angular velocity in terms of the specific angular momentum and of the metric (`:687`, `:702`). -/
noncomputable def omegaOf (gtt gtp gpp ell : ℝ) : ℝ := -(gtp + ell * gtt) / (gpp + ell * gtp)

/-- `drguptt`, `drguptp`, `drguppp` (`:678-680`). -/
noncomputable def drguptt : ℝ := -(drK2 m r th * N2 m r th - K2 m r th * drN2 m r th) / (N2 m r th * N2 m r th)
noncomputable def drguptp : ℝ :=
  -(drW m r th * r * N2 m r th - W m r th * (N2 m r th + r * drN2 m r th)) / (r * r * (N2 m r th * N2 m r th))
noncomputable def drguppp : ℝ :=
  let s2 := Real.sin th * Real.sin th
  let N := N2 m r th
  let Nr := drN2 m r th
  let w := W m r th
  let wr := drW m r th
  let k := K2 m r th
  let kr := drK2 m r th
  (-(2 * (N * N) * k + r * (N * N) * kr - (2 * (w * w) * k * N + r * (w * w) * (kr * N + k * Nr) - 2 * r * k * N * w * wr) * s2))
    / (r * r * r * (k * k) * (N * N) * s2)

/-- `ell1` and `ell2` (`:681-682`). -/
noncomputable def ell1 : ℝ :=
  (drguptp m r th + √(drguptp m r th * drguptp m r th - drguptt m r th * drguppp m r th)) / drguppp m r th
noncomputable def ell2 : ℝ :=
  (drguptp m r th - √(drguptp m r th * drguptp m r th - drguptt m r th * drguppp m r th)) / drguppp m r th

/-- `KeplerianAngularVelocity` (`:693-715`), also computed at `:683-687`. -/
noncomputable def omega (ell : ℝ) : ℝ :=
  let s2 := Real.sin th * Real.sin th
  omegaOf (-(N2 m r th - W m r th * W m r th * s2) / K2 m r th) (-W m r th * r * s2) (K2 m r th * (r * r) * s2) ell

/-- `KeplerianSpecificAngularMomentum` (`:672-691`). -/
noncomputable def ellOf : ℝ := if omega m r th (ell1 m r th) > 0 then ell1 m r th else ell2 m r th

/-- `circularVelocity(coor, vel, dir)` when `keplerian_` is false (`:743-771`). -/
noncomputable def circularVelocity (coor : Vec) (_dir : ℝ) : Vec :=
  let th := coor 2
  let rr := coor 1 * Real.sin th
  let coord : Vec := ![coor 0, rr, Real.pi * 0.5, coor 3]
  finishVel (gmunu m coord) (omega m rr th (ellOf m rr th))

/-! ### Setting the parameters -/

/-- A new object (`:132-147`). -/
def new : Metric := ⟨0, 0, 0, 0, fun _ => 0, fun _ => 0⟩

/-- The copy constructor (`:149-164`). -/
def copy : Metric := ⟨m.spin, m.spin2, m.spin4, m.spin4, m.dh, m.da⟩

/-- `spin(val)` (`:170-176`). -/
def setSpin (a : ℝ) : Metric := { m with spin := a, spin2 := a * a, spin3 := a * a * a, spin4 := a * a * (a * a) }

open Classical in
/-- The test of one horizon parameter (`:73-99`): is the value refused? -/
noncomputable def refused (i : Fin 6) (v : ℝ) : Bool :=
  let r02 := r0 m * r0 m
  match i with
  | 0 => decide (v < (4 * r0 m - 3 * r02 - m.spin2) / r02)
  | 1 | 2 =>
    if m.spin > 0 then decide (v < -4 / m.spin3 * (1 - √(1 - m.spin2)))
    else if m.spin < 0 then decide (v > -4 / m.spin3 * (1 - √(1 - m.spin2)))
    else true
  | 3 | 4 => decide (v < -1)
  | 5 => decide (v > r02 / (4 - m.spin2))

/-- The loop that stores and tests (`:71-100`), from index `i` on; the boolean says that an error is thrown. -/
noncomputable def storeLoop : ℕ → List ℝ → Metric → Metric × Bool
  | _, [], m => (m, false)
  | i, v :: vs, m =>
    if h : i < 6 then
      let m' := { m with dh := Function.update m.dh ⟨i, h⟩ v }
      if refused m' ⟨i, h⟩ v then (m', true) else storeLoop (i + 1) vs m'
    else (m, true)

open Classical in
/-- `deltashorizon(v)` (`:59-102`). -/
noncomputable def setHorizon (v : List ℝ) : Metric × Bool :=
  if m.spin = 0 then (m, true)
  else if v.length > 6 then (m, true)
  else if v.countP (fun x => decide (x ≠ 0)) ≠ 0 ∧ v.countP (fun x => decide (x ≠ 0)) ≠ 1 then (m, true)
  else
    let (m', t) := storeLoop 0 v m
    if t then (m', true) else ({ m' with dh := fun i => if i.val < v.length then m'.dh i else 0 }, false)

open Classical in
/-- `deltasasymptotics(v)` (`:109-123`). -/
noncomputable def setAsymptotics (v : List ℝ) : Metric × Bool :=
  if v.length > 4 then (m, true)
  else if v.countP (fun x => decide (x ≠ 0)) ≠ 0 ∧ v.countP (fun x => decide (x ≠ 0)) ≠ 1 then (m, true)
  else ({ m with da := fun i => v.getD i 0 }, false)

/-- `deltashorizon()` (`:103-107`). -/
def getHorizon : List ℝ := List.ofFn m.dh

end Gyoto.KRZ
