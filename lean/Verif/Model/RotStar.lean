import Verif.Model.Lorene

/-!
# The metric of a rotating star (`lib/RotStar3_1.C`)

The four fields that Lorene computes are arbitrary functions of the radius and the angles, each with what `dsdr()` and `dsdt()` give. Doubles are reals; divisions
by zero are excluded by the hypotheses of the theorems, or are outcomes of their own where the code tests for them.
-/

namespace Gyoto.RotStar

open Gyoto.MetricAlg

/-- `get_nn()`, `get_nphi()`, `get_a_car()` and `get_b_car()` of the star. -/
structure Star where
  nn : Lorene.Scal
  nphi : Lorene.Scal
  a2 : Lorene.Scal
  b2 : Lorene.Scal

/-- The numbers read at one place (`lib/RotStar3_1.C:148-166`, `:216-241`, `:686-709`): radius, sine and cosine of the colatitude, and the fields with their derivatives. -/
structure Pt where
  r : ℝ
  S : ℝ
  C : ℝ
  N : ℝ
  Nr : ℝ
  Nt : ℝ
  w : ℝ
  wr : ℝ
  wt : ℝ
  A : ℝ
  Ar : ℝ
  At : ℝ
  B : ℝ
  Br : ℝ
  Bt : ℝ

noncomputable def Star.at (s : Star) (p : Vec) : Pt :=
  let r := p 1
  let th := p 2
  let ph := p 3
  ⟨r, Real.sin th, Real.cos th, s.nn.val r th ph, s.nn.dr r th ph, s.nn.dt r th ph, s.nphi.val r th ph, s.nphi.dr r th ph, s.nphi.dt r th ph,
    s.a2.val r th ph, s.a2.dr r th ph, s.a2.dt r th ph, s.b2.val r th ph, s.b2.dr r th ph, s.b2.dt r th ph⟩

namespace Pt

variable (q : Pt)

/-- `gmunu` (`lib/RotStar3_1.C:641-671`). -/
def tt : ℝ := q.B * (q.r * q.r) * (q.S * q.S) * q.w * q.w - q.N * q.N
def tp : ℝ := -q.w * q.B * (q.r * q.r) * (q.S * q.S)
def pp : ℝ := q.B * (q.r * q.r) * (q.S * q.S)
def gmunu : Tensor := Matrix.of ![![q.tt, 0, 0, q.tp], ![0, q.A, 0, 0], ![0, 0, q.A * (q.r * q.r), 0], ![q.tp, 0, 0, q.pp]]

/-- The inverse metric (`lib/RotStar3_1.C:173`, `:711`). -/
noncomputable def utt : ℝ := -1 / (q.N * q.N)
noncomputable def urr : ℝ := 1 / q.A
noncomputable def uhh : ℝ := 1 / (q.A * (q.r * q.r))
noncomputable def upp : ℝ := 1 / (q.B * (q.r * q.r) * (q.S * q.S)) - q.w * q.w / (q.N * q.N)
noncomputable def utp : ℝ := -q.w / (q.N * q.N)

/-- The derivatives of the metric (`lib/RotStar3_1.C:174-178`, `:712-716`). -/
def ttr : ℝ := -2 * q.N * q.Nr + q.Br * (q.w * q.w) * (q.r * q.r) * (q.S * q.S) + 2 * q.w * q.wr * q.B * (q.r * q.r) * (q.S * q.S) + 2 * q.r * q.B * (q.w * q.w) * (q.S * q.S)
def ttt : ℝ := -2 * q.N * q.Nt + q.Bt * (q.w * q.w) * (q.r * q.r) * (q.S * q.S) + 2 * q.w * q.wt * q.B * (q.r * q.r) * (q.S * q.S) + 2 * q.C * q.S * (q.r * q.r) * q.B * (q.w * q.w)
def hhr : ℝ := q.r * q.r * q.Ar + 2 * q.r * q.A
def hht : ℝ := q.r * q.r * q.At
def ppr : ℝ := q.S * q.S * (q.r * q.r * q.Br + 2 * q.r * q.B)
def ppt : ℝ := q.r * q.r * (q.S * q.S * q.Bt + 2 * q.C * q.S * q.B)
def tpr : ℝ := -q.wr * q.B * (q.r * q.r) * (q.S * q.S) - q.w * q.Br * (q.r * q.r) * (q.S * q.S) - 2 * q.r * q.w * q.B * (q.S * q.S)
def tpt : ℝ := -q.wt * q.B * (q.r * q.r) * (q.S * q.S) - q.w * q.Bt * (q.r * q.r) * (q.S * q.S) - 2 * q.C * q.S * q.w * q.B * (q.r * q.r)

/-- `christoffel(coord, alpha, mu, nu)` (`lib/RotStar3_1.C:721-763`). -/
noncomputable def christoffel (α μ ν : Fin 4) : ℝ :=
  match α, μ, ν with
  | 0, 0, 1 | 0, 1, 0 => 1 / 2 * q.utt * q.ttr + 1 / 2 * q.utp * q.tpr
  | 0, 0, 2 | 0, 2, 0 => 1 / 2 * q.utt * q.ttt + 1 / 2 * q.utp * q.tpt
  | 0, 3, 1 | 0, 1, 3 => 1 / 2 * q.utt * q.tpr + 1 / 2 * q.utp * q.ppr
  | 0, 3, 2 | 0, 2, 3 => 1 / 2 * q.utt * q.tpt + 1 / 2 * q.utp * q.ppt
  | 3, 3, 1 | 3, 1, 3 => 1 / 2 * q.upp * q.ppr + 1 / 2 * q.utp * q.tpr
  | 3, 3, 2 | 3, 2, 3 => 1 / 2 * q.upp * q.ppt + 1 / 2 * q.utp * q.tpt
  | 3, 0, 1 | 3, 1, 0 => 1 / 2 * q.upp * q.tpr + 1 / 2 * q.utp * q.ttr
  | 3, 0, 2 | 3, 2, 0 => 1 / 2 * q.upp * q.tpt + 1 / 2 * q.utp * q.ttt
  | 1, 2, 2 => -1 / 2 * q.urr * q.hhr
  | 1, 3, 3 => -1 / 2 * q.urr * q.ppr
  | 1, 0, 0 => -1 / 2 * q.urr * q.ttr
  | 1, 1, 1 => 1 / 2 * q.urr * q.Ar
  | 1, 1, 2 | 1, 2, 1 => 1 / 2 * q.urr * q.At
  | 1, 0, 3 | 1, 3, 0 => -1 / 2 * q.urr * q.tpr
  | 2, 0, 0 => -1 / 2 * q.uhh * q.ttt
  | 2, 1, 1 => -1 / 2 * q.uhh * q.At
  | 2, 3, 3 => -1 / 2 * q.uhh * q.ppt
  | 2, 2, 2 => 1 / 2 * q.uhh * q.hht
  | 2, 2, 1 | 2, 1, 2 => 1 / 2 * q.uhh * q.hhr
  | 2, 0, 3 | 2, 3, 0 => -1 / 2 * q.uhh * q.tpt
  | _, _, _ => 0

/-- `diff` of eight numbers (`lib/RotStar3_1.C:180-192`): the last four, of the velocity `u`. -/
noncomputable def diff4 (u : Vec) : Vec :=
  let ch001 := 1 / 2 * q.utt * q.ttr + 1 / 2 * q.utp * q.tpr
  let ch002 := 1 / 2 * q.utt * q.ttt + 1 / 2 * q.utp * q.tpt
  let ch031 := 1 / 2 * q.utt * q.tpr + 1 / 2 * q.utp * q.ppr
  let ch032 := 1 / 2 * q.utt * q.tpt + 1 / 2 * q.utp * q.ppt
  let ch331 := 1 / 2 * q.upp * q.ppr + 1 / 2 * q.utp * q.tpr
  let ch332 := 1 / 2 * q.upp * q.ppt + 1 / 2 * q.utp * q.tpt
  let ch301 := 1 / 2 * q.upp * q.tpr + 1 / 2 * q.utp * q.ttr
  let ch302 := 1 / 2 * q.upp * q.tpt + 1 / 2 * q.utp * q.ttt
  let ch122 := -1 / 2 * q.urr * q.hhr
  let ch133 := -1 / 2 * q.urr * q.ppr
  let ch100 := -1 / 2 * q.urr * q.ttr
  let ch111 := 1 / 2 * q.urr * q.Ar
  let ch112 := 1 / 2 * q.urr * q.At
  let ch103 := -1 / 2 * q.urr * q.tpr
  let ch200 := -1 / 2 * q.uhh * q.ttt
  let ch211 := -1 / 2 * q.uhh * q.At
  let ch233 := -1 / 2 * q.uhh * q.ppt
  let ch222 := 1 / 2 * q.uhh * q.hht
  let ch221 := 1 / 2 * q.uhh * q.hhr
  let ch203 := -1 / 2 * q.uhh * q.tpt
  ![-2 * ch001 * u 0 * u 1 - 2 * ch002 * u 0 * u 2 - 2 * ch031 * u 3 * u 1 - 2 * ch032 * u 3 * u 2,
    -ch111 * u 1 * u 1 - ch122 * u 2 * u 2 - ch133 * u 3 * u 3 - ch100 * u 0 * u 0 - 2 * ch112 * u 1 * u 2 - 2 * ch103 * u 0 * u 3,
    -ch211 * u 1 * u 1 - ch222 * u 2 * u 2 - ch233 * u 3 * u 3 - ch200 * u 0 * u 0 - 2 * ch221 * u 1 * u 2 - 2 * ch203 * u 0 * u 3,
    -2 * ch301 * u 0 * u 1 - 2 * ch302 * u 0 * u 2 - 2 * ch331 * u 3 * u 1 - 2 * ch332 * u 3 * u 2]

/-- `diff` of six numbers (`lib/RotStar3_1.C:247-306`): the rates of the position and of `V`, where the lapse is not zero. -/
noncomputable def diff31 (V : Fin 3 → ℝ) : (Fin 3 → ℝ) × (Fin 3 → ℝ) :=
  let r2 := q.r * q.r
  let sinth2 := q.S * q.S
  let grr := 1 / q.A
  let gtt := 1 / (q.A * r2)
  let gpp := 1 / (q.B * r2 * sinth2)
  let g_rrr := q.Ar
  let g_rrt := q.At
  let g_ttr := r2 * q.Ar + 2 * q.r * q.A
  let g_ttt := r2 * q.At
  let g_ppr := r2 * sinth2 * q.Br + 2 * q.r * q.B * sinth2
  let g_ppt := r2 * sinth2 * q.Bt + 2 * q.S * q.C * r2 * q.B
  let Krp := -1 / (2 * q.N) * q.B * r2 * sinth2 * q.wr
  let Ktp := -1 / (2 * q.N) * q.B * r2 * sinth2 * q.wt
  let Grrr := 1 / 2 * grr * g_rrr
  let Grrt := 1 / 2 * grr * g_rrt
  let Gttr := 1 / 2 * gtt * g_ttr
  let Gttt := 1 / 2 * gtt * g_ttt
  let Gppr := 1 / 2 * gpp * g_ppr
  let Gptp := 1 / 2 * gpp * g_ppt
  let Grtt := -1 / 2 * grr * g_ttr
  let Grpp := -1 / 2 * grr * g_ppr
  let Gtrr := -1 / 2 * gtt * g_rrt
  let Gtpp := -1 / 2 * gtt * g_ppt
  let Vr := V 0
  let Vth := V 1
  let Vph := V 2
  let christo_r := Vr * Vr * Grrr + 2 * Grrt * Vr * Vth + Grtt * Vth * Vth + Grpp * Vph * Vph
  let christo_th := Gtrr * Vr * Vr + 2 * Gttr * Vr * Vth + Gttt * Vth * Vth + Gtpp * Vph * Vph
  let christo_ph := 2 * Gppr * Vr * Vph + 2 * Gptp * Vth * Vph
  let prefact := 1 / q.N * Vr * q.Nr + 1 / q.N * Vth * q.Nt - 2 * Krp * Vr * Vph - 2 * Ktp * Vth * Vph
  (![q.N * Vr, q.N * Vth, q.N * Vph + q.w],
    ![q.N * (Vr * prefact + 2 * grr * Krp * Vph - christo_r) - grr * q.Nr,
      q.N * (Vth * prefact + 2 * gtt * Ktp * Vph - christo_th) - gtt * q.Nt,
      q.N * (Vph * prefact + 2 * gpp * (Krp * Vr + Ktp * Vth) - christo_ph) + Vr * q.wr + Vth * q.wt])

/-- The velocity divided by the lapse, as in the 3+1 integration (`lib/RotStar3_1.C:509-517`). -/
noncomputable def to31 (u : Vec) : Fin 3 → ℝ := ![1 / q.N * (u 1 / u 0), 1 / q.N * (u 2 / u 0), 1 / q.N * (u 3 / u 0 - q.w)]

/-- The constants of motion (`lib/RotStar3_1.C:519-522`). -/
def cst (u : Vec) : ℝ × ℝ := (q.tt * u 0 + q.tp * u 3, q.pp * u 3 + q.tp * u 0)

/-- `Normalize4v` (`lib/RotStar3_1.C:553-638`), `consnorm` being zero: the rate of the date and the new `V`; `none` for an error or a division by zero. -/
noncomputable def normalize (cst : ℝ × ℝ) (V : Fin 3 → ℝ) : Option (ℝ × (Fin 3 → ℝ)) :=
  if q.N = 0 then none
  else if q.tt ≠ 0 ∧ q.tt * q.pp ≠ q.tp * q.tp then
    let phdot := (cst.2 - q.tp / q.tt * cst.1) / (q.pp - q.tp * q.tp / q.tt)
    let tdot := (cst.1 - q.tp * phdot) / q.tt
    if tdot = 0 then none
    else
      let phprime := phdot / tdot
      some (tdot, ![1 / q.N * (q.N * V 0), 1 / q.N * (q.N * V 1), 1 / q.N * (phprime - q.w)])
  else none

/-- Back to a four-velocity (`lib/RotStar3_1.C:543-547`). -/
def from31 (tdot : ℝ) (V : Fin 3 → ℝ) : Vec := ![tdot, q.N * V 0 * tdot, q.N * V 1 * tdot, (q.N * V 2 + q.w) * tdot]

end Pt

/-- The settings of the steps. -/
structure Steps where
  deltaMin : ℝ
  deltaMax : ℝ
  overR : ℝ

/-- `Generic::deltaMax(pos, h1max)` in spherical coordinates (`lib/Metric.C:164-176`): `pos1` is `pos[1]`. -/
noncomputable def Steps.limit (s : Steps) (pos1 h1max : ℝ) : ℝ :=
  let h := |pos1| * s.overR
  let h1max := if h1max > h then h else h1max
  let h1max := if h1max > s.deltaMax then s.deltaMax else h1max
  if h1max < s.deltaMin then s.deltaMin else h1max

/-- The largest next step of the 3+1 integration for a request `h1max` (`lib/RotStar3_1.C:380`, `:538`): it is given `delta_max_`, and an array that begins with the radius. -/
noncomputable def Steps.limit31 (s : Steps) (coor : Fin 6 → ℝ) (_h1max : ℝ) : ℝ := s.limit (coor 1) s.deltaMax

/-- The next step (`lib/RotStar3_1.C:468-471`), `h` being the one that the error suggests. -/
noncomputable def Steps.next (s : Steps) (coor : Fin 6 → ℝ) (h1max h : ℝ) : ℝ :=
  let sig : ℝ := if h < 0 then -1 else 1
  let h1 := if |h| < s.deltaMin then sig * s.deltaMin else h
  if |h1| > s.limit31 coor h1max then sig * s.limit31 coor h1max else h1

end Gyoto.RotStar
