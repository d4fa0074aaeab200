import Mathlib.Data.Real.Basic
import Mathlib.Data.Fin.VecNotation
import Mathlib.Analysis.Real.Sqrt
import Mathlib.Data.List.Basic

/-!
# Integration steps: configured limits and the adaptive step

`Worldline::deltaMax` and `Metric::Generic::deltaMax` compute the largest step allowed at a
position; `IntegState::Boost::nextStep` searches for a step within the limits.

Simplifications.
* Doubles are real numbers.
* The steppers of `boost::numeric::odeint` are not part of the repository: `Stepper` is any pair of
  functions, and `Stepper.Odeint` states what `controlled_runge_kutta::try_step` promises
  (a refused step leaves state and time alone and proposes a step of the same sign, smaller by a
  factor of at most 9/10; an accepted step advances time by the step).
* A loop is a function with fuel; `none`: still running.
-/

namespace Gyoto.Step

/-- `delta_min_`, `delta_max_` and `delta_max_over_r_` of a `Worldline` or a `Metric::Generic`. -/
structure Limits where
  deltaMin : ℝ
  deltaMax : ℝ
  overR : ℝ

/-- The distance used in `deltaMax`: lines 166–170 of `lib/Metric.C`, lines 1508–1513 of
`lib/Worldline.C`. -/
noncomputable def distance (cartesian : Bool) (pos : Fin 4 → ℝ) : ℝ :=
  let h := |pos 1|
  if cartesian then
    let h := if |pos 2| > h then |pos 2| else h
    if |pos 3| > h then |pos 3| else h
  else h

/-- `Metric::Generic::deltaMax(pos, h1max)`, `lib/Metric.C` lines 164–176, and
`Worldline::deltaMax(pos, h1max)`, `lib/Worldline.C` lines 1506–1519. -/
noncomputable def deltaMax (L : Limits) (cartesian : Bool) (pos : Fin 4 → ℝ) (h1max : ℝ) : ℝ :=
  let atR := distance cartesian pos * L.overR
  let h := if h1max > atR then atR else h1max
  let h := if h > L.deltaMax then L.deltaMax else h
  if h < L.deltaMin then L.deltaMin else h

/-- `Astrobj::Generic::deltaMax(coord)`, `lib/Astrobj.C` lines 1886–1906: `rMax` and
`deltamaxinsidermax_` of the object. -/
noncomputable def objectDeltaMax (cartesian : Bool) (rMax inside : ℝ) (pos : Fin 4 → ℝ) : ℝ :=
  let rr := if cartesian then √(pos 1 * pos 1 + pos 2 * pos 2 + pos 3 * pos 3) else pos 1
  if rr < rMax then inside else rr * 0.5

/-- `Astrobj::Complex::deltaMax(coord)`, `lib/ComplexAstrobj.C` lines 130–135, from the values of
the parts; `huge` is `DBL_MAX`. -/
noncomputable def complexDeltaMax (huge : ℝ) (parts : List ℝ) : ℝ :=
  parts.foldl (fun h1max tmp => if h1max > tmp then tmp else h1max) huge

/-- `try_step_` and `do_step_` of `IntegState::Boost`: state, time and step.  `try_step_` returns
whether the step was accepted, and the new state, time and proposed step. -/
structure Stepper (σ : Type) where
  tryStep : σ → ℝ → ℝ → Bool × σ × ℝ × ℝ
  doStep : σ → ℝ → σ

/-- What odeint's controlled Runge-Kutta steppers promise for a non-zero step. -/
structure Stepper.Odeint {σ : Type} (S : Stepper σ) : Prop where
  refused : ∀ x t h x' t' h', S.tryStep x t h = (false, x', t', h') →
    x' = x ∧ t' = t ∧ ∃ q : ℝ, 0 < q ∧ q ≤ 9 / 10 ∧ h' = q * h
  accepted : ∀ x t h x' t' h', h ≠ 0 → S.tryStep x t h = (true, x', t', h') →
    t' = t + h ∧ 0 < h * h'

/-- First adjustment of the step: `lib/WorldlineIntegState.C` lines 276–282. -/
noncomputable def clampStep (delta h1max deltaMin : ℝ) : ℝ :=
  let sgn : ℝ := if delta > 0 then 1 else -1
  let h1 := if |delta| > h1max then sgn * h1max else delta
  if |h1| < deltaMin then sgn * deltaMin else h1

/-- The `do … while` loop of `Boost::nextStep`, `lib/WorldlineIntegState.C` lines 286–304.  `fix` is
the repair of the transported basis made after each attempt. -/
noncomputable def attempts {σ : Type} (S : Stepper σ) (fix : σ → σ) (deltaMin h1max : ℝ) :
    ℕ → σ → ℝ → ℝ → Option (Bool × σ × ℝ × ℝ)
  | 0, _, _, _ => none
  | n + 1, xx, dt, h1 =>
    let r := S.tryStep xx dt h1
    let xx := fix r.2.1
    let dt := r.2.2.1
    let h1 := r.2.2.2
    if |h1| ≥ deltaMin ∧ r.1 = false ∧ |h1| < h1max then
      attempts S fix deltaMin h1max n xx dt h1
    else some (r.1, xx, dt, h1)

/-- Why `nextStep` throws. -/
inductive Fail
  | changedSign
  | tooLarge
  deriving DecidableEq, Repr

/-- Result of the adaptive part of `nextStep`: the state, the step made and the new `delta_`. -/
structure Done (σ : Type) where
  state : σ
  dt : ℝ
  delta : ℝ
  accepted : Bool

/-- After the loop: `lib/WorldlineIntegState.C` lines 312–325. -/
noncomputable def conclude {σ : Type} (S : Stepper σ) (sgn deltaMin h1max : ℝ)
    (r : Bool × σ × ℝ × ℝ) : Except Fail (Done σ) :=
  if sgn * r.2.2.2 < 0 then .error .changedSign
  else if |r.2.2.1| > h1max then .error .tooLarge
  else if r.1 = false then
    let dt := sgn * deltaMin
    .ok ⟨S.doStep r.2.1 dt, dt, r.2.2.2, false⟩
  else .ok ⟨r.2.1, r.2.2.1, r.2.2.2, true⟩

/-- The adaptive step of `Boost::nextStep`, `lib/WorldlineIntegState.C` lines 274–325: `delta` is the
member `delta_`, `h1max` the argument. -/
noncomputable def adaptive {σ : Type} (S : Stepper σ) (fix : σ → σ) (L : Limits) (cartesian : Bool)
    (pos : Fin 4 → ℝ) (delta h1max : ℝ) (n : ℕ) (xx : σ) : Option (Except Fail (Done σ)) :=
  let sgn : ℝ := if delta > 0 then 1 else -1
  let h1max := deltaMax L cartesian pos h1max
  let h1 := clampStep delta h1max L.deltaMin
  (attempts S fix L.deltaMin h1max n xx 0 h1).map (conclude S sgn L.deltaMin h1max)

end Gyoto.Step
