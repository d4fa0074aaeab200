import Mathlib.Data.Real.Basic

/-!
# Choice of the integrator and integration settings of a `Worldline`

`Worldline::integrator`, the integration states `IntegState::Legacy` and `IntegState::Boost`
(`lib/WorldlineIntegState.C`), their copies, and the values they cache from the worldline.

Simplifications.
* Metrics are identified by numbers; a cloned metric has a number of its own.
* Only the settings read by the integration states are represented.  `hasPoints` is
  `imin_ <= imax_`.
* Errors thrown by `setParticleProperties` during `reInit` are left out.
-/

namespace Gyoto.Integrator

/-- `IntegState::Boost::Kind`, `include/GyotoWorldline.h` lines 1075–1078. -/
inductive BoostKind
  | cashKarp54
  | fehlberg78
  | dopri5
  | cashKarp54Classic
  deriving DecidableEq, Repr

inductive Kind
  | legacy
  | boost (k : BoostKind)
  deriving DecidableEq, Repr

/-- Constructor `Boost(line, type)`, `lib/WorldlineIntegState.C` lines 185–193: `none` is the error
"unknown integrator kind". -/
def parseBoost (type : String) : Option BoostKind :=
  if type = "runge_kutta_cash_karp54" then some .cashKarp54
  else if type = "runge_kutta_fehlberg78" then some .fehlberg78
  else if type = "runge_kutta_dopri5" then some .dopri5
  else if type = "runge_kutta_cash_karp54_classic" then some .cashKarp54Classic
  else none

/-- `Worldline::integrator(type)`, `lib/Worldline.C` lines 374–381, with
`GYOTO_HAVE_BOOST_INTEGRATORS`. -/
def parse (type : String) : Option Kind :=
  if type = "Legacy" then some .legacy else (parseBoost type).map .boost

/-- `Legacy::kind()` (line 178) and `Boost::kind()` (lines 422–429), `lib/WorldlineIntegState.C`. -/
def Kind.name : Kind → String
  | .legacy => "Legacy"
  | .boost .cashKarp54 => "runge_kutta_cash_karp54"
  | .boost .fehlberg78 => "runge_kutta_fehlberg78"
  | .boost .dopri5 => "runge_kutta_dopri5"
  | .boost .cashKarp54Classic => "runge_kutta_cash_karp5"

/-- Settings of a `Worldline` that its integration state reads. -/
structure Settings where
  metric : Option ℕ
  hasPoints : Bool
  adaptive : Bool
  parallel : Bool
  checkBasis : Bool
  absTol : ℝ
  relTol : ℝ
  normTol : ℝ
  deltaMin : ℝ
  deltaMax : ℝ
  overR : ℝ

/-- Tolerances given to the stepper by `setup_stepper`. -/
structure Tolerances where
  absTol : ℝ
  relTol : ℝ
  normTol : ℝ

/-- `IntegState::Generic` with the members of `Boost`: what was cached by `init`.  `system` is the
equation of motion captured in `system_`: the metric and whether it is the 3+1 one.  `stepper` is
`try_step_`/`do_step_`: the tolerances; `none` before `setup_stepper`. -/
structure State where
  kind : Kind
  integ31 : Bool
  gg : Option ℕ
  adaptive : Bool
  parallel : Bool
  checkBasis : Bool
  system : Option (ℕ × Bool)
  stepper : Option Tolerances

/-- A new state: `Generic::Generic`, lines 59–60 (the cached booleans are not initialised in the
code; no step reads them before `init`, which `gg_` being null triggers). -/
def State.new (k : Kind) : State :=
  { kind := k, integ31 := false, gg := none, adaptive := false, parallel := false,
    checkBasis := false, system := none, stepper := none }

/-- `Generic::init()`, lines 61–69, and `Boost::init()`, lines 199–233. -/
def State.init (s : State) (w : Settings) : State :=
  let s := { s with adaptive := w.adaptive, parallel := w.parallel,
                    checkBasis := w.parallel && w.checkBasis, gg := w.metric }
  match s.kind with
  | .legacy => s
  | .boost _ =>
    let s := { s with system := w.metric.map fun m => (m, s.integ31) }
    if w.hasPoints = false ∨ w.metric = none then s
    else { s with stepper := some ⟨w.absTol, w.relTol, w.normTol⟩ }

/-- `Legacy::clone` (lines 120–122) and `Boost::clone` (lines 235–237): a new state of the same
kind. -/
def State.clone (s : State) : State := State.new s.kind

structure Line where
  set : Settings
  state : State

/-- `Worldline::Worldline()`, `lib/Worldline.C` lines 40–63. -/
noncomputable def Line.new : Line where
  set := { metric := none, hasPoints := false, adaptive := true, parallel := false,
           checkBasis := true, absTol := 1e-6, relTol := 1e-6, normTol := 1e-3, deltaMin := 0,
           deltaMax := 1, overR := 1 }
  state := State.new (.boost .fehlberg78)

/-- What can be done with a worldline (settings only). -/
inductive Op
  | integrator (type : String)
  | metric (m : Option ℕ)
  | initCoord
  | adaptive (b : Bool)
  | integ31 (b : Bool)
  | parallel (b : Bool)
  | checkBasis (b : Bool)
  | absTol (t : ℝ)
  | relTol (t : ℝ)
  | normTol (t : ℝ)
  | deltaMin (t : ℝ)
  | deltaMax (t : ℝ)
  | overR (t : ℝ)
  /-- replace the worldline by a copy of it; `m` is the clone of the metric -/
  | copy (m : ℕ)
  /-- an integration, which calls `state_->init(this, …)` -/
  | fill

/-- `state_->init()`. -/
def Line.reinit (l : Line) : Line := { l with state := l.state.init l.set }

/-- The operations: `lib/Worldline.C` lines 352–365 (metric, reInit), 374–381 (integrator), 411–448
(setInitCoord, reInit), 1452–1502 (the other settings), 65–98 (copy), 623 (integration). -/
def step (l : Line) : Op → Line
  | .integrator type =>
    match parse type with
    | some k => { l with state := State.new k }
    | none => l
  | .metric m => Line.reinit { l with set := { l.set with metric := m } }
  | .initCoord => Line.reinit { l with set := { l.set with hasPoints := true } }
  | .adaptive b => Line.reinit { l with set := { l.set with adaptive := b } }
  | .integ31 b => Line.reinit { l with state := { l.state with integ31 := b } }
  | .parallel b =>
    let l' : Line := { l with set := { l.set with parallel := b } }
    if b && !l.set.parallel then l'.reinit else l'
  | .checkBasis b => Line.reinit { l with set := { l.set with checkBasis := b } }
  | .absTol t => Line.reinit { l with set := { l.set with absTol := t } }
  | .relTol t => Line.reinit { l with set := { l.set with relTol := t } }
  | .normTol t => { l with set := { l.set with normTol := t } }
  | .deltaMin t => Line.reinit { l with set := { l.set with deltaMin := t } }
  | .deltaMax t => { l with set := { l.set with deltaMax := t } }
  | .overR t => { l with set := { l.set with overR := t } }
  | .copy m => { set := { l.set with metric := l.set.metric.map fun _ => m },
                 state := l.state.clone }
  | .fill => l.reinit

/-- What an adaptive step (`nextStep`, lines 247–365, called by `xFill` right after
`state_->init(this, …)`, `lib/Worldline.C` lines 623–633) uses. -/
structure Used where
  adaptive : Bool
  parallel : Bool
  checkBasis : Bool
  system : Option (ℕ × Bool)
  stepper : Option Tolerances
  converts31 : Bool

def Line.nextStep (l : Line) : Used :=
  let s := l.state.init l.set
  ⟨s.adaptive, s.parallel, s.checkBasis, s.system, s.stepper, s.integ31⟩

/-- What a step to an intermediate date (`doStep`, lines 366–420, called by `getCoord`) uses: the
cache is refreshed only if `gg_` is null. -/
def Line.doStep (l : Line) : Option (ℕ × Bool) × Bool × Bool :=
  let s := if l.state.gg = none then l.state.init l.set else l.state
  (s.system, s.integ31, s.stepper.isSome)

end Gyoto.Integrator
