import Mathlib.Data.Real.Basic

/-!
# The settings and the copy of `NumericalMetricLorene`

The tables read by `setMetricSource` are known by the directory and by the four flags that govern the reading
(`lib/NumericalMetricLorene.C:194-199`, `:240-285`); what is in the files is not modelled, and neither are the radii that they contain.
-/

namespace Gyoto.LoreneSettings

/-- The members of `Metric::Generic` (`include/GyotoMetric.h:175-205`) that a user sets. -/
@[ext] structure Base where
  mass : ℝ
  deltaMin : ℝ
  deltaMax : ℝ
  deltaMaxOverR : ℝ
  keplerian : Bool

/-- `Generic(coordkind, name)` (`lib/Metric.C:86-101`, `include/GyotoDefs.h`); `dmin`, `dmax` and `dover` are the default values of the steps. -/
def Base.init (dmin dmax dover : ℝ) : Base := ⟨1, dmin, dmax, dover, false⟩

/-- The flags that govern the reading of the files: `mapet_`, `has_surface_`, `has_acceleration_vector_`, `specify_marginalorbits_`. -/
@[ext] structure Flags where
  mapEt : Bool
  surface : Bool
  acceleration : Bool
  marginal : Bool

/-- The metric; `tables` are the directory and the flags with which the tables in memory have been read. -/
@[ext] structure Metric where
  base : Base
  directory : Option String
  flags : Flags
  axisymCirc : Bool
  boson : Bool
  horizon : ℝ
  initialTime : ℝ
  rico : ℝ
  tables : Option (String × Flags)

/-- A call of a user. -/
inductive Call where
  | mass (x : ℝ)
  | deltaMin (x : ℝ)
  | deltaMax (x : ℝ)
  | deltaMaxOverR (x : ℝ)
  | keplerian (b : Bool)
  | directory (d : String)
  | mapEt (b : Bool)
  | surface (b : Bool)
  | acceleration (b : Bool)
  | marginal (b : Bool)
  | axisymCirc (b : Bool)
  | boson (b : Bool)
  | horizon (x : ℝ)
  | initialTime (x : ℝ)
  | rico (x : ℝ)

/-- A setter that stores the flags, then throws when the directory is known (`lib/NumericalMetricLorene.C:1963-1969`, `:1972-1978`,
`:1987-1994`, `:2000-2006`). -/
def late (m : Metric) (f : Flags) : Metric × Bool := ({ m with flags := f }, m.directory.isSome)

/-- The setters (`lib/NumericalMetricLorene.C:1951-1956`, `:1962-2017`); the flag is an exception. -/
def call (m : Metric) : Call → Metric × Bool
  | .mass x => ({ m with base := { m.base with mass := x } }, false)
  | .deltaMin x => ({ m with base := { m.base with deltaMin := x } }, false)
  | .deltaMax x => ({ m with base := { m.base with deltaMax := x } }, false)
  | .deltaMaxOverR x => ({ m with base := { m.base with deltaMaxOverR := x } }, false)
  | .keplerian b => ({ m with base := { m.base with keplerian := b } }, false)
  | .directory d => ({ m with directory := some d, tables := some (d, m.flags) }, false)
  | .mapEt b => late m { m.flags with mapEt := b }
  | .surface b => late m { m.flags with surface := b }
  | .acceleration b => late m { m.flags with acceleration := b }
  | .marginal b => late m { m.flags with marginal := b }
  | .axisymCirc b => ({ m with axisymCirc := b }, false)
  | .boson b => ({ m with boson := b }, false)
  | .horizon x => ({ m with horizon := x }, false)
  | .initialTime x => ({ m with initialTime := x }, false)
  | .rico x => ({ m with rico := x }, false)

/-- The copy constructor (`lib/NumericalMetricLorene.C:105-134`), with `Generic(coordkind, name)` for its base, and `clone` (`:136-139`). -/
def clone (dmin dmax dover : ℝ) (m : Metric) : Metric :=
  { base := Base.init dmin dmax dover, directory := m.directory, flags := m.flags, axisymCirc := m.axisymCirc, boson := m.boson,
    horizon := m.horizon, initialTime := m.initialTime, rico := m.rico, tables := m.directory.map fun d => (d, m.flags) }

end Gyoto.LoreneSettings
