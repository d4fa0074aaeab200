import Mathlib.Analysis.SpecialFunctions.Integrals.Basic
import Mathlib.Analysis.SpecialFunctions.Pow.Real
import Mathlib.Data.Int.Interval

/-!
# The random waves of `StochasticThinDisk` (`lib/StochasticThinDisk.C:57-315`)

Doubles are reals. The random generator (`std::default_random_engine generator(42)`) is known by the numbers it gives: any function of
the mode. `boost::math::cyl_bessel_j_zero` is known by what it returns. `std::cyl_bessel_j` of a natural order is Bessel's integral.
The `std::vector`s `Cmn_`, … are functions of the index; that the indices stay below their size is proved apart (`idx_lt`).
-/

namespace Gyoto.Stochastic

/-- `std::cyl_bessel_j(m, x)` for a natural `m` (Bessel's integral). -/
noncomputable def besselJ (m : Nat) (x : ℝ) : ℝ := 1 / Real.pi * ∫ τ in (0 : ℝ)..Real.pi, Real.cos (m * τ - x * Real.sin τ)

/-- `WAVE` and `ADVECTIONDIFFUSION` (`lib/StochasticThinDisk.C:65-66`). -/
inductive Equation where
  | wave
  | advection
deriving DecidableEq

/-- `STATIC`, `CIRCULAR`, `RADIAL` (`lib/StochasticThinDisk.C:68-70`). -/
inductive Kind where
  | static
  | circular
  | radial
deriving DecidableEq

/-- `Mmax` and `Nmax` (`lib/StochasticThinDisk.C:60-61`). -/
def Mmax : Nat := 64
def Nmax : Nat := 64

/-- `(m+Mmax)*Nmax+(n-1)` (`lib/StochasticThinDisk.C:209,233`), in `int`. -/
def idx (m n : Int) : Int := (m + Mmax) * Nmax + (n - 1)

/-- `(2*Mmax+1)*Nmax` (`lib/StochasticThinDisk.C:138`). -/
def size : Nat := (2 * Mmax + 1) * Nmax

/-- Members of `StochasticThinDisk` (`include/GyotoStochasticThinDisk.h`) and `rout_` of `ThinDisk`. -/
structure Disk where
  C : Int → ℝ
  N : Int → ℝ
  Phi : Int → ℝ
  Psi : Int → ℝ
  K : Int → ℝ
  eq : Equation
  kind : Kind
  rout : ℝ

/-- The constructor (`lib/StochasticThinDisk.C:127-144`), with the outer radius that `ThinDisk` has. -/
def fresh (rout : ℝ) : Disk where
  C := fun _ => 1
  N := fun _ => 1
  Phi := fun _ => 0
  Psi := fun _ => 0
  K := fun _ => 0
  eq := .wave
  kind := .static
  rout := rout

/-- A setter of a kind returns or throws; in both cases it may have changed the object. -/
inductive Res where
  | ok (d : Disk)
  | throws (d : Disk)

/-- The object after the call. -/
def Res.disk : Res → Disk
  | .ok d => d
  | .throws d => d

/-- `equationKind(string)` (`lib/StochasticThinDisk.C:72-79`). -/
def setEquation (d : Disk) (k : String) : Res :=
  if k = "Wave" then .ok { d with eq := .wave }
  else if k = "AdvectionDiffusion" then .ok { d with eq := .advection }
  else .throws d

/-- `equationKind()` (`lib/StochasticThinDisk.C:80-90`). -/
def getEquation (d : Disk) : String :=
  match d.eq with
  | .wave => "Wave"
  | .advection => "AdvectionDiffusion"

/-- `motionKind(string)` (`lib/StochasticThinDisk.C:92-101`): the second `if` is not an `else if`. -/
def setKind (d : Disk) (k : String) : Res :=
  let d := if k = "Static" then { d with kind := .static } else d
  if k = "Circular" then .ok { d with kind := .circular }
  else if k = "Radial" then .ok { d with kind := .radial }
  else .throws d

/-- `motionKind()` (`lib/StochasticThinDisk.C:102-114`). -/
def getKind (d : Disk) : String :=
  match d.kind with
  | .static => "Static"
  | .circular => "Circular"
  | .radial => "Radial"

/-- `spectrum(alpha_r, alpha_theta, m, n)` (`lib/StochasticThinDisk.C:175-185`). -/
noncomputable def spectrum (ar ath : ℝ) (m n : Int) : ℝ :=
  (1 + (m : ℝ) * m) ^ (-ath / 2) * (1 + (n : ℝ) * n) ^ (-ar / 2)

/-- The numbers given by the generator for one mode: `gaussian`, `uniform`, `uniform` (`lib/StochasticThinDisk.C:213-216`). -/
structure Draw where
  g : ℝ
  u : ℝ
  v : ℝ

/-- The values of `n` (resp. `m`) of the loops `for (int n = a; n <= b; n++)`, `k` turns. -/
def ints (a : Int) (k : Nat) : List Int := (List.range k).map fun i : Nat => a + (i : Int)

/-- Body of the loops of `modalQuantities` (`lib/StochasticThinDisk.C:209-218`). `zeros m n` is the `n`-th number that
`cyl_bessel_j_zero` gives for the order `m`. -/
noncomputable def draw (zeros : Nat → Int → ℝ) (dr : Int → Int → Draw) (m : Int) (d : Disk) (n : Int) : Disk :=
  if d.eq = .wave then
    { d with
      C := Function.update d.C (idx m n) (√(spectrum 3 3 m n) * (dr m n).g)
      N := Function.update d.N (idx m n) 1
      Phi := Function.update d.Phi (idx m n) (2 * Real.pi * (dr m n).u)
      Psi := Function.update d.Psi (idx m n) (2 * Real.pi * (dr m n).v)
      K := Function.update d.K (idx m n) (zeros m.natAbs n / d.rout) }
  else d

/-- `modalQuantities()` (`lib/StochasticThinDisk.C:187-221`). -/
noncomputable def modalQuantities (zeros : Nat → Int → ℝ) (dr : Int → Int → Draw) (d : Disk) : Disk :=
  (ints (-Mmax) (2 * Mmax + 1)).foldl (fun d m => (ints 1 Nmax).foldl (draw zeros dr m) d) d

/-- Body of the loops of `solution` (`lib/StochasticThinDisk.C:233-246`). -/
noncomputable def addMode (d : Disk) (t r phi : ℝ) (m : Int) (u : ℝ) (n : Int) : ℝ :=
  if d.eq = .wave then
    u + d.C (idx m n) / d.N (idx m n) * besselJ m.natAbs (d.K (idx m n) * r) * Real.cos (m * phi + d.Phi (idx m n)) *
      Real.cos (d.K (idx m n) * t + d.Psi (idx m n))
  else u

/-- `solution(coord_obj)` (`lib/StochasticThinDisk.C:223-251`). -/
noncomputable def solution (d : Disk) (t r phi : ℝ) : ℝ :=
  (ints (-Mmax) (2 * Mmax + 1)).foldl (fun u m => (ints 1 Nmax).foldl (addMode d t r phi m) u) 0

/-- `emission(nu, coord_ph, coord_obj)` (`lib/StochasticThinDisk.C:309-315`); `envelope` is 1, its `emission_model` being the local
constant `"Constant"` (`lib/StochasticThinDisk.C:253-262`). -/
noncomputable def emission (d : Disk) (t r phi : ℝ) : ℝ := 1 * solution d t r phi

end Gyoto.Stochastic
