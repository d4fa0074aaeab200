import Verif.Model.MetricAlg

/-!
# `IntegState::Boost`: 3+1 variables and repair of the transported basis

`lib/WorldlineIntegState.C`: conversion of the integrated vector between the 4D and 3+1 formalisms
around each step (`nextStep`, `doStep`), the measure of how far the transported polarisation basis
is from an orthonormal one (`checkBasis`) and its repair (`reorthonormalizeBasis`).

Simplifications: as in `Verif.Model.MetricAlg` (exact arithmetic, `none` for a division by zero).
`computeNBeta` is any function of the position.
-/

namespace Gyoto.Three1

open Gyoto.MetricAlg

/-- `computeNBeta(pos, N, beta)`: lapse and shift. -/
abbrev LapseShift := Vec → ℝ × (Fin 3 → ℝ)

/-- Position and velocity: `coord[0..3]`, `coord[4..7]`. -/
structure Coord where
  pos : Vec
  vel : Vec

/-- The 3+1 vector `{EE, r, th, ph, Vr, Vth, Vph}`. -/
structure State31 where
  energy : ℝ
  x : Fin 3 → ℝ
  v : Fin 3 → ℝ

/-- `none` is a division by zero, `some none` the error "tdot is 0!". -/
noncomputable def to31 (nb : LapseShift) (coord : Coord) : Option (Option State31) :=
  -- lib/WorldlineIntegState.C lines 257–270 (nextStep) and 377–392 (doStep)
  let tdot := coord.vel 0
  if tdot = 0 then some none
  else
    let prime : Fin 3 → ℝ := fun i => coord.vel i.succ / tdot
    let nn := (nb coord.pos).1
    let beta := (nb coord.pos).2
    (inv nn).map fun invN => some
      { energy := tdot * nn
        x := fun i => coord.pos i.succ
        v := fun i => invN * (prime i + beta i) }

/-- Back to the 4D vector after a step `dt` from the date `told`, with the increment of the affine
parameter: `lib/WorldlineIntegState.C` lines 339–356 (nextStep) and 403–418 (doStep). -/
noncomputable def from31 (nb : LapseShift) (told dt : ℝ) (xx : State31) : Option (Coord × ℝ) :=
  let tnew := told + dt
  let newpos : Vec := Fin.cons tnew xx.x
  let nn := (nb newpos).1
  let beta := (nb newpos).2
  let prime : Fin 3 → ℝ := fun i => nn * xx.v i - beta i
  if nn = 0 ∨ xx.energy = 0 then none
  else
    let tdotnew := xx.energy / nn
    some (⟨newpos, Fin.cons tdotnew fun i => prime i * tdotnew⟩, nn / xx.energy * dt)

/-- `Boost::checkBasis`, `lib/WorldlineIntegState.C` lines 431–447: `k` is the photon's tangent
vector, `ephi` and `etheta` are `coord[8..11]` and `coord[12..15]`. -/
noncomputable def checkBasis (g : Tensor) (k ephi etheta : Vec) : ℝ :=
  max |scalarProd g ephi etheta| (max |scalarProd g ephi k| (max |scalarProd g etheta k|
    (max |norm g ephi - 1| |norm g etheta - 1|)))

/-- `multiplyFourVect(u, 1.0/norm(pos, u))`: unlike `unit`, without `abs`. -/
noncomputable def normalise (g : Tensor) (u : Vec) : Option Vec := (inv (norm g u)).map (multiply u)

/-- `Boost::reorthonormalizeBasis`, `lib/WorldlineIntegState.C` lines 449–486: the new `coord[8..11]`
and `coord[12..15]`. -/
noncomputable def reorthonormalize (g : Tensor) (k ephi etheta : Vec) : Option (Vec × Vec) :=
  (project g etheta k).bind fun etheta =>
  (normalise g etheta).bind fun etheta =>
  (project g ephi k).bind fun ephi =>
  (project g ephi etheta).bind fun ephi =>
  (normalise g ephi).map fun ephi => (etheta, ephi)

end Gyoto.Three1
