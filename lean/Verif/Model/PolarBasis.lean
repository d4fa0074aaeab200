import Verif.Model.MetricAlg
import Verif.Model.GridRead

/-!
# The polarization basis of a photon: `Worldline::checkBasis` and the corrections of the integrator

Conventions of `MetricAlg`: exact reals, `none` for infinities and NaN.  In the results, `.error` is an exception and `.ub` a computation that
goes through infinities and NaN.  The sixteen coordinates of a state are four vectors.
-/

namespace Gyoto.PolarBasis

open Gyoto.MetricAlg Gyoto.GridRead

/-- `state_t coord` of size 16: position, `photon_tgvec`, `Ephi` and `Etheta` (`lib/Worldline.C:1645-1650`). -/
@[ext] structure State where
  pos : Vec
  k : Vec
  ephi : Vec
  etheta : Vec

/-- `coord[0]` to `coord[7]`. -/
def State.eight (s : State) : Fin 8 → ℝ := ![s.pos 0, s.pos 1, s.pos 2, s.pos 3, s.k 0, s.k 1, s.k 2, s.k 3]

/-- `violation` (`lib/Worldline.C:1672-1676`, `lib/WorldlineIntegState.C:442-446`). -/
noncomputable def violation (g : Tensor) (k ephi etheta : Vec) : ℝ :=
  max |scalarProd g ephi etheta| (max |scalarProd g ephi k| (max |scalarProd g etheta k| (max |norm g ephi - 1| |norm g etheta - 1|)))

/-- `KerrBL::nullifyCoord(coord, tdot2)` (`lib/KerrBL.C:1238-1256`). -/
noncomputable def kerrNullify (gmunu : Vec → Tensor) (coord : Fin 8 → ℝ) : Option ((Fin 8 → ℝ) × ℝ) :=
  let g := gmunu fun k => coord ⟨k, by omega⟩
  let a := g 0 0
  let b := g 0 3 * coord 7
  let c := ∑ i : Fin 3, g i.succ i.succ * coord ⟨4 + i.succ, by simp; omega⟩ * coord ⟨4 + i.succ, by simp; omega⟩
  if a = 0 ∨ b * b - a * c < 0 then none else
    let sDelta := √(b * b - a * c)
    let am1 := 1 / a
    let tdot2 := (-b + sDelta) * am1
    some (fun k => if k = 4 then (-b - sDelta) * am1 else coord k, tdot2)

/-- The correction of the photon (`lib/Worldline.C:1653-1670`): the new `photon_tgvec`. -/
noncomputable def fixPhoton (gmunu : Vec → Tensor) (normtol : ℝ) (s : State) : Option Vec :=
  if norm (gmunu s.pos) s.k > normtol then
    match nullifyCoord gmunu s.eight with
    | none => none
    | some (c, tdot2) =>
      let t := if |s.k 0 - tdot2| < |s.k 0 - c 4| then tdot2 else c 4
      some ![t, s.k 1, s.k 2, s.k 3]
  else some s.k

/-- The projections of `Worldline::checkBasis` (`lib/Worldline.C:1683-1697`): the new local `Ephi` and `Etheta`. -/
noncomputable def orthonormalize (g : Tensor) (k ephi etheta : Vec) : Option (Vec × Vec) := do
  let etheta ← project g etheta k
  let etheta ← unit g etheta
  let ephi ← project g ephi k
  let ephi ← project g ephi etheta
  let ephi ← unit g ephi
  return (ephi, etheta)

/-- `Worldline::checkBasis(coord)` (`lib/Worldline.C:1635-1715`): the new `coord`.  `Ephi` and `Etheta` are local arrays. -/
noncomputable def checkBasis (gmunu : Vec → Tensor) (normtol : ℝ) (s : State) : M State :=
  let g := gmunu s.pos
  match fixPhoton gmunu normtol s with
  | none => .error .ub
  | some k =>
    let basis := if violation g k s.ephi s.etheta > normtol then orthonormalize g k s.ephi s.etheta else some (s.ephi, s.etheta)
    match basis with
    | none => .error .ub
    | some (ephi, etheta) => if violation g k ephi etheta > normtol then .error .error else .ok { s with k := k }

/-- `multiplyFourVect(u, 1.0/norm(pos, u))`, with the sign of the norm. -/
noncomputable def signedUnit (g : Tensor) (u : Vec) : Option Vec := (inv (norm g u)).map (multiply u)

/-- `IntegState::Boost::reorthonormalizeBasis(coord)` (`lib/WorldlineIntegState.C:449-486`): the new `coord`, with the order of the writes at
the end. -/
noncomputable def reorthonormalize (gmunu : Vec → Tensor) (s : State) : M State :=
  let g := gmunu s.pos
  let basis : Option (Vec × Vec) := do
    let etheta ← project g s.etheta s.k
    let etheta ← signedUnit g etheta
    let ephi ← project g s.ephi s.k
    let ephi ← project g ephi etheta
    let ephi ← signedUnit g ephi
    return (etheta, ephi)
  match basis with
  | none => .error .ub
  | some (coord8, coord12) => .ok { s with ephi := coord8, etheta := coord12 }

end Gyoto.PolarBasis
