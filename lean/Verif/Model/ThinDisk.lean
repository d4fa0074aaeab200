import Verif.Model.Bisect
import Verif.Model.PhiTheta

/-!
# Crossing a thin disk (`lib/ThinDisk.C:136-164,194-255`; same text in `lib/SimThinDisk.C:101-205`)

Positions are vectors `ℕ → ℝ` (elements 0 to 3 used here), the photon a function from dates to positions. Loops of the search take a number of
steps, `none` is "still running". What is done with the hit is modelled elsewhere. -/

namespace Gyoto.ThinDisk

open Real Gyoto.Bisect Gyoto.PhiTheta

/-- `coordKind()` of the metric. -/
inductive Kind
  | spherical
  | cartesian

/-- `while (x>=hi) x-=p;` for `p > 0`. -/
noncomputable def wrapDownGe (p hi x : ℝ) : ℝ :=
  if _h : 0 < p ∧ hi ≤ x then wrapDownGe p hi (x - p) else x
termination_by ⌈(x - hi + p) / p⌉₊
decreasing_by
  have := measure_dec _h.1 (show 0 < x - hi + p by have := _h.1; have := _h.2; linarith)
  rwa [show x - p - hi + p = x - hi + p - p by ring]

/-- `ThinDisk::operator()` (`lib/ThinDisk.C:136-151`). -/
noncomputable def height (kind : Kind) (c : ℕ → ℝ) : ℝ :=
  match kind with
  | .spherical => wrapDownGe (2 * π) π (wrapUp (2 * π) (-π) (c 2 - π * 0.5))
  | .cartesian => c 3

/-- `ThinDisk::projectedRadius` (`lib/ThinDisk.C:153-163`). -/
noncomputable def projectedRadius (kind : Kind) (c : ℕ → ℝ) : ℝ :=
  match kind with
  | .spherical => c 1
  | .cartesian => sqrt (c 1 * c 1 + c 2 * c 2)

/-- The angles of a point of the photon put in their range (`lib/ThinDisk.C:204-208`). -/
noncomputable def checked (kind : Kind) (c : ℕ → ℝ) : ℕ → ℝ :=
  match kind with
  | .spherical => checkPhiTheta c
  | .cartesian => c

/-- Outcome of `Impact`. -/
inductive Res
  /-- returns 0 -/
  | miss
  /-- `processHitQuantities` at this date, returns 1 -/
  | hit (t : ℝ)
  /-- throws "fishy heuristic" -/
  | error

/-- The tests before the search (`lib/ThinDisk.C:219-221`). -/
def Rejected (rout r1 r2 h1 h2 : ℝ) : Prop :=
  (0.5 * r1 > rout ∧ 0.5 * r2 > rout) ∨ (h1 = h2 ∧ h2 ≠ 0) ∨ ((h1 > 0 ↔ h2 > 0) ∧ h1 ≠ 0 ∧ h2 ≠ 0)

/-- Whether the angles make it throw (`lib/ThinDisk.C:211-213`). -/
def Fishy (kind : Kind) (c1 c2 : ℕ → ℝ) : Prop :=
  match kind with
  | .spherical => |c2 2 - c1 2| > π
  | .cartesian => False

open Classical in
/-- `ThinDisk::Impact` (`lib/ThinDisk.C:194-255`) between the dates `t1` and `t2` of two consecutive points. -/
noncomputable def impact (rnd : ℝ → ℝ) (kind : Kind) (rin rout : ℝ) (pos : ℝ → ℕ → ℝ) (k : Nat) (t1 t2 : ℝ) : Option Res :=
  let c1 := checked kind (pos t1)
  let c2 := checked kind (pos t2)
  if Fishy kind c1 c2 then some .error
  else
    let h1 := height kind c1
    let h2 := height kind c2
    if Rejected rout (projectedRadius kind c1) (projectedRadius kind c2) h1 h2 then some .miss
    else
      let tlow := if h1 < h2 then t1 else t2
      let thigh := if h1 < h2 then t2 else t1
      (findValue rnd (fun t => height kind (pos t)) 0 k tlow thigh).map fun v =>
        let rcross := projectedRadius kind (pos v.1)
        if rcross < rin ∨ rcross > rout then .miss else .hit v.1

/-- The length of the path in the disk (`lib/ThinDisk.C:240-246`). -/
noncomputable def path (thickness t1 t2 : ℝ) (vel : Fin 3 → ℝ) : ℝ :=
  if vel 2 = 0 then t2 - t1 else sqrt (1 + (vel 0 * vel 0 + vel 1 * vel 1) / (vel 2 * vel 2)) * thickness

end Gyoto.ThinDisk
