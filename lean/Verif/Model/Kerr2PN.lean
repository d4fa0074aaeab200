import Verif.Model.MetricAlg
import Mathlib.Analysis.Real.Sqrt

/-!
# The metric `Kerr2PN` (`lib/Kerr2PN.C`)

The class is built into the library but is registered by none of the plug-ins.
-/

namespace Gyoto.Kerr2PN

open Gyoto.MetricAlg

/-- The members (`include/GyotoKerr2PN.h:42-44`). -/
structure Hole where
  spin : ℝ
  Q : ℝ
  tied : Bool

/-- The constructor (`lib/Kerr2PN.C:45-50`). -/
def Hole.new : Hole := ⟨0, 0, true⟩

/-- The mutators. -/
inductive Call where
  | spin (a : ℝ)
  | quadrupole (q : ℝ)
  | kerrQuadrupole (t : Bool)

/-- The object afterwards, whether the call returns or throws. -/
inductive Res where
  | ok (s : Hole)
  | thrown (s : Hole)

/-- The object afterwards. -/
def Res.state : Res → Hole
  | .ok s => s
  | .thrown s => s

open Classical in
/-- One call (`lib/Kerr2PN.C:69-88`). -/
noncomputable def Hole.call (s : Hole) : Call → Res
  | .spin a => .ok { s with spin := a, Q := if s.tied then -a * a else s.Q }
  | .quadrupole q =>
    if s.tied then if q > 0 then .thrown { s with Q := q } else .ok { s with Q := q, spin := √(-q) }
    else .ok { s with Q := q }
  | .kerrQuadrupole t => .ok { s with tied := t }

/-- Calls one after the other, up to the first that throws (`Object::setParameters`, `lib/Object.C:421-476`). -/
noncomputable def Hole.run (s : Hole) : List Call → Res
  | [] => .ok s
  | c :: l => match s.call c with
    | .ok s => s.run l
    | .thrown s => .thrown s

/-- What is written in a file, in the order of the properties (`lib/Kerr2PN.C:32-41`, `Object::fillElement`, `lib/Object.C:399-419`), then read in a new
object. -/
noncomputable def Hole.reload (s : Hole) : Res := Hole.new.run [.spin s.spin, .quadrupole s.Q, .kerrQuadrupole s.tied]

/-- `gmunu` (`lib/Kerr2PN.C:96-106`); the radius is computed and not used. -/
def Hole.gmunu (_ : Hole) (_ : Vec) : Tensor := Matrix.of fun mu nu => if mu = nu then if mu = 0 then -1 else 1 else 0

/-- `christoffel` (`lib/Kerr2PN.C:124-135`). -/
def Hole.christoffel (_ : Hole) (_ : Vec) : Fin 4 → Tensor := fun _ => Matrix.of fun _ _ => 0

/-- The radius in `gmunu` and `isStopCondition` (`lib/Kerr2PN.C:144-145`). -/
noncomputable def radius (p : Vec) : ℝ := √(p 1 * p 1 + p 2 * p 2 + p 3 * p 3)

open Classical in
/-- `isStopCondition` (`lib/Kerr2PN.C:137-148`). -/
noncomputable def Hole.stop (s : Hole) (p : Vec) : Bool :=
  let rsink := if s.spin * s.spin < 1 then 1 + √(1 - s.spin * s.spin) + 0.01 else 0
  decide (radius p < rsink)

end Gyoto.Kerr2PN
