import Verif.Model.Emission

/-! What an observer receives from a succession of layers, the nearest first. -/

namespace Gyoto.HitQ

open Gyoto.Emission (Mueller)

/-- Each layer sends `l.1` towards the observer and lets the fraction `l.2` of what is behind it pass. -/
def observed : List (ℝ × ℝ) → ℝ
  | [] => 0
  | l :: behind => l.1 + l.2 * observed behind

/-- Same with polarisation: the layer multiplies the Stokes parameters of what is behind by a matrix. -/
noncomputable def observedStokes : List ((Fin 4 → ℝ) × Mueller) → Fin 4 → ℝ
  | [] => 0
  | l :: behind => l.1 + l.2.mulVec (observedStokes behind)

/-- A converter between units with the same zero. -/
def Proportional (c : Option (ℝ → ℝ)) : Prop :=
  match c with
  | none => True
  | some f => ∃ k, ∀ x, f x = k * x

end Gyoto.HitQ
