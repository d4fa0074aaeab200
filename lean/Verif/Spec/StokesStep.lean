import Verif.Spec.Synch
import Verif.Model.StokesStep
import Mathlib.Analysis.Calculus.Deriv.Basic

/-!
# Polarised light and matter, and its passage
-/

namespace Gyoto.StokesStep

open Gyoto.Emission (Mueller)

/-- Stokes parameters of light that exists: not more polarised than bright. -/
def Beam (S : Fin 4 → ℝ) : Prop := Plasma.IsBeam (S 0) (S 1) (S 2) (S 3)

/-- Matter which absorbs every kind of light, whatever its polarisation. -/
def Absorbs (a : Fin 4 → ℝ) : Prop := 0 < a 0 ∧ a 1 ^ 2 + a 2 ^ 2 + a 3 ^ 2 < a 0 ^ 2

/-- The exact solution over the length `L` for what enters, `dS/ds = -K S`, and for what is emitted, `dS/ds = j - K S`, `S(0) = 0`. -/
structure IsPassage (K : Mueller) (j : Fin 4 → ℝ) (L : ℝ) (S : Fin 4 → ℝ) (O : Mueller) : Prop where
  /-- what is emitted is the value at `L` of the solution -/
  emitted : ∃ f : ℝ → Fin 4 → ℝ, f 0 = 0 ∧ f L = S ∧ ∀ s i, HasDerivAt (fun t => f t i) (j i - (K.mulVec (f s)) i) s
  /-- what enters is carried by the matrix -/
  carried : ∀ X : Fin 4 → ℝ, ∃ f : ℝ → Fin 4 → ℝ, f 0 = X ∧ f L = O.mulVec X ∧
    ∀ s i, HasDerivAt (fun t => f t i) (-(K.mulVec (f s)) i) s

/-- The square of the depth of a cell: the sum of the squares of the coefficients of the matrix of absorption, times the square of the length. -/
def depth2 (m : Cell) (L : ℝ) : ℝ :=
  L ^ 2 * (4 * m.a 0 ^ 2 + 2 * (m.a 1 ^ 2 + m.a 2 ^ 2 + m.a 3 ^ 2) + 2 * (m.r 0 ^ 2 + m.r 1 ^ 2 + m.r 2 ^ 2))

/-- Absorption and rotation of polarised light of the same strength and perpendicular, or none of them. -/
def Balanced (m : Cell) : Prop :=
  m.a 1 ^ 2 + m.a 2 ^ 2 + m.a 3 ^ 2 = m.r 0 ^ 2 + m.r 1 ^ 2 + m.r 2 ^ 2 ∧ m.a 1 * m.r 0 + m.a 2 * m.r 1 + m.a 3 * m.r 2 = 0

/-- A cell neither thin nor thick. -/
def Middling (m : Cell) (L : ℝ) : Prop := m.a 0 * L ≤ 100 ∧ 1e-6 ≤ depth2 m L

/-- Light that is not polarised. -/
def unpolarised (I : ℝ) : Fin 4 → ℝ := ![I, 0, 0, 0]

end Gyoto.StokesStep
