import Mathlib.Analysis.SpecialFunctions.Exp
import Mathlib.Algebra.BigOperators.Group.Finset.Basic

/-! # The rule of the trapezoids, with equal intervals -/

namespace Gyoto.Spec

open Finset

/-- The `i`-th of the points that divide `[a, b]` in `n` equal parts. -/
noncomputable def point (a b : ℝ) (n i : ℕ) : ℝ := a + i * ((b - a) / n)

/-- The sum of the areas of `n` trapezoids. -/
noncomputable def trapezoids (f : ℝ → ℝ) (a b : ℝ) (n : ℕ) : ℝ :=
  ∑ i ∈ range n, (f (point a b n i) + f (point a b n (i + 1))) / 2 * ((b - a) / n)

end Gyoto.Spec
