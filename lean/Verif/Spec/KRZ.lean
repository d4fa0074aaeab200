import Mathlib.Analysis.Real.Sqrt
import Mathlib.Data.Fintype.Fin

/-!
# The ranges of the parameters of Konoplya, Rezzolla and Zhidenko

The ranges that `lib/KonoplyaRezzollaZhidenko.C:74` takes from the literature, for a black hole of spin `a`.
-/

namespace Gyoto.Spacetime

/-- Is the value `v` of the horizon parameter number `i` (from zero) allowed? -/
def KRZRange (a : ℝ) (i : ℕ) (v : ℝ) : Prop :=
  (i = 0 → (4 * (1 + √(1 - a ^ 2)) - 3 * (1 + √(1 - a ^ 2)) ^ 2 - a ^ 2) / (1 + √(1 - a ^ 2)) ^ 2 ≤ v) ∧
  (i = 1 ∨ i = 2 → (0 < a → -4 / a ^ 3 * (1 - √(1 - a ^ 2)) ≤ v) ∧ (a < 0 → v ≤ -4 / a ^ 3 * (1 - √(1 - a ^ 2)))) ∧
  (i = 3 ∨ i = 4 → -1 ≤ v) ∧
  (i = 5 → v ≤ (1 + √(1 - a ^ 2)) ^ 2 / (4 - a ^ 2))

end Gyoto.Spacetime
