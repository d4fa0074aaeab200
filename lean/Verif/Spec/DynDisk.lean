import Mathlib.Data.Real.Basic

/-!
# A quantity known at regular dates
-/

namespace Gyoto.Spec.DynDisk

/-- `x` is the value at the date `t` of what is `val k` at the date `t₀ + k δ`, for `k < n`: linear from one date to the next, constant
before the first and after the last. -/
def InTime (n : ℕ) (t₀ δ : ℝ) (val : ℕ → ℝ) (t x : ℝ) : Prop :=
  (t ≤ t₀ → x = val 0) ∧
  (t₀ + ((n : ℝ) - 1) * δ ≤ t → x = val (n - 1)) ∧
  ∀ k, k + 1 < n → t₀ + k * δ ≤ t → t ≤ t₀ + (k + 1) * δ →
    δ * x = (t₀ + (k + 1) * δ - t) * val k + (t - (t₀ + k * δ)) * val (k + 1)

end Gyoto.Spec.DynDisk
