import Mathlib.Analysis.Calculus.Deriv.Basic

/-!
# Oscillations of a slender torus, surfaces that follow the gas at first order, and interpolation
-/

namespace Gyoto.Spec.Oscil

/-- `W` is an oscillation, of squared pulsation `s2` in the frame of the gas, of the slender torus of polytropic index `n` whose section is
`p x² + q y² < 1`: the equation of Papaloizou and Pringle with constant angular momentum,
`F (W_xx + W_yy) + n (F_x W_x + F_y W_y) + 2 n s2 W = 0` with `F = 1 - p x² - q y²`. -/
def IsMode (n p q s2 : ℝ) (W : ℝ → ℝ → ℝ) : Prop :=
  0 < s2 ∧ (∃ x y, W x y ≠ 0) ∧
  ∃ Wx Wy Wxx Wyy : ℝ → ℝ → ℝ,
    (∀ x y, HasDerivAt (fun z => W z y) (Wx x y) x) ∧ (∀ x y, HasDerivAt (fun z => W x z) (Wy x y) y) ∧
    (∀ x y, HasDerivAt (fun z => Wx z y) (Wxx x y) x) ∧ (∀ x y, HasDerivAt (fun z => Wy x z) (Wyy x y) y) ∧
    ∀ x y, (1 - p * x ^ 2 - q * y ^ 2) * (Wxx x y + Wyy x y) + n * (-2 * p * x * Wx x y + -2 * q * y * Wy x y) + 2 * n * s2 * W x y = 0

/-- The surfaces `F I = constant` follow, at first order in the intensity `I`, a gas that turns with the angular velocity `Om` and has the velocity
`V I` in the section: the rate of `F I` for that gas is `o(I)`. -/
def FollowsFirstOrder (F : ℝ → ℝ → ℝ → ℝ → ℝ → ℝ) (V : ℝ → ℝ × ℝ) (Om t φ x y : ℝ) : Prop :=
  ∃ R : ℝ → ℝ, (∀ I, HasDerivAt (fun e => F I (t + e) (φ + Om * e) (x + e * (V I).1) (y + e * (V I).2)) (R I) 0) ∧ R 0 = 0 ∧ HasDerivAt R 0 0

/-- `v` is, at `t`, the value of the straight line through two points. -/
def OnLine (l r : ℝ × ℝ) (t v : ℝ) : Prop := v * (r.1 - l.1) = l.2 * (r.1 - t) + r.2 * (t - l.1)

end Gyoto.Spec.Oscil
