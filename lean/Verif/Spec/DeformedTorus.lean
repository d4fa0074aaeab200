import Verif.Spec.Orbits
import Mathlib.Analysis.Calculus.Deriv.Basic

/-!
# Surfaces that move with a gas, and small oscillations
-/

namespace Gyoto.Spacetime

open Gyoto.MetricAlg

/-- The rate `d` at which `F` changes for the gas that is at `(r, θ)` at the date `t` and moves there with the velocity `(vr, vθ)`. -/
def RateAlong (F : ℝ → ℝ → ℝ → ℝ) (t r θ vr vθ d : ℝ) : Prop := HasDerivAt (fun e => F (t + e) (r + e * vr) (θ + e * vθ)) d 0

/-- The surfaces of constant `F` are carried by the gas. -/
def CarriedBy (F : ℝ → ℝ → ℝ → ℝ) (t r θ vr vθ : ℝ) : Prop := RateAlong F t r θ vr vθ 0

/-- A body of mass `m` in the potential `V` rests at `c` and oscillates about it with the square `w2` of its pulsation (`m x'' = -V'(x)`). -/
def Oscillates (V : ℝ → ℝ) (m c w2 : ℝ) : Prop :=
  ∃ V' : ℝ → ℝ, (∀ᶠ x in nhds c, HasDerivAt V (V' x) x) ∧ V' c = 0 ∧ HasDerivAt V' (m * w2) c

/-- The potential of the free motion, outside the circle, of a body that has the energy and the angular momentum of `u`: `g^μν u_μ u_ν / 2` with
only the time and the longitude. The radial motion is that of a body of mass `g_rr`, the one in latitude of a body of mass `g_θθ`. -/
noncomputable def freePotential (up : Tensor) (ut uph : ℝ) : ℝ := (up 0 0 * ut ^ 2 + 2 * up 0 3 * ut * uph + up 3 3 * uph ^ 2) / 2

end Gyoto.Spacetime
