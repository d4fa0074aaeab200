import Verif.Model.MetricAlg
import Mathlib.Analysis.Calculus.Deriv.Basic
import Mathlib.Algebra.BigOperators.Fin

/-!
# What a geodesic is, in Hamilton's form

`gup` is the inverse metric as a function of the position; `x` is a position and `p` the momentum (a one-form).
-/

namespace Gyoto.Spacetime

open Gyoto.MetricAlg

/-- `½ g^{μν}(x) p_μ p_ν`. -/
noncomputable def hamiltonian (gup : Vec → Tensor) (x p : Vec) : ℝ := (∑ μ, ∑ ν, gup x μ ν * p μ * p ν) / 2

/-- `dx` and `dp` are the derivatives that Hamilton's equations prescribe at `(x, p)`. -/
def IsHamilton (gup : Vec → Tensor) (x p dx dp : Vec) : Prop :=
  ∀ μ, HasDerivAt (fun s => hamiltonian gup x (Function.update p μ s)) (dx μ) (p μ) ∧
    HasDerivAt (fun s => hamiltonian gup (Function.update x μ s) p) (-dp μ) (x μ)

end Gyoto.Spacetime
