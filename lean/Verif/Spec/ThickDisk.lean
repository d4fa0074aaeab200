import Verif.Spec.Plunge

/-!
# Gas that circles, gas that falls, and gas between
-/

namespace Gyoto.Spacetime

open Gyoto.MetricAlg

/-- An observer on a circle about the axis whose angular momentum is `l` times the energy. -/
structure Circles (g : Tensor) (l : ℝ) (u : Vec) : Prop extends IsObserver g u where
  r : u 1 = 0
  theta : u 2 = 0
  momentum : lower g u 3 = l * -lower g u 0

/-- An observer who falls inwards at constant latitude with the energy of rest at infinity and no angular momentum. -/
structure Falls (g : Tensor) (u : Vec) : Prop extends IsObserver g u where
  r : u 1 ≤ 0
  theta : u 2 = 0
  energy : lower g u 0 = -1
  momentum : lower g u 3 = 0

/-- The observer between those who circle with `c` and fall with `f`: `alpha` of the radial velocity and `beta` of the angular velocity are those of
`c`. -/
structure Between (g : Tensor) (alpha beta : ℝ) (c f u : Vec) : Prop extends IsObserver g u where
  r : u 1 = alpha * c 1 + (1 - alpha) * f 1
  theta : u 2 = 0
  rate : u 3 / u 0 = beta * (c 3 / c 0) + (1 - beta) * (f 3 / f 0)

end Gyoto.Spacetime
