import Mathlib.Analysis.Real.Sqrt
import Mathlib.Algebra.BigOperators.Group.Finset.Basic

/-!
# Linear interpolation on a cell

The weighted means of the values at the ends of an interval and at the corners of a rectangle.
-/

namespace Gyoto.GridInterp

/-- The mean of the values at both ends of `[x0, x1]`. -/
noncomputable def lerp (x0 x1 v0 v1 x : ℝ) : ℝ := ((x1 - x) * v0 + (x - x0) * v1) / (x1 - x0)

/-- The mean of the values at the four corners of `[x0, x1] × [y0, y1]`; `vij` is the value at `(xi, yj)`. -/
noncomputable def bilerp (x0 x1 y0 y1 v00 v10 v01 v11 x y : ℝ) : ℝ :=
  ((x1 - x) * (y1 - y) * v00 + (x - x0) * (y1 - y) * v10 + (x1 - x) * (y - y0) * v01 + (x - x0) * (y - y0) * v11)
    / ((x1 - x0) * (y1 - y0))

/-- The mean of the values at the eight corners of `[x0, x1] × [y0, y1] × [z0, z1]`; `vijk` is the value at `(xi, yj, zk)`. -/
noncomputable def trilerp (x0 x1 y0 y1 z0 z1 v000 v100 v010 v110 v001 v101 v011 v111 x y z : ℝ) : ℝ :=
  lerp z0 z1 (bilerp x0 x1 y0 y1 v000 v100 v010 v110 x y) (bilerp x0 x1 y0 y1 v001 v101 v011 v111 x y) z

/-- The mean over `[c 0, c n]` of the function that takes the values `v i` at the points `c i` and is linear between them: the areas of the
trapezes divided by the length. -/
noncomputable def trapezeMean (c v : ℕ → ℝ) (n : ℕ) : ℝ :=
  (∑ i ∈ Finset.range n, (c (i + 1) - c i) * ((v i + v (i + 1)) / 2)) / (c n - c 0)

end Gyoto.GridInterp
