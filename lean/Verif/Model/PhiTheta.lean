import Mathlib.Analysis.SpecialFunctions.Trigonometric.Basic
import Mathlib.Algebra.Order.Floor.Semiring

/-!
# Model of `Worldline::checkPhiTheta`

Source: `lib/Worldline.C` lines 1262-1290 (spherical branch); callers `lib/WorldlineIntegState.C` 273-364
(`nextStep`) and 366-420 (`doStep`).

Simplification: `double` is `ℝ` and `M_PI` is `π`.
-/

namespace Gyoto.PhiTheta
open Real

theorem measure_dec {p d : ℝ} (hp : 0 < p) (hd : 0 < d) : ⌈(d - p) / p⌉₊ < ⌈d / p⌉₊ := by
  rw [sub_div, div_self hp.ne']
  have h : 0 < d / p := div_pos hd hp
  have h1 : 0 < ⌈d / p⌉₊ := Nat.ceil_pos.2 h
  refine lt_of_le_of_lt ?_ (Nat.sub_lt h1 one_pos)
  rw [Nat.ceil_le, Nat.cast_sub (show 1 ≤ ⌈d / p⌉₊ from h1)]
  have := Nat.le_ceil (d / p)
  push_cast
  linarith

/-- `while (x>hi) x-=p;` for `p > 0` (the only case occurring: `p = 2π`, lines 1270 and 1277). -/
noncomputable def wrapDown (p hi x : ℝ) : ℝ :=
  if _h : 0 < p ∧ hi < x then wrapDown p hi (x - p) else x
termination_by ⌈(x - hi) / p⌉₊
decreasing_by
  have := measure_dec _h.1 (sub_pos.2 _h.2)
  rwa [show x - p - hi = x - hi - p by ring]

/-- `while (x<lo) x+=p;` for `p > 0` (lines 1271 and 1278). -/
noncomputable def wrapUp (p lo x : ℝ) : ℝ :=
  if _h : 0 < p ∧ x < lo then wrapUp p lo (x + p) else x
termination_by ⌈(lo - x) / p⌉₊
decreasing_by
  have := measure_dec _h.1 (sub_pos.2 _h.2)
  rwa [show lo - (x + p) = lo - x - p by ring]

/-- `Worldline::checkPhiTheta`, spherical coordinates (`lib/Worldline.C:1262-1282`).  `c` is the vector given
by the caller: whatever its length, elements 2, 3 and 6 are the ones touched. -/
noncomputable def checkPhiTheta (c : ℕ → ℝ) : ℕ → ℝ :=
  let th := wrapUp (2 * π) (-π) (wrapDown (2 * π) π (c 2))
  let ph := c 3
  let c6 := if th < 0 then c 6 * (-1) else c 6
  let ph := if th < 0 then ph + π else ph
  let th := if th < 0 then th * (-1) else th
  let ph := wrapUp (2 * π) 0 (wrapDown (2 * π) (2 * π) ph)
  fun i => if i = 2 then th else if i = 3 then ph else if i = 6 then c6 else c i

end Gyoto.PhiTheta
