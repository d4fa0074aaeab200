import Verif.Spec.Plunge
import Verif.Model.UniformSphere
import Verif.Model.Transfer
import Mathlib.Analysis.SpecialFunctions.Trigonometric.Basic

/-!
# Paths and the velocities along them
-/

namespace Gyoto.Paths

open Gyoto.MetricAlg (Vec Tensor)
open Gyoto.Transfer (Out)
open Gyoto.USphere (Kind P3)

/-- The event of date `t` at the point of coordinates `c`. -/
def event (t : ℝ) (c : P3) : Vec := ![t, c.1, c.2.1, c.2.2]

/-- The point of space, in Cartesian coordinates, of an event. -/
noncomputable def place : Kind → Vec → P3
  | .cartesian, x => (x 1, x 2, x 3)
  | .spherical, x => (x 1 * Real.sin (x 2) * Real.cos (x 3), x 1 * Real.sin (x 2) * Real.sin (x 3), x 1 * Real.cos (x 2))

/-- `u` is tangent, at the date `t`, to the path: `u^i/u^t` is the derivative of the coordinate `i`. -/
structure IsTangent (path : ℝ → P3) (t : ℝ) (u : Vec) : Prop where
  time : u 0 ≠ 0
  one : HasDerivAt (fun s => (path s).1) (u 1 / u 0) t
  two : HasDerivAt (fun s => (path s).2.1) (u 2 / u 0) t
  three : HasDerivAt (fun s => (path s).2.2) (u 3 / u 0) t

/-- The path that the code gives is defined near the date `t`, and `u` is tangent to it. -/
def Follows (path : ℝ → Out P3) (t : ℝ) (u : Vec) : Prop :=
  ∃ f : ℝ → P3, (∀ᶠ s in nhds t, path s = .ok (f s)) ∧ IsTangent f t u

/-- The metric of Minkowski in spherical coordinates. -/
noncomputable def flatAt : Vec → Tensor := fun x =>
  Matrix.diagonal ![-1, 1, x 1 ^ 2, (x 1 * Real.sin (x 2)) ^ 2]

/-- A field that does not depend on the time and on the longitude. -/
def Axial {α : Type} (g : Vec → α) : Prop := ∀ x y : Vec, x 1 = y 1 → x 2 = y 2 → g x = g y

end Gyoto.Paths
