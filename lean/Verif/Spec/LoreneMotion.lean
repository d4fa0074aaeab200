import Verif.Spec.Lorene
import Verif.Spec.Geodesic
import Verif.Model.LoreneMotion
import Mathlib.Algebra.BigOperators.Fin

/-!
# Equations of motion in the 3+1 formalism

In coordinates, with sums over the three of them (Vincent, Gourgoulhon & Novak 2012, equations (29) and (30)):

* `dx^i/dt = N V^i - β^i`
* `dE/dt = E (N K_jk V^j V^k - V^j ∂_j N)`
* `dV^i/dt = N [V^i (V^j ∂_j ln N - K_jk V^j V^k) + 2 K^i_j V^j - Γ^i_jk V^j V^k] - γ^ij ∂_j N - V^j ∂_j β^i`
-/

namespace Gyoto.Lorene

open Gyoto.MetricAlg Gyoto.Spacetime Gyoto.Three1

/-- Length of the vectors of the coordinate basis, in flat space. -/
noncomputable def scale (x : Fin 3 → ℝ) : Fin 3 → ℝ := ![1, x 0, x 0 * Real.sin (x 1)]

/-- The value of a field. -/
def at3 (f : Scal) (x : Fin 3 → ℝ) : ℝ := f.val (x 0) (x 1) (x 2)

/-- A symmetric tensor is given by the components with indices in order. -/
def sym (T : Fin 3 → Fin 3 → Scal) (i j : Fin 3) : Scal := T (min i j) (max i j)

/-- Coordinate components. -/
noncomputable def coordShift (s : Slice) (x : Fin 3 → ℝ) (i : Fin 3) : ℝ := at3 (s.shift i) x / scale x i
noncomputable def coordCov (s : Slice) (x : Fin 3 → ℝ) (i j : Fin 3) : ℝ := scale x i * scale x j * at3 (sym s.gcov i j) x
noncomputable def coordCon (s : Slice) (x : Fin 3 → ℝ) (i j : Fin 3) : ℝ := at3 (sym s.gcon i j) x / (scale x i * scale x j)
noncomputable def coordK (s : Slice) (x : Fin 3 → ℝ) (i j : Fin 3) : ℝ := scale x i * scale x j * at3 (sym s.kij i j) x

/-- `D` are the partial derivatives of `f`. -/
def Grad (f : (Fin 3 → ℝ) → ℝ) (x D : Fin 3 → ℝ) : Prop := ∀ k, HasDerivAt (fun y => f (Function.update x k y)) (D k) (x k)

/-- The equations above. -/
def Moves (s : Slice) (y dy : State31) : Prop :=
  ∃ (dN : Fin 3 → ℝ) (dβ : Fin 3 → Fin 3 → ℝ) (dγ : Fin 3 → Fin 3 → Fin 3 → ℝ),
    Grad (at3 s.lapse) y.x dN ∧ (∀ i, Grad (fun x => coordShift s x i) y.x (dβ i)) ∧ (∀ i j, Grad (fun x => coordCov s x i j) y.x (dγ i j)) ∧
      let N := at3 s.lapse y.x
      let K := coordK s y.x
      let γup := coordCon s y.x
      let Γ : Fin 3 → Fin 3 → Fin 3 → ℝ := fun i j k => ∑ l, γup i l * (dγ l k j + dγ l j k - dγ j k l) / 2
      let V := y.v
      let KVV := ∑ j, ∑ k, K j k * V j * V k
      let VN := ∑ j, V j * dN j
      (∀ i, dy.x i = N * V i - coordShift s y.x i) ∧ dy.energy = y.energy * (N * KVV - VN) ∧
        ∀ i, dy.v i = N * (V i * (VN / N - KVV) + 2 * (∑ j, ∑ k, γup i j * K j k * V k) - ∑ j, ∑ k, Γ i j k * V j * V k) -
          (∑ j, γup i j * dN j) - ∑ j, V j * dβ i j

/-- `f` has the derivatives it comes with at `x`. -/
def IsField3 (f : Scal) (x : Fin 3 → ℝ) : Prop := IsField f ![0, x 0, x 1, x 2]

end Gyoto.Lorene
