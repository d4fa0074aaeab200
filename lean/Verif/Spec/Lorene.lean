import Verif.Model.Lorene
import Verif.Spec.Christoffel

/-!
# What the fields of a numerical metric are supposed to be

Written with the coordinate components: those of an orthonormal basis `e_i` differ from them by the factors `1`, `r` and `r sin θ`.
-/

namespace Gyoto.Lorene

open Gyoto.MetricAlg Gyoto.Spacetime

/-- `f` is a field that has the derivatives it comes with, at `p`. -/
def IsField (f : Scal) (p : Vec) : Prop :=
  HasDerivAt (fun x => f.val x (p 2) (p 3)) (f.dr (p 1) (p 2) (p 3)) (p 1) ∧
    HasDerivAt (fun x => f.val (p 1) x (p 3)) (f.dt (p 1) (p 2) (p 3)) (p 2) ∧
    HasDerivAt (fun x => f.val (p 1) (p 2) x) (Real.sin (p 2) * f.stdp (p 1) (p 2) (p 3)) (p 3)

/-- `f` does not depend on the longitude. -/
def Axisymmetric (f : Scal) : Prop := ∀ r th ph ph', f.val r th ph = f.val r th ph'

/-- Axisymmetric, with a shift along the longitude only and a diagonal spatial metric with its inverse. -/
structure Circular (s : Slice) (p : Vec) : Prop where
  lapse : IsField s.lapse p
  shift : IsField (s.shift 2) p
  gcov : ∀ i, IsField (s.gcov i i) p
  axiLapse : Axisymmetric s.lapse
  axiShift : Axisymmetric (s.shift 2)
  axiGcov : ∀ i, Axisymmetric (s.gcov i i)
  noShift : ∀ r th ph, (s.shift 0).val r th ph = 0 ∧ (s.shift 1).val r th ph = 0
  inverse : ∀ i, (s.gcov i i).val (p 1) (p 2) (p 3) * (s.gcon i i).val (p 1) (p 2) (p 3) = 1
  lapse0 : s.lapse.val (p 1) (p 2) (p 3) ≠ 0
  offAxis : p 1 ≠ 0 ∧ Real.sin (p 2) ≠ 0

/-- The field `kij` is the extrinsic curvature of the slices: `K_{iφ} = γ_{φφ} ∂_i β^φ / (2 N)` in coordinates, where
`γ_{φφ} = (r sin θ)² γ_{33}`, `β^φ = β_3 / (r sin θ)`, `K_{rφ} = r sin θ k_{13}` and `K_{θφ} = r² sin θ k_{23}`. -/
def IsExtrinsic (s : Slice) (p : Vec) : Prop :=
  ∃ Dr Dt, HasDerivAt (fun x => (s.shift 2).val x (p 2) (p 3) / (x * Real.sin (p 2))) Dr (p 1) ∧
    HasDerivAt (fun x => (s.shift 2).val (p 1) x (p 3) / (p 1 * Real.sin x)) Dt (p 2) ∧
    p 1 * Real.sin (p 2) * (s.kij 0 2).val (p 1) (p 2) (p 3) =
      (p 1 * Real.sin (p 2)) ^ 2 * (s.gcov 2 2).val (p 1) (p 2) (p 3) * Dr / (2 * s.lapse.val (p 1) (p 2) (p 3)) ∧
    p 1 ^ 2 * Real.sin (p 2) * (s.kij 1 2).val (p 1) (p 2) (p 3) =
      (p 1 * Real.sin (p 2)) ^ 2 * (s.gcov 2 2).val (p 1) (p 2) (p 3) * Dt / (2 * s.lapse.val (p 1) (p 2) (p 3))

/-- A constant field. -/
noncomputable def const (c : ℝ) : Scal := ⟨fun _ _ _ => c, fun _ _ _ => 0, fun _ _ _ => 0, fun _ _ _ => 0⟩

/-- Flat space seen by rotating observers: lapse one, `β^φ = Ω`. -/
noncomputable def rotatingFrame (Ω : ℝ) : Slice where
  lapse := const 1
  shift := ![const 0, const 0, ⟨fun r th _ => Ω * r * Real.sin th, fun _ th _ => Ω * Real.sin th, fun r th _ => Ω * r * Real.cos th, fun _ _ _ => 0⟩]
  gcov := fun i j => if i = j then const 1 else const 0
  gcon := fun i j => if i = j then const 1 else const 0
  kij := fun _ _ => const 0

end Gyoto.Lorene
