import Mathlib.Analysis.Asymptotics.Lemmas
import Mathlib.Analysis.SpecificLimits.Normed
import Mathlib.Tactic.Ring
import Mathlib.Tactic.FieldSimp
import Mathlib.Tactic.LinearCombination
import Mathlib.Tactic.Linarith

/-!
# Functions of a small parameter to the second order
-/

namespace Gyoto.Order2

open Asymptotics Filter Topology

/-- `f a = c0 + c1 a + c2 a² + O(a³)`. -/
def Rep (f : ℝ → ℝ) (c0 c1 c2 : ℝ) : Prop := (fun a => f a - (c0 + c1 * a + c2 * a ^ 2)) =O[𝓝 0] fun a => a ^ 3

variable {f g : ℝ → ℝ} {c0 c1 c2 d0 d1 d2 : ℝ}

theorem Rep.of_eq (h : Rep f c0 c1 c2) (e0 : c0 = d0) (e1 : c1 = d1) (e2 : c2 = d2) : Rep f d0 d1 d2 := by
  subst e0 e1 e2
  exact h

theorem Rep.congr' (h : Rep f c0 c1 c2) (e : ∀ᶠ a in 𝓝 0, f a = g a) : Rep g c0 c1 c2 := by
  refine IsBigO.congr' h ?_ EventuallyEq.rfl
  filter_upwards [e] with a ha
  rw [ha]

theorem Rep.congr (h : Rep f c0 c1 c2) (e : ∀ a, f a = g a) : Rep g c0 c1 c2 := h.congr' (Eventually.of_forall e)

theorem rep_poly (c0 c1 c2 : ℝ) : Rep (fun a => c0 + c1 * a + c2 * a ^ 2) c0 c1 c2 := by
  unfold Rep
  simp only [sub_self]
  exact isBigO_zero _ _

theorem rep_const (c : ℝ) : Rep (fun _ => c) c 0 0 := (rep_poly c 0 0).congr fun a => by ring

theorem rep_id : Rep (fun a => a) 0 1 0 := (rep_poly 0 1 0).congr fun a => by ring

theorem rep_sq : Rep (fun a => a * a) 0 0 1 := (rep_poly 0 0 1).congr fun a => by ring

theorem Rep.add (h : Rep f c0 c1 c2) (k : Rep g d0 d1 d2) : Rep (fun a => f a + g a) (c0 + d0) (c1 + d1) (c2 + d2) := by
  have := IsBigO.add h k
  refine this.congr_left fun a => ?_
  ring

theorem Rep.neg (h : Rep f c0 c1 c2) : Rep (fun a => -f a) (-c0) (-c1) (-c2) := by
  refine (IsBigO.neg_left h).congr_left fun a => ?_
  ring

theorem Rep.sub (h : Rep f c0 c1 c2) (k : Rep g d0 d1 d2) : Rep (fun a => f a - g a) (c0 - d0) (c1 - d1) (c2 - d2) := by
  have := IsBigO.sub h k
  refine this.congr_left fun a => ?_
  ring

theorem poly_tendsto (c0 c1 c2 : ℝ) : Tendsto (fun a : ℝ => c0 + c1 * a + c2 * a ^ 2) (𝓝 0) (𝓝 c0) := by
  have : Continuous fun a : ℝ => c0 + c1 * a + c2 * a ^ 2 := by fun_prop
  have h := this.tendsto 0
  simpa using h

theorem cube_tendsto : Tendsto (fun a : ℝ => a ^ 3) (𝓝 0) (𝓝 0) := by
  have : Continuous fun a : ℝ => a ^ 3 := by fun_prop
  have h := this.tendsto 0
  simpa using h

theorem Rep.tendsto (h : Rep f c0 c1 c2) : Tendsto f (𝓝 0) (𝓝 c0) := by
  have h1 := (IsBigO.trans_tendsto h cube_tendsto).add (poly_tendsto c0 c1 c2)
  simpa using h1

theorem Rep.bounded (h : Rep f c0 c1 c2) : f =O[𝓝 0] fun _ => (1 : ℝ) := h.tendsto.isBigO_one ℝ

theorem poly_mul_cube (q : ℝ → ℝ) (hq : ContinuousAt q 0) : (fun a => q a * a ^ 3) =O[𝓝 0] fun a => a ^ 3 := by
  have := (hq.tendsto.isBigO_one ℝ).mul (isBigO_refl (fun a : ℝ => a ^ 3) (𝓝 0))
  simpa using this

theorem Rep.mul (h : Rep f c0 c1 c2) (k : Rep g d0 d1 d2) :
    Rep (fun a => f a * g a) (c0 * d0) (c0 * d1 + c1 * d0) (c0 * d2 + c1 * d1 + c2 * d0) := by
  unfold Rep
  have h1 := h.bounded.mul k
  have h2 := IsBigO.mul h (rep_poly d0 d1 d2).bounded
  have h3 := poly_mul_cube (fun a => c1 * d2 + c2 * d1 + c2 * d2 * a) (by fun_prop)
  simp only [one_mul, mul_one] at h1 h2
  refine ((h1.add h2).add h3).congr_left fun a => ?_
  ring

theorem Rep.inv (h : Rep f c0 c1 c2) (h0 : c0 ≠ 0) : Rep (fun a => (f a)⁻¹) c0⁻¹ (-c1 / c0 ^ 2) (c1 ^ 2 / c0 ^ 3 - c2 / c0 ^ 2) := by
  have hm := h.mul (rep_poly c0⁻¹ (-c1 / c0 ^ 2) (c1 ^ 2 / c0 ^ 3 - c2 / c0 ^ 2))
  have hm' : Rep (fun a => f a * (c0⁻¹ + -c1 / c0 ^ 2 * a + (c1 ^ 2 / c0 ^ 3 - c2 / c0 ^ 2) * a ^ 2)) 1 0 0 :=
    hm.of_eq (by field_simp) (by field_simp; ring) (by field_simp; ring)
  have hb : (fun a => (f a)⁻¹) =O[𝓝 0] fun _ => (1 : ℝ) := (h.tendsto.inv₀ h0).isBigO_one ℝ
  have hne : ∀ᶠ a in 𝓝 0, f a ≠ 0 := h.tendsto.eventually_ne h0
  have h1 := hb.mul hm'.neg_left
  simp only [one_mul] at h1
  refine h1.congr' ?_ EventuallyEq.rfl
  filter_upwards [hne] with a ha
  field_simp
  ring

theorem Rep.div (h : Rep f c0 c1 c2) (k : Rep g d0 d1 d2) (h0 : d0 ≠ 0) :
    Rep (fun a => f a / g a) (c0 / d0) ((c1 * d0 - c0 * d1) / d0 ^ 2)
      ((c2 * d0 ^ 2 - c1 * d0 * d1 - c0 * d2 * d0 + c0 * d1 ^ 2) / d0 ^ 3) := by
  refine ((h.mul (k.inv h0)).of_eq ?_ ?_ ?_).congr fun a => (div_eq_mul_inv _ _).symm
  · field_simp
  · field_simp; ring
  · field_simp; ring

theorem rep_cube (c0 c1 c2 : ℝ) {q : ℝ → ℝ} (hq : ContinuousAt q 0) : Rep (fun a => c0 + c1 * a + c2 * a ^ 2 + q a * a ^ 3) c0 c1 c2 := by
  refine (poly_mul_cube q hq).congr_left fun a => ?_
  ring

/-- The same second order. -/
theorem Rep.agree (h : Rep f c0 c1 c2) (k : Rep g c0 c1 c2) : (fun a => f a - g a) =O[𝓝 0] fun a => a ^ 3 := by
  refine (IsBigO.sub h k).congr_left fun a => ?_
  ring

/-- The same first order. -/
theorem Rep.agree1 (h : Rep f c0 c1 c2) (k : Rep g c0 c1 d2) : (fun a => f a - g a) =O[𝓝 0] fun a => a ^ 2 := by
  have h32 : (fun a : ℝ => a ^ 3) =O[𝓝 0] fun a => a ^ 2 := by
    have := ((continuous_id.tendsto (0 : ℝ)).isBigO_one ℝ).mul (isBigO_refl (fun a : ℝ => a ^ 2) (𝓝 0))
    simp only [one_mul] at this
    refine this.congr_left fun a => ?_
    show a * a ^ 2 = a ^ 3
    ring
  have h1 := (IsBigO.sub h k).trans h32
  have h2 : (fun a : ℝ => (c2 - d2) * a ^ 2) =O[𝓝 0] fun a => a ^ 2 := isBigO_const_mul_self _ _ _
  refine (h1.add h2).congr_left fun a => ?_
  ring

/-- A function whose second order is not zero is not of the third order. -/
theorem Rep.not_small (h : Rep f 0 0 c2) (h2 : c2 ≠ 0) : ¬ f =O[𝓝 0] fun a => a ^ 3 := by
  intro hf
  have h1 : (fun a : ℝ => c2 * a ^ 2) =O[𝓝 0] fun a => a ^ 3 := by
    refine (hf.sub h).congr_left fun a => ?_
    ring
  obtain ⟨C, hC⟩ := h1.bound
  have h3 : ∀ᶠ a in 𝓝[≠] (0 : ℝ), |c2| ≤ C * |a| := by
    filter_upwards [hC.filter_mono nhdsWithin_le_nhds, self_mem_nhdsWithin] with a ha hne
    rw [Real.norm_eq_abs, Real.norm_eq_abs, abs_mul, abs_pow, abs_pow] at ha
    have hp : 0 < |a| := abs_pos.2 hne
    have hp2 : 0 < |a| ^ 2 := by positivity
    have : |c2| * |a| ^ 2 ≤ C * |a| * |a| ^ 2 := by
      refine ha.trans (le_of_eq ?_)
      ring
    exact le_of_mul_le_mul_right this hp2
  have h4 : Tendsto (fun a : ℝ => C * |a|) (𝓝[≠] 0) (𝓝 0) := by
    have : Continuous fun a : ℝ => C * |a| := by fun_prop
    have := (this.tendsto 0).mono_left (nhdsWithin_le_nhds (s := {0}ᶜ))
    simpa using this
  have h5 : |c2| ≤ 0 := ge_of_tendsto h4 h3
  exact h2 (abs_eq_zero.1 (le_antisymm h5 (abs_nonneg _)))

end Gyoto.Order2
