import Mathlib.Analysis.Calculus.MeanValue
import Mathlib.Analysis.Calculus.FDeriv.Mul
import Mathlib.Analysis.Calculus.Deriv.Pow
import Mathlib.Analysis.Analytic.Basic
import Mathlib.Analysis.Normed.Module.Multilinear.Curry
import Mathlib.Tactic.Module

/-!
# Local error of the classical Runge-Kutta method of order 4

For a vector field with an expansion of order 3, one step of the method agrees with the exact solution up to a multiple of the fifth
power of the step.
-/

namespace Gyoto.Rk4

open Topology Asymptotics Filter

variable {E : Type} [NormedAddCommGroup E] [NormedSpace ℝ E]

/-- `u h` is bounded by a multiple of `|h|^m` for small `h`. -/
def Small (m : Nat) (u : ℝ → E) : Prop := u =O[𝓝 0] fun h : ℝ => h ^ m

theorem Small.add {m : Nat} {u v : ℝ → E} (hu : Small m u) (hv : Small m v) : Small m (fun h => u h + v h) := IsBigO.add hu hv
theorem Small.sub {m : Nat} {u v : ℝ → E} (hu : Small m u) (hv : Small m v) : Small m (fun h => u h - v h) := IsBigO.sub hu hv

theorem Small.mono {m k : Nat} {u : ℝ → E} (hu : Small m u) (h : k ≤ m) : Small k u := by
  obtain ⟨j, rfl⟩ := Nat.exists_eq_add_of_le h
  refine hu.trans ?_
  have : (fun h : ℝ => h ^ j) =O[𝓝 0] fun _ : ℝ => (1 : ℝ) :=
    (((continuous_id.pow j).tendsto (0 : ℝ)).isBigO_one ℝ)
  have h2 := (isBigO_refl (fun h : ℝ => h ^ k) (𝓝 0)).mul this
  simpa only [pow_add, mul_one] using h2

theorem Small.congr {m : Nat} {u v : ℝ → E} (hu : Small m u) (h : ∀ t, v t = u t) : Small m v := by
  have : v = u := funext h
  rw [this]; exact hu

theorem small_pow (m : Nat) (a : E) : Small m (fun h => h ^ m • a) := by
  have h2 := (isBigO_refl (fun h : ℝ => h ^ m) (𝓝 0)).smul (isBigO_refl (fun _ : ℝ => a) (𝓝 0))
  refine h2.trans ?_
  refine IsBigO.of_bound ‖a‖ (Eventually.of_forall fun h => ?_)
  rw [norm_smul, mul_comm]

theorem Small.smul {m : Nat} {u : ℝ → E} (hu : Small m u) (k : Nat) : Small (m + k) (fun h => h ^ k • u h) := by
  have h2 := (isBigO_refl (fun h : ℝ => h ^ k) (𝓝 0)).smul hu
  refine h2.trans ?_
  refine IsBigO.of_bound 1 (Eventually.of_forall fun h => ?_)
  rw [one_mul, smul_eq_mul, pow_add, mul_comm]

theorem Small.const {m : Nat} {u : ℝ → E} (hu : Small m u) (c : ℝ) : Small m (fun h => c • u h) := IsBigO.const_smul_left hu c

theorem Small.map {m : Nat} {u : ℝ → E} (hu : Small m u) (A : E →L[ℝ] E) : Small m (fun h => A (u h)) :=
  (A.isBigO_comp u (𝓝 0)).trans hu

theorem Small.map2 {m k : Nat} {u v : ℝ → E} (hu : Small m u) (hv : Small k v) (B : E →L[ℝ] E →L[ℝ] E) :
    Small (m + k) (fun h => B (u h) (v h)) := by
  obtain ⟨c1, h1⟩ := IsBigO.bound hu
  obtain ⟨c2, h2⟩ := IsBigO.bound hv
  refine IsBigO.of_bound (‖B‖ * c1 * c2) ?_
  filter_upwards [h1, h2] with h e1 e2
  refine (B.le_opNorm₂ (u h) (v h)).trans ?_
  have n1 := norm_nonneg (u h)
  have n2 := norm_nonneg (v h)
  have nB := norm_nonneg B
  rw [pow_add, norm_mul]
  calc ‖B‖ * ‖u h‖ * ‖v h‖ ≤ ‖B‖ * (c1 * ‖h ^ m‖) * (c2 * ‖h ^ k‖) :=
        mul_le_mul (mul_le_mul_of_nonneg_left e1 nB) e2 n2 (mul_nonneg nB (n1.trans e1))
    _ = _ := by ring

set_option maxSynthPendingDepth 3 in
theorem Small.map3 {m k j : Nat} {u v w : ℝ → E} (hu : Small m u) (hv : Small k v) (hw : Small j w)
    (C : E →L[ℝ] E →L[ℝ] E →L[ℝ] E) : Small (m + k + j) (fun h => C (u h) (v h) (w h)) := by
  obtain ⟨c1, h1⟩ := IsBigO.bound hu
  obtain ⟨c2, h2⟩ := IsBigO.bound hv
  obtain ⟨c3, h3⟩ := IsBigO.bound hw
  refine IsBigO.of_bound (‖C‖ * c1 * c2 * c3) ?_
  filter_upwards [h1, h2, h3] with h e1 e2 e3
  have n1 := norm_nonneg (u h)
  have n2 := norm_nonneg (v h)
  have n3 := norm_nonneg (w h)
  have nC := norm_nonneg C
  have b : ‖C (u h) (v h) (w h)‖ ≤ ‖C‖ * ‖u h‖ * ‖v h‖ * ‖w h‖ :=
    ((C (u h) (v h)).le_opNorm (w h)).trans (mul_le_mul_of_nonneg_right (C.le_opNorm₂ (u h) (v h)) n3)
  refine b.trans ?_
  rw [pow_add, pow_add, norm_mul, norm_mul]
  have p12 : ‖C‖ * ‖u h‖ * ‖v h‖ ≤ ‖C‖ * (c1 * ‖h ^ m‖) * (c2 * ‖h ^ k‖) :=
    mul_le_mul (mul_le_mul_of_nonneg_left e1 nC) e2 n2 (mul_nonneg nC (n1.trans e1))
  calc ‖C‖ * ‖u h‖ * ‖v h‖ * ‖w h‖ ≤ ‖C‖ * (c1 * ‖h ^ m‖) * (c2 * ‖h ^ k‖) * (c3 * ‖h ^ j‖) :=
        mul_le_mul p12 e3 n3 (mul_nonneg (mul_nonneg nC (n1.trans e1)) (n2.trans e2))
    _ = _ := by ring

/-- Integration gains one power. -/
theorem Small.integrate {m : Nat} {g g' : ℝ → E} (hg : ∀ᶠ h in 𝓝 0, HasDerivAt g (g' h) h) (h0 : g 0 = 0) (hs : Small m g') :
    Small (m + 1) g := by
  obtain ⟨c, hc⟩ := IsBigO.bound hs
  obtain ⟨ε, hε, hall⟩ := Metric.eventually_nhds_iff.1 (hg.and hc)
  refine IsBigO.of_bound c ?_
  rw [Metric.eventually_nhds_iff]
  refine ⟨ε, hε, fun {h} hh => ?_⟩
  rw [Real.dist_eq, sub_zero] at hh
  have key := Convex.norm_image_sub_le_of_norm_hasDerivWithin_le (f := g) (f' := g') (s := Set.Icc (-|h|) |h|) (x := 0) (y := h)
    (C := c * |h| ^ m) ?_ ?_ (convex_Icc _ _) ⟨by simp, by simp⟩ ⟨neg_abs_le h, le_abs_self h⟩
  · rw [h0, sub_zero, sub_zero, Real.norm_eq_abs, mul_assoc, ← pow_succ] at key
    rw [norm_pow, Real.norm_eq_abs]
    exact key
  · intro x hx
    exact (hall (by rw [Real.dist_eq, sub_zero]; exact (abs_le.2 hx).trans_lt hh)).1.hasDerivWithinAt
  · intro x hx
    have hxa : |x| ≤ |h| := abs_le.2 hx
    have := (hall (by rw [Real.dist_eq, sub_zero]; exact hxa.trans_lt hh)).2
    rw [norm_pow, Real.norm_eq_abs] at this
    by_cases hc0 : 0 ≤ c
    · exact this.trans (mul_le_mul_of_nonneg_left (pow_le_pow_left₀ (abs_nonneg x) hxa m) hc0)
    · exfalso
      -- a bound with a negative constant is impossible away from 0
      have hpos : 0 < ε / 2 := by linarith
      have h3 := (hall (y := ε / 2) (by rw [Real.dist_eq, sub_zero, abs_of_pos hpos]; linarith)).2
      rw [norm_pow, Real.norm_eq_abs, abs_of_pos hpos] at h3
      have := norm_nonneg (g' (ε / 2))
      have := mul_neg_of_neg_of_pos (not_le.1 hc0) (pow_pos hpos m)
      linarith

/-- The expansion of `F` at `x0` to order 3. -/
def Expands (F : E → E) (x0 : E) (A : E →L[ℝ] E) (B : E →L[ℝ] E →L[ℝ] E) (C : E →L[ℝ] E →L[ℝ] E →L[ℝ] E) : Prop :=
  (fun u => F (x0 + u) - (F x0 + A u + B u u + C u u u)) =O[𝓝 0] fun u => ‖u‖ ^ 4

/-- Expansion of `F` along a curve known up to `h^m`. -/
theorem jet {F : E → E} {x0 : E} {A : E →L[ℝ] E} {B : E →L[ℝ] E →L[ℝ] E} {C : E →L[ℝ] E →L[ℝ] E →L[ℝ] E} (hF : Expands F x0 A B C)
    {m : Nat} (hm : 1 ≤ m) (hm4 : m ≤ 4) {u : ℝ → E} {a1 a2 a3 : E}
    (hu : Small m (fun h => u h - (h ^ 1 • a1 + h ^ 2 • a2 + h ^ 3 • a3))) :
    Small m (fun h => F (x0 + u h) - (F x0 + h ^ 1 • A a1 + h ^ 2 • (A a2 + B a1 a1) +
      h ^ 3 • (A a3 + B a1 a2 + B a2 a1 + C a1 a1 a1))) := by
  set p : ℝ → E := fun h => h ^ 1 • a1 + h ^ 2 • a2 + h ^ 3 • a3 with hp
  set e : ℝ → E := fun h => u h - p h with he
  have se : Small m e := hu
  have sp : Small 1 p := ((small_pow 1 a1).add ((small_pow 2 a2).mono (by norm_num))).add ((small_pow 3 a3).mono (by norm_num))
  have su : Small 1 u := ((se.mono hm).add sp).congr fun t => by simp only [he]; abel
  have tu : Tendsto u (𝓝 0) (𝓝 0) := by
    refine IsBigO.trans_tendsto su ?_
    have : Tendsto (fun h : ℝ => h ^ 1) (𝓝 0) (𝓝 (0 ^ 1)) := (continuous_pow 1).tendsto 0
    simpa using this
  have s1 : Small 4 (fun h => F (x0 + u h) - (F x0 + A (u h) + B (u h) (u h) + C (u h) (u h) (u h))) := by
    have h1 := hF.comp_tendsto tu
    refine IsBigO.trans h1 ?_
    have h2 := (IsBigO.pow (IsBigO.norm_left su) 4)
    refine IsBigO.trans h2 ?_
    refine IsBigO.of_bound 1 (Eventually.of_forall fun h => ?_)
    simp
  have s0 : Small 0 p := sp.mono (by norm_num)
  have s0u : Small 0 u := su.mono (by norm_num)
  have q1 := se.map A
  have q2 := se.map2 s0u B
  have q3 := s0.map2 se B
  have q4 := (se.map3 s0u s0u C)
  have q5 := (s0.map3 se s0u C)
  have q6 := (s0.map3 s0 se C)
  simp only [Nat.add_zero, Nat.zero_add] at q2 q3 q4 q5 q6
  have r1 := (small_pow 4 (B a1 a3 + B a2 a2 + B a3 a1 + C a1 a1 a2 + C a1 a2 a1 + C a2 a1 a1)).mono hm4
  have r2 := (small_pow 5 (B a2 a3 + B a3 a2 + C a1 a1 a3 + C a1 a3 a1 + C a3 a1 a1 + C a1 a2 a2 + C a2 a1 a2 + C a2 a2 a1)).mono
    (hm4.trans (by norm_num : 4 ≤ 5))
  have r3 := (small_pow 6 (B a3 a3 + C a2 a2 a2 + C a1 a2 a3 + C a1 a3 a2 + C a2 a1 a3 + C a2 a3 a1 + C a3 a1 a2 + C a3 a2 a1)).mono
    (hm4.trans (by norm_num : 4 ≤ 6))
  have r4 := (small_pow 7 (C a1 a3 a3 + C a3 a1 a3 + C a3 a3 a1 + C a2 a2 a3 + C a2 a3 a2 + C a3 a2 a2)).mono
    (hm4.trans (by norm_num : 4 ≤ 7))
  have r5 := (small_pow 8 (C a2 a3 a3 + C a3 a2 a3 + C a3 a3 a2)).mono (hm4.trans (by norm_num : 4 ≤ 8))
  have r6 := (small_pow 9 (C a3 a3 a3)).mono (hm4.trans (by norm_num : 4 ≤ 9))
  refine ((((((((((((s1.mono hm4).add q1).add q2).add q3).add q4).add q5).add q6).add r1).add r2).add r3).add r4).add r5 |>.add r6).congr
    fun h => ?_
  have hue : u h = p h + e h := by simp only [he]; abel
  have expand : A (u h) + B (u h) (u h) + C (u h) (u h) (u h) = A (p h) + B (p h) (p h) + C (p h) (p h) (p h) +
      (A (e h) + B (e h) (u h) + B (p h) (e h) + C (e h) (u h) (u h) + C (p h) (e h) (u h) + C (p h) (p h) (e h)) := by
    rw [hue]
    simp only [map_add, add_apply]
    abel
  have poly : A (p h) + B (p h) (p h) + C (p h) (p h) (p h) = (h ^ 1 • A a1 + h ^ 2 • (A a2 + B a1 a1) +
      h ^ 3 • (A a3 + B a1 a2 + B a2 a1 + C a1 a1 a1)) +
      (h ^ 4 • (B a1 a3 + B a2 a2 + B a3 a1 + C a1 a1 a2 + C a1 a2 a1 + C a2 a1 a1) +
      h ^ 5 • (B a2 a3 + B a3 a2 + C a1 a1 a3 + C a1 a3 a1 + C a3 a1 a1 + C a1 a2 a2 + C a2 a1 a2 + C a2 a2 a1) +
      h ^ 6 • (B a3 a3 + C a2 a2 a2 + C a1 a2 a3 + C a1 a3 a2 + C a2 a1 a3 + C a2 a3 a1 + C a3 a1 a2 + C a3 a2 a1) +
      h ^ 7 • (C a1 a3 a3 + C a3 a1 a3 + C a3 a3 a1 + C a2 a2 a3 + C a2 a3 a2 + C a3 a2 a2) +
      h ^ 8 • (C a2 a3 a3 + C a3 a2 a3 + C a3 a3 a2) + h ^ 9 • C a3 a3 a3) := by
    simp only [hp, map_add, map_smul, add_apply, smul_apply, smul_smul, smul_add]
    module
  have final : F (x0 + u h) - (F x0 + h ^ 1 • A a1 + h ^ 2 • (A a2 + B a1 a1) + h ^ 3 • (A a3 + B a1 a2 + B a2 a1 + C a1 a1 a1)) =
      F (x0 + u h) - (F x0 + (A (u h) + B (u h) (u h) + C (u h) (u h) (u h))) +
      ((A (u h) + B (u h) (u h) + C (u h) (u h) (u h)) - (h ^ 1 • A a1 + h ^ 2 • (A a2 + B a1 a1) +
      h ^ 3 • (A a3 + B a1 a2 + B a2 a1 + C a1 a1 a1))) := by abel
  rw [final]
  conv_lhs => rw [expand, poly]
  have e2 : F (x0 + u h) - (F x0 + A (u h) + B (u h) (u h) + C (u h) (u h) (u h)) =
      F (x0 + u h) - (F x0 + (A (u h) + B (u h) (u h) + C (u h) (u h) (u h))) := by abel
  rw [e2, expand, poly]
  abel

theorem hasDerivAt_pow_smul (n : Nat) (c : ℝ) (a : E) (h : ℝ) : HasDerivAt (fun h : ℝ => (c * h ^ (n + 1)) • a)
    ((c * ((n + 1 : ℕ) * h ^ n)) • a) h := by
  have := ((hasDerivAt_pow (n + 1) h).const_mul c).smul_const a
  simpa using this

/-- Expansion of the exact solution. -/
theorem exact {F : E → E} {x0 : E} {A : E →L[ℝ] E} {B : E →L[ℝ] E →L[ℝ] E} {C : E →L[ℝ] E →L[ℝ] E →L[ℝ] E} (hF : Expands F x0 A B C)
    {y : ℝ → E} (hy0 : y 0 = x0) (hy : ∀ᶠ h in 𝓝 0, HasDerivAt y (F (y h)) h) :
    Small 5 (fun h => y h - (x0 + h • F x0 + (h ^ 2 / 2) • A (F x0) + (h ^ 3 / 6) • (A (A (F x0)) + (2 : ℝ) • B (F x0) (F x0)) +
      (h ^ 4 / 24) • (A (A (A (F x0))) + (2 : ℝ) • A (B (F x0) (F x0)) + (3 : ℝ) • B (F x0) (A (F x0)) +
        (3 : ℝ) • B (A (F x0)) (F x0) + (6 : ℝ) • C (F x0) (F x0) (F x0)))) := by
  have yd : HasDerivAt y (F (y 0)) 0 := hy.self_of_nhds
  have i0 : Small 1 (fun h => y h - x0) := by
    have := yd.isBigO_sub
    rw [hy0] at this
    simpa [Small] using this
  -- one more order at a time
  have step : ∀ (m : Nat), 1 ≤ m → m ≤ 4 → ∀ a1 a2 a3 : E, Small m (fun h => (y h - x0) - (h ^ 1 • a1 + h ^ 2 • a2 + h ^ 3 • a3)) →
      Small (m + 1) (fun h => (y h - x0) - ((1 * h ^ (0 + 1)) • F x0 + ((1 / 2) * h ^ (1 + 1)) • A a1 +
        ((1 / 3) * h ^ (2 + 1)) • (A a2 + B a1 a1) + ((1 / 4) * h ^ (3 + 1)) • (A a3 + B a1 a2 + B a2 a1 + C a1 a1 a1))) := by
    intro m hm hm4 a1 a2 a3 hu
    have hj := jet hF hm hm4 hu
    refine Small.integrate (g' := fun h => F (y h) - ((1 * ((0 + 1 : ℕ) * h ^ 0)) • F x0 + ((1 / 2) * ((1 + 1 : ℕ) * h ^ 1)) • A a1 +
        ((1 / 3) * ((2 + 1 : ℕ) * h ^ 2)) • (A a2 + B a1 a1) +
        ((1 / 4) * ((3 + 1 : ℕ) * h ^ 3)) • (A a3 + B a1 a2 + B a2 a1 + C a1 a1 a1))) ?_ ?_ ?_
    · filter_upwards [hy] with h hh
      exact (hh.sub_const x0).sub ((((hasDerivAt_pow_smul 0 1 _ h).add (hasDerivAt_pow_smul 1 (1 / 2) _ h)).add
        (hasDerivAt_pow_smul 2 (1 / 3) _ h)).add (hasDerivAt_pow_smul 3 (1 / 4) _ h))
    · simp [hy0]
    · refine hj.congr fun h => ?_
      have : x0 + (y h - x0) = y h := by abel
      rw [this]
      congr 1
      push_cast
      module
  have c0 := step 1 (by norm_num) (by norm_num) 0 0 0 (i0.congr fun t => by simp)
  have c1 := step 2 (by norm_num) (by norm_num) (F x0) 0 0 (c0.congr fun t => by simp)
  have c2 := step 3 (by norm_num) (by norm_num) (F x0) ((1 / 2 : ℝ) • A (F x0)) 0
    (((c1.add (small_pow 3 ((1 / 3 : ℝ) • B (F x0) (F x0)))).add ((small_pow 4 ((1 / 4 : ℝ) • C (F x0) (F x0) (F x0))).mono
      (by norm_num))).congr fun t => by
        simp only [map_zero, zero_apply, smul_zero, add_zero, zero_add]; module)
  have c3 := step 4 (by norm_num) (by norm_num) (F x0) ((1 / 2 : ℝ) • A (F x0))
    ((1 / 3 : ℝ) • ((1 / 2 : ℝ) • A (A (F x0)) + B (F x0) (F x0)))
    ((c2.add (small_pow 4 ((1 / 4 : ℝ) • ((1 / 2 : ℝ) • B (F x0) (A (F x0)) + (1 / 2 : ℝ) • B (A (F x0)) (F x0) +
      C (F x0) (F x0) (F x0))))).congr fun t => by
        simp only [map_zero, map_smul, map_add, zero_apply, smul_apply, add_zero, zero_add]; module)
  refine c3.congr fun t => ?_
  simp only [map_zero, map_smul, map_add, zero_apply, smul_apply, add_zero, zero_add]
  module

/-- One step of the classical method. -/
noncomputable def stage2 (F : E → E) (x0 : E) (h : ℝ) : E := F (x0 + (h / 2) • F x0)
noncomputable def stage3 (F : E → E) (x0 : E) (h : ℝ) : E := F (x0 + (h / 2) • stage2 F x0 h)
noncomputable def stage4 (F : E → E) (x0 : E) (h : ℝ) : E := F (x0 + h • stage3 F x0 h)

/-- The step agrees with the exact solution up to the fifth power of `h`. -/
theorem local_error {F : E → E} {x0 : E} {A : E →L[ℝ] E} {B : E →L[ℝ] E →L[ℝ] E} {C : E →L[ℝ] E →L[ℝ] E →L[ℝ] E}
    (hF : Expands F x0 A B C) {y : ℝ → E} (hy0 : y 0 = x0) (hy : ∀ᶠ h in 𝓝 0, HasDerivAt y (F (y h)) h) :
    Small 5 (fun h => x0 + (h / 6) • F x0 + (h / 3) • stage2 F x0 h + (h / 3) • stage3 F x0 h + (h / 6) • stage4 F x0 h - y h) := by
  have hex := exact hF hy0 hy
  have k2 := jet hF (m := 4) (by norm_num) le_rfl (u := fun h => (h / 2) • F x0) (a1 := (1 / 2 : ℝ) • F x0) (a2 := 0) (a3 := 0)
    ((small_pow 4 (0 : E)).congr fun h => by simp only [smul_zero, add_zero]; module)
  simp only [map_zero, map_smul, map_add, zero_apply, smul_apply, add_zero, zero_add] at k2
  have k3 := jet hF (m := 4) (by norm_num) le_rfl (u := fun h => (h / 2) • stage2 F x0 h) (a1 := (1 / 2 : ℝ) • F x0)
    (a2 := (1 / 4 : ℝ) • A (F x0)) (a3 := (1 / 8 : ℝ) • B (F x0) (F x0))
    ((((k2.smul 1).mono (by norm_num : 4 ≤ 5)).const (1 / 2) |>.add (small_pow 4 ((1 / 16 : ℝ) • C (F x0) (F x0) (F x0)))).congr
      fun h => by unfold stage2; module)
  simp only [map_zero, map_smul, map_add, zero_apply, smul_apply, add_zero, zero_add] at k3
  have k4 := jet hF (m := 4) (by norm_num) le_rfl (u := fun h => h • stage3 F x0 h) (a1 := F x0)
    (a2 := (1 / 2 : ℝ) • A (F x0)) (a3 := (1 / 4 : ℝ) • A (A (F x0)) + (1 / 4 : ℝ) • B (F x0) (F x0))
    ((((k3.smul 1).mono (by norm_num : 4 ≤ 5)) |>.add (small_pow 4 ((1 / 8 : ℝ) • A (B (F x0) (F x0)) +
      (1 / 8 : ℝ) • B (F x0) (A (F x0)) + (1 / 8 : ℝ) • B (A (F x0)) (F x0) + (1 / 8 : ℝ) • C (F x0) (F x0) (F x0)))).congr
      fun h => by unfold stage3; module)
  simp only [map_zero, map_smul, map_add, zero_apply, smul_apply, add_zero, zero_add] at k4
  refine ((((k2.smul 1).const (1 / 3)).add ((k3.smul 1).const (1 / 3))).add ((k4.smul 1).const (1 / 6)) |>.sub hex).congr fun h => ?_
  unfold stage4 stage3 stage2
  module

/-- Analytic vector fields have an expansion. -/
theorem expands_of_analytic {F : E → E} {x0 : E} (hF : AnalyticAt ℝ F x0) : ∃ A B C, Expands F x0 A B C := by
  obtain ⟨p, hp⟩ := hF
  have h4 := hp.isBigO_sub_partialSum_pow 4
  let L1 : (E [×1]→L[ℝ] E) →L[ℝ] (E →L[ℝ] E) := (continuousMultilinearCurryFin1 ℝ E E).toContinuousLinearEquiv.toContinuousLinearMap
  let L2 : (E [×2]→L[ℝ] E) →L[ℝ] (E →L[ℝ] E →L[ℝ] E) := (ContinuousLinearMap.compL ℝ E _ _ L1).comp
    (continuousMultilinearCurryLeftEquiv ℝ (fun _ : Fin 2 => E) E).toContinuousLinearEquiv.toContinuousLinearMap
  let L3 : E →L[ℝ] E →L[ℝ] E →L[ℝ] E := L2.comp (p 3).curryLeft
  refine ⟨L1 (p 1), L2 (p 2), L3, ?_⟩
  refine h4.congr_left fun u => ?_
  have e0 : p 0 (fun _ => u) = F x0 := hp.coeff_zero _
  have e1 : L1 (p 1) u = p 1 (fun _ => u) := by
    show p 1 _ = p 1 _
    congr 1
  have e2 : L2 (p 2) u u = p 2 (fun _ => u) := by
    show p 2 _ = p 2 _
    congr 1; funext i; fin_cases i <;> rfl
  have e3 : L3 u u u = p 3 (fun _ => u) := by
    show p 3 _ = p 3 _
    congr 1; funext i; fin_cases i <;> rfl
  rw [e1, e2, e3, ← e0]
  simp only [FormalMultilinearSeries.partialSum, Finset.sum_range_succ, Finset.sum_range_zero, zero_add]

end Gyoto.Rk4
