import Verif.Spec.Trapezoid
import Mathlib.Analysis.SpecialFunctions.Integrals.Basic
import Mathlib.Analysis.Convex.Function
import Mathlib.Tactic.Linarith
import Mathlib.Tactic.FieldSimp

/-! # Facts about the trapezoids -/

namespace Gyoto.Spec

open Finset Set MeasureTheory

/-- The sum at the middles of the intervals. -/
noncomputable def middles (f : ℝ → ℝ) (a b : ℝ) (n : ℕ) : ℝ :=
  ∑ i ∈ range n, f (a + (b - a) / n / 2 + i * ((b - a) / n)) * ((b - a) / n)

theorem middle_eq (a b : ℝ) (n i : ℕ) : a + (b - a) / n / 2 + i * ((b - a) / n) = (point a b n i + point a b n (i + 1)) / 2 := by
  unfold point; push_cast; ring

theorem point_even (a b : ℝ) (n i : ℕ) : point a b (2 * n) (2 * i) = point a b n i := by
  unfold point
  push_cast
  rcases Nat.eq_zero_or_pos n with rfl | hn
  · simp
  · have : (n : ℝ) ≠ 0 := by positivity
    field_simp

theorem point_odd (a b : ℝ) {n : ℕ} (hn : 0 < n) (i : ℕ) : point a b (2 * n) (2 * i + 1) = (point a b n i + point a b n (i + 1)) / 2 := by
  unfold point
  push_cast
  have : (n : ℝ) ≠ 0 := by positivity
  field_simp
  ring

/-- Twice as many trapezoids. -/
theorem trapezoids_double (f : ℝ → ℝ) (a b : ℝ) {n : ℕ} (hn : 0 < n) : trapezoids f a b (2 * n) = (trapezoids f a b n + middles f a b n) / 2 := by
  have key : ∀ m, ∑ i ∈ range (2 * m), (f (point a b (2 * n) i) + f (point a b (2 * n) (i + 1))) / 2 * ((b - a) / (2 * n : ℕ)) =
      (∑ i ∈ range m, (f (point a b n i) + f (point a b n (i + 1))) / 2 * ((b - a) / n) +
        ∑ i ∈ range m, f (a + (b - a) / n / 2 + i * ((b - a) / n)) * ((b - a) / n)) / 2 := by
    intro m
    induction m with
    | zero => simp
    | succ m ih =>
      rw [show 2 * (m + 1) = 2 * m + 1 + 1 by ring, sum_range_succ, sum_range_succ, ih, sum_range_succ, sum_range_succ, middle_eq,
        show 2 * m + 1 + 1 = 2 * (m + 1) by ring, point_even, point_even, point_odd a b hn]
      have : (b - a) / ((2 * n : ℕ) : ℝ) = (b - a) / n / 2 := by push_cast; field_simp
      rw [this]
      ring
  exact key n

theorem point_zero (a b : ℝ) (n : ℕ) : point a b n 0 = a := by simp [point]

theorem point_last (a b : ℝ) {n : ℕ} (hn : 0 < n) : point a b n n = b := by
  unfold point
  have : (n : ℝ) ≠ 0 := by positivity
  field_simp
  ring

theorem point_mono {a b : ℝ} (hab : a ≤ b) (n : ℕ) {i j : ℕ} (h : i ≤ j) : point a b n i ≤ point a b n j := by
  unfold point
  have : (0 : ℝ) ≤ (b - a) / n := div_nonneg (by linarith) (by positivity)
  have h' : (i : ℝ) ≤ j := by exact_mod_cast h
  nlinarith [mul_le_mul_of_nonneg_right h' this]

theorem point_step (a b : ℝ) (n i : ℕ) : point a b n (i + 1) - point a b n i = (b - a) / n := by
  unfold point; push_cast; ring

theorem point_mem {a b : ℝ} (hab : a ≤ b) {n i : ℕ} (hn : 0 < n) (h : i ≤ n) : point a b n i ∈ Icc a b := by
  constructor
  · have := point_mono hab n (Nat.zero_le i); rwa [point_zero] at this
  · have := point_mono hab n h; rwa [point_last a b hn] at this

theorem piece_subset {a b : ℝ} (hab : a ≤ b) {n i : ℕ} (hn : 0 < n) (h : i < n) : Icc (point a b n i) (point a b n (i + 1)) ⊆ Icc a b :=
  Icc_subset_Icc (point_mem hab hn h.le).1 (point_mem hab hn h).2

theorem piece_integrable {f : ℝ → ℝ} {a b : ℝ} (hab : a ≤ b) (hf : ContinuousOn f (Icc a b)) {n i : ℕ} (hn : 0 < n) (h : i < n) :
    IntervalIntegrable f volume (point a b n i) (point a b n (i + 1)) := by
  apply ContinuousOn.intervalIntegrable
  rw [uIcc_of_le (point_mono hab n (Nat.le_succ i))]
  exact hf.mono (piece_subset hab hn h)

/-- The integral as a sum over the intervals. -/
theorem integral_pieces {f : ℝ → ℝ} {a b : ℝ} (hab : a ≤ b) (hf : ContinuousOn f (Icc a b)) {n : ℕ} (hn : 0 < n) :
    ∫ x in a..b, f x = ∑ i ∈ range n, ∫ x in (point a b n i)..(point a b n (i + 1)), f x := by
  rw [intervalIntegral.sum_integral_adjacent_intervals (a := point a b n) (fun k hk => piece_integrable hab hf hn hk), point_zero, point_last a b hn]

/-- On one interval a convex function is below its chord and, on average, above its middle. -/
theorem hermite_hadamard {f : ℝ → ℝ} {a b : ℝ} (hab : a ≤ b) (hc : ContinuousOn f (Icc a b)) (hf : ConvexOn ℝ (Icc a b) f) :
    f ((a + b) / 2) * (b - a) ≤ ∫ x in a..b, f x ∧ ∫ x in a..b, f x ≤ (f a + f b) / 2 * (b - a) := by
  have hi : IntervalIntegrable f volume a b := by
    apply ContinuousOn.intervalIntegrable
    rwa [uIcc_of_le hab]
  have hi' : IntervalIntegrable (fun x => f (a + b - x)) volume a b := by
    apply ContinuousOn.intervalIntegrable
    rw [uIcc_of_le hab]
    refine hc.comp (by fun_prop) fun x hx => ?_
    exact ⟨by linarith [hx.2], by linarith [hx.1]⟩
  have hrev : ∫ x in a..b, f (a + b - x) = ∫ x in a..b, f x := by
    rw [intervalIntegral.integral_comp_sub_left (fun x => f x) (a + b)]
    congr 1 <;> ring
  have hsum : ∫ x in a..b, (f x + f (a + b - x)) = 2 * ∫ x in a..b, f x := by
    rw [intervalIntegral.integral_add hi hi', hrev]; ring
  have ma : a ∈ Icc a b := ⟨le_refl _, hab⟩
  have mb : b ∈ Icc a b := ⟨hab, le_refl _⟩
  constructor
  · have : ∫ _ in a..b, 2 * f ((a + b) / 2) ≤ ∫ x in a..b, (f x + f (a + b - x)) := by
      refine intervalIntegral.integral_mono_on hab (by simp) (hi.add hi') fun x hx => ?_
      have hx' : a + b - x ∈ Icc a b := ⟨by linarith [hx.2], by linarith [hx.1]⟩
      have := hf.2 hx hx' (show (0 : ℝ) ≤ 1 / 2 by norm_num) (show (0 : ℝ) ≤ 1 / 2 by norm_num) (by norm_num)
      simp only [smul_eq_mul] at this
      rw [show 1 / 2 * x + 1 / 2 * (a + b - x) = (a + b) / 2 by ring] at this
      linarith
    rw [hsum, intervalIntegral.integral_const, smul_eq_mul] at this
    linarith
  · have : ∫ x in a..b, (f x + f (a + b - x)) ≤ ∫ _ in a..b, (f a + f b) := by
      refine intervalIntegral.integral_mono_on hab (hi.add hi') (by simp) fun x hx => ?_
      rcases eq_or_lt_of_le hab with h | h
      · subst h
        have : x = a := le_antisymm hx.2 hx.1
        subst this
        simp
      · have hd : 0 < b - a := by linarith
        have c1 : 0 ≤ (b - x) / (b - a) := div_nonneg (by linarith [hx.2]) hd.le
        have c2 : 0 ≤ (x - a) / (b - a) := div_nonneg (by linarith [hx.1]) hd.le
        have c3 : (b - x) / (b - a) + (x - a) / (b - a) = 1 := by field_simp; ring
        have g1 := hf.2 ma mb c1 c2 c3
        have g2 := hf.2 ma mb c2 c1 (by linarith)
        simp only [smul_eq_mul] at g1 g2
        have e1 : (b - x) / (b - a) * a + (x - a) / (b - a) * b = x := by field_simp; ring
        have e2 : (x - a) / (b - a) * a + (b - x) / (b - a) * b = a + b - x := by field_simp; ring
        rw [e1] at g1
        rw [e2] at g2
        have g3 : ((b - x) / (b - a) + (x - a) / (b - a)) * (f a + f b) = f a + f b := by rw [c3, one_mul]
        nlinarith [g1, g2, g3]
    rw [hsum, intervalIntegral.integral_const, smul_eq_mul] at this
    linarith

/-- The integral of a convex function is between the two sums. -/
theorem convex_between {f : ℝ → ℝ} {a b : ℝ} (hab : a ≤ b) (hc : ContinuousOn f (Icc a b)) (hf : ConvexOn ℝ (Icc a b) f) {n : ℕ} (hn : 0 < n) :
    middles f a b n ≤ ∫ x in a..b, f x ∧ ∫ x in a..b, f x ≤ trapezoids f a b n := by
  rw [integral_pieces hab hc hn]
  have piece : ∀ i ∈ range n, f (a + (b - a) / n / 2 + i * ((b - a) / n)) * ((b - a) / n) ≤
      ∫ x in (point a b n i)..(point a b n (i + 1)), f x ∧ ∫ x in (point a b n i)..(point a b n (i + 1)), f x ≤
      (f (point a b n i) + f (point a b n (i + 1))) / 2 * ((b - a) / n) := by
    intro i hi
    have hi' := Finset.mem_range.mp hi
    have sub := piece_subset hab hn hi'
    have := hermite_hadamard (point_mono hab n (Nat.le_succ i)) (hc.mono sub) (hf.subset sub (convex_Icc _ _))
    rwa [point_step, ← middle_eq] at this
  exact ⟨Finset.sum_le_sum fun i hi => (piece i hi).1, Finset.sum_le_sum fun i hi => (piece i hi).2⟩

theorem trapezoids_neg (f : ℝ → ℝ) (a b : ℝ) (n : ℕ) : trapezoids (fun x => -f x) a b n = -trapezoids f a b n := by
  unfold trapezoids
  rw [← Finset.sum_neg_distrib]
  exact Finset.sum_congr rfl fun i _ => by ring

theorem middles_neg (f : ℝ → ℝ) (a b : ℝ) (n : ℕ) : middles (fun x => -f x) a b n = -middles f a b n := by
  unfold middles
  rw [← Finset.sum_neg_distrib]
  exact Finset.sum_congr rfl fun i _ => by ring

/-- The trapezoids of a continuous function tend to its integral. -/
theorem trapezoids_tendsto {f : ℝ → ℝ} {a b : ℝ} (hab : a ≤ b) (hf : ContinuousOn f (Icc a b)) {ε : ℝ} (hε : 0 < ε) :
    ∃ N : ℕ, 0 < N ∧ ∀ n, N ≤ n → |trapezoids f a b n - ∫ x in a..b, f x| ≤ ε := by
  have huc := isCompact_Icc.uniformContinuousOn_of_continuous hf
  rw [Metric.uniformContinuousOn_iff] at huc
  have hη : 0 < ε / (b - a + 1) := div_pos hε (by linarith)
  obtain ⟨δ, hδ, hu⟩ := huc _ hη
  obtain ⟨N, hN⟩ := exists_nat_gt ((b - a) / δ)
  refine ⟨N + 1, Nat.succ_pos N, fun n hn => ?_⟩
  have hn0 : 0 < n := by omega
  have hnr : (0 : ℝ) < n := by exact_mod_cast hn0
  have hstep : (b - a) / n < δ := by
    rw [div_lt_iff₀ hδ] at hN
    rw [div_lt_iff₀ hnr]
    have : (N : ℝ) + 1 ≤ n := by exact_mod_cast hn
    nlinarith
  have hstep0 : 0 ≤ (b - a) / n := div_nonneg (by linarith) hnr.le
  rw [integral_pieces hab hf hn0]
  unfold trapezoids
  rw [← Finset.sum_sub_distrib]
  calc _ ≤ ∑ i ∈ range n, |(f (point a b n i) + f (point a b n (i + 1))) / 2 * ((b - a) / n) -
        ∫ x in (point a b n i)..(point a b n (i + 1)), f x| := Finset.abs_sum_le_sum_abs _ _
    _ ≤ ∑ _i ∈ range n, ε / (b - a + 1) * ((b - a) / n) := by
        refine Finset.sum_le_sum fun i hi => ?_
        have hi' := Finset.mem_range.mp hi
        have sub := piece_subset hab hn0 hi'
        have hle := point_mono hab n (Nat.le_succ i)
        have hint := piece_integrable hab hf hn0 hi'
        have m1 := point_mem hab hn0 hi'.le
        have m2 : point a b n (i + 1) ∈ Icc a b := point_mem hab hn0 hi'
        have e : (f (point a b n i) + f (point a b n (i + 1))) / 2 * ((b - a) / n) - ∫ x in (point a b n i)..(point a b n (i + 1)), f x =
            ∫ x in (point a b n i)..(point a b n (i + 1)), ((f (point a b n i) + f (point a b n (i + 1))) / 2 - f x) := by
          rw [intervalIntegral.integral_sub (by simp) hint, intervalIntegral.integral_const, point_step, smul_eq_mul, mul_comm]
        rw [e, ← Real.norm_eq_abs]
        have := intervalIntegral.norm_integral_le_of_norm_le_const (a := point a b n i) (b := point a b n (i + 1)) (C := ε / (b - a + 1))
          (f := fun x => (f (point a b n i) + f (point a b n (i + 1))) / 2 - f x) (fun x hx => by
            rw [uIoc_of_le hle] at hx
            have hx' : x ∈ Icc (point a b n i) (point a b n (i + 1)) := ⟨hx.1.le, hx.2⟩
            have mx := sub hx'
            have hs := point_step a b n i
            have d1 := hu _ m1 _ mx (by rw [Real.dist_eq, abs_lt]; constructor <;> linarith [hx'.1, hx'.2])
            have d2 := hu _ m2 _ mx (by rw [Real.dist_eq, abs_lt]; constructor <;> linarith [hx'.1, hx'.2])
            rw [Real.dist_eq, abs_lt] at d1 d2
            rw [Real.norm_eq_abs, abs_le]
            constructor <;> linarith [d1.1, d1.2, d2.1, d2.2])
        rwa [point_step, abs_of_nonneg hstep0] at this
    _ = ε * ((b - a) / (b - a + 1)) := by
        rw [Finset.sum_const, Finset.card_range, nsmul_eq_mul]
        have : b - a + 1 ≠ 0 := by linarith
        field_simp
    _ ≤ ε := by
        refine mul_le_of_le_one_right hε.le ?_
        rw [div_le_one (by linarith)]
        linarith

end Gyoto.Spec
