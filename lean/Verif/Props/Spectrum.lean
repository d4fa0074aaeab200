import Verif.Lemmas.Spectrum
import Mathlib.Analysis.Convex.SpecificFunctions.Basic
import Mathlib.Analysis.Convex.SpecificFunctions.Pow
import Mathlib.Tactic.Positivity

/-! # What `integrate` returns -/

namespace Gyoto.Spectra

open Finset Set Gyoto.Spec MeasureTheory

/-- What is returned is the rule of the trapezoids with `2^k` intervals, for the first `k` (not zero) at which doubling the number of intervals
has changed the sum by at most one hundredth. -/
theorem integrate_iff (f : ℝ → ℝ) (nu1 nu2 : ℝ) (n : ℕ) (x : ℝ) : integrate f nu1 nu2 n = .done x ↔
    ∃ k < n, x = trapezoids f (min nu1 nu2) (max nu1 nu2) (2 ^ (k + 1)) ∧ IsLeast {k | |trapezoids f (min nu1 nu2) (max nu1 nu2) (2 ^ (k + 1)) -
      trapezoids f (min nu1 nu2) (max nu1 nu2) (2 ^ k)| ≤ trapezoids f (min nu1 nu2) (max nu1 nu2) (2 ^ (k + 1)) / 100} k := by
  rw [integrate_start, doLoop_iff f min_le_max]
  constructor
  · rintro ⟨j, -, h2, h3, h4, h5⟩
    refine ⟨j, by omega, h3, ?_, fun i hi => ?_⟩
    · have := h4
      unfold StopsAt at this
      rw [Set.mem_ofPred_eq]
      linarith
    · by_contra hc
      apply h5 i (Nat.zero_le i) (by omega)
      unfold StopsAt
      rw [Set.mem_ofPred_eq] at hi
      linarith
  · rintro ⟨k, h1, h2, h3, h4⟩
    refine ⟨k, Nat.zero_le k, by omega, h2, ?_, fun i _ hi hs => ?_⟩
    · unfold StopsAt
      rw [Set.mem_ofPred_eq] at h3
      linarith
    · unfold StopsAt at hs
      have := h4 (show i ∈ {k | _} by rw [Set.mem_ofPred_eq]; linarith)
      omega

/-- More turns do not change what is returned. -/
theorem integrate_mono (f : ℝ → ℝ) (nu1 nu2 : ℝ) {n m : ℕ} (h : n ≤ m) (x : ℝ) (hx : integrate f nu1 nu2 n = .done x) :
    integrate f nu1 nu2 m = .done x := by
  rw [integrate_iff] at hx ⊢
  obtain ⟨k, hk, rest⟩ := hx
  exact ⟨k, by omega, rest⟩

/-- The two frequencies may be given in any order. -/
theorem integrate_swap (f : ℝ → ℝ) (nu1 nu2 : ℝ) (n : ℕ) : integrate f nu1 nu2 n = integrate f nu2 nu1 n := by
  rw [integrate_start, integrate_start, min_comm, max_comm]

theorem ends_of_stop (f : ℝ → ℝ) (nu1 nu2 : ℝ) (h : ∃ k, StopsAt f (min nu1 nu2) (max nu1 nu2) k) :
    ∃ N x, ∀ n, N ≤ n → integrate f nu1 nu2 n = .done x := by
  classical
  obtain ⟨k, hk, hm⟩ : ∃ k, StopsAt f (min nu1 nu2) (max nu1 nu2) k ∧ ∀ i < k, ¬ StopsAt f (min nu1 nu2) (max nu1 nu2) i :=
    ⟨Nat.find h, Nat.find_spec h, fun i hi => Nat.find_min h hi⟩
  refine ⟨k + 1, trapezoids f (min nu1 nu2) (max nu1 nu2) (2 ^ (k + 1)), fun n hn => integrate_mono f nu1 nu2 hn _ ?_⟩
  rw [integrate_start, doLoop_iff f min_le_max]
  exact ⟨k, Nat.zero_le k, by omega, rfl, hk, fun i _ hi => hm i hi⟩

/-- Integrating a continuous spectrum that is nowhere negative ends. -/
theorem integrate_ends (f : ℝ → ℝ) (nu1 nu2 : ℝ) (hf : ContinuousOn f (uIcc nu1 nu2)) (h0 : ∀ x ∈ uIcc nu1 nu2, 0 ≤ f x) :
    ∃ N x, ∀ n, N ≤ n → integrate f nu1 nu2 n = .done x := by
  apply ends_of_stop
  have hab : min nu1 nu2 ≤ max nu1 nu2 := min_le_max
  rw [← Set.Icc_min_max] at hf h0
  generalize min nu1 nu2 = a at *
  generalize max nu1 nu2 = b at *
  have hint : IntervalIntegrable f volume a b := by
    apply ContinuousOn.intervalIntegrable
    rwa [uIcc_of_le hab]
  by_cases hz : ∀ x ∈ Icc a b, f x = 0
  · refine ⟨0, ?_⟩
    have : ∀ n, 0 < n → trapezoids f a b n = 0 := by
      intro n hn
      apply Finset.sum_eq_zero
      intro i hi
      have hi' := Finset.mem_range.mp hi
      rw [hz _ (point_mem hab hn hi'.le), hz _ (point_mem hab hn hi')]
      simp
    rw [StopsAt, this _ (Nat.two_pow_pos _), this _ (Nat.two_pow_pos _)]
    simp
  · push Not at hz
    obtain ⟨c, hc, hfc⟩ := hz
    rcases eq_or_lt_of_le hab with heq | hlt
    · refine ⟨0, ?_⟩
      rw [StopsAt]
      simp [trapezoids, heq]
    · have hpos : 0 < ∫ x in a..b, f x := by
        refine intervalIntegral.integral_pos hlt hf (fun x hx => h0 x ⟨hx.1.le, hx.2⟩) ⟨c, hc, lt_of_le_of_ne (h0 c hc) (Ne.symm hfc)⟩
      obtain ⟨I, hI⟩ : ∃ I, I = ∫ x in a..b, f x := ⟨_, rfl⟩
      rw [← hI] at hpos
      obtain ⟨N, hN, hT⟩ := trapezoids_tendsto hab hf (show 0 < I / 1000 by positivity)
      rw [← hI] at hT
      refine ⟨N, ?_⟩
      have h1 := hT (2 ^ N) Nat.lt_two_pow_self.le
      have h2 := hT (2 ^ (N + 1)) (le_trans (Nat.le_succ N) Nat.lt_two_pow_self.le)
      rw [StopsAt, abs_le]
      rw [abs_le] at h1 h2
      constructor <;> linarith [h1.1, h1.2, h2.1, h2.2]

/-- For a spectrum that is convex, or concave, over the band, what is returned is the integral to one hundredth. -/
theorem integrate_accurate (f : ℝ → ℝ) (nu1 nu2 : ℝ) (hc : ContinuousOn f (uIcc nu1 nu2))
    (hf : ConvexOn ℝ (uIcc nu1 nu2) f ∨ ConcaveOn ℝ (uIcc nu1 nu2) f) (n : ℕ) (x : ℝ) (h : integrate f nu1 nu2 n = .done x) :
    |x - ∫ nu in (min nu1 nu2)..(max nu1 nu2), f nu| ≤ x / 100 := by
  obtain ⟨k, -, rfl, hs, -⟩ := (integrate_iff f nu1 nu2 n x).mp h
  rw [Set.mem_ofPred_eq] at hs
  have hab : min nu1 nu2 ≤ max nu1 nu2 := min_le_max
  rw [← Set.Icc_min_max] at hc hf
  clear h
  generalize min nu1 nu2 = a at *
  generalize max nu1 nu2 = b at *
  have hd : trapezoids f a b (2 ^ (k + 1)) = (trapezoids f a b (2 ^ k) + middles f a b (2 ^ k)) / 2 := by
    rw [show 2 ^ (k + 1) = 2 * 2 ^ k by rw [pow_succ]; ring, trapezoids_double f a b (Nat.two_pow_pos k)]
  obtain ⟨I, hI⟩ : ∃ I, I = ∫ x in a..b, f x := ⟨_, rfl⟩
  rw [← hI]
  refine le_trans ?_ hs
  rcases hf with hf | hf
  · obtain ⟨g1, g2⟩ := convex_between hab hc hf (Nat.two_pow_pos k)
    rw [← hI] at g1 g2
    rw [abs_le, show trapezoids f a b (2 ^ (k + 1)) - trapezoids f a b (2 ^ k) = -((trapezoids f a b (2 ^ k) - middles f a b (2 ^ k)) / 2) by
      rw [hd]; ring, abs_neg, abs_of_nonneg (by linarith), hd]
    constructor <;> linarith
  · obtain ⟨g1, g2⟩ := convex_between (f := fun x => -f x) hab hc.neg hf.neg (Nat.two_pow_pos k)
    rw [trapezoids_neg, intervalIntegral.integral_neg, ← hI] at g2
    rw [middles_neg, intervalIntegral.integral_neg, ← hI] at g1
    rw [abs_le, show trapezoids f a b (2 ^ (k + 1)) - trapezoids f a b (2 ^ k) = (middles f a b (2 ^ k) - trapezoids f a b (2 ^ k)) / 2 by
      rw [hd]; ring, abs_of_nonneg (by linarith), hd]
    constructor <;> linarith

/-! ## A power law -/

/-- A power is convex or concave. -/
theorem rpow_shape (p : ℝ) : ConvexOn ℝ (Ioi (0 : ℝ)) (fun x => x ^ p) ∨ ConcaveOn ℝ (Ioi (0 : ℝ)) (fun x => x ^ p) := by
  rcases le_total p 0 with h0 | h0
  · left
    have h1 : ConvexOn ℝ (Ioi (0 : ℝ)) (fun x => p * Real.log x) := by
      have := (strictConcaveOn_log_Ioi.concaveOn.smul (show 0 ≤ -p by linarith)).neg
      refine this.congr fun x _ => ?_
      simp
    refine ⟨convex_Ioi 0, fun x hx y hy s t hs ht hst => ?_⟩
    have hx' : 0 < x := hx
    have hy' : 0 < y := hy
    have hz : 0 < s • x + t • y := (convex_Ioi (0 : ℝ)) hx hy hs ht hst
    have e : ∀ z : ℝ, 0 < z → z ^ p = Real.exp (p * Real.log z) := fun z hz => by
      rw [Real.rpow_def_of_pos hz, mul_comm]
    simp only []
    rw [e _ hz, e x hx', e y hy']
    refine le_trans (Real.exp_le_exp.mpr (h1.2 hx hy hs ht hst)) ?_
    exact convexOn_exp.2 (Set.mem_univ _) (Set.mem_univ _) hs ht hst
  · rcases le_total p 1 with h1 | h1
    · right
      exact (Real.concaveOn_rpow h0 h1).subset Ioi_subset_Ici_self (convex_Ioi 0)
    · left
      exact (convexOn_rpow h1).subset Ioi_subset_Ici_self (convex_Ioi 0)

/-- Between two positive frequencies that its cut-offs do not touch, a power law whose constant is not negative is integrated to one hundredth,
whatever the exponent. -/
theorem integrate_power_law (c p nu1 nu2 : ℝ) (hc : 0 ≤ c) (h1 : 0 < nu1) (h2 : 0 < nu2) :
    ∃ N x, (∀ n, N ≤ n → integrate (fun nu => c * nu ^ p) nu1 nu2 n = .done x) ∧
      |x - ∫ nu in (min nu1 nu2)..(max nu1 nu2), c * nu ^ p| ≤ x / 100 := by
  have hsub : uIcc nu1 nu2 ⊆ Ioi (0 : ℝ) := fun x hx => by
    rw [← Set.Icc_min_max] at hx
    exact lt_of_lt_of_le (lt_min h1 h2) hx.1
  have hcont : ContinuousOn (fun nu : ℝ => c * nu ^ p) (uIcc nu1 nu2) := by
    refine continuousOn_const.mul fun x hx => ?_
    exact (Real.continuousAt_rpow_const x p (.inl (ne_of_gt (hsub hx)))).continuousWithinAt
  obtain ⟨N, x, hx⟩ := integrate_ends _ nu1 nu2 hcont fun x hx => mul_nonneg hc (Real.rpow_nonneg (le_of_lt (hsub hx)) p)
  refine ⟨N, x, hx, integrate_accurate _ nu1 nu2 hcont ?_ N x (hx N (le_refl N))⟩
  have hcv : Convex ℝ (uIcc nu1 nu2) := by rw [← Set.Icc_min_max]; exact convex_Icc _ _
  rcases rpow_shape p with h | h
  · left
    exact (h.smul hc).subset hsub hcv
  · right
    exact (h.smul hc).subset hsub hcv

/-! ## Where the code is wrong -/

/-- A spectrum that is negative is integrated for ever. -/
theorem integrate_negative_wrong (n : ℕ) : integrate (fun _ => -1) 0 1 n = .running := by
  cases hx : integrate (fun _ => (-1 : ℝ)) 0 1 n with
  | running => rfl
  | done x =>
    obtain ⟨k, -, -, hs, -⟩ := (integrate_iff _ 0 1 n x).mp hx
    rw [Set.mem_ofPred_eq] at hs
    have ht : ∀ m : ℕ, 0 < m → trapezoids (fun _ => (-1 : ℝ)) (min 0 1) (max 0 1) m = -1 := by
      intro m hm
      have : (m : ℝ) ≠ 0 := by positivity
      simp [trapezoids]
      field_simp
    rw [ht _ (Nat.two_pow_pos _), ht _ (Nat.two_pow_pos _)] at hs
    norm_num at hs

/-- A spectrum that is zero at both ends and in the middle is given a null integral, although its integral is not null. -/
theorem integrate_line_wrong : ∃ f : ℝ → ℝ, Continuous f ∧ (∀ x ∈ Icc (0 : ℝ) 1, 0 ≤ f x) ∧ 0 < ∫ x in (0 : ℝ)..1, f x ∧
    ∀ n, integrate f 0 1 (n + 1) = .done 0 := by
  refine ⟨fun x => x * (1 - x) * (x - 1 / 2) ^ 2, by fun_prop, fun x hx => ?_, ?_, fun n => ?_⟩
  · exact mul_nonneg (mul_nonneg hx.1 (by linarith [hx.2])) (sq_nonneg _)
  · refine intervalIntegral.integral_pos (by norm_num) (by fun_prop) (fun x hx => ?_) ⟨1 / 4, ⟨by norm_num, by norm_num⟩, by norm_num⟩
    exact mul_nonneg (mul_nonneg hx.1.le (by linarith [hx.2])) (sq_nonneg _)
  · refine integrate_mono _ 0 1 (show 1 ≤ n + 1 by omega) _ ?_
    rw [integrate_iff]
    have h2 : trapezoids (fun x : ℝ => x * (1 - x) * (x - 1 / 2) ^ 2) (min 0 1) (max 0 1) (2 ^ (0 + 1)) = 0 := by
      norm_num [trapezoids, Finset.sum_range_succ, point]
    have h1 : trapezoids (fun x : ℝ => x * (1 - x) * (x - 1 / 2) ^ 2) (min 0 1) (max 0 1) (2 ^ 0) = 0 := by
      norm_num [trapezoids, Finset.sum_range_succ, point]
    refine ⟨0, by omega, h2.symm, ?_, fun i _ => Nat.zero_le i⟩
    rw [Set.mem_ofPred_eq, h2, h1]
    norm_num

/-! ## Examples -/

/-- `nu²` between 1 and 2. -/
example : ∃ N x, (∀ n, N ≤ n → integrate (fun nu => 3 * nu ^ (2 : ℝ)) 2 1 n = .done x) ∧
    |x - ∫ nu in (min (2 : ℝ) 1)..(max 2 1), 3 * nu ^ (2 : ℝ)| ≤ x / 100 :=
  integrate_power_law 3 2 2 1 (by norm_num) (by norm_num) (by norm_num)

/-- A constant is integrated exactly at the first turn. -/
example : integrate (fun _ => 5) 1 3 1 = .done 10 := by
  rw [integrate_iff]
  have h : ∀ m : ℕ, 0 < m → trapezoids (fun _ => (5 : ℝ)) (min 1 3) (max 1 3) m = 10 := by
    intro m hm
    have : (m : ℝ) ≠ 0 := by positivity
    simp [trapezoids]
    field_simp
    norm_num
  refine ⟨0, by omega, (h _ (Nat.two_pow_pos _)).symm, ?_, fun i _ => Nat.zero_le i⟩
  rw [Set.mem_ofPred_eq, h _ (Nat.two_pow_pos _), h _ (Nat.two_pow_pos _)]
  norm_num

end Gyoto.Spectra
