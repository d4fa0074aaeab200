import Verif.Model.Spectrum
import Verif.Lemmas.Trapezoid
import Mathlib.Tactic.Linarith
import Mathlib.Tactic.NormNum

/-! # The loops of `integrate` -/

namespace Gyoto.Spectra

open Finset Set Gyoto.Spec

theorem forLoop_eq (f : ℝ → ℝ) {nu2 d : ℝ} (hd : 0 ≤ d) : ∀ (m : ℕ) (nu acc : ℝ), nu2 - nu = (m - 1 / 2) * d →
    forLoop f nu2 d nu acc = some (acc + ∑ i ∈ range m, f (nu + i * d) * d) := by
  intro m
  induction m with
  | zero =>
    intro nu acc h
    rw [forLoop, dif_neg (by push_cast at h; linarith)]
    simp
  | succ m ih =>
    intro nu acc h
    rcases eq_or_lt_of_le hd with h0 | h0
    · subst h0
      rw [forLoop, dif_neg (by simp at h; linarith)]
      simp
    · have hlt : nu < nu2 := by
        push_cast at h
        have : (0 : ℝ) < (m + 1 - 1 / 2) * d := mul_pos (by have : (0 : ℝ) ≤ m := by positivity
                                                            linarith) h0
        linarith
      rw [forLoop, dif_pos hlt, dif_pos h0, ih (nu + d) _ (by push_cast at h; linarith), sum_range_succ']
      congr 1
      have : ∀ i ∈ range m, f (nu + d + i * d) * d = f (nu + ((i + 1 : ℕ) : ℝ) * d) * d := by
        intro i _
        congr 2
        push_cast
        ring
      rw [sum_congr rfl this]
      simp
      ring

/-- One turn of the loop doubles the number of trapezoids. -/
theorem forLoop_trapezoids (f : ℝ → ℝ) {a b : ℝ} (hab : a ≤ b) {n : ℕ} (hn : 0 < n) :
    forLoop f b ((b - a) / n) (a + 1 / 2 * ((b - a) / n)) (trapezoids f a b n) = some (2 * trapezoids f a b (2 * n)) := by
  have hn' : (n : ℝ) ≠ 0 := by positivity
  rw [forLoop_eq f (div_nonneg (by linarith) (by positivity)) n]
  · rw [trapezoids_double f a b hn, middles]
    congr 1
    have : ∀ i ∈ range n, f (a + 1 / 2 * ((b - a) / n) + i * ((b - a) / n)) * ((b - a) / n) =
        f (a + (b - a) / n / 2 + i * ((b - a) / n)) * ((b - a) / n) := by
      intro i _
      congr 2
      ring
    rw [sum_congr rfl this]
    ring
  · field_simp
    ring

/-- The loop stops at the `k`-th turn. -/
def StopsAt (f : ℝ → ℝ) (a b : ℝ) (k : ℕ) : Prop :=
  |trapezoids f a b (2 ^ (k + 1)) - trapezoids f a b (2 ^ k)| ≤ 1 / 100 * trapezoids f a b (2 ^ (k + 1))

theorem doLoop_step (f : ℝ → ℝ) {a b : ℝ} (hab : a ≤ b) (n k : ℕ) :
    (StopsAt f a b k → doLoop f a b (n + 1) (trapezoids f a b (2 ^ k)) ((b - a) / (2 ^ k : ℕ) * 2) = .done (trapezoids f a b (2 ^ (k + 1)))) ∧
    (¬ StopsAt f a b k → doLoop f a b (n + 1) (trapezoids f a b (2 ^ k)) ((b - a) / (2 ^ k : ℕ) * 2) =
      doLoop f a b n (trapezoids f a b (2 ^ (k + 1))) ((b - a) / (2 ^ (k + 1) : ℕ) * 2)) := by
  have h1 : (b - a) / ((2 ^ k : ℕ) : ℝ) * 2 * (1 / 2) = (b - a) / ((2 ^ k : ℕ) : ℝ) := by ring
  have h2 : (b - a) / ((2 ^ (k + 1) : ℕ) : ℝ) * 2 = (b - a) / ((2 ^ k : ℕ) : ℝ) := by
    push_cast
    rw [pow_succ]
    field_simp
  have h3 : 2 * trapezoids f a b (2 * 2 ^ k) * (1 / 2) = trapezoids f a b (2 ^ (k + 1)) := by
    rw [show 2 * 2 ^ k = 2 ^ (k + 1) by rw [pow_succ]; ring]
    ring
  constructor
  · intro hs
    rw [doLoop]
    simp only [h1, forLoop_trapezoids f hab (Nat.two_pow_pos k), h3]
    rw [if_neg (not_lt.mpr hs)]
  · intro hs
    rw [doLoop]
    simp only [h1, forLoop_trapezoids f hab (Nat.two_pow_pos k), h3]
    rw [if_pos (not_le.mp hs), h2]

/-- The loop, from the `k`-th turn. -/
theorem doLoop_iff (f : ℝ → ℝ) {a b : ℝ} (hab : a ≤ b) : ∀ (n k : ℕ) (x : ℝ),
    doLoop f a b n (trapezoids f a b (2 ^ k)) ((b - a) / (2 ^ k : ℕ) * 2) = .done x ↔
      ∃ j, k ≤ j ∧ j < k + n ∧ x = trapezoids f a b (2 ^ (j + 1)) ∧ StopsAt f a b j ∧ ∀ i, k ≤ i → i < j → ¬ StopsAt f a b i := by
  intro n
  induction n with
  | zero =>
    intro k x
    constructor
    · intro h; cases h
    · rintro ⟨j, h1, h2, -⟩; omega
  | succ n ih =>
    intro k x
    by_cases hs : StopsAt f a b k
    · rw [(doLoop_step f hab n k).1 hs]
      constructor
      · intro h
        injection h with h
        exact ⟨k, le_refl _, by omega, h.symm, hs, fun i h1 h2 => by omega⟩
      · rintro ⟨j, h1, h2, rfl, h3, h4⟩
        rcases Nat.eq_or_lt_of_le h1 with rfl | h5
        · rfl
        · exact absurd hs (h4 k (le_refl _) h5)
    · rw [(doLoop_step f hab n k).2 hs, ih (k + 1) x]
      constructor
      · rintro ⟨j, h1, h2, h3, h4, h5⟩
        refine ⟨j, by omega, by omega, h3, h4, fun i h6 h7 => ?_⟩
        rcases Nat.eq_or_lt_of_le h6 with rfl | h8
        · exact hs
        · exact h5 i h8 h7
      · rintro ⟨j, h1, h2, h3, h4, h5⟩
        rcases Nat.eq_or_lt_of_le h1 with rfl | h8
        · exact absurd h4 hs
        · exact ⟨j, h8, by omega, h3, h4, fun i h6 h7 => h5 i (by omega) h7⟩

theorem integrate_start (f : ℝ → ℝ) (nu1 nu2 : ℝ) (n : ℕ) :
    integrate f nu1 nu2 n = doLoop f (min nu1 nu2) (max nu1 nu2) n (trapezoids f (min nu1 nu2) (max nu1 nu2) (2 ^ 0))
      ((max nu1 nu2 - min nu1 nu2) / (2 ^ 0 : ℕ) * 2) := by
  have : ∀ a b : ℝ, trapezoids f a b (2 ^ 0) = (f b + f a) * ((b - a) * 2) * (1 / 4) := by
    intro a b
    simp [trapezoids, point]
    ring
  rw [integrate, this]
  rcases lt_or_ge nu2 nu1 with h | h
  · simp only [if_pos h, min_eq_right h.le, max_eq_left h.le]
    simp
  · simp only [if_neg (not_lt.mpr h), min_eq_left h, max_eq_right h]
    simp

end Gyoto.Spectra
