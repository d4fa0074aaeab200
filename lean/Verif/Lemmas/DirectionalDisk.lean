import Verif.Model.DirectionalDisk
import Verif.Lemmas.GridRead
import Verif.Spec.GridInterp
import Mathlib.Tactic.LinearCombination
import Mathlib.Tactic.FieldSimp

/-!
# Lemmas on the look-up of disks whose emission depends on the direction
-/

namespace Gyoto.DirectionalDisk

open Gyoto.GridRead Gyoto.GridInterp

/-- Strictly increasing. -/
def Increasing (l : List ℝ) : Prop := ∀ i j, (hij : i < j) → (h : j < l.length) → l[i] < l[j]

/-- Strictly decreasing. -/
def Decreasing (l : List ℝ) : Prop := ∀ i j, (hij : i < j) → (h : j < l.length) → l[j] < l[i]

theorem Increasing.le {l : List ℝ} (h : Increasing l) {i j : ℕ} (hij : i ≤ j) (hj : j < l.length) : l[i] ≤ l[j] := by
  rcases Nat.eq_or_lt_of_le hij with rfl | h1
  · exact le_rfl
  · exact (h i j h1 hj).le

theorem Decreasing.le {l : List ℝ} (h : Decreasing l) {i j : ℕ} (hij : i ≤ j) (hj : j < l.length) : l[j] ≤ l[i] := by
  rcases Nat.eq_or_lt_of_le hij with rfl | h1
  · exact le_rfl
  · exact (h i j h1 hj).le

theorem read_last {l : List ℝ} {n : ℕ} (hl : l.length = n) (hn : 0 < n) : read (some l) ((n : ℤ) - 1) = .ok (l[n - 1]'(by omega)) :=
  read_ok' (k := n - 1) (by omega) (by omega)

theorem upIndex_high {l : List ℝ} {n : ℕ} {x : ℝ} (hl : l.length = n) (hn : 0 < n) (hx : l[n - 1]'(by omega) ≤ x) :
    upIndex (some l) n x = .ok (n - 1) := by
  unfold upIndex
  rw [if_neg (by simp), read_last hl hn]
  simp only [bind, Except.bind]
  rw [if_pos hx]; rfl

theorem upIndex_mid {l : List ℝ} {n j : ℕ} {x : ℝ} (hl : l.length = n) (hs : Increasing l) (hj : j + 1 < n)
    (h1 : l[j]'(by omega) < x) (h2 : x ≤ l[j + 1]'(by omega)) (h3 : x < l[n - 1]'(by omega)) : upIndex (some l) n x = .ok (j + 1) := by
  unfold upIndex
  rw [if_neg (by simp), read_last hl (by omega)]
  simp only [bind, Except.bind]
  rw [if_neg (not_le.2 h3)]
  obtain ⟨k, e, -, k2, k3, k4⟩ := searchUp_ok (l := l) (x := x) (m := j + 1) (by omega) h2 n 0 (by omega) (by omega)
  rw [e]
  congr 1
  by_contra hne
  rcases Nat.lt_or_gt_of_ne hne with h | h
  · have := hs.le (show k ≤ j by omega) (by omega)
    linarith
  · have := k4 (j + 1) (by omega) (by omega) h
    linarith

theorem upIndex_low {l : List ℝ} {n : ℕ} {x : ℝ} (hl : l.length = n) (hn : 0 < n) (hx : x ≤ l[0]'(by omega)) (hs : Increasing l) :
    upIndex (some l) n x = .ok 0 := by
  unfold upIndex
  rw [if_neg (by simp), read_last hl (by omega)]
  simp only [bind, Except.bind]
  by_cases c : x ≥ l[n - 1]'(by omega)
  · rw [if_pos c]
    have : n - 1 = 0 := by
      by_contra hne
      have := hs 0 (n - 1) (by omega) (by omega)
      linarith
    rw [this]; rfl
  · rw [if_neg c]
    obtain ⟨k, e, -, k2, k3, k4⟩ := searchUp_ok (l := l) (x := x) (m := 0) (by omega) hx n 0 (by omega) (by omega)
    rw [e]
    congr 1
    by_contra hne
    have := k4 0 (by omega) le_rfl (by omega)
    linarith

/-- Whatever the number, the index is that of an element. -/
theorem upIndex_lt {l : List ℝ} {n : ℕ} (x : ℝ) (hl : l.length = n) (hn : 0 < n) : ∃ k, upIndex (some l) n x = .ok k ∧ k < n := by
  by_cases c : l[n - 1]'(by omega) ≤ x
  · exact ⟨_, upIndex_high hl hn c, by omega⟩
  · unfold upIndex
    rw [if_neg (by simp), read_last hl hn]
    simp only [bind, Except.bind]
    rw [if_neg c]
    obtain ⟨k, e, -, k2, -, -⟩ := searchUp_ok (l := l) (x := x) (m := n - 1) (by omega) (not_le.1 c).le n 0 (by omega) (by omega)
    exact ⟨k, e, by omega⟩

theorem searchDown_ok {l : List ℝ} {nu : ℝ} {k : ℕ} (hs : Decreasing l) (hk : k + 1 < l.length) (h1 : l[k + 1] < nu) (h2 : nu ≤ l[k]) :
    ∀ i, k ≤ i → i < l.length → searchDown (some l) nu i = .ok k := by
  intro i
  induction i with
  | zero =>
    intro h3 h4
    obtain rfl : k = 0 := by omega
    have r0 : read (some l) 0 = .ok l[0] := read_ok' (k := 0) rfl (by omega)
    unfold searchDown
    rw [r0]
    simp only [bind, Except.bind]
    rw [if_neg (not_lt.2 h2)]; rfl
  | succ i ih =>
    intro h3 h4
    unfold searchDown
    rw [read_ok h4]
    simp only [bind, Except.bind]
    rcases Nat.eq_or_lt_of_le h3 with rfl | h5
    · rw [if_neg (not_lt.2 h2)]; rfl
    · have := hs.le (show k + 1 ≤ i + 1 by omega) h4
      rw [if_pos (by linarith : nu > l[i + 1])]
      exact ih (by omega) (by omega)

theorem searchDown_ub {l : List ℝ} {nu : ℝ} (h : ∀ x ∈ l, x < nu) : ∀ i, i < l.length → searchDown (some l) nu i = .error .ub := by
  intro i
  induction i with
  | zero =>
    intro h4
    have r0 : read (some l) 0 = .ok l[0] := read_ok' (k := 0) rfl (by omega)
    unfold searchDown
    rw [r0]
    simp only [bind, Except.bind]
    rw [if_pos (h _ (List.getElem_mem _))]
  | succ i ih =>
    intro h4
    unfold searchDown
    rw [read_ok h4]
    simp only [bind, Except.bind]
    rw [if_pos (h _ (List.getElem_mem _))]
    exact ih (by omega)

theorem freqIndex_mid {l : List ℝ} {n k : ℕ} {nu : ℝ} (hl : l.length = n) (hs : Decreasing l) (hk : k + 1 < n)
    (h1 : l[k + 1]'(by omega) < nu) (h2 : nu ≤ l[k]'(by omega)) : freqIndex (some l) n nu = .ok k := by
  have := hs.le (show k + 1 ≤ n - 1 by omega) (by omega)
  unfold freqIndex
  rw [if_neg (by simp), read_last hl (by omega)]
  simp only [bind, Except.bind]
  rw [if_neg (by linarith)]
  exact searchDown_ok hs (by omega) h1 h2 _ (by omega) (by omega)

theorem freqIndex_low {l : List ℝ} {n : ℕ} {nu : ℝ} (hl : l.length = n) (hn : 0 < n) (h : nu ≤ l[n - 1]'(by omega)) :
    freqIndex (some l) n nu = .ok (n - 1) := by
  unfold freqIndex
  rw [if_neg (by simp), read_last hl hn]
  simp only [bind, Except.bind]
  rw [if_pos h]; rfl

theorem freqIndex_ub {l : List ℝ} {n : ℕ} {nu : ℝ} (hl : l.length = n) (hn : 0 < n) (h : ∀ x ∈ l, x < nu) :
    freqIndex (some l) n nu = .error .ub := by
  unfold freqIndex
  rw [if_neg (by simp), read_last hl hn]
  simp only [bind, Except.bind]
  rw [if_neg (not_le.2 (h _ (List.getElem_mem _)))]
  exact searchDown_ub h _ (by omega)

/-- In a decreasing array a number between the last and the first is in one of the intervals. -/
theorem exists_cell_down {l : List ℝ} {nu : ℝ} : ∀ m, (h : m < l.length) → l[m] < nu → nu ≤ l[0]'(by omega) →
    ∃ k, ∃ h : k + 1 < l.length, l[k + 1] < nu ∧ nu ≤ l[k] := by
  intro m
  induction m with
  | zero => intro h h1 h2; linarith
  | succ m ih =>
    intro h h1 h2
    by_cases c : nu ≤ l[m]
    · exact ⟨m, h, h1, c⟩
    · exact ih (by omega) (not_le.1 c) h2

theorem exists_cell_up {l : List ℝ} {x : ℝ} : ∀ m, (h : m < l.length) → x ≤ l[m] → l[0]'(by omega) < x →
    ∃ k, ∃ h : k + 1 < l.length, l[k] < x ∧ x ≤ l[k + 1] := by
  intro m
  induction m with
  | zero => intro h h1 h2; linarith
  | succ m ih =>
    intro h h1 h2
    by_cases c : l[m] < x
    · exact ⟨m, h, c, h1⟩
    · exact ih (by omega) (not_lt.1 c) h2

/-! ## Interpolation -/

theorem ratio_ok {x a b : ℝ} (h : a ≠ b) : ratio x a b = .ok ((x - a) / (b - a)) := by
  unfold ratio; rw [if_neg (fun h' => h (by linarith))]

theorem mix2_eq {x a b y c e I00 I10 I01 I11 : ℝ} (h1 : a ≠ b) (h2 : c ≠ e) :
    mix2 I00 I10 I01 I11 ((x - a) / (b - a)) ((y - c) / (e - c)) = bilerp a b c e I00 I10 I01 I11 x y := by
  have h1' : b - a ≠ 0 := fun h => h1 (by linarith)
  have h2' : e - c ≠ 0 := fun h => h2 (by linarith)
  unfold mix2 bilerp
  field_simp
  ring

theorem mix3_eq {x a b y c e z f g I000 I100 I010 I110 I001 I101 I011 I111 : ℝ} (h1 : a ≠ b) (h2 : c ≠ e) (h3 : f ≠ g) :
    I000 + (I100 - I000) * ((x - a) / (b - a)) + (I010 - I000) * ((y - c) / (e - c)) + (I001 - I000) * ((z - f) / (g - f)) +
      (I110 - I010 - I100 + I000) * ((x - a) / (b - a)) * ((y - c) / (e - c)) +
      (I011 - I010 - I001 + I000) * ((y - c) / (e - c)) * ((z - f) / (g - f)) +
      (I101 - I001 - I100 + I000) * ((x - a) / (b - a)) * ((z - f) / (g - f)) +
      (I111 - I011 - I101 - I110 + I100 + I001 + I010 - I000) * ((x - a) / (b - a)) * ((y - c) / (e - c)) * ((z - f) / (g - f)) =
    trilerp a b c e f g I000 I100 I010 I110 I001 I101 I011 I111 x y z := by
  have h1' : b - a ≠ 0 := fun h => h1 (by linarith)
  have h2' : e - c ≠ 0 := fun h => h2 (by linarith)
  have h3' : g - f ≠ 0 := fun h => h3 (by linarith)
  unfold trilerp lerp bilerp
  field_simp
  ring

end Gyoto.DirectionalDisk
