import Verif.Model.GridRead
import Mathlib.Tactic.Linarith
import Mathlib.Tactic.NormNum
import Mathlib.Tactic.Positivity
import Mathlib.Tactic.FieldSimp
import Mathlib.Tactic.Ring

/-!
# Reading arrays
-/

namespace Gyoto.GridRead

theorem read_ok {l : List ℝ} {i : ℕ} (h : i < l.length) : read (some l) i = .ok l[i] := by
  simp [read, h]

theorem read_ok' {l : List ℝ} {i : ℤ} {k : ℕ} (e : i = k) (h : k < l.length) : read (some l) i = .ok l[k] := by
  rw [e]; exact read_ok h

theorem read_neg {p : Option (List ℝ)} {i : ℤ} (h : i < 0) : read p i = .error .ub := by
  unfold read
  cases p with
  | none => rfl
  | some l => simp only; rw [if_neg (not_le.2 h)]

theorem read_big {l : List ℝ} {i : ℤ} (h : (l.length : ℤ) ≤ i) : read (some l) i = .error .ub := by
  have h0 : 0 ≤ i := le_trans (Int.natCast_nonneg _) h
  have : l.length ≤ i.toNat := by omega
  simp only [read]
  rw [if_pos h0, List.getElem?_eq_none this]

theorem read_none (i : ℤ) : read none i = .error .ub := rfl

theorem toSize_ok {k : ℤ} (h : 0 ≤ k) (h' : k < 2 ^ 64) : toSize (k : ℝ) = .ok k.toNat := by
  have h1 : (0 : ℝ) ≤ k := by exact_mod_cast h
  have h2 : (k : ℝ) < 2 ^ 64 := by exact_mod_cast h'
  unfold toSize
  rw [if_neg (by rintro (h3 | h3) <;> linarith)]
  congr 1
  obtain ⟨n, rfl⟩ := Int.eq_ofNat_of_zero_le h
  simp

theorem toSize_neg {x : ℝ} (h : x ≤ -1) : toSize x = .error .ub := by
  unfold toSize
  rw [if_pos (Or.inl h)]

theorem toSize_big {x : ℝ} (h : 2 ^ 64 ≤ x) : toSize x = .error .ub := by
  unfold toSize
  rw [if_pos (Or.inr h)]

/-- The search finds the first element that is not below. -/
theorem searchUp_ok {l : List ℝ} {x : ℝ} {m : ℕ} (hm : m < l.length) (hx : x ≤ l[m]) :
    ∀ n i, i ≤ m → m < i + n → ∃ k, searchUp (some l) x n i = .ok k ∧ i ≤ k ∧ ∃ h : k < l.length, x ≤ l[k] ∧
      ∀ j, (h : j < l.length) → i ≤ j → j < k → l[j] < x := by
  intro n
  induction n with
  | zero => intro i h1 h2; omega
  | succ n ih =>
    intro i h1 h2
    have hi : i < l.length := by omega
    unfold searchUp
    rw [read_ok hi]
    by_cases hv : x > l[i]
    · have hne : i ≠ m := by rintro rfl; exact absurd hx (not_le.2 hv)
      obtain ⟨k, e, k1, k2, k3, k4⟩ := ih (i + 1) (by omega) (by omega)
      refine ⟨k, ?_, by omega, k2, k3, fun j hj h3 h4 => ?_⟩
      · show (if x > l[i] then _ else _) = _
        rw [if_pos hv]; exact e
      · rcases Nat.eq_or_lt_of_le h3 with rfl | h3
        · exact hv
        · exact k4 j hj (by omega) h4
    · refine ⟨i, ?_, le_rfl, hi, not_lt.1 hv, fun j _ h3 h4 => absurd h3 (not_le.2 h4)⟩
      show (if x > l[i] then _ else _) = _
      rw [if_neg hv]; rfl

theorem memcpy_ok {n : ℕ} {l : List ℝ} (h : n ≤ l.length) : memcpy n l = .ok (l.take n) := by
  unfold memcpy; rw [if_pos h]

theorem take_len {n : ℕ} {l : List ℝ} (h : n ≤ l.length) : (l.take n).length = n := by
  rw [List.length_take]; exact Nat.min_eq_left h

theorem copyArray_ok {n : ℕ} {p : Option (List ℝ)} (h : ∀ l, p = some l → l.length = n) : copyArray n p = .ok p := by
  cases p with
  | none => rfl
  | some l =>
    have := h l rfl
    simp only [copyArray]
    rw [memcpy_ok this.ge, List.take_of_length_le this.le]
    rfl

end Gyoto.GridRead
