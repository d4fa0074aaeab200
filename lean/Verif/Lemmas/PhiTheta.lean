import Verif.Model.PhiTheta

namespace Gyoto.PhiTheta
open Real

theorem wrapDown_spec (p hi x : ℝ) (hp : 0 < p) :
    ∃ n : ℕ, wrapDown p hi x = x - n * p ∧ wrapDown p hi x ≤ hi ∧ (0 < n → hi - p < wrapDown p hi x) := by
  fun_induction wrapDown p hi x with
  | case1 x h ih =>
    obtain ⟨n, h1, h2, h3⟩ := ih
    refine ⟨n + 1, by rw [h1]; push_cast; ring, h2, fun _ => ?_⟩
    rcases Nat.eq_zero_or_pos n with hn | hn
    · subst hn
      rw [h1]; have := h.2; simp; linarith
    · exact h3 hn
  | case2 x h =>
    refine ⟨0, by simp, ?_, by simp⟩
    by_contra hc
    exact h ⟨hp, not_le.1 hc⟩

theorem wrapUp_spec (p lo x : ℝ) (hp : 0 < p) :
    ∃ n : ℕ, wrapUp p lo x = x + n * p ∧ lo ≤ wrapUp p lo x ∧ (0 < n → wrapUp p lo x < lo + p) := by
  fun_induction wrapUp p lo x with
  | case1 x h ih =>
    obtain ⟨n, h1, h2, h3⟩ := ih
    refine ⟨n + 1, by rw [h1]; push_cast; ring, h2, fun _ => ?_⟩
    rcases Nat.eq_zero_or_pos n with hn | hn
    · subst hn
      rw [h1]; have := h.2; simp; linarith
    · exact h3 hn
  | case2 x h =>
    refine ⟨0, by simp, ?_, by simp⟩
    by_contra hc
    exact h ⟨hp, not_le.1 hc⟩

/-- Both loops in sequence land in `[lo, lo + p]` after adding an integer number of periods. -/
theorem wrap_spec (p lo x : ℝ) (hp : 0 < p) :
    ∃ n : ℤ, wrapUp p lo (wrapDown p (lo + p) x) = x + n * p ∧
      lo ≤ wrapUp p lo (wrapDown p (lo + p) x) ∧ wrapUp p lo (wrapDown p (lo + p) x) ≤ lo + p := by
  obtain ⟨n, h1, h2, _⟩ := wrapDown_spec p (lo + p) x hp
  obtain ⟨m, g1, g2, g3⟩ := wrapUp_spec p lo (wrapDown p (lo + p) x) hp
  refine ⟨(m : ℤ) - n, ?_, g2, ?_⟩
  · rw [g1, h1]; push_cast; ring
  · rcases Nat.eq_zero_or_pos m with hm | hm
    · subst hm; rw [g1]; simpa using h2
    · exact (g3 hm).le

/-- What `checkPhiTheta` does, in closed form. -/
theorem check_spec (c : ℕ → ℝ) : ∃ (n m : ℤ),
    let c' := checkPhiTheta c
    (0 ≤ c' 2 ∧ c' 2 ≤ π) ∧ (0 ≤ c' 3 ∧ c' 3 ≤ 2 * π) ∧
    ((c' 2 = c 2 + n * (2 * π) ∧ c' 3 = c 3 + m * (2 * π) ∧ c' 6 = c 6) ∨
     (c' 2 = -(c 2 + n * (2 * π)) ∧ 0 < c' 2 ∧ c' 3 = c 3 + π + m * (2 * π) ∧ c' 6 = -c 6)) ∧
    ∀ i, i ≠ 2 → i ≠ 3 → i ≠ 6 → c' i = c i := by
  have h2pi : (0 : ℝ) < 2 * π := by positivity
  obtain ⟨n, h1, h2, h3⟩ := wrap_spec (2 * π) (-π) (c 2) h2pi
  rw [show -π + 2 * π = π by ring] at h1 h2 h3
  set th := wrapUp (2 * π) (-π) (wrapDown (2 * π) π (c 2)) with hth
  by_cases hneg : th < 0
  · obtain ⟨m, g1, g2, g3⟩ := wrap_spec (2 * π) 0 (c 3 + π) h2pi
    rw [zero_add] at g1 g2 g3
    refine ⟨n, m, ?_⟩
    simp only [checkPhiTheta, ← hth, hneg, if_true]
    refine ⟨by simp; constructor <;> linarith, by simpa using ⟨g2, g3⟩, Or.inr ?_, ?_⟩
    · refine ⟨by simp [← h1], by simp [hneg], by simpa using g1, by simp⟩
    · intro i h2 h3 h6; simp [h2, h3, h6]
  · obtain ⟨m, g1, g2, g3⟩ := wrap_spec (2 * π) 0 (c 3) h2pi
    rw [zero_add] at g1 g2 g3
    refine ⟨n, m, ?_⟩
    simp only [checkPhiTheta, ← hth, hneg, if_false]
    refine ⟨by simp; constructor <;> linarith, by simpa using ⟨g2, g3⟩, Or.inl ?_, ?_⟩
    · refine ⟨by simp [← h1], by simpa using g1, by simp⟩
    · intro i h2 h3 h6; simp [h2, h3, h6]

end Gyoto.PhiTheta
