import Verif.Lemmas.Matrix4
import Mathlib.Data.Rat.Defs
import Mathlib.Algebra.Order.Ring.Rat
import Mathlib.Tactic.NormNum

/-!
# C20 and C21: inverting 4×4 matrices

Specification: Mathlib's matrix product and determinant. `matrix4Invert` returns a value exactly for the invertible
matrices, but this value is **not** the inverse in general (`invert_wrong`): the first loop leaves non-zero values below
the diagonal of the work array and the second loop, which runs over all columns, mixes them in. The full statement of C20 is

  `∀ A, A.det ≠ 0 → ∃ R, matrix4Invert A = some R ∧ A * R = 1`

and it is refuted. What holds: the statement for all the matrices in which each coordinate is coupled with at most one
other (`invert_partial`), which includes the diagonal metrics and the circular ones (t–φ coupling).
-/

namespace Gyoto.Matrix4

section
variable {K : Type*} [Field K] [LinearOrder K] [IsStrictOrderedRing K]

/-- C20: a value is returned exactly when the matrix is invertible (no zero pivot is met). -/
theorem invert_some_iff (A : Mat K) : (∃ R, matrix4Invert A = some R) ↔ A.det ≠ 0 := by
  unfold matrix4Invert
  rcases forward_spec A with ⟨hn, hd⟩ | ⟨w, hw, hi⟩
  · simp [hn, hd]
  · simp only [hw, Option.map_some, Option.some.injEq, exists_eq', true_iff]
    intro hd
    obtain ⟨v, hv, h0⟩ := Matrix.exists_vecMul_eq_zero_iff.2 hd
    apply hv
    have hz : Matrix.vecMul v (eff 4 w.tmp) = 0 := by
      rw [← hi.lin, ← Matrix.vecMul_vecMul, h0, Matrix.zero_vecMul]
    have z3 := congrFun hz 3
    have z2 := congrFun hz 2
    have z1 := congrFun hz 1
    have z0 := congrFun hz 0
    simp [Matrix.vecMul, dotProduct, Fin.sum_univ_four, eff, hi.one] at z3 z2 z1 z0
    rw [z3] at z2 z1 z0
    simp at z2
    rw [z2] at z1 z0
    simp at z1
    rw [z1] at z0
    simp at z0
    funext i
    fin_cases i <;> assumption

/-- C20, partial: the inverse is returned when each coordinate `i` is coupled with at most one other, `σ i`. Missing: the
other invertible matrices, for which the result may be wrong (`invert_wrong`). -/
theorem invert_partial (σ : Fin 4 → Fin 4) (hσ : ∀ i, σ (σ i) = i) (A : Mat K)
    (hA : ∀ i j, j ≠ i → j ≠ σ i → A i j = 0) (hd : A.det ≠ 0) :
    ∃ R, matrix4Invert A = some R ∧ A * R = 1 ∧ R * A = 1 := by
  rcases forward_spec A with ⟨-, h⟩ | ⟨w, hw, hi⟩
  · exact absurd h hd
  have hp := paired_forward hσ (A := A) hA hw
  have z : ∀ i r k, i ≠ r → r ≠ k → i ≠ k → w.tmp i r * w.tmp k i = 0 := by
    intro i r k h1 h2 h3
    by_cases e : r = σ i
    · rw [hp k i h3, mul_zero]
      intro e2
      exact h2 (by rw [e, e2, hσ])
    · rw [hp i r (Ne.symm h1) e, zero_mul]
  have z30 : w.tmp 3 0 * w.tmp 2 3 = 0 := z 3 0 2 (by decide) (by decide) (by decide)
  have key : A * (backward w).am1 = 1 := by
    refine backward_spec hi (z 3 1 2 (by decide) (by decide) (by decide)) (z 3 0 1 (by decide) (by decide) (by decide))
      z30 ?_
    have h1 := z 2 0 1 (by decide) (by decide) (by decide)
    have h2 := z 3 2 1 (by decide) (by decide) (by decide)
    linear_combination h1 - w.tmp 2 0 * h2
  exact ⟨_, by rw [matrix4Invert, hw]; rfl, key, mul_eq_one_comm.1 key⟩

/-- C21: for a symmetric matrix coupling only the first and last coordinates, with `A 0 0 ≠ 0` and invertible, the result
is the inverse. -/
theorem circular_invert (A : Mat K) (hs : A 3 0 = A 0 3)
    (h0 : A 0 1 = 0 ∧ A 1 0 = 0 ∧ A 0 2 = 0 ∧ A 2 0 = 0 ∧ A 1 2 = 0 ∧ A 2 1 = 0 ∧ A 1 3 = 0 ∧ A 3 1 = 0 ∧
      A 2 3 = 0 ∧ A 3 2 = 0) (ha : A 0 0 ≠ 0) (hd : A.det ≠ 0) :
    ∃ R, matrix4CircularInvert A = some R ∧ A * R = 1 ∧ R * A = 1 := by
  obtain ⟨h01, h10, h02, h20, h12, h21, h13, h31, h23, h32⟩ := h0
  have hdet : A.det = A 1 1 * A 2 2 * (A 0 0 * A 3 3 - A 0 3 * A 0 3) := by
    simp [Matrix.det_succ_row_zero, Fin.sum_univ_succ, Fin.succAbove, hs, h01, h10, h02, h20, h12, h21, h13, h31, h23,
      h32]
    ring
  have hb : A 1 1 ≠ 0 := fun h => hd (by rw [hdet, h]; ring)
  have hc : A 2 2 ≠ 0 := fun h => hd (by rw [hdet, h]; ring)
  have hD : A 0 0 * A 3 3 - A 0 3 * A 0 3 ≠ 0 := fun h => hd (by rw [hdet, h]; ring)
  have hX : A 3 3 - A 0 3 * A 0 3 / A 0 0 ≠ 0 := by
    intro h
    apply hD
    field_simp at h
    linear_combination h
  have key : ∀ R : Mat K, matrix4CircularInvert A = some R → A * R = 1 := by
    intro R hR
    simp only [matrix4CircularInvert] at hR
    rw [if_neg (by simp [ha, hb, hc, hX])] at hR
    have hR := (Option.some.inj hR).symm
    obtain ⟨X, hXe⟩ : ∃ X, X = A 3 3 - A 0 3 * A 0 3 / A 0 0 := ⟨_, rfl⟩
    rw [← hXe] at hR hX
    have h33 : A 3 3 = X + A 0 3 * A 0 3 / A 0 0 := by rw [hXe]; ring
    subst hR
    ext i k
    rw [Matrix.mul_apply, Fin.sum_univ_four]
    fin_cases i <;> fin_cases k <;>
      simp [hs, h01, h10, h02, h20, h12, h21, h13, h31, h23, h32, h33, hb, hc] <;> (try field_simp) <;> (try ring)
  have hex : ∃ R, matrix4CircularInvert A = some R := by
    simp only [matrix4CircularInvert]
    rw [if_neg (by simp [ha, hb, hc, hX])]
    exact ⟨_, rfl⟩
  obtain ⟨R, hR⟩ := hex
  exact ⟨R, hR, key R hR, mul_eq_one_comm.1 (key R hR)⟩

end

/-- The witness of `invert_wrong`: coordinates 0–2–3 coupled in chain. -/
def badMatrix : Mat ℚ := !![1, 0, 2, 0; 0, 2, 0, 0; 2, 0, 0, 1; 0, 0, 1, 0]

/-- Finding: an invertible symmetric matrix whose "inverse" is wrong. -/
theorem invert_wrong : ∃ A R : Mat ℚ, A.IsSymm ∧ A.det ≠ 0 ∧ matrix4Invert A = some R ∧ A * R ≠ 1 := by
  have hr : matrix4Invert badMatrix = some !![1, 0, 0, -2; 0, 1/2, 0, 0; 0, 0, 0, 1; -3/2, 0, 1, 4] := by
    decide +kernel
  refine ⟨badMatrix, _, ?_, ?_, hr, ?_⟩
  · decide +kernel
  · rw [← invert_some_iff]; exact ⟨_, hr⟩
  · intro h
    have := congrFun (congrFun h 2) 0
    revert this
    decide +kernel

/-- A non-trivial instance of `invert_partial`: a t–φ coupled matrix with a row exchange. -/
example : ∃ R, matrix4Invert (!![1, 0, 0, 2; 0, 3, 0, 0; 0, 0, -1, 0; 2, 0, 0, 1] : Mat ℚ) = some R ∧
    !![1, 0, 0, 2; 0, 3, 0, 0; 0, 0, -1, 0; 2, 0, 0, 1] * R = 1 := by
  obtain ⟨R, h1, h2, -⟩ := invert_partial (K := ℚ) ![3, 1, 2, 0] (by decide)
    !![1, 0, 0, 2; 0, 3, 0, 0; 0, 0, -1, 0; 2, 0, 0, 1] (by
      intro i j; fin_cases i <;> fin_cases j <;> simp)
    (by rw [← invert_some_iff]; exact ⟨!![-1/3, 0, 0, 2/3; 0, 1/3, 0, 0; 0, 0, -1, 0; 2/3, 0, 0, -1/3], by
      decide +kernel⟩)
  exact ⟨R, h1, h2⟩

/-- A singular matrix is not inverted. -/
example : matrix4Invert (!![1, 0, 0, 1; 0, 3, 0, 0; 0, 0, -1, 0; 1, 0, 0, 1] : Mat ℚ) = none := by decide +kernel

example : matrix4CircularInvert (!![1, 0, 0, 2; 0, 3, 0, 0; 0, 0, -1, 0; 2, 0, 0, 1] : Mat ℚ) =
    some !![-1/3, 0, 0, 2/3; 0, 1/3, 0, 0; 0, 0, -1, 0; 2/3, 0, 0, -1/3] := by decide +kernel

end Gyoto.Matrix4
