import Verif.Model.Matrix4
import Mathlib.LinearAlgebra.Matrix.NonsingularInverse
import Mathlib.LinearAlgebra.Matrix.ToLinearEquiv
import Mathlib.Tactic.LinearCombination
import Mathlib.Tactic.FinCases
import Mathlib.Tactic.FieldSimp
import Mathlib.Tactic.Ring

/-! # Helper lemmas on the Gauss elimination of `matrix4Invert` -/

namespace Gyoto.Matrix4

set_option linter.unusedSectionVars false

variable {K : Type*} [Field K] [LinearOrder K]

/-- `B` with multiples of its column `j` subtracted from the later columns. -/
def elimCols (j : Fin 4) (c : Fin 4 → K) (B : Mat K) : Mat K := fun i r =>
  if j < r then B i r - c r * B i j else B i r

/-- The elimination loop as one function. -/
theorem eliminate_eq (j : Fin 4) (w : Work K) :
    (later j).foldl (fun w jj => eliminate1 j jj w) w =
      ⟨fun i r => if j < r ∧ j < i then w.tmp i r - w.tmp j r * w.tmp i j else w.tmp i r,
       elimCols j (fun r => w.tmp j r) w.am1⟩ := by
  obtain ⟨T, B⟩ := w
  fin_cases j <;>
  · simp only [later, List.finRange_succ, List.finRange_zero]
    simp [List.filter, eliminate1]
    ext i r <;> fin_cases r <;> fin_cases i <;> simp [subRow, elimCols]

/-- `B` with multiples of its column `j` subtracted from the earlier columns. -/
def subCols (j : Fin 4) (c : Fin 4 → K) (B : Mat K) : Mat K := fun i r =>
  if r < j then B i r - c r * B i j else B i r

theorem mul_subCols (A B : Mat K) (j : Fin 4) (c : Fin 4 → K) :
    A * subCols j c B = subCols j c (A * B) := by
  ext k r
  simp only [Matrix.mul_apply, subCols]
  by_cases h : r < j
  · simp only [h, if_true, mul_sub, Finset.sum_sub_distrib, Finset.mul_sum]
    congr 1
    exact Finset.sum_congr rfl fun i _ => by ring
  · simp only [h, if_false]

/-- Backward loop body for one `j`, as one function. -/
theorem backward_row_eq (j : Fin 4) (w : Work K) :
    (earlier j).foldl (fun w jj => backward1 j jj w) w =
      ⟨fun i r => if r < j then w.tmp i r - w.tmp j r * w.tmp i j else w.tmp i r,
       subCols j (fun r => w.tmp j r) w.am1⟩ := by
  obtain ⟨T, B⟩ := w
  fin_cases j <;>
  · simp only [earlier, List.finRange_succ, List.finRange_zero]
    simp [List.filter, backward1]
    try (ext i r <;> fin_cases r <;> fin_cases i <;> simp [subRow, subCols])

theorem mul_exchange (A B : Mat K) (j jl : Fin 4) (f : K) :
    A * exchange (fun _ => True) j jl f B = exchange (fun _ => True) j jl f (A * B) := by
  ext k r
  simp only [Matrix.mul_apply, exchange, if_true]
  by_cases h : r = j
  · simp only [h, if_true, Finset.sum_mul, mul_assoc]
  · by_cases h' : r = jl
    · simp only [h', if_true]; simp only [h' ▸ h, if_false]
    · simp only [h, h', if_false]

theorem mul_elimCols (A B : Mat K) (j : Fin 4) (c : Fin 4 → K) :
    A * elimCols j c B = elimCols j c (A * B) := by
  ext k r
  simp only [Matrix.mul_apply, elimCols]
  by_cases h : j < r
  · simp only [h, if_true, mul_sub, Finset.sum_sub_distrib, Finset.mul_sum]
    congr 1
    exact Finset.sum_congr rfl fun i _ => by ring
  · simp only [h, if_false]

/-- What the work array stands for once columns before `j` are done: the entries the code does not clear are zero. -/
def eff (j : Nat) (M : Mat K) : Mat K := fun i r => if i.val < j ∧ i < r then 0 else M i r

theorem foldl_ge (f : Fin 4 → Fin 4 → Prop) [∀ a b, Decidable (f a b)] (j : Fin 4) (l : List (Fin 4))
    (hl : ∀ x ∈ l, j < x) (a : Fin 4) (ha : j ≤ a) :
    j ≤ l.foldl (fun jl jj => if f jj jl then jj else jl) a := by
  induction l generalizing a with
  | nil => exact ha
  | cons x l ih =>
    rw [List.foldl_cons]
    refine ih (fun y hy => hl y (List.mem_cons_of_mem _ hy)) _ ?_
    split
    · exact (hl x List.mem_cons_self).le
    · exact ha

theorem pivotRow_ge (j : Fin 4) (T : Mat K) : j ≤ pivotRow j T := by
  refine foldl_ge (fun jj jl => |T j jj| > |T j jl|) j _ ?_ j le_rfl
  intro x hx
  simpa [later] using hx

theorem foldl_max (T : Fin 4 → K) (l : List (Fin 4)) (a : Fin 4) :
    (∀ x ∈ l, |T x| ≤ |T (l.foldl (fun jl jj => if |T jj| > |T jl| then jj else jl) a)|) ∧
    |T a| ≤ |T (l.foldl (fun jl jj => if |T jj| > |T jl| then jj else jl) a)| := by
  induction l generalizing a with
  | nil => exact ⟨by simp, le_rfl⟩
  | cons x l ih =>
    rw [List.foldl_cons]
    by_cases h : |T x| > |T a|
    · rw [if_pos h]
      refine ⟨?_, h.le.trans (ih x).2⟩
      intro y hy
      rcases List.mem_cons.1 hy with rfl | hy
      · exact (ih y).2
      · exact (ih x).1 y hy
    · rw [if_neg h]
      refine ⟨?_, (ih a).2⟩
      intro y hy
      rcases List.mem_cons.1 hy with rfl | hy
      · exact (not_lt.1 h).trans (ih a).2
      · exact (ih a).1 y hy

/-- Invariant of the first loop, columns before `j` being done. -/
structure Inv (A : Mat K) (j : Nat) (w : Work K) : Prop where
  lin : A * w.am1 = eff j w.tmp
  one : ∀ i : Fin 4, i.val < j → w.tmp i i = 1
  inj : ∀ v : Fin 4 → K, Matrix.vecMul v w.am1 = 0 → v = 0

theorem inv_start (A : Mat K) : Inv A 0 (start A) := by
  have h1 : (start A).am1 = 1 := by
    ext i j; simp [start, Matrix.one_apply]
  refine ⟨?_, by simp, ?_⟩
  · rw [h1, mul_one]; ext i r; simp [eff, start]
  · intro v hv
    rwa [h1, Matrix.vecMul_one] at hv

theorem vecMul_exchange (v : Fin 4 → K) (B : Mat K) (j jl : Fin 4) (f : K) (r : Fin 4) :
    Matrix.vecMul v (exchange (fun _ => True) j jl f B) r =
      if r = j then Matrix.vecMul v B jl * f else if r = jl then Matrix.vecMul v B j else Matrix.vecMul v B r := by
  simp only [Matrix.vecMul, dotProduct, exchange, if_true]
  split
  · rw [Finset.sum_mul]; exact Finset.sum_congr rfl fun i _ => by ring
  · split <;> rfl

theorem vecMul_elimCols (v : Fin 4 → K) (B : Mat K) (j : Fin 4) (c : Fin 4 → K) (r : Fin 4) :
    Matrix.vecMul v (elimCols j c B) r =
      if j < r then Matrix.vecMul v B r - c r * Matrix.vecMul v B j else Matrix.vecMul v B r := by
  simp only [Matrix.vecMul, dotProduct, elimCols]
  split
  · simp only [mul_sub, Finset.sum_sub_distrib, Finset.mul_sum]
    congr 1
    exact Finset.sum_congr rfl fun i _ => by ring
  · rfl

theorem inj_exchange {B : Mat K} (h : ∀ v : Fin 4 → K, Matrix.vecMul v B = 0 → v = 0) (j jl : Fin 4) {f : K}
    (hf : f ≠ 0) : ∀ v : Fin 4 → K, Matrix.vecMul v (exchange (fun _ => True) j jl f B) = 0 → v = 0 := by
  intro v hv
  apply h
  have key := fun r => (vecMul_exchange v B j jl f r).symm.trans (congrFun hv r)
  have hjl : Matrix.vecMul v B jl = 0 := by
    have := key j
    rw [if_pos rfl] at this
    exact (mul_eq_zero.1 this).resolve_right hf
  have hj : Matrix.vecMul v B j = 0 := by
    by_cases e : jl = j
    · rw [← e]; exact hjl
    · have := key jl
      rwa [if_neg e, if_pos rfl] at this
  funext r
  have := key r
  by_cases e : r = j
  · rw [e]; exact hj
  · by_cases e' : r = jl
    · rw [e']; exact hjl
    · rwa [if_neg e, if_neg e'] at this

theorem inj_elimCols {B : Mat K} (h : ∀ v : Fin 4 → K, Matrix.vecMul v B = 0 → v = 0) (j : Fin 4) (c : Fin 4 → K) :
    ∀ v : Fin 4 → K, Matrix.vecMul v (elimCols j c B) = 0 → v = 0 := by
  intro v hv
  apply h
  have key := fun r => (vecMul_elimCols v B j c r).symm.trans (congrFun hv r)
  have hj : Matrix.vecMul v B j = 0 := by
    have := key j
    rwa [if_neg (lt_irrefl j)] at this
  funext r
  have := key r
  by_cases e : j < r
  · rw [if_pos e, hj, mul_zero, sub_zero] at this; exact this
  · rwa [if_neg e] at this

/-- One turn of the first loop keeps the invariant. -/
theorem inv_step {A : Mat K} {j : Fin 4} {w w' : Work K} (h : Inv A j w) (hw : forward1 w j = some w') :
    Inv A (j + 1) w' := by
  unfold forward1 at hw
  have hge := pivotRow_ge j w.tmp
  generalize pivotRow j w.tmp = jl at hw hge
  simp only at hw
  by_cases hp : w.tmp j jl = 0
  · rw [if_pos hp] at hw; exact absurd hw (by simp)
  rw [if_neg hp] at hw
  have hw := (Option.some.inj hw).symm
  rw [eliminate_eq] at hw
  subst hw
  have hf : (1 / w.tmp j jl) ≠ 0 := one_div_ne_zero hp
  have hjj : exchange (j ≤ ·) j jl (1 / w.tmp j jl) w.tmp j j = 1 := by
    simp only [exchange, le_refl, if_true]
    exact mul_one_div_cancel hp
  refine ⟨?_, ?_, ?_⟩
  · show A * elimCols j _ (exchange (fun _ => True) j jl _ w.am1) = _
    rw [mul_elimCols, mul_exchange, h.lin]
    ext k r
    simp only [elimCols, eff, exchange, if_true]
    by_cases hk : k < j
    · have hkj : k.val < j.val := hk
      have h1 : ¬ j ≤ k := not_le.2 hk
      have h2 : ¬ j < k := not_lt.2 hk.le
      have h3 : k.val < j.val + 1 := by omega
      simp only [hkj, h1, h2, h3, hk, true_and, and_false, if_false, if_true, lt_of_lt_of_le hk hge, zero_mul, mul_zero,
        sub_zero]
      by_cases hkr : k < r
      · simp [hkr]
      · have h5 : ¬ j < r := fun h => hkr (hk.trans h)
        have h6 : r ≠ j := fun e => h5 (by subst e; exact absurd hk hkr)
        have h7 : r ≠ jl := fun e => hkr (by subst e; exact lt_of_lt_of_le hk hge)
        simp [hkr, h5, h6, h7]
    · have hkj : ¬ k.val < j.val := hk
      have h1 : j ≤ k := not_lt.1 hk
      simp only [hkj, h1, false_and, if_false, if_true, le_refl]
      by_cases e : k = j
      · subst e
        have h3 : k.val < k.val + 1 := by omega
        simp only [h3, lt_irrefl, true_and, and_false, if_false]
        by_cases hr : k < r
        · simp only [hr, if_true]
          rw [mul_one_div_cancel hp]; ring
        · simp only [hr, if_false]
      · have h2 : j < k := lt_of_le_of_ne h1 (Ne.symm e)
        have h3 : ¬ k.val < j.val + 1 := by have : j.val < k.val := h2; omega
        simp only [h2, h3, and_true, false_and, if_false]
  · intro i hi
    simp only
    by_cases e : i = j
    · subst e; simp only [lt_irrefl, false_and, if_false]; exact hjj
    · have hi' : i.val < j.val := by
        have : i.val ≠ j.val := fun h => e (Fin.ext h)
        omega
      have h1 : ¬ j < i := not_lt.2 (le_of_lt hi')
      have h2 : ¬ j ≤ i := not_le.2 hi'
      simp only [h1, false_and, if_false, exchange, h2]
      exact h.one i hi'
  · exact inj_elimCols (inj_exchange h.inj j jl hf) j _

variable [IsStrictOrderedRing K]

/-- A zero pivot means that the matrix is singular. -/
theorem singular_of_stop {A : Mat K} {j : Fin 4} {w : Work K} (h : Inv A j w) (hw : forward1 w j = none) :
    A.det = 0 := by
  unfold forward1 at hw
  by_cases hp : w.tmp j (pivotRow j w.tmp) = 0
  swap
  · rw [if_neg hp] at hw; exact absurd hw (by simp)
  clear hw
  have hz : ∀ r, j ≤ r → w.tmp j r = 0 := by
    intro r hr
    have hm := foldl_max (w.tmp j) (later j) j
    have hp' : w.tmp j ((later j).foldl (fun jl jj => if |w.tmp j jj| > |w.tmp j jl| then jj else jl) j) = 0 := hp
    rw [hp', abs_zero] at hm
    rcases eq_or_lt_of_le hr with e | e
    · subst e; exact abs_nonpos_iff.1 hm.2
    · exact abs_nonpos_iff.1 (hm.1 r (by simpa [later] using e))
  obtain ⟨v, hv1, hv0⟩ : ∃ v : Fin 4 → K, v j = 1 ∧ Matrix.vecMul v (eff j w.tmp) = 0 := by
    have o := h.one
    generalize w.tmp = T at hz o
    fin_cases j
    · refine ⟨![1, 0, 0, 0], rfl, ?_⟩
      have z := hz
      funext r
      simp [Matrix.vecMul, dotProduct, Fin.sum_univ_four, eff]
      exact z r (Fin.zero_le r)
    · refine ⟨![-T 1 0, 1, 0, 0], rfl, ?_⟩
      have o0 := o 0 (by decide)
      have z1 := hz 1 (by decide); have z2 := hz 2 (by decide); have z3 := hz 3 (by decide)
      simp only [Fin.mk_one] at z1 z2 z3
      funext r
      fin_cases r <;> simp [Matrix.vecMul, dotProduct, Fin.sum_univ_four, eff, o0, z1, z2, z3]
    · refine ⟨![-T 2 0 + T 2 1 * T 1 0, -T 2 1, 1, 0], rfl, ?_⟩
      have o0 := o 0 (by decide); have o1 := o 1 (by decide)
      have z2 := hz 2 (by decide); have z3 := hz 3 (by decide)
      funext r
      fin_cases r <;> simp [Matrix.vecMul, dotProduct, Fin.sum_univ_four, eff, o0, o1]
      · exact z2
      · exact z3
    · refine ⟨![-T 3 0 + T 3 1 * T 1 0 + T 3 2 * T 2 0 - T 3 2 * T 2 1 * T 1 0, -T 3 1 + T 3 2 * T 2 1, -T 3 2, 1],
        rfl, ?_⟩
      have o0 := o 0 (by decide); have o1 := o 1 (by decide); have o2 := o 2 (by decide)
      have z3 := hz 3 (by decide)
      funext r
      fin_cases r <;> simp [Matrix.vecMul, dotProduct, Fin.sum_univ_four, eff, o0, o1, o2]
      · ring
      · exact z3
  rw [← h.lin, ← Matrix.vecMul_vecMul] at hv0
  have hA : Matrix.vecMul v A = 0 := h.inj _ hv0
  refine Matrix.exists_vecMul_eq_zero_iff.1 ⟨v, ?_, hA⟩
  intro e
  rw [e] at hv1
  exact zero_ne_one hv1

theorem forward_chain (A : Mat K) : forward A = (forward1 (start A) 0).bind fun w1 => (forward1 w1 1).bind fun w2 =>
    (forward1 w2 2).bind fun w3 => forward1 w3 3 := by
  simp only [forward, List.foldlM_cons, List.foldlM_nil, bind_pure]
  rfl

/-- The first loop stops only for singular matrices, else ends in triangular form. -/
theorem forward_spec (A : Mat K) :
    (forward A = none ∧ A.det = 0) ∨ ∃ w, forward A = some w ∧ Inv A 4 w := by
  rw [forward_chain]
  have i0 := inv_start A
  cases h0 : forward1 (start A) 0 with
  | none => exact .inl ⟨rfl, singular_of_stop i0 h0⟩
  | some w1 =>
    have i1 := inv_step i0 h0
    rw [Option.bind_some]
    cases h1 : forward1 w1 1 with
    | none => exact .inl ⟨rfl, singular_of_stop i1 h1⟩
    | some w2 =>
      have i2 := inv_step i1 h1
      rw [Option.bind_some]
      cases h2 : forward1 w2 2 with
      | none => exact .inl ⟨rfl, singular_of_stop i2 h2⟩
      | some w3 =>
        have i3 := inv_step i2 h2
        rw [Option.bind_some]
        cases h3 : forward1 w3 3 with
        | none => exact .inl ⟨rfl, singular_of_stop i3 h3⟩
        | some w4 => exact .inr ⟨w4, rfl, inv_step i3 h3⟩

/-- The second loop ends with the inverse when the entries the first loop did not clear do not interfere. -/
theorem backward_spec {A : Mat K} {w : Work K} (h : Inv A 4 w)
    (c1 : w.tmp 3 1 * w.tmp 2 3 = 0) (c2 : w.tmp 3 0 * w.tmp 1 3 = 0) (c3 : w.tmp 3 0 * w.tmp 2 3 = 0)
    (c4 : w.tmp 2 0 * (w.tmp 1 2 - w.tmp 3 2 * w.tmp 1 3) = 0) : A * (backward w).am1 = 1 := by
  obtain ⟨hl, ho, -⟩ := h
  obtain ⟨T, B⟩ := w
  simp only at *
  have o0 := ho 0 (by decide); have o1 := ho 1 (by decide); have o2 := ho 2 (by decide); have o3 := ho 3 (by decide)
  simp only [backward, List.foldl_cons, List.foldl_nil, backward_row_eq, mul_subCols, hl]
  ext k r
  fin_cases k <;> fin_cases r <;> simp [subCols, eff, o0, o1, o2, o3]
  · linear_combination c2 + c4 - (T 1 2 - T 3 2 * T 1 3) * c3
  · linear_combination
      c3 - (T 1 0 - T 3 0 * T 1 3 - (T 2 0 - T 3 0 * T 2 3) * (T 1 2 - T 3 2 * T 1 3)) * c1
  · exact mul_eq_zero.1 c1

/-- The entries of `M` outside the diagonal and the pairs of `σ` are zero. -/
def Paired (σ : Fin 4 → Fin 4) (M : Mat K) : Prop := ∀ i r, r ≠ i → r ≠ σ i → M i r = 0

omit [IsStrictOrderedRing K] in
theorem paired_step [IsStrictOrderedRing K] {σ : Fin 4 → Fin 4} (hσ : ∀ i, σ (σ i) = i) {j : Fin 4} {w w' : Work K}
    (h : Paired σ w.tmp) (hw : forward1 w j = some w') : Paired σ w'.tmp := by
  unfold forward1 at hw
  generalize pivotRow j w.tmp = jl at hw
  simp only at hw
  by_cases hp : w.tmp j jl = 0
  · rw [if_pos hp] at hw; exact absurd hw (by simp)
  rw [if_neg hp] at hw
  have hw := (Option.some.inj hw).symm
  rw [eliminate_eq] at hw
  subst hw
  have hjl : jl = j ∨ jl = σ j := by
    by_contra hc
    push Not at hc
    exact hp (h j jl hc.1 hc.2)
  -- both rows touched have their entries in the columns of the pair
  have hx : Paired σ (exchange (j ≤ ·) j jl (1 / w.tmp j jl) w.tmp) := by
    intro i r h1 h2
    have hi := h i
    simp only [exchange]
    split
    · rcases hjl with e | e
      · subst e
        split
        · rename_i e; subst e; rw [h i r h1 h2, zero_mul]
        · exact h i r h1 h2
      · have hj : j = σ jl := by rw [e, hσ]
        split
        · rename_i e'; subst e'
          rw [h i jl, zero_mul]
          · intro e2; exact h2 (by rw [← e2]; exact hj)
          · intro e2; exact h1 (by rw [hj, e2, hσ])
        · split
          · rename_i e'; subst e'
            refine h i j ?_ ?_
            · intro e2; exact h2 (by rw [← e2]; exact e)
            · intro e2; exact h1 (by rw [e, e2, hσ])
          · exact h i r h1 h2
    · exact h i r h1 h2
  generalize exchange (j ≤ ·) j jl (1 / w.tmp j jl) w.tmp = T at hx
  intro i r h1 h2
  simp only
  split
  · rename_i hr
    rw [hx i r h1 h2, zero_sub, neg_eq_zero, mul_eq_zero]
    by_cases e : r = σ j
    · right
      refine hx i j ?_ ?_
      · intro e2; exact h2 (by rw [e, e2])
      · intro e2; exact h1 (by rw [e, e2, hσ])
    · left; exact hx j r (ne_of_gt hr.1) e
  · exact hx i r h1 h2

omit [IsStrictOrderedRing K] in
theorem paired_forward [IsStrictOrderedRing K] {σ : Fin 4 → Fin 4} (hσ : ∀ i, σ (σ i) = i) {A : Mat K} {w : Work K}
    (h : Paired σ A) (hw : forward A = some w) : Paired σ w.tmp := by
  rw [forward_chain] at hw
  obtain ⟨w1, h1, hw⟩ := Option.bind_eq_some_iff.1 hw
  obtain ⟨w2, h2, hw⟩ := Option.bind_eq_some_iff.1 hw
  obtain ⟨w3, h3, hw⟩ := Option.bind_eq_some_iff.1 hw
  exact paired_step hσ (paired_step hσ (paired_step hσ (paired_step hσ h h1) h2) h3) hw

end Gyoto.Matrix4
