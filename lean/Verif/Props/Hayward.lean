import Verif.Model.Hayward
import Verif.Lemmas.MassFn
import Mathlib.Analysis.Calculus.Deriv.Pow
import Mathlib.Analysis.Calculus.Deriv.Inv
import Mathlib.LinearAlgebra.Matrix.NonsingularInverse
import Mathlib.Tactic.Positivity
import Mathlib.Tactic.Linarith

/-!
# The Hayward metric
-/

namespace Gyoto.Hayward

open Gyoto.MetricAlg Gyoto.Spacetime Gyoto.KerrBL

/-- The mass inside of the radius `r` in the Hayward metric, times `r`. -/
noncomputable def hm (b r : ℝ) : ℝ := |r| ^ 3 / (|r| ^ 3 + 2 * b ^ 2) * r

/-- Where the Hayward metric is regular: off the horizons, off the singularity that is left without charge, and, on the disk `r = 0`,
off its edge. -/
structure Regular (a b : ℝ) (pos : Vec) : Prop where
  centre : pos 1 ≠ 0 ∨ b ≠ 0 ∧ a * Real.cos (pos 2) ≠ 0
  horizon : pos 1 ^ 2 - 2 * hm b (pos 1) + a ^ 2 ≠ 0

theorem hm_pos {b r : ℝ} (hr : 0 ≤ r) : hm b r = r ^ 4 / (r ^ 3 + 2 * (b * b)) := by
  unfold hm
  rw [abs_of_nonneg hr, sq]
  ring

theorem hm_neg {b r : ℝ} (hr : r ≤ 0) : hm b r = r ^ 4 / (r ^ 3 + 2 * -(b * b)) := by
  unfold hm
  rw [abs_of_nonpos hr, show (-r) ^ 3 + 2 * b ^ 2 = -(r ^ 3 + 2 * -(b * b)) by ring, div_neg]
  ring

theorem hm_neg' {b r : ℝ} (hr : r ≤ 0) : hm b r = r ^ 4 / (r ^ 3 - 2 * (b * b)) := by
  rw [hm_neg hr]
  ring_nf

/-- The metric in one formula. -/
theorem gmunu_eq {a b : ℝ} {pos : Vec} (_h : pos 1 ≠ 0 ∨ b ≠ 0) : gmunu a b pos = massMetric a (hm b) pos := by
  have h1 := Real.sin_sq_add_cos_sq (pos 2)
  unfold gmunu massMetric
  dsimp only
  by_cases c1 : pos 1 ≥ 1
  · have hr : 0 < pos 1 := by linarith
    rw [if_pos c1, hm_pos hr.le]
    generalize pos 1 = r at *
    generalize Real.sin (pos 2) = s at *
    generalize Real.cos (pos 2) = c at *
    have hB : 0 < r ^ 3 + 2 * (b * b) := by have := mul_self_nonneg b; positivity
    have hW : 0 < r * r + a * a * (c * c) := by have := mul_nonneg (mul_self_nonneg a) (mul_self_nonneg c); positivity
    have e1 : a * a * (1 / r * (1 / r)) * (c * c) + 1 = (r * r + a * a * (c * c)) / r ^ 2 := by field_simp; ring
    have e2 : 2 * (b * b) * (1 / r * (1 / r) * (1 / r)) + 1 = (r ^ 3 + 2 * (b * b)) / r ^ 3 := by field_simp; ring
    have e3 : 2 * (a * a * (b * b)) * (1 / r * (1 / r) * (1 / r) * (1 / r) * (1 / r)) + 2 * (b * b) * (1 / r * (1 / r) * (1 / r)) +
        a * a * (1 / r * (1 / r)) - 2 * (1 / r) + 1 =
        (r * r - 2 * (r ^ 4 / (r ^ 3 + 2 * (b * b))) + a * a) * ((r ^ 3 + 2 * (b * b)) / r ^ 5) := by field_simp; ring
    congr 1
    · rw [e1, e2]
      generalize hBB : r ^ 3 + 2 * (b * b) = B at *
      generalize hWW : r * r + a * a * (c * c) = W at *
      field_simp
      grind
    · rw [e1, e2, e3, show (r * r + a * a * (c * c)) / r ^ 2 * ((r ^ 3 + 2 * (b * b)) / r ^ 3) =
        (r * r + a * a * (c * c)) * ((r ^ 3 + 2 * (b * b)) / r ^ 5) by field_simp, mul_div_mul_right _ _ (by positivity)]
    · field_simp
      ring
    · rw [e1, e2]
      clear e1 e2 e3
      have hS : s * s = 1 - c * c := by linear_combination h1
      rw [hS]
      clear hS h1
      generalize hBB : r ^ 3 + 2 * (b * b) = B at *
      generalize hWW : r * r + a * a * (c * c) = W at *
      field_simp
      rw [← hBB, ← hWW]
      ring
    · rw [e1, e2]
      field_simp
  · rw [if_neg c1]
    by_cases c2 : pos 1 ≥ 0
    · rw [if_pos c2, hm_pos c2]
      have e : pos 1 ^ 4 / (pos 1 ^ 3 + 2 * (b * b)) = pos 1 * pos 1 * pos 1 / (pos 1 * pos 1 * pos 1 + 2 * (b * b)) * pos 1 := by
        ring_nf
      rw [e]
      congr 1 <;> ring
    · rw [if_neg c2, hm_neg (le_of_not_ge c2)]
      have e : pos 1 ^ 4 / (pos 1 ^ 3 + 2 * -(b * b)) =
          -(pos 1 * pos 1 * pos 1) / (-(pos 1 * pos 1 * pos 1) + 2 * (b * b)) * pos 1 := by
        rw [show -(pos 1 * pos 1 * pos 1) + 2 * (b * b) = -(pos 1 ^ 3 + 2 * -(b * b)) by ring, neg_div_neg_eq]
        ring
      rw [e]
      congr 1 <;> ring

/-- The derivative of `m r`. -/
noncomputable def hm' (b r : ℝ) : ℝ := (r ^ 6 + 8 * b ^ 2 * |r| ^ 3) / (|r| ^ 3 + 2 * b ^ 2) ^ 2

theorem branch_deriv {β r : ℝ} (h : r ^ 3 + 2 * β ≠ 0) :
    HasDerivAt (fun x => x ^ 4 / (x ^ 3 + 2 * β)) ((r ^ 6 + 8 * β * r ^ 3) / (r ^ 3 + 2 * β) ^ 2) r := by
  have := (hasDerivAt_pow 4 r).div ((hasDerivAt_pow 3 r).add_const (2 * β)) h
  refine this.congr_deriv ?_
  congr 1
  norm_num
  ring

theorem hm_deriv {b r : ℝ} (h : r ≠ 0 ∨ b ≠ 0) : HasDerivAt (hm b) (hm' b r) r := by
  have hb : b ≠ 0 → 0 < b * b := fun h => mul_self_pos.2 h
  have hp : 0 ≤ r → HasDerivAt (fun x => x ^ 4 / (x ^ 3 + 2 * (b * b))) (hm' b r) r := by
    intro hr
    refine (branch_deriv (β := b * b) ?_).congr_deriv ?_
    · rcases h with h | h
      · have := lt_of_le_of_ne hr (Ne.symm h)
        have := mul_self_nonneg b
        positivity
      · have := hb h
        positivity
    · unfold hm'
      rw [abs_of_nonneg hr]
      ring
  have hn : r ≤ 0 → HasDerivAt (fun x => x ^ 4 / (x ^ 3 + 2 * -(b * b))) (hm' b r) r := by
    intro hr
    refine (branch_deriv (β := -(b * b)) ?_).congr_deriv ?_
    · have h3 : 0 ≤ (-r) ^ 3 := pow_nonneg (by linarith) 3
      rcases h with h | h
      · have h4 : 0 < (-r) ^ 3 := pow_pos (lt_of_le_of_ne (by linarith) (by simpa using h)) 3
        have := mul_self_nonneg b
        nlinarith
      · have := hb h
        nlinarith
    · unfold hm'
      rw [abs_of_nonpos hr, show (-r) ^ 3 + 2 * b ^ 2 = -(r ^ 3 + 2 * -(b * b)) by ring, neg_sq]
      ring
  rcases lt_trichotomy r 0 with hr | hr | hr
  · refine (hn hr.le).congr_of_eventuallyEq ?_
    filter_upwards [Iio_mem_nhds hr] with x hx using hm_neg (le_of_lt hx)
  · subst hr
    have h1 : HasDerivWithinAt (hm b) (hm' b 0) (Set.Ici 0) 0 :=
      (hp le_rfl).hasDerivWithinAt.congr (fun x hx => hm_pos hx) (hm_pos le_rfl)
    have h2 : HasDerivWithinAt (hm b) (hm' b 0) (Set.Iic 0) 0 :=
      (hn le_rfl).hasDerivWithinAt.congr (fun x hx => hm_neg hx) (hm_neg le_rfl)
    have := h2.union h1
    rwa [Set.Iic_union_Ici, hasDerivWithinAt_univ] at this
  · refine (hp hr.le).congr_of_eventuallyEq ?_
    filter_upwards [Ioi_mem_nhds hr] with x hx using hm_pos (le_of_lt hx)

/-- What a regular point gives to the algebra. -/
theorem Regular.facts {a b : ℝ} {pos : Vec} (h : Regular a b pos) :
    (pos 1 ≠ 0 ∨ b ≠ 0) ∧ pos 1 * pos 1 + a * a * (Real.cos (pos 2) * Real.cos (pos 2)) ≠ 0 ∧
    pos 1 * pos 1 - 2 * hm b (pos 1) + a * a ≠ 0 := by
  refine ⟨?_, ?_, ?_⟩
  · rcases h.centre with h | h
    · exact Or.inl h
    · exact Or.inr h.1
  · rcases h.centre with h | h
    · have h1 := mul_self_pos.2 h
      have h2 := mul_nonneg (mul_self_nonneg a) (mul_self_nonneg (Real.cos (pos 2)))
      positivity
    · have h1 := mul_self_nonneg (pos 1)
      have h2 := mul_self_pos.2 h.2
      have h3 : a * a * (Real.cos (pos 2) * Real.cos (pos 2)) = a * Real.cos (pos 2) * (a * Real.cos (pos 2)) := by ring
      rw [h3]
      positivity
  · have := h.horizon
    rwa [sq, sq] at this

/-- The cubic in the denominators does not vanish. -/
theorem cubic {b r : ℝ} (h : r ≠ 0 ∨ b ≠ 0) : (0 ≤ r → r ^ 3 + 2 * (b * b) ≠ 0) ∧ (r ≤ 0 → r ^ 3 - 2 * (b * b) ≠ 0) := by
  constructor
  · intro hr
    rcases h with h | h
    · have := lt_of_le_of_ne hr (Ne.symm h)
      have := mul_self_nonneg b
      positivity
    · have := mul_self_pos.2 h
      positivity
  · intro hr
    have h3 : 0 ≤ (-r) ^ 3 := pow_nonneg (by linarith) 3
    rcases h with h | h
    · have h4 : 0 < (-r) ^ 3 := pow_pos (lt_of_le_of_ne (by linarith) (by simpa using h)) 3
      have := mul_self_nonneg b
      nlinarith
    · have := mul_self_pos.2 h
      nlinarith

/-- The chain of tests of the methods that return one component. -/
theorem chain_eq (tt rr hh pp tp : ℝ) (mu nu : Fin 4) :
    (if mu = 0 ∧ nu = 0 then tt else if mu = 1 ∧ nu = 1 then rr else if mu = 2 ∧ nu = 2 then hh else if mu = 3 ∧ nu = 3 then pp
      else if (mu = 0 ∧ nu = 3) ∨ (mu = 3 ∧ nu = 0) then tp else 0) = circ tt rr hh pp tp mu nu := by
  fin_cases mu <;> fin_cases nu <;> rfl

/-- C81. The components of the metric asked one by one are those of the matrix. -/
theorem coef_eq (a b : ℝ) (pos : Vec) (mu nu : Fin 4) : gmunuCoef a b pos mu nu = gmunu a b pos mu nu := by
  unfold gmunuCoef gmunu
  dsimp only
  by_cases c1 : pos 1 ≥ 1
  · rw [if_pos c1, if_pos c1]
    exact chain_eq _ _ _ _ _ mu nu
  · rw [if_neg c1, if_neg c1]
    by_cases c2 : pos 1 ≥ 0
    · rw [if_pos c2, if_pos c2]
      exact chain_eq _ _ _ _ _ mu nu
    · rw [if_neg c2, if_neg c2]
      exact chain_eq _ _ _ _ _ mu nu

/-- C81 (partial: not for negative radii). The components of the inverse asked one by one are those of the matrix. -/
theorem up_coef_partial {a b : ℝ} {pos : Vec} (hr : 0 ≤ pos 1) (mu nu : Fin 4) : gmunuUpCoef a b pos mu nu = gmunuUp a b pos mu nu := by
  unfold gmunuUpCoef gmunuUp
  dsimp only
  by_cases c1 : pos 1 ≥ 1
  · rw [if_pos c1, if_pos c1]
    exact chain_eq _ _ _ _ _ mu nu
  · rw [if_neg c1, if_neg c1, if_pos hr, if_pos hr]
    exact chain_eq _ _ _ _ _ mu nu

/-- The inverse in one formula. -/
theorem up_eq {a b : ℝ} {pos : Vec} (h : Regular a b pos) (hsin : Real.sin (pos 2) ≠ 0) :
    gmunuUp a b pos = massUp a (pos 1) (Real.sin (pos 2)) (hm b (pos 1))
      (pos 1 * pos 1 + a * a * (Real.cos (pos 2) * Real.cos (pos 2))) (pos 1 * pos 1 - 2 * hm b (pos 1) + a * a) := by
  obtain ⟨h0, hW0, hD0⟩ := h.facts
  have h1 := Real.sin_sq_add_cos_sq (pos 2)
  have hS : Real.sin (pos 2) * Real.sin (pos 2) = 1 - Real.cos (pos 2) * Real.cos (pos 2) := by linear_combination h1
  have hS0 : 1 - Real.cos (pos 2) * Real.cos (pos 2) ≠ 0 := by rw [← hS]; exact mul_ne_zero hsin hsin
  obtain ⟨k1, k2⟩ := cubic h0
  unfold gmunuUp massUp
  dsimp only
  rw [hS]
  clear h1 hS hsin
  by_cases c1 : pos 1 ≥ 1
  · have hr : 0 < pos 1 := by linarith
    rw [if_pos c1]
    rw [hm_pos hr.le] at hD0 ⊢
    have k1 := k1 hr.le
    clear k2 h
    generalize pos 1 = r at *
    generalize Real.cos (pos 2) * Real.cos (pos 2) = C at *
    clear h0
    generalize b * b = β at *
    have e1 : a * a * (1 / r * (1 / r)) * C + 1 = (r * r + a * a * C) / r ^ 2 := by field_simp; ring
    have e2 : 2 * β * (1 / r * (1 / r) * (1 / r)) + 1 = (r ^ 3 + 2 * β) / r ^ 3 := by field_simp; ring
    have e3 : 2 * (a * a * β) * (1 / r * (1 / r) * (1 / r) * (1 / r) * (1 / r)) + 2 * β * (1 / r * (1 / r) * (1 / r)) +
        a * a * (1 / r * (1 / r)) - 2 * (1 / r) + 1 =
        (r * r - 2 * (r ^ 4 / (r ^ 3 + 2 * β)) + a * a) * ((r ^ 3 + 2 * β) / r ^ 5) := by field_simp; ring
    have e4 : 2 * (a * a * (a * a)) * β * (1 / r * (1 / r) * (1 / r) * (1 / r) * (1 / r) * (1 / r) * (1 / r)) * C +
        2 * (a * a * β) * (1 / r * (1 / r) * (1 / r) * (1 / r) * (1 / r)) * C + a * a * (a * a) * (1 / r * (1 / r) * (1 / r) * (1 / r)) * C +
        2 * (a * a * β) * (1 / r * (1 / r) * (1 / r) * (1 / r) * (1 / r)) + 2 * (a * a) * (1 / r * (1 / r) * (1 / r)) * (1 - C) +
        a * a * (1 / r * (1 / r)) * C - 2 * (a * a) * (1 / r * (1 / r) * (1 / r)) + 2 * β * (1 / r * (1 / r) * (1 / r)) +
        a * a * (1 / r * (1 / r)) - 2 * (1 / r) + 1 =
        (r * r + a * a * C) / r ^ 2 * ((r * r - 2 * (r ^ 4 / (r ^ 3 + 2 * β)) + a * a) * ((r ^ 3 + 2 * β) / r ^ 5)) := by
      field_simp; ring
    rw [e1, e2, e3, e4]
    clear e1 e2 e3 e4
    generalize hBB : r ^ 3 + 2 * β = B at *
    generalize hWW : r * r + a * a * C = W at *
    generalize hDD : r * r - 2 * (r ^ 4 / B) + a * a = D at *
    have hD2 : D * B = (r * r + a * a) * B - 2 * r ^ 4 := by rw [← hDD]; field_simp; ring
    congr 1
    · field_simp
      rw [← hWW, ← hBB]
      ring
    · field_simp
    · field_simp
    · field_simp
      clear hDD
      linear_combination (a ^ 2 * C + r ^ 2) * hBB - hD2
    · field_simp
  · rw [if_neg c1]
    by_cases c2 : pos 1 ≥ 0
    · rw [if_pos c2]
      rw [hm_pos c2] at hD0 ⊢
      have k1 := k1 c2
      clear k2 h
      generalize pos 1 = r at *
      generalize Real.cos (pos 2) * Real.cos (pos 2) = C at *
      clear h0
      generalize b * b = β at *
      have e2 : r * r * r + 2 * β = r ^ 3 + 2 * β := by ring
      have e3 : a * a * (r * r * r) + r * r * (r * r) * r + 2 * (a * a * β) + 2 * β * (r * r) - 2 * (r * r * (r * r)) =
          (r * r - 2 * (r ^ 4 / (r ^ 3 + 2 * β)) + a * a) * (r ^ 3 + 2 * β) := by field_simp; ring
      have e4 : a * a * (a * a) * (r * r * r) * C + a * a * (r * r * (r * r) * r) * C + 2 * (a * a * (a * a * β)) * C +
          2 * (a * a * β) * (r * r) * C + 2 * (a * a) * (r * r * (r * r)) * (1 - C) + a * a * (r * r * (r * r) * r) +
          r * r * (r * r) * r * r * r + 2 * (a * a * β) * (r * r) - 2 * (a * a) * (r * r * (r * r)) +
          2 * β * (r * r * (r * r)) - 2 * (r * r * (r * r) * r * r) =
          (r * r + a * a * C) * ((r * r - 2 * (r ^ 4 / (r ^ 3 + 2 * β)) + a * a) * (r ^ 3 + 2 * β)) := by
        field_simp; ring
      rw [e2, e3, e4]
      clear e2 e3 e4
      generalize hBB : r ^ 3 + 2 * β = B at *
      generalize hWW : r * r + a * a * C = W at *
      generalize hDD : r * r - 2 * (r ^ 4 / B) + a * a = D at *
      have hD2 : D * B = (r * r + a * a) * B - 2 * r ^ 4 := by rw [← hDD]; field_simp; ring
      clear hDD
      congr 1
      · field_simp
        rw [← hWW, ← hBB]
        ring
      · field_simp
      · field_simp
        linear_combination (a ^ 2 * C + r ^ 2) * hBB - hD2
      · field_simp
    · rw [if_neg c2]
      rw [hm_neg' (le_of_not_ge c2)] at hD0 ⊢
      have k2 := k2 (le_of_not_ge c2)
      clear k1 h
      generalize pos 1 = r at *
      generalize Real.cos (pos 2) * Real.cos (pos 2) = C at *
      clear h0
      generalize b * b = β at *
      have e2 : r * r * r - 2 * β = r ^ 3 - 2 * β := by ring
      have e3 : a * a * (r * r * r) + r * r * (r * r) * r - 2 * (a * a * β) - 2 * β * (r * r) - 2 * (r * r * (r * r)) =
          (r * r - 2 * (r ^ 4 / (r ^ 3 - 2 * β)) + a * a) * (r ^ 3 - 2 * β) := by field_simp; ring
      have e4 : a * a * (a * a) * (r * r * r) * C + a * a * (r * r * (r * r) * r) * C - 2 * (a * a * (a * a * β)) * C -
          2 * (a * a * β) * (r * r) * C + 2 * (a * a) * (r * r * (r * r)) * (1 - C) + a * a * (r * r * (r * r) * r) +
          r * r * (r * r) * r * r * r - 2 * (a * a * β) * (r * r) - 2 * (a * a) * (r * r * (r * r)) -
          2 * β * (r * r * (r * r)) - 2 * (r * r * (r * r) * r * r) =
          (r * r + a * a * C) * ((r * r - 2 * (r ^ 4 / (r ^ 3 - 2 * β)) + a * a) * (r ^ 3 - 2 * β)) := by
        field_simp; ring
      rw [e2, e3, e4]
      clear e2 e3 e4
      generalize hBB : r ^ 3 - 2 * β = B at *
      generalize hWW : r * r + a * a * C = W at *
      generalize hDD : r * r - 2 * (r ^ 4 / B) + a * a = D at *
      have hD2 : D * B = (r * r + a * a) * B - 2 * r ^ 4 := by rw [← hDD]; field_simp; ring
      clear hDD
      congr 1
      · field_simp
        rw [← hWW, ← hBB]
        ring
      · field_simp
      · field_simp
        linear_combination (a ^ 2 * C + r ^ 2) * hBB - hD2
      · field_simp

/-- C81. `gmunu_up` is the inverse of the metric. -/
theorem up_inverse {a b : ℝ} {pos : Vec} (h : Regular a b pos) (hsin : Real.sin (pos 2) ≠ 0) :
    gmunuUp a b pos * gmunu a b pos = 1 := by
  obtain ⟨h0, hW0, hD0⟩ := h.facts
  rw [up_eq h hsin, gmunu_eq h0]
  exact mass_inverse rfl rfl hW0 hD0 hsin

/-- C81. The metric in one formula, at each point where it is regular. -/
theorem gmunu_fun (a b : ℝ) : gmunu a b = massMetric a (hm b) := by
  funext pos
  by_cases h : pos 1 ≠ 0 ∨ b ≠ 0
  · exact gmunu_eq h
  · push Not at h
    unfold gmunu massMetric hm
    simp [h.1, h.2]

/-- The Christoffel symbols in one formula. -/
theorem christoffel_eq {a b : ℝ} {pos : Vec} (h : Regular a b pos) (hsin : Real.sin (pos 2) ≠ 0) :
    christoffel a b pos = massΓ a (pos 1) (Real.sin (pos 2)) (Real.cos (pos 2)) (hm b (pos 1)) (hm' b (pos 1))
      (pos 1 * pos 1 + a * a * (Real.cos (pos 2) * Real.cos (pos 2))) (pos 1 * pos 1 - 2 * hm b (pos 1) + a * a)
      (hm' b (pos 1) * (pos 1 * pos 1 + a * a * (Real.cos (pos 2) * Real.cos (pos 2))) - 2 * pos 1 * hm b (pos 1)) := by
  obtain ⟨h0, hW0, hD0⟩ := h.facts
  have h1 := Real.sin_sq_add_cos_sq (pos 2)
  have hS : Real.sin (pos 2) * Real.sin (pos 2) = 1 - Real.cos (pos 2) * Real.cos (pos 2) := by linear_combination h1
  have hS2 : Real.sin (pos 2) ^ 2 = 1 - Real.cos (pos 2) * Real.cos (pos 2) := by linear_combination h1
  have hS3 : Real.sin (pos 2) ^ 3 = Real.sin (pos 2) * (1 - Real.cos (pos 2) * Real.cos (pos 2)) := by rw [← hS]; ring
  obtain ⟨k1, k2⟩ := cubic h0
  have hb2 : b ^ 2 = b * b := sq b
  unfold christoffel massΓ hm'
  dsimp only
  rw [hS, hS2, hS3, hb2]
  clear h1 hS hS2 hS3 hb2
  by_cases c1 : pos 1 ≥ 1
  · have hr : 0 < pos 1 := by linarith
    rw [if_pos c1, abs_of_pos hr]
    rw [hm_pos hr.le] at hD0 ⊢
    have k1 := k1 hr.le
    clear k2 h
    generalize pos 1 = r at *
    generalize Real.cos (pos 2) = c at *
    generalize Real.sin (pos 2) = s at *
    clear h0
    generalize b * b = β at *
    obtain ⟨u, hu, rfl⟩ : ∃ u : ℝ, u ≠ 0 ∧ r = 1 / u := ⟨1 / r, by positivity, by simp⟩
    have hiu : 1 / (1 / u) = u := by simp
    rw [hiu]
    have e2 : (1 / u) ^ 3 + 2 * β = (2 * β * (u * u * u) + 1) / u ^ 3 := by field_simp; ring
    have hY0 : 2 * β * (u * u * u) + 1 ≠ 0 := by
      intro hh; rw [e2, hh] at k1; simp at k1
    have e1 : 1 / u * (1 / u) + a * a * (c * c) = (a * a * (u * u) * (c * c) + 1) / u ^ 2 := by field_simp; ring
    have hX0 : a * a * (u * u) * (c * c) + 1 ≠ 0 := by
      intro hh; rw [e1, hh] at hW0; simp at hW0
    have e5 : (1 / u) ^ 4 / ((1 / u) ^ 3 + 2 * β) = 1 / (u * (2 * β * (u * u * u) + 1)) := by
      rw [e2]
      generalize 2 * β * (u * u * u) + 1 = Y at *
      field_simp
    have e3 : 1 / u * (1 / u) - 2 * ((1 / u) ^ 4 / ((1 / u) ^ 3 + 2 * β)) + a * a =
        (2 * (a * a * β) * (u * u * u * u * u) + 2 * β * (u * u * u) + a * a * (u * u) - 2 * u + 1) /
          (u ^ 2 * (2 * β * (u * u * u) + 1)) := by
      rw [e5]
      generalize hY : 2 * β * (u * u * u) + 1 = Y at *
      field_simp
      rw [← hY]
      ring
    have hZ0 : 2 * (a * a * β) * (u * u * u * u * u) + 2 * β * (u * u * u) + a * a * (u * u) - 2 * u + 1 ≠ 0 := by
      intro hh; rw [e3, hh] at hD0; simp at hD0
    have e4 : ((1 / u) ^ 6 + 8 * β * (1 / u) ^ 3) / ((1 / u) ^ 3 + 2 * β) ^ 2 =
        (1 + 8 * β * u ^ 3) / (2 * β * (u * u * u) + 1) ^ 2 := by
      rw [e2]
      generalize 2 * β * (u * u * u) + 1 = Y at *
      field_simp
    rw [e3, e1, e4, e5]
    clear e1 e2 e3 e4 e5 hiu k1 hD0 hW0 hr c1
    generalize hY : 2 * β * (u * u * u) + 1 = Y at *
    generalize hX : a * a * (u * u) * (c * c) + 1 = X at *
    generalize hZ : 2 * (a * a * β) * (u * u * u * u * u) + 2 * β * (u * u * u) + a * a * (u * u) - 2 * u + 1 = Z at *
    change circΓ _ _ _ _ _ _ _ _ _ _ _ _ _ _ _ _ _ _ _ _ = _
    congr 1
    all_goals
      field_simp
      try rw [← hX]
      try rw [← hZ]
      try rw [← hY]
      try ring
  · rw [if_neg c1]
    by_cases c2 : pos 1 ≥ 0
    · rw [if_pos c2, abs_of_nonneg c2]
      rw [hm_pos c2] at hD0 ⊢
      have k1 := k1 c2
      clear h k2
      generalize pos 1 = r at *
      generalize Real.cos (pos 2) = c at *
      generalize Real.sin (pos 2) = s at *
      clear h0
      generalize b * b = β at *
      have e2 : r * r * r + 2 * β = r ^ 3 + 2 * β := by ring
      have e3 : r * r - 2 * (r ^ 4 / (r ^ 3 + 2 * β)) + a * a =
          (a * a * (r * r * r) + r * r * r * r * r + 2 * (a * a * β) + 2 * β * (r * r) - 2 * (r * r * r * r)) / (r ^ 3 + 2 * β) := by
        generalize hB : r ^ 3 + 2 * β = B at *
        field_simp
        rw [← hB]
        ring
      have hE0 : a * a * (r * r * r) + r * r * r * r * r + 2 * (a * a * β) + 2 * β * (r * r) - 2 * (r * r * r * r) ≠ 0 := by
        intro hh; rw [e3, hh] at hD0; simp at hD0
      rw [e3, e2]
      clear e2 e3 hD0 c1 c2
      generalize hE : a * a * (r * r * r) + r * r * r * r * r + 2 * (a * a * β) + 2 * β * (r * r) - 2 * (r * r * r * r) = E at *
      generalize hB : r ^ 3 + 2 * β = B at *
      generalize hW : r * r + a * a * (c * c) = W at *
      change circΓ _ _ _ _ _ _ _ _ _ _ _ _ _ _ _ _ _ _ _ _ = _
      congr 1
      all_goals
        field_simp
        try rw [← hE]
        try rw [← hW]
        try rw [← hB]
        try ring
    · have c3 := le_of_not_ge c2
      have hneg : (-pos 1) ^ 3 + 2 * (b * b) = -(pos 1 ^ 3 - 2 * (b * b)) := by ring
      rw [if_neg c2, abs_of_nonpos c3, hneg, neg_sq]
      rw [hm_neg' c3] at hD0 ⊢
      have k1 := k2 c3
      clear h hneg
      generalize pos 1 = r at *
      generalize Real.cos (pos 2) = c at *
      generalize Real.sin (pos 2) = s at *
      clear h0
      generalize b * b = β at *
      have e2 : r * r * r - 2 * β = r ^ 3 - 2 * β := by ring
      have e3 : r * r - 2 * (r ^ 4 / (r ^ 3 - 2 * β)) + a * a =
          (a * a * (r * r * r) + r * r * r * r * r - 2 * (a * a * β) - 2 * β * (r * r) - 2 * (r * r * r * r)) / (r ^ 3 - 2 * β) := by
        generalize hB : r ^ 3 - 2 * β = B at *
        field_simp
        rw [← hB]
        ring
      have hE0 : a * a * (r * r * r) + r * r * r * r * r - 2 * (a * a * β) - 2 * β * (r * r) - 2 * (r * r * r * r) ≠ 0 := by
        intro hh; rw [e3, hh] at hD0; simp at hD0
      rw [e3, e2]
      clear e2 e3 hD0 c1 c2 c3
      generalize hE : a * a * (r * r * r) + r * r * r * r * r - 2 * (a * a * β) - 2 * β * (r * r) - 2 * (r * r * r * r) = E at *
      generalize hB : r ^ 3 - 2 * β = B at *
      generalize hW : r * r + a * a * (c * c) = W at *
      change circΓ _ _ _ _ _ _ _ _ _ _ _ _ _ _ _ _ _ _ _ _ = _
      congr 1
      all_goals
        field_simp
        try rw [← hE]
        try rw [← hW]
        try rw [← hB]
        try ring

/-- C81. `christoffel` gives the Christoffel symbols of the metric. -/
theorem christoffel_ok {a b : ℝ} {pos : Vec} (h : Regular a b pos) (hsin : Real.sin (pos 2) ≠ 0) :
    IsChristoffel (gmunu a b) pos (christoffel a b pos) := by
  obtain ⟨h0, hW0, hD0⟩ := h.facts
  rw [christoffel_eq h hsin, gmunu_fun]
  exact mass_christoffel (hm_deriv h0) rfl rfl rfl hW0 hD0 hsin

/-- C81. The component `(0, 3)` of the inverse asked alone is wrong for negative radii: there the signs of the terms with the charge are
not those of the matrix. -/
theorem up_coef_wrong : Regular 1 1 ![0, -2, Real.pi / 2, 0] ∧ gmunuUpCoef 1 1 ![0, -2, Real.pi / 2, 0] 0 3 = 4 / 31 ∧
    gmunuUp 1 1 ![0, -2, Real.pi / 2, 0] 0 3 = 4 / 41 ∧
    (Matrix.of (gmunuUpCoef 1 1 ![0, -2, Real.pi / 2, 0]) : Tensor) * gmunu 1 1 ![0, -2, Real.pi / 2, 0] ≠ 1 := by
  have hreg : Regular 1 1 ![0, -2, Real.pi / 2, 0] := by
    refine ⟨Or.inl ?_, ?_⟩
    · simp only [Matrix.cons_val]; norm_num
    · simp only [Matrix.cons_val]
      rw [hm_neg' (by norm_num)]
      norm_num
  have e1 : gmunuUpCoef 1 1 ![0, -2, Real.pi / 2, 0] 0 3 = 4 / 31 := by
    unfold gmunuUpCoef
    simp only [Matrix.cons_val, Real.cos_pi_div_two, Real.sin_pi_div_two]
    norm_num
    rw [if_neg (by decide), if_neg (by decide), if_neg (by decide)]
  have e2 : gmunuUp 1 1 ![0, -2, Real.pi / 2, 0] 0 3 = 4 / 41 := by
    have c1 : ¬ ((![0, -2, Real.pi / 2, 0] : Vec) 1 ≥ 1) := by simp only [Matrix.cons_val]; norm_num
    have c2 : ¬ ((![0, -2, Real.pi / 2, 0] : Vec) 1 ≥ 0) := by simp only [Matrix.cons_val]; norm_num
    unfold gmunuUp
    dsimp only
    rw [if_neg c1, if_neg c2, circ03]
    simp only [Matrix.cons_val, Real.cos_pi_div_two]
    norm_num
  refine ⟨hreg, e1, e2, fun h => ?_⟩
  have h2 := up_inverse hreg (by simp)
  have h3 : (Matrix.of (gmunuUpCoef 1 1 ![0, -2, Real.pi / 2, 0]) : Tensor) = gmunuUp 1 1 ![0, -2, Real.pi / 2, 0] := by
    have h4 := mul_eq_one_comm.1 h2
    calc _ = (Matrix.of (gmunuUpCoef 1 1 ![0, -2, Real.pi / 2, 0]) : Tensor) * (gmunu 1 1 ![0, -2, Real.pi / 2, 0] * gmunuUp 1 1 ![0, -2, Real.pi / 2, 0]) := by
            rw [h4, mul_one]
      _ = gmunuUp 1 1 ![0, -2, Real.pi / 2, 0] := by rw [← mul_assoc, h, one_mul]
  have h5 := congrFun (congrFun h3 0) 3
  rw [Matrix.of_apply, e1, e2] at h5
  norm_num at h5

/-- Points that the theorems speak of, in each of the blocks of the code and on the disk `r = 0`. -/
example : Regular (1 / 2) 1 ![0, 3, 1, 0] ∧ Regular (1 / 2) 1 ![0, 1 / 2, 1, 0] ∧ Regular (1 / 2) 1 ![0, -1, 1, 0] ∧
    Regular (1 / 2) 1 ![0, 0, 0, 0] := by
  refine ⟨⟨Or.inl ?_, ?_⟩, ⟨Or.inl ?_, ?_⟩, ⟨Or.inl ?_, ?_⟩, ⟨Or.inr ⟨?_, ?_⟩, ?_⟩⟩
  all_goals try simp only [Matrix.cons_val]
  · norm_num
  · rw [hm_pos (by norm_num)]; norm_num
  · norm_num
  · rw [hm_pos (by norm_num)]; norm_num
  · norm_num
  · rw [hm_neg' (by norm_num)]; norm_num
  · norm_num
  · simp
  · rw [hm_pos (by norm_num)]; norm_num

end Gyoto.Hayward
