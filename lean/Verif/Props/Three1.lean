import Verif.Model.Three1
import Verif.Lemmas.MetricAlg
import Mathlib.Tactic.FieldSimp
import Mathlib.Tactic.LinearCombination
import Mathlib.Tactic.FinCases

/-!
# 3+1 variables (C54) and repair of the transported basis (C55)

* `to31_from31`, `from31_to31`: conversions to the 3+1 variables and back are inverse of each other.
* `norm_31`, `null_31`: the 3+1 energy and velocity are those measured by the Eulerian observer: the
  norm of the four-velocity is `E² (γ(V,V) - 1)`, so a photon has `γ(V,V) = 1`.
* `from31_step`: after a step, the date advances by `dt`, the affine parameter by `dt / tdot`.
* `checkBasis_zero`, `checkBasis_le`: the measure vanishes exactly for an orthonormal basis
  orthogonal to the photon.
* `reorthonormalize_partial`: the repaired basis is orthonormal and orthogonal to the tangent vector,
  when this one is not null.
* Findings: `reorthonormalize_null_wrong` (the tangent vector of a photon *is* null: the repair
  divides by zero), `reorthonormalize_swaps_wrong` (the two vectors come back exchanged).
-/

namespace Gyoto.Three1

open Gyoto.MetricAlg Matrix

/-! ### Specification: the metric with lapse `N`, shift `β` and spatial metric `γ` -/

/-- `γ(a, b)`. -/
def sp3 (γ : Matrix (Fin 3) (Fin 3) ℝ) (a b : Fin 3 → ℝ) : ℝ := ∑ i, ∑ j, γ i j * a i * b j

/-- `ds² = -N² dt² + γ_ij (dx^i + β^i dt) (dx^j + β^j dt)`, evaluated on `(u^t, u^i)`. -/
def line31 (N : ℝ) (β : Fin 3 → ℝ) (γ : Matrix (Fin 3) (Fin 3) ℝ) (u : Vec) : ℝ :=
  -(N ^ 2 * u 0 ^ 2) +
    sp3 γ (fun i => u i.succ + β i * u 0) (fun i => u i.succ + β i * u 0)

theorem inv_some {x y : ℝ} : MetricAlg.inv x = some y ↔ x ≠ 0 ∧ y = 1 / x := by
  unfold MetricAlg.inv
  split_ifs with h
  · simp [h]
  · simp [h, eq_comm]

theorem to31_some {nb : LapseShift} {c : Coord} {s : State31} (h : to31 nb c = some (some s)) :
    c.vel 0 ≠ 0 ∧ (nb c.pos).1 ≠ 0 ∧ s = ⟨c.vel 0 * (nb c.pos).1, fun i => c.pos i.succ,
      fun i => 1 / (nb c.pos).1 * (c.vel i.succ / c.vel 0 + (nb c.pos).2 i)⟩ := by
  unfold to31 at h
  dsimp only at h
  split_ifs at h with h0
  · simp at h
  rw [Option.map_eq_some_iff] at h
  obtain ⟨a, ha, h⟩ := h
  obtain ⟨h1, rfl⟩ := inv_some.1 ha
  exact ⟨h0, h1, (Option.some.inj h).symm⟩

/-- The conversion exists when the time component and the lapse are not zero. -/
theorem to31_exists (nb : LapseShift) (c : Coord) (h0 : c.vel 0 ≠ 0) (h1 : (nb c.pos).1 ≠ 0) :
    ∃ s, to31 nb c = some (some s) := by
  unfold to31
  dsimp only
  rw [if_neg h0, inv_some.2 ⟨h1, rfl⟩]
  exact ⟨_, rfl⟩

/-- **C54**: converting to the 3+1 variables and back, without a step, gives the same vector. -/
theorem to31_from31 (nb : LapseShift) (c : Coord) (s : State31) (h : to31 nb c = some (some s)) :
    from31 nb (c.pos 0) 0 s = some (c, 0) := by
  obtain ⟨h0, h1, rfl⟩ := to31_some h
  have hp : (Fin.cons (c.pos 0 + 0) (fun i : Fin 3 => c.pos i.succ) : Vec) = c.pos := by
    rw [add_zero]; exact Fin.cons_self_tail c.pos
  unfold from31
  dsimp only
  rw [hp, if_neg (not_or.2 ⟨h1, mul_ne_zero h0 h1⟩), mul_zero]
  congr 2
  rcases c with ⟨pos, vel⟩
  dsimp only at h0 h1 ⊢
  congr 1
  funext i
  refine Fin.cases ?_ (fun i => ?_) i
  · simp only [Fin.cons_zero]; field_simp
  · simp only [Fin.cons_succ]; field_simp; ring

/-- **C54**: and in the other order. -/
theorem from31_to31 (nb : LapseShift) (t : ℝ) (s : State31) (c : Coord) (dtau : ℝ)
    (h : from31 nb t 0 s = some (c, dtau)) : to31 nb c = some (some s) := by
  unfold from31 at h
  dsimp only at h
  split_ifs at h with h0
  rw [not_or] at h0
  obtain ⟨h0, h1⟩ := h0
  simp only [Option.some.injEq, Prod.mk.injEq] at h
  obtain ⟨rfl, -⟩ := h
  unfold to31
  simp only [Fin.cons_zero, Fin.cons_succ]
  rw [if_neg (div_ne_zero h1 h0), inv_some.2 ⟨h0, rfl⟩]
  simp only [Option.map_some, Option.some.injEq]
  rcases s with ⟨e, x, v⟩
  dsimp only at h0 h1 ⊢
  congr 1
  · field_simp
  · funext i; field_simp; ring

/-- **C54**: with `E` and `V` from the conversion, the norm of the four-velocity is
`E² (γ(V,V) - 1)`. -/
theorem norm_31 (nb : LapseShift) (γ : Matrix (Fin 3) (Fin 3) ℝ) (c : Coord) (s : State31)
    (h : to31 nb c = some (some s)) :
    line31 (nb c.pos).1 (nb c.pos).2 γ c.vel = s.energy ^ 2 * (sp3 γ s.v s.v - 1) := by
  obtain ⟨h0, h1, rfl⟩ := to31_some h
  have e : ∀ i, c.vel (Fin.succ i) + (nb c.pos).2 i * c.vel 0 = c.vel 0 * (nb c.pos).1 *
      (1 / (nb c.pos).1 * (c.vel i.succ / c.vel 0 + (nb c.pos).2 i)) := by
    intro i; field_simp
  unfold line31
  simp only [e]
  have : sp3 γ (fun i => c.vel 0 * (nb c.pos).1 *
      (1 / (nb c.pos).1 * (c.vel i.succ / c.vel 0 + (nb c.pos).2 i))) (fun i => c.vel 0 *
      (nb c.pos).1 * (1 / (nb c.pos).1 * (c.vel i.succ / c.vel 0 + (nb c.pos).2 i))) =
      (c.vel 0 * (nb c.pos).1) ^ 2 * sp3 γ
        (fun i => 1 / (nb c.pos).1 * (c.vel i.succ / c.vel 0 + (nb c.pos).2 i))
        (fun i => 1 / (nb c.pos).1 * (c.vel i.succ / c.vel 0 + (nb c.pos).2 i)) := by
    unfold sp3
    rw [Finset.mul_sum]
    refine Finset.sum_congr rfl fun i _ => ?_
    rw [Finset.mul_sum]
    refine Finset.sum_congr rfl fun j _ => ?_
    ring
  rw [this]
  ring

/-- **C54**: the four-velocity is null exactly when the 3+1 velocity is that of light. -/
theorem null_31 (nb : LapseShift) (γ : Matrix (Fin 3) (Fin 3) ℝ) (c : Coord) (s : State31)
    (h : to31 nb c = some (some s)) :
    line31 (nb c.pos).1 (nb c.pos).2 γ c.vel = 0 ↔ sp3 γ s.v s.v = 1 := by
  rw [norm_31 nb γ c s h]
  obtain ⟨h0, h1, rfl⟩ := to31_some h
  have : (c.vel 0 * (nb c.pos).1) ^ 2 ≠ 0 := pow_ne_zero _ (mul_ne_zero h0 h1)
  dsimp only
  rw [mul_eq_zero, or_iff_right this, sub_eq_zero]

/-- **C54**: after a step, the date has advanced by `dt`, space coordinates are those of the 3+1
vector, the affine parameter has advanced by `dt / tdot`, and the new velocity has the norm
`E² (γ(V,V) - 1)` for the lapse and shift at the *new* position. -/
theorem from31_step (nb : LapseShift) (γ : Matrix (Fin 3) (Fin 3) ℝ) (t dt : ℝ) (s : State31)
    (c : Coord) (dtau : ℝ) (h : from31 nb t dt s = some (c, dtau)) :
    c.pos 0 = t + dt ∧ (∀ i, c.pos (Fin.succ i) = s.x i) ∧ c.vel 0 ≠ 0 ∧ dtau = dt / c.vel 0 ∧
      (∀ i, c.vel (Fin.succ i) = c.vel 0 * ((nb c.pos).1 * s.v i - (nb c.pos).2 i)) ∧
      c.vel 0 * (nb c.pos).1 = s.energy ∧
      line31 (nb c.pos).1 (nb c.pos).2 γ c.vel = s.energy ^ 2 * (sp3 γ s.v s.v - 1) := by
  have h' := h
  unfold from31 at h
  dsimp only at h
  split_ifs at h with h0
  rw [not_or] at h0
  obtain ⟨h0, h1⟩ := h0
  simp only [Option.some.injEq, Prod.mk.injEq] at h
  obtain ⟨hc, rfl⟩ := h
  have hb : from31 nb (t + dt) 0 s = some (c, 0) := by
    unfold from31
    dsimp only
    rw [add_zero, if_neg (not_or.2 ⟨h0, h1⟩), mul_zero, hc]
  refine ⟨by rw [← hc]; rfl, fun i => by rw [← hc]; rfl, ?_, ?_, fun i => ?_, ?_,
    norm_31 nb γ c s (from31_to31 nb _ s c 0 hb)⟩
  · rw [← hc]; exact div_ne_zero h1 h0
  · rw [← hc]; simp only [Fin.cons_zero]; field_simp
  · rw [← hc]; simp only [Fin.cons_zero, Fin.cons_succ]; ring
  · rw [← hc]; simp only [Fin.cons_zero]; field_simp

/-! ### The transported basis -/

/-- Orthonormal space-like pair, orthogonal to `k`. -/
def Good (g : Tensor) (k a b : Vec) : Prop :=
  sp g a b = 0 ∧ sp g a k = 0 ∧ sp g b k = 0 ∧ sp g a a = 1 ∧ sp g b b = 1

theorem norm_eq_one (g : Tensor) (u : Vec) : norm g u = 1 ↔ sp g u u = 1 := by
  unfold MetricAlg.norm
  simp only [scalarProd_eq]
  constructor
  · intro h
    rcases lt_trichotomy (sp g u u) 0 with h0 | h0 | h0
    · rw [sgn_neg h0] at h
      have := Real.sqrt_nonneg |sp g u u|
      linarith
    · rw [h0, sgn_zero] at h; simp at h
    · rw [sgn_pos h0, one_mul, abs_of_pos h0] at h
      have := Real.mul_self_sqrt h0.le
      rw [h] at this
      linarith
  · intro h
    rw [h, sgn_pos one_pos]
    simp

/-- **C55**: each of the five defects is at most the measure. -/
theorem checkBasis_le (g : Tensor) (k a b : Vec) (ε : ℝ) :
    checkBasis g k a b ≤ ε ↔ |sp g a b| ≤ ε ∧ |sp g a k| ≤ ε ∧ |sp g b k| ≤ ε ∧
      |norm g a - 1| ≤ ε ∧ |norm g b - 1| ≤ ε := by
  simp only [checkBasis, scalarProd_eq, max_le_iff]

/-- **C55**: the measure vanishes exactly for an orthonormal basis orthogonal to the photon. -/
theorem checkBasis_zero (g : Tensor) (k a b : Vec) : checkBasis g k a b ≤ 0 ↔ Good g k a b := by
  rw [checkBasis_le]
  simp only [abs_nonpos_iff, sub_eq_zero, norm_eq_one, Good]

theorem norm_of_unit {g : Tensor} {u : Vec} (h : sp g u u = 1) : norm g u = 1 :=
  (norm_eq_one g u).2 h

theorem normalise_some {g : Tensor} {u w : Vec} (h : normalise g u = some w) :
    sp g u u ≠ 0 ∧ w = (1 / norm g u) • u ∧ sp g w w = sgn (sp g u u) := by
  unfold normalise at h
  rw [Option.map_eq_some_iff] at h
  obtain ⟨a, ha, rfl⟩ := h
  obtain ⟨h0, rfl⟩ := inv_some.1 ha
  have hn : sp g u u ≠ 0 := fun e => h0 ((norm_zero_iff g u).2 e)
  have hw : multiply u (1 / norm g u) = (1 / norm g u) • u := by
    funext i; simp [multiply, mul_comm]
  refine ⟨hn, hw, ?_⟩
  have e := sp_unit hn
  rw [sp_smul_left, sp_smul_right] at e
  rw [hw, sp_smul_left, sp_smul_right, ← e]
  have hsq : norm g u * norm g u = √|sp g u u| * √|sp g u u| := by
    rw [← abs_norm, abs_mul_abs_self]
  have e2 : (1 / norm g u) * (1 / norm g u) = 1 / √|sp g u u| * (1 / √|sp g u u|) := by
    rw [div_mul_div_comm, div_mul_div_comm, hsq]
  linear_combination sp g u u * e2

/-- **C55**, partial: when the tangent vector is not null, the repaired vectors are orthogonal to it
and to each other, and normalised. -/
theorem reorthonormalize_partial (g : Tensor) (hg : g.IsSymm) (k ephi etheta a b : Vec)
    (h : reorthonormalize g k ephi etheta = some (a, b)) :
    sp g k k ≠ 0 ∧ sp g a b = 0 ∧ sp g a k = 0 ∧ sp g b k = 0 ∧
      (sp g a a = 1 ∨ sp g a a = -1) ∧ (sp g b b = 1 ∨ sp g b b = -1) := by
  unfold reorthonormalize at h
  rw [Option.bind_eq_some_iff] at h
  obtain ⟨t1, ht1, h⟩ := h
  rw [Option.bind_eq_some_iff] at h
  obtain ⟨t2, ht2, h⟩ := h
  rw [Option.bind_eq_some_iff] at h
  obtain ⟨p1, hp1, h⟩ := h
  rw [Option.bind_eq_some_iff] at h
  obtain ⟨p2, hp2, h⟩ := h
  rw [Option.map_eq_some_iff] at h
  obtain ⟨p3, hp3, h⟩ := h
  simp only [Prod.mk.injEq] at h
  obtain ⟨rfl, rfl⟩ := h
  obtain ⟨hk, e1⟩ := project_some ht1
  obtain ⟨-, e3⟩ := project_some hp1
  obtain ⟨hn2, e2, n2⟩ := normalise_some ht2
  obtain ⟨ht, e4⟩ := project_some hp2
  obtain ⟨hn3, e5, n3⟩ := normalise_some hp3
  have o1 : sp g t1 k = 0 := by
    rw [e1, sp_sub_left, sp_smul_left, sp_comm hg etheta k]; field_simp; ring
  have o2 : sp g t2 k = 0 := by rw [e2, sp_smul_left, o1, mul_zero]
  have o3 : sp g p1 k = 0 := by
    rw [e3, sp_sub_left, sp_smul_left, sp_comm hg ephi k]; field_simp; ring
  have o4 : sp g p2 k = 0 := by rw [e4, sp_sub_left, sp_smul_left, o3, o2]; ring
  have o5 : sp g p3 k = 0 := by rw [e5, sp_smul_left, o4, mul_zero]
  have o6 : sp g t2 p2 = 0 := by rw [e4, sp_sub_right, sp_smul_right]; field_simp; ring
  have o7 : sp g t2 p3 = 0 := by rw [e5, sp_smul_right, o6, mul_zero]
  have sg : ∀ x : ℝ, x ≠ 0 → sgn x = 1 ∨ sgn x = -1 := by
    intro x hx
    rcases lt_or_gt_of_ne hx with h | h
    · right; exact sgn_neg h
    · left; exact sgn_pos h
  exact ⟨hk, o7, o2, o5, by rw [n2]; exact sg _ hn2, by rw [n3]; exact sg _ hn3⟩

/-- Finding: for a photon — the only particle that transports a polarisation basis — the tangent
vector is null and the repair divides by zero, whatever the basis. -/
theorem reorthonormalize_null_wrong (g : Tensor) (k ephi etheta : Vec) (hk : sp g k k = 0) :
    reorthonormalize g k ephi etheta = none := by
  unfold reorthonormalize
  rw [project_none hk]
  rfl

/-- Finding: a basis that needs no repair comes back with its two vectors exchanged. -/
theorem reorthonormalize_swaps_wrong (g : Tensor) (hg : g.IsSymm) (k ephi etheta : Vec)
    (hk : sp g k k ≠ 0) (h : Good g k ephi etheta) :
    reorthonormalize g k ephi etheta = some (etheta, ephi) := by
  obtain ⟨h1, h2, h3, h4, h5⟩ := h
  have n1 : normalise g etheta = some etheta := by
    unfold normalise
    rw [norm_of_unit h5, inv_some.2 ⟨one_ne_zero, rfl⟩]
    rw [Option.map_some, Option.some.injEq]
    funext i
    simp [multiply]
  have n2 : normalise g ephi = some ephi := by
    unfold normalise
    rw [norm_of_unit h4, inv_some.2 ⟨one_ne_zero, rfl⟩]
    rw [Option.map_some, Option.some.injEq]
    funext i
    simp [multiply]
  have p1 : project g etheta k = some etheta := by
    rw [project_eq _ hk, sp_comm hg k etheta, h3]; simp
  have p2 : project g ephi k = some ephi := by
    rw [project_eq _ hk, sp_comm hg k ephi, h2]; simp
  have p3 : project g ephi etheta = some ephi := by
    rw [project_eq _ (by rw [h5]; exact one_ne_zero), sp_comm hg etheta ephi, h1]; simp
  simp [reorthonormalize, p1, p2, p3, n1, n2]

/-! ### Examples -/

/-- Flat space-time with lapse 2 and shift 1 along `x`: a photon along `x`. -/
example : ∃ s, to31 (fun _ => (2, ![1, 0, 0])) ⟨![0, 5, 0, 0], ![1, 1, 0, 0]⟩ = some (some s) ∧
    s.energy = 2 ∧ s.v 0 = 1 ∧ sp3 1 s.v s.v = 1 ∧
    line31 2 ![1, 0, 0] 1 ![1, 1, 0, 0] = 0 := by
  obtain ⟨s, hs⟩ := to31_exists (fun _ => (2, ![1, 0, 0])) ⟨![0, 5, 0, 0], ![1, 1, 0, 0]⟩
    (by simp) (by simp)
  have hl : line31 2 ![1, 0, 0] 1 ![1, 1, 0, 0] = 0 := by
    simp [line31, sp3, Fin.sum_univ_succ, Matrix.one_apply]; norm_num
  have e := to31_some hs
  refine ⟨s, hs, ?_, ?_, (null_31 _ 1 _ s hs).1 hl, hl⟩
  · rw [e.2.2]; simp
  · rw [e.2.2]; simp; norm_num

/-- The same basis, measured and repaired for a particle at rest: exchanged. -/
example : checkBasis (Matrix.diagonal ![-1, 1, 1, 1]) ![1, 0, 0, 0] ![0, 1, 0, 0] ![0, 0, 1, 0] ≤ 0 ∧
    reorthonormalize (Matrix.diagonal ![-1, 1, 1, 1]) ![1, 0, 0, 0] ![0, 1, 0, 0] ![0, 0, 1, 0] =
      some (![0, 0, 1, 0], ![0, 1, 0, 0]) := by
  have hG : Good (Matrix.diagonal ![-1, 1, 1, 1]) ![1, 0, 0, 0] ![0, 1, 0, 0] ![0, 0, 1, 0] := by
    simp [Good, sp, Matrix.mulVec_diagonal, dotProduct, Fin.sum_univ_succ]
  refine ⟨(checkBasis_zero _ _ _ _).2 hG, reorthonormalize_swaps_wrong _ ?_ _ _ _ ?_ hG⟩
  · exact Matrix.diagonal_transpose _
  · simp [sp, Matrix.mulVec_diagonal, dotProduct, Fin.sum_univ_succ]

end Gyoto.Three1
