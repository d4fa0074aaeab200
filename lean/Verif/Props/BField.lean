import Verif.Model.BField
import Verif.Lemmas.MetricAlg
import Verif.Props.MetricAlg
import Mathlib.Tactic.Ring
import Mathlib.Tactic.FinCases
import Mathlib.Tactic.LinearCombination
import Mathlib.Tactic.FieldSimp
import Mathlib.Tactic.Positivity
import Mathlib.Analysis.SpecialFunctions.Pow.Deriv
import Mathlib.Analysis.SpecialFunctions.Trigonometric.Deriv
import Mathlib.Analysis.Calculus.Deriv.Abs

/-!
# C52: the magnetic field vector is a unit vector of the emitter's frame, along the named direction
-/

namespace Gyoto.BField

open Gyoto.MetricAlg

/-! ### Specification -/

/-- A metric of an axisymmetric, stationary and circular space-time, in spherical coordinates. -/
structure Circular (g : Tensor) : Prop where
  symm : g.IsSymm
  tr : g 0 1 = 0
  tth : g 0 2 = 0
  rth : g 1 2 = 0
  rph : g 1 3 = 0
  thph : g 2 3 = 0

/-- A unit vector of the frame of `u`. -/
def InFrame (g : Tensor) (u b : Vec) : Prop := sp g b u = 0 ∧ sp g b b = 1

/-- Space part a positive multiple of a given direction. -/
def Along (b : Vec) (d : Fin 3 → ℝ) : Prop := ∃ a > 0, b 1 = a * d 0 ∧ b 2 = a * d 1 ∧ b 3 = a * d 2

/-- The direction each name stands for, in the coordinate basis: along the axis, away from the centre, around the axis, along
increasing colatitude. -/
noncomputable def named (kind : CoordKind) (g : Tensor) (pos : Vec) : Config → Fin 3 → ℝ :=
  match kind with
  | .spherical => fun c => match c with
    | .vertical => ![Real.cos (pos 2) / √(g 1 1), -Real.sin (pos 2) / √(g 2 2), 0]
    | .radial => ![1, 0, 0]
    | .toroidal => ![0, 0, 1]
    | .poloidal => ![0, 1, 0]
    | .parabolic => 0
  | .cartesian => fun c => match c with
    | .vertical => ![0, 0, 1]
    | .radial => ![pos 1, pos 2, pos 3]
    | .toroidal => ![-pos 2, pos 1, 0]
    | .poloidal => ![pos 1 * pos 3, pos 2 * pos 3, -(pos 1 * pos 1 + pos 2 * pos 2)]
    | .parabolic => 0

/-- The two names of each configuration. -/
def spelling (c : Config) (rev : Bool) : String :=
  (match c with
    | .vertical => "Vertical" | .radial => "Radial" | .toroidal => "Toroidal" | .poloidal => "Poloidal" | .parabolic => "Parabolic") ++
  (if rev then "-n" else "")

/-- The names accepted are these and no others. -/
theorem parse_spec (s : String) (c : Config) (rev : Bool) : parse s = some (c, rev) ↔ s = spelling c rev := by
  constructor
  · intro h
    unfold parse at h
    split_ifs at h with h1 h2 h3 h4 h5
    · rcases h1 with rfl | rfl <;> (simp only [Option.some.injEq, Prod.mk.injEq] at h; obtain ⟨rfl, rfl⟩ := h; decide)
    · rcases h2 with rfl | rfl <;> (simp only [Option.some.injEq, Prod.mk.injEq] at h; obtain ⟨rfl, rfl⟩ := h; decide)
    · rcases h3 with rfl | rfl <;> (simp only [Option.some.injEq, Prod.mk.injEq] at h; obtain ⟨rfl, rfl⟩ := h; decide)
    · rcases h4 with rfl | rfl <;> (simp only [Option.some.injEq, Prod.mk.injEq] at h; obtain ⟨rfl, rfl⟩ := h; decide)
    · rcases h5 with rfl | rfl <;> (simp only [Option.some.injEq, Prod.mk.injEq] at h; obtain ⟨rfl, rfl⟩ := h; decide)
  · rintro rfl
    cases c <;> cases rev <;> rfl

/-! ### Auxiliary facts -/

theorem div_some {a b c : ℝ} : div? a b = some c ↔ b ≠ 0 ∧ a / b = c := by
  unfold div?
  split_ifs with h <;> simp [h]

theorem sqrt_some {a c : ℝ} : sqrt? a = some c ↔ 0 ≤ a ∧ √a = c := by
  unfold sqrt?
  split_ifs with h
  · simp [h]
  · simp [not_lt.1 h]

theorem sp_expand {g : Tensor} (u v : Vec) : sp g u v =
    u 0 * (g 0 0 * v 0 + g 0 1 * v 1 + g 0 2 * v 2 + g 0 3 * v 3) + u 1 * (g 1 0 * v 0 + g 1 1 * v 1 + g 1 2 * v 2 + g 1 3 * v 3) +
    u 2 * (g 2 0 * v 0 + g 2 1 * v 1 + g 2 2 * v 2 + g 2 3 * v 3) + u 3 * (g 3 0 * v 0 + g 3 1 * v 1 + g 3 2 * v 2 + g 3 3 * v 3) := by
  simp [sp, dotProduct, Matrix.mulVec, Fin.sum_univ_four]

theorem sp_circular {g : Tensor} (h : Circular g) (u v : Vec) : sp g u v =
    g 0 0 * u 0 * v 0 + g 1 1 * u 1 * v 1 + g 2 2 * u 2 * v 2 + g 3 3 * u 3 * v 3 + g 0 3 * (u 0 * v 3 + u 3 * v 0) := by
  have e : ∀ i j, g i j = g j i := fun i j => by rw [← Matrix.transpose_apply g, h.symm]
  rw [sp_expand, e 1 0, e 2 0, e 2 1, e 3 0, e 3 1, e 3 2, h.tr, h.tth, h.rth, h.rph, h.thph]
  ring

theorem sp_symm {g : Tensor} (h : g.IsSymm) (u v : Vec) : sp g u v =
    g 0 0 * u 0 * v 0 + g 1 1 * u 1 * v 1 + g 2 2 * u 2 * v 2 + g 3 3 * u 3 * v 3 + g 0 1 * (u 0 * v 1 + u 1 * v 0) +
    g 0 2 * (u 0 * v 2 + u 2 * v 0) + g 0 3 * (u 0 * v 3 + u 3 * v 0) + g 1 2 * (u 1 * v 2 + u 2 * v 1) +
    g 1 3 * (u 1 * v 3 + u 3 * v 1) + g 2 3 * (u 2 * v 3 + u 3 * v 2) := by
  have e : ∀ i j, g i j = g j i := fun i j => by rw [← Matrix.transpose_apply g, h]
  rw [sp_expand, e 1 0, e 2 0, e 2 1, e 3 0, e 3 1, e 3 2]
  ring

/-! ### Spherical coordinates -/

theorem verticalSph_ok {g : Tensor} (h : Circular g) (u : Vec) (theta : ℝ) {b : Vec} (hb : verticalSph g u theta = some b) :
    InFrame g u b ∧ Along b ![Real.cos theta / √(g 1 1), -Real.sin theta / √(g 2 2), 0] := by
  unfold verticalSph at hb
  simp only [Option.bind_eq_some_iff, div_some, sqrt_some] at hb
  obtain ⟨sr, ⟨h1, rfl⟩, st, ⟨h2, rfl⟩, A, ⟨hd, rfl⟩, q, ⟨hq, rfl⟩, al, ⟨hal, rfl⟩, b1, ⟨hr, rfl⟩, b2, ⟨ht, rfl⟩, hb⟩ := hb
  rw [Option.some.injEq] at hb
  subst hb
  have e1 := Real.mul_self_sqrt h1
  have e2 := Real.mul_self_sqrt h2
  have hc := Real.cos_sq_add_sin_sq theta
  generalize hA : (u 1 * √(g 1 1) * Real.cos theta - u 2 * √(g 2 2) * Real.sin theta) / (u 0 * g 0 0 + u 3 * g 0 3) = A at *
  have hA' : A * (u 0 * g 0 0 + u 3 * g 0 3) = u 1 * √(g 1 1) * Real.cos theta - u 2 * √(g 2 2) * Real.sin theta := by
    rw [← hA]; field_simp
  have hal' := Real.mul_self_sqrt hal
  have hpos : 0 < √(1 / (1 + g 0 0 * A * A)) := by
    apply Real.sqrt_pos.2
    rcases hal.lt_or_eq with h | h
    · exact h
    · exact absurd h.symm (one_div_ne_zero hq)
  generalize √(1 / (1 + g 0 0 * A * A)) = al at *
  generalize √(g 1 1) = sr at *
  generalize √(g 2 2) = st at *
  refine ⟨⟨?_, ?_⟩, al, hpos, ?_, ?_, ?_⟩
  · rw [sp_circular h]
    simp only [Matrix.cons_val]
    rw [← e1, ← e2]
    field_simp
    linear_combination (-al) * hA'
  · rw [sp_circular h]
    simp only [Matrix.cons_val]
    rw [← e1, ← e2]
    rw [eq_div_iff hq] at hal'
    field_simp
    linear_combination hal' + al ^ 2 * hc
  · simp only [Matrix.cons_val]; ring
  · simp only [Matrix.cons_val]; ring
  · simp

theorem radialSph_ok {g : Tensor} (h : Circular g) (u : Vec) {b : Vec} (hb : radialSph g u = some b) :
    InFrame g u b ∧ Along b ![1, 0, 0] := by
  unfold radialSph at hb
  simp only [Option.bind_eq_some_iff, div_some, sqrt_some] at hb
  obtain ⟨sr, ⟨h1, rfl⟩, A, ⟨hd, rfl⟩, q, ⟨hq, rfl⟩, al, ⟨hal, rfl⟩, b1, ⟨hr, rfl⟩, hb⟩ := hb
  rw [Option.some.injEq] at hb
  subst hb
  have e1 := Real.mul_self_sqrt h1
  generalize hA : u 1 * √(g 1 1) / (u 0 * g 0 0 + u 3 * g 0 3) = A at *
  have hA' : A * (u 0 * g 0 0 + u 3 * g 0 3) = u 1 * √(g 1 1) := by
    rw [← hA]; field_simp
  have hal' := Real.mul_self_sqrt hal
  have hpos : 0 < √(1 / (1 + g 0 0 * A * A)) := by
    apply Real.sqrt_pos.2
    rcases hal.lt_or_eq with h | h
    · exact h
    · exact absurd h.symm (one_div_ne_zero hq)
  have hrp := (Real.sqrt_nonneg (g 1 1)).lt_of_ne' hr
  generalize √(1 / (1 + g 0 0 * A * A)) = al at *
  generalize √(g 1 1) = sr at *
  refine ⟨⟨?_, ?_⟩, al / sr, by positivity, ?_, ?_, ?_⟩
  · rw [sp_circular h]
    simp only [Matrix.cons_val]
    rw [← e1]
    field_simp
    linear_combination (-al) * hA'
  · rw [sp_circular h]
    simp only [Matrix.cons_val]
    rw [← e1]
    rw [eq_div_iff hq] at hal'
    field_simp
    linear_combination hal'
  · simp
  · simp
  · simp

theorem toroidalSph_ok {g : Tensor} (h : Circular g) (u : Vec) {b : Vec} (hb : toroidalSph g u = some b) :
    InFrame g u b ∧ Along b ![0, 0, 1] := by
  unfold toroidalSph at hb
  dsimp only at hb
  by_cases hu : u 0 = 0
  · rw [if_pos hu] at hb; cases hb
  rw [if_neg hu] at hb
  simp only [Option.bind_eq_some_iff, div_some] at hb
  obtain ⟨A, ⟨hd, rfl⟩, q, ⟨hq, rfl⟩, hb⟩ := hb
  generalize hA : (g 0 3 + u 3 / u 0 * g 3 3) / (g 0 0 + u 3 / u 0 * g 0 3) = A at *
  by_cases hn : 1 / (A * A * g 0 0 - 2 * g 0 3 * A + g 3 3) < 0
  · rw [if_pos hn] at hb; cases hb
  rw [if_neg hn, Option.some.injEq] at hb
  subst hb
  have hA' : A * (u 0 * g 0 0 + u 3 * g 0 3) = u 0 * g 0 3 + u 3 * g 3 3 := by
    rw [div_eq_iff hd] at hA
    have : u 0 * (u 3 / u 0) = u 3 := by field_simp
    linear_combination (-u 0) * hA + (g 3 3 - A * g 0 3) * this
  have hal' := Real.mul_self_sqrt (not_lt.1 hn)
  have hpos : 0 < √(1 / (A * A * g 0 0 - 2 * g 0 3 * A + g 3 3)) := by
    apply Real.sqrt_pos.2
    rcases (not_lt.1 hn).lt_or_eq with h | h
    · exact h
    · exact absurd h.symm (one_div_ne_zero hq)
  generalize √(1 / (A * A * g 0 0 - 2 * g 0 3 * A + g 3 3)) = al at *
  refine ⟨⟨?_, ?_⟩, al, hpos, ?_, ?_, ?_⟩
  · rw [sp_circular h]
    simp only [Matrix.cons_val]
    linear_combination (-al) * hA'
  · rw [sp_circular h]
    simp only [Matrix.cons_val]
    rw [eq_div_iff hq] at hal'
    linear_combination hal'
  · simp
  · simp
  · simp

/-! ### Cartesian coordinates -/

theorem cartesian_ok {g : Tensor} (h : g.IsSymm) (u : Vec) (x y z : ℝ) {b : Vec} (hb : cartesian g u x y z = some b) :
    InFrame g u b ∧ Along b ![x, y, z] := by
  unfold cartesian at hb
  simp only [Option.bind_eq_some_iff, div_some, sqrt_some] at hb
  obtain ⟨A, ⟨hd, hA⟩, n, ⟨hn, rfl⟩, al, ⟨hn0, rfl⟩, hb⟩ := hb
  rw [Option.some.injEq] at hb
  subst hb
  rw [div_eq_iff hd] at hA
  have hnn := Real.mul_self_sqrt hn
  have hpos := (Real.sqrt_nonneg _).lt_of_ne' hn0
  generalize √(g 0 0 * A * A + g 1 1 * x * x + g 2 2 * y * y + g 3 3 * z * z +
    2 * (g 0 1 * x * A + g 0 2 * y * A + g 0 3 * z * A + g 1 2 * x * y + g 1 3 * x * z + g 2 3 * y * z)) = n at *
  refine ⟨⟨?_, ?_⟩, 1 / n, by positivity, ?_, ?_, ?_⟩
  · rw [sp_symm h]
    simp only [Matrix.cons_val]
    linear_combination (-(1 / n)) * hA
  · rw [sp_symm h]
    simp only [Matrix.cons_val]
    have : (1 / n) * (1 / n) * (n * n) = 1 := by field_simp
    linear_combination this - (1 / n) * (1 / n) * hnn
  all_goals simp

theorem toroidalCart_eq (g : Tensor) (u : Vec) (x y : ℝ) : toroidalCart g u x y = cartesian g u (-y) x 0 := by
  unfold toroidalCart cartesian
  congr 1
  · congr 1; ring
  · funext A
    congr 1
    · congr 1; ring
    · funext n
      congr 1
      funext al
      congr 1
      funext i
      fin_cases i <;> simp

theorem poloidalCart_ok {g : Tensor} (h : g.IsSymm) (u : Vec) (x y z : ℝ) {b : Vec} (hb : poloidalCart g u x y z = some b) :
    InFrame g u b ∧ Along b ![x * z, y * z, -(x * x + y * y)] := by
  unfold poloidalCart at hb
  simp only [Option.bind_eq_some_iff, div_some] at hb
  obtain ⟨_, ⟨h1, rfl⟩, _, ⟨h2, rfl⟩, _, ⟨h3, rfl⟩, hb⟩ := hb
  obtain ⟨k, a, ha, e1, e2, e3⟩ := cartesian_ok h _ _ _ _ hb
  have hc : √(x * x + y * y) ≠ 0 := right_ne_zero_of_mul h1
  have hcc := Real.mul_self_sqrt (add_nonneg (mul_self_nonneg x) (mul_self_nonneg y))
  have p1 := (Real.sqrt_nonneg (x * x + y * y)).lt_of_ne' hc
  have p2 := (Real.sqrt_nonneg _).lt_of_ne' h3
  refine ⟨k, a / (√(x * x + y * y + z * z) * √(x * x + y * y)), by positivity, ?_, ?_, ?_⟩
  · rw [e1]; simp only [Matrix.cons_val]; ring
  · rw [e2]; simp only [Matrix.cons_val]; ring
  · rw [e3]
    simp only [Matrix.cons_val]
    generalize √(x * x + y * y + z * z) = R at *
    generalize √(x * x + y * y) = C at *
    rw [← hcc]
    field_simp

/-! ### The poloidal and parabolic configurations in spherical coordinates -/

/-- The vector always has unit length. -/
theorem poloidalSph_unit {g : Tensor} (h : Circular g) (u : Vec) {b : Vec} (hb : poloidalSph g u = some b) : sp g b b = 1 := by
  unfold poloidalSph at hb
  simp only [Option.bind_eq_some_iff, div_some, sqrt_some] at hb
  obtain ⟨A, ⟨hd, hA⟩, _, ⟨ht, rfl⟩, _, ⟨hx, rfl⟩, _, ⟨hth, rfl⟩, _, ⟨hy, rfl⟩, hb⟩ := hb
  rw [Option.some.injEq] at hb
  subst hb
  rw [div_eq_iff hd] at hA
  rw [sp_circular h]
  simp only [Matrix.cons_val]
  have e1 := Real.mul_self_sqrt hx
  have e2 := Real.mul_self_sqrt hy
  rw [eq_div_iff ht] at e1
  rw [eq_div_iff hth] at e2
  linear_combination e1 + e2 - hA

/-- What the code computes, for `u 0 > 0` and outside an ergoregion. -/
theorem poloidalSph_eq {g : Tensor} (u : Vec) {b : Vec} (h0 : g 0 0 < 0) (h2 : 0 < g 2 2) (hu : 0 < u 0)
    (hb : poloidalSph g u = some b) :
    ∃ p > 0, b = ![g 2 2 * |u 2| * p, 0, -g 0 0 * u 0 * p, 0] := by
  unfold poloidalSph at hb
  simp only [Option.bind_eq_some_iff, div_some, sqrt_some] at hb
  obtain ⟨A, ⟨hd, hA⟩, _, ⟨ht, rfl⟩, _, ⟨hx, rfl⟩, _, ⟨hth, rfl⟩, _, ⟨hy, rfl⟩, hb⟩ := hb
  rw [Option.some.injEq] at hb
  have hA0 : A < 0 := by
    have : A ≠ 0 := by rw [← hA]; exact one_div_ne_zero hd
    rcases lt_or_gt_of_ne this with h | h
    · exact h
    · exfalso
      have : A * g 0 0 * u 0 * u 0 / g 2 2 < 0 := by
        apply div_neg_of_neg_of_pos _ h2
        nlinarith [mul_pos h (mul_pos hu hu)]
      linarith
  have hq : 0 < A / (g 0 0 * g 2 2) := div_pos_of_neg_of_neg hA0 (mul_neg_of_neg_of_pos h0 h2)
  refine ⟨√(A / (g 0 0 * g 2 2)), Real.sqrt_pos.2 hq, ?_⟩
  have e1 : √(g 2 2 * u 2 * u 2 * A / g 0 0) = g 2 2 * |u 2| * √(A / (g 0 0 * g 2 2)) := by
    rw [show g 2 2 * u 2 * u 2 * A / g 0 0 = (g 2 2 * |u 2|) ^ 2 * (A / (g 0 0 * g 2 2)) by
      rw [mul_pow, sq_abs]; field_simp]
    rw [Real.sqrt_mul (sq_nonneg _), Real.sqrt_sq (by positivity)]
  have e2 : √(A * g 0 0 * u 0 * u 0 / g 2 2) = -g 0 0 * u 0 * √(A / (g 0 0 * g 2 2)) := by
    rw [show A * g 0 0 * u 0 * u 0 / g 2 2 = (-g 0 0 * u 0) ^ 2 * (A / (g 0 0 * g 2 2)) by field_simp]
    rw [Real.sqrt_mul (sq_nonneg _), Real.sqrt_sq (by nlinarith)]
  rw [← hb, e1, e2]

/-- **C52**, partial: the poloidal field is in the frame of an emitter moving towards increasing colatitude or not at all in that
direction, without coupling between its rotation and that of space-time. -/
theorem poloidalSph_partial {g : Tensor} (h : Circular g) (u : Vec) {b : Vec} (h0 : g 0 0 < 0) (h2 : 0 < g 2 2) (hu : 0 < u 0)
    (hu2 : 0 ≤ u 2) (hu3 : g 0 3 * u 3 * u 2 = 0) (hb : poloidalSph g u = some b) :
    InFrame g u b ∧ Along b ![0, 1, 0] := by
  refine ⟨⟨?_, poloidalSph_unit h u hb⟩, ?_⟩
  · obtain ⟨p, -, rfl⟩ := poloidalSph_eq u h0 h2 hu hb
    rw [sp_circular h]
    simp only [Matrix.cons_val]
    rw [abs_of_nonneg hu2]
    linear_combination g 2 2 * p * hu3
  · obtain ⟨p, hp, rfl⟩ := poloidalSph_eq u h0 h2 hu hb
    refine ⟨-g 0 0 * u 0 * p, mul_pos (mul_pos (by linarith) hu) hp, ?_, ?_, ?_⟩ <;> simp

/-- Finding: for an emitter moving towards decreasing colatitude the vector is not orthogonal to its velocity. -/
theorem poloidalSph_wrong {g : Tensor} (h : Circular g) (u : Vec) {b : Vec} (h0 : g 0 0 < 0) (h2 : 0 < g 2 2) (hu : 0 < u 0)
    (hu2 : u 2 < 0) (hu3 : g 0 3 * u 3 = 0) (hb : poloidalSph g u = some b) : sp g b u ≠ 0 := by
  obtain ⟨p, hp, rfl⟩ := poloidalSph_eq u h0 h2 hu hb
  rw [sp_circular h]
  simp only [Matrix.cons_val]
  rw [abs_of_neg hu2]
  have : 0 < g 2 2 * -u 2 * (-g 0 0 * u 0 * p) := by
    apply mul_pos (mul_pos h2 (by linarith)) (mul_pos (mul_pos (by linarith) hu) hp)
  intro e
  have : g 2 2 * -u 2 * (-g 0 0 * u 0 * p) = 0 := by linear_combination (-1 / 2) * e + (1 / 2) * (g 2 2 * -u 2 * p) * hu3
  linarith

/-- What the parabolic configuration computes. -/
theorem parabolicSph_some {g : Tensor} (u : Vec) {rr theta par : ℝ} {b : Vec} (hb : parabolicSph g u rr theta par = some b) :
    0 ≤ par ∧ par ≤ 5 / 4 ∧ Real.sin theta ≠ 0 ∧ ∃ n > 0, n * n = sp g (n • b) (n • b) ∧
      n • b = ![1 / 2 * (g 1 1 * u 1) * hemisphere theta * rr ^ (par - 2) -
        g 2 2 * u 2 * par * rr ^ (par - 3) * (1 - |Real.cos theta|) / Real.sin theta,
        -(1 / 2) * (g 0 0 * u 0) * hemisphere theta * rr ^ (par - 2),
        1 / 2 * (g 0 0 * u 0) * (1 - |Real.cos theta|) / Real.sin theta * rr ^ (par - 3) * par, 0] := by
  unfold parabolicSph at hb
  by_cases hp : par < 0 ∨ par > 1.25
  · rw [if_pos hp] at hb; cases hb
  rw [if_neg hp] at hb
  push Not at hp
  simp only [Option.bind_eq_some_iff, div_some, sqrt_some, scalarProd_eq] at hb
  obtain ⟨_, ⟨hs, rfl⟩, n, ⟨hn, hn'⟩, b0, ⟨hn0, e0⟩, b1, ⟨-, e1⟩, b2, ⟨-, e2⟩, b3, ⟨-, e3⟩, hb⟩ := hb
  have ht : theta ≠ 0 := fun h => hs (by rw [h, Real.sin_zero])
  simp only [if_neg ht] at *
  rw [Option.some.injEq] at hb
  have e := Real.mul_self_sqrt hn
  rw [hn'] at e
  have hnb : n • b = ![0.5 * (g 1 1 * u 1) * hemisphere theta * rr ^ (par - 2) -
        g 2 2 * u 2 * par * rr ^ (par - 3) * (1 - |Real.cos theta|) / Real.sin theta,
        -0.5 * (g 0 0 * u 0) * hemisphere theta * rr ^ (par - 2),
        0.5 * (g 0 0 * u 0) * (1 - |Real.cos theta|) / Real.sin theta * rr ^ (par - 3) * par, 0] := by
    rw [← hb, ← e0, ← e1, ← e2, ← e3]
    funext i
    fin_cases i <;> simp <;> field_simp
  refine ⟨hp.1, by norm_num at hp; linarith [hp.2], hs, n, lt_of_le_of_ne (hn' ▸ Real.sqrt_nonneg _) (Ne.symm hn0), ?_, ?_⟩
  · rw [hnb]; exact e
  · rw [hnb]; norm_num

theorem parabolicSph_unit {g : Tensor} (u : Vec) {rr theta par : ℝ} {b : Vec} (hb : parabolicSph g u rr theta par = some b) :
    sp g b b = 1 := by
  obtain ⟨-, -, -, n, hn, e, -⟩ := parabolicSph_some u hb
  rw [sp_smul_left, sp_smul_right] at e
  have : (n * n) * (sp g b b - 1) = 0 := by linarith
  rcases mul_eq_zero.1 this with h | h
  · exact absurd h (mul_pos hn hn).ne'
  · linarith

/-- What is left of the product with the velocity. -/
theorem parabolicSph_dot {g : Tensor} (h : Circular g) (u : Vec) {rr theta par : ℝ} {b : Vec} (hu : g 0 3 * u 3 = 0)
    (hb : parabolicSph g u rr theta par = some b) :
    ∃ n > 0, n * sp g b u = -(1 / 2) * (g 0 0 * u 0) * (g 2 2 * u 2) * par * rr ^ (par - 3) * (1 - |Real.cos theta|) / Real.sin theta := by
  obtain ⟨-, -, hs, n, hn, -, e⟩ := parabolicSph_some u hb
  refine ⟨n, hn, ?_⟩
  rw [← sp_smul_left, e, sp_circular h]
  simp only [Matrix.cons_val]
  field_simp
  linear_combination (g 1 1 * u 1 * hemisphere theta * rr ^ (par - 2) * Real.sin theta -
    2 * g 2 2 * u 2 * par * rr ^ (par - 3) * (1 - |Real.cos theta|)) * hu

/-- **C52**, partial: the parabolic field is in the frame of an emitter that does not move in colatitude, without coupling between
its rotation and that of space-time. -/
theorem parabolicSph_partial {g : Tensor} (h : Circular g) (u : Vec) {rr theta par : ℝ} {b : Vec} (hu : g 0 3 * u 3 = 0)
    (hu2 : u 2 = 0) (hb : parabolicSph g u rr theta par = some b) : InFrame g u b := by
  refine ⟨?_, parabolicSph_unit u hb⟩
  obtain ⟨n, hn, e⟩ := parabolicSph_dot h u hu hb
  rw [hu2] at e
  simpa [hn.ne'] using e

/-- Stream function of the parabolic configuration: the field lines are its level curves. -/
noncomputable def stream (par r theta : ℝ) : ℝ := r ^ par * (1 - |Real.cos theta|)

/-- **C52**, partial: off the equator the parabolic field is along the level curves of the stream function. -/
theorem parabolicSph_dir_partial {g : Tensor} (u : Vec) {rr theta par dr dth : ℝ} {b : Vec} (hu : g 0 0 * u 0 < 0) (hr : 0 < rr)
    (hc : Real.cos theta ≠ 0) (hdr : HasDerivAt (fun r => stream par r theta) dr rr)
    (hdth : HasDerivAt (fun t => stream par rr t) dth theta) (hb : parabolicSph g u rr theta par = some b) :
    Along b ![dth / (rr ^ 2 * Real.sin theta), -dr / (rr ^ 2 * Real.sin theta), 0] := by
  obtain ⟨-, -, hs, n, hn, -, e⟩ := parabolicSph_some u hb
  have hth : theta ≠ Real.pi / 2 := fun h => hc (by rw [h, Real.cos_pi_div_two])
  have hh : hemisphere theta = SignType.sign (Real.cos theta) := by
    unfold hemisphere
    rw [if_neg hth]
    rcases lt_or_gt_of_ne hc with h | h
    · rw [abs_of_neg h, sign_neg h]; simp only [SignType.coe_neg, SignType.coe_one]; field_simp
    · rw [abs_of_pos h, sign_pos h]; simp only [SignType.coe_one]; field_simp
  have e1 : dth = rr ^ par * (SignType.sign (Real.cos theta) * Real.sin theta) := by
    apply hdth.unique
    have h1 := (hasDerivAt_abs hc).comp theta (Real.hasDerivAt_cos theta)
    have h2 := (h1.const_sub 1).const_mul (rr ^ par)
    refine h2.congr_deriv ?_
    ring
  have e2 : dr = par * rr ^ (par - 1) * (1 - |Real.cos theta|) :=
    hdr.unique ((Real.hasDerivAt_rpow_const (Or.inl hr.ne')).mul_const _)
  have p1 : rr ^ (par - 1) = rr ^ (par - 3) * rr ^ 2 := by
    rw [← Real.rpow_natCast, ← Real.rpow_add hr]; congr 1; push_cast; ring
  have p2 : rr ^ par = rr ^ (par - 2) * rr ^ 2 := by
    rw [← Real.rpow_natCast, ← Real.rpow_add hr]; norm_num
  have k1 := congrFun e 1
  have k2 := congrFun e 2
  have k3 := congrFun e 3
  simp only [Pi.smul_apply, smul_eq_mul, Matrix.cons_val] at k1 k2 k3
  rw [hh] at k1
  refine ⟨-(1 / 2) * (g 0 0 * u 0) / n, div_pos (by linarith) hn, ?_, ?_, ?_⟩ <;> simp only [Matrix.cons_val]
  · rw [e1, p2]
    field_simp
    linear_combination 2 * k1
  · rw [e2, p1]
    field_simp at k2 ⊢
    linear_combination k2
  · rcases mul_eq_zero.1 k3 with h | h
    · exact absurd h hn.ne'
    · rw [h]; ring

/-- Finding: for every emitter that moves in colatitude the vector is not orthogonal to its velocity. -/
theorem parabolicSph_wrong {g : Tensor} (h : Circular g) (u : Vec) {rr theta par : ℝ} {b : Vec} (hu : g 0 3 * u 3 = 0)
    (h0 : g 0 0 * u 0 ≠ 0) (h2 : g 2 2 * u 2 ≠ 0) (hp : par ≠ 0) (hr : 0 < rr)
    (hb : parabolicSph g u rr theta par = some b) : sp g b u ≠ 0 := by
  obtain ⟨-, -, hs, -⟩ := parabolicSph_some u hb
  obtain ⟨n, hn, e⟩ := parabolicSph_dot h u hu hb
  have hc : 1 - |Real.cos theta| ≠ 0 := by
    intro hc
    apply hs
    have h1 := Real.cos_sq_add_sin_sq theta
    have h2 : Real.cos theta ^ 2 = 1 := by rw [← sq_abs, show |Real.cos theta| = 1 by linarith]; norm_num
    have : Real.sin theta ^ 2 = 0 := by linarith
    exact pow_eq_zero_iff (two_ne_zero) |>.1 this
  intro h'
  rw [h', mul_zero] at e
  have : -(1 / 2) * (g 0 0 * u 0) * (g 2 2 * u 2) * par * rr ^ (par - 3) * (1 - |Real.cos theta|) / Real.sin theta ≠ 0 :=
    div_ne_zero (mul_ne_zero (mul_ne_zero (mul_ne_zero (mul_ne_zero (mul_ne_zero (by norm_num) h0) h2) hp)
      (Real.rpow_pos_of_pos hr _).ne') hc) hs
  exact this e.symm

/-- Finding: on the axis, where the code means to set the colatitude component to zero, the time component is 0/0. -/
theorem parabolicSph_axis_wrong (g : Tensor) (u : Vec) (rr par : ℝ) : parabolicSph g u rr 0 par = none := by
  cases h : parabolicSph g u rr 0 par with
  | none => rfl
  | some b =>
    obtain ⟨-, -, hs, -⟩ := parabolicSph_some u h
    exact absurd Real.sin_zero hs

/-! ### The whole function -/

theorem inFrame_neg {g : Tensor} {u b : Vec} (h : InFrame g u b) : InFrame g u (-b) := by
  have e : (-b : Vec) = (-1 : ℝ) • b := by simp
  constructor
  · rw [e, sp_smul_left, h.1, mul_zero]
  · rw [e, sp_smul_left, sp_smul_right, h.2]; norm_num

theorem compute_some {kind : CoordKind} {g : Tensor} {name : String} {u pos : Vec} {par : ℝ} {b : Vec} {c : Config} {rev : Bool}
    (hn : parse name = some (c, rev)) (hb : computeB4vect kind g name u pos par = some b) :
    vector kind g u pos par c = some (if rev then -b else b) := by
  unfold computeB4vect at hb
  rw [hn, Option.bind_some] at hb
  simp only [Option.map_eq_some_iff] at hb
  obtain ⟨b', h1, rfl⟩ := hb
  rw [h1]
  cases rev
  · simp
  · simp only [if_true, Option.some.injEq]
    funext i
    fin_cases i <;> simp

/-- **C52**: the vector is a unit vector of the emitter's frame and its space part points along the named direction, or against it
for the names ending in "-n".  Partial: the poloidal and parabolic configurations in spherical coordinates are left out, see
`poloidalSph_partial`, `poloidalSph_wrong`, `parabolicSph_partial`, `parabolicSph_wrong`. -/
theorem field_partial {kind : CoordKind} {g : Tensor} {name : String} {u pos : Vec} {par : ℝ} {b : Vec} {c : Config} {rev : Bool}
    (hg : g.IsSymm) (hc : kind = .spherical → Circular g ∧ c ≠ .poloidal ∧ c ≠ .parabolic)
    (hn : parse name = some (c, rev)) (hb : computeB4vect kind g name u pos par = some b) :
    InFrame g u b ∧ Along (if rev then -b else b) (named kind g pos c) := by
  have hv := compute_some hn hb
  have key : InFrame g u (if rev then -b else b) ∧ Along (if rev then -b else b) (named kind g pos c) := by
    generalize (if rev then -b else b) = b' at hv
    cases kind
    · obtain ⟨hgc, h1, h2⟩ := hc rfl
      cases c
      · exact verticalSph_ok hgc _ _ hv
      · exact radialSph_ok hgc _ hv
      · exact toroidalSph_ok hgc _ hv
      · exact absurd rfl h1
      · exact absurd rfl h2
    · cases c
      · exact cartesian_ok hg _ _ _ _ hv
      · exact cartesian_ok hg _ _ _ _ hv
      · simp only [vector] at hv
        rw [toroidalCart_eq] at hv
        exact cartesian_ok hg _ _ _ _ hv
      · exact poloidalCart_ok hg _ _ _ _ hv
      · simp [vector] at hv
  refine ⟨?_, key.2⟩
  cases rev
  · simpa using key.1
  · have := inFrame_neg key.1
    simpa using this

/-! ### Existence -/

theorem vec_ne {b : Vec} {i : Fin 4} (h : b i ≠ 0) : b ≠ 0 := fun e => h (by rw [e]; rfl)

/-- Cartesian coordinates: a vector is returned for every direction that is not zero. -/
theorem cartesian_exists {g : Tensor} {u : Vec} (h : LorentzianAlong g u) (x y z : ℝ) (hd : ¬(x = 0 ∧ y = 0 ∧ z = 0))
    (ht : g 0 0 * u 0 + g 0 1 * u 1 + g 0 2 * u 2 + g 0 3 * u 3 ≠ 0) : ∃ b, cartesian g u x y z = some b := by
  unfold cartesian
  rw [div?, if_neg ht, Option.bind_some]
  generalize hA : -(u 0 * (g 0 1 * x + g 0 2 * y + g 0 3 * z) + u 1 * (g 1 1 * x + g 1 2 * y + g 1 3 * z) +
      u 2 * (g 1 2 * x + g 2 2 * y + g 2 3 * z) + u 3 * (g 1 3 * x + g 2 3 * y + g 3 3 * z)) /
    (g 0 0 * u 0 + g 0 1 * u 1 + g 0 2 * u 2 + g 0 3 * u 3) = A
  rw [div_eq_iff ht] at hA
  have hw : (![A, x, y, z] : Vec) ≠ 0 := by
    intro e
    apply hd
    exact ⟨by simpa using congrFun e 1, by simpa using congrFun e 2, by simpa using congrFun e 3⟩
  have h1 := h.2.2 _ hw (by rw [sp_symm h.1]; simp only [Matrix.cons_val]; linear_combination -hA)
  rw [sp_symm h.1] at h1
  simp only [Matrix.cons_val] at h1
  have h2 : 0 < g 0 0 * A * A + g 1 1 * x * x + g 2 2 * y * y + g 3 3 * z * z +
    2 * (g 0 1 * x * A + g 0 2 * y * A + g 0 3 * z * A + g 1 2 * x * y + g 1 3 * x * z + g 2 3 * y * z) := by linarith
  rw [sqrt?, if_neg (not_lt.2 h2.le), Option.bind_some, div?, if_neg (Real.sqrt_pos.2 h2).ne', Option.bind_some]
  exact ⟨_, rfl⟩

/-- Spherical coordinates: a vector is returned for the vertical, radial and toroidal configurations. -/
theorem spherical_exists {g : Tensor} {u : Vec} (h : LorentzianAlong g u) (hc : Circular g) (hr : 0 < g 1 1) (hth : 0 < g 2 2)
    (ht : u 0 * g 0 0 + u 3 * g 0 3 ≠ 0) (hu : u 0 ≠ 0) (theta : ℝ) :
    (∃ b, verticalSph g u theta = some b) ∧ (∃ b, radialSph g u = some b) ∧ ∃ b, toroidalSph g u = some b := by
  have r1 := Real.sqrt_pos.2 hr
  have r2 := Real.sqrt_pos.2 hth
  have e1 := Real.mul_self_sqrt hr.le
  have e2 := Real.mul_self_sqrt hth.le
  have hcs := Real.cos_sq_add_sin_sq theta
  refine ⟨?_, ?_, ?_⟩
  · unfold verticalSph
    rw [sqrt?, if_neg (not_lt.2 hr.le), Option.bind_some, sqrt?, if_neg (not_lt.2 hth.le), Option.bind_some, div?, if_neg ht,
      Option.bind_some]
    generalize hA : (u 1 * √(g 1 1) * Real.cos theta - u 2 * √(g 2 2) * Real.sin theta) / (u 0 * g 0 0 + u 3 * g 0 3) = A
    rw [div_eq_iff ht] at hA
    have hw : (![-A, Real.cos theta / √(g 1 1), -Real.sin theta / √(g 2 2), 0] : Vec) ≠ 0 := by
      intro e
      have c0 : Real.cos theta / √(g 1 1) = 0 := by simpa using congrFun e 1
      have s0 : -Real.sin theta / √(g 2 2) = 0 := by simpa using congrFun e 2
      have c1 : Real.cos theta = 0 := by rcases div_eq_zero_iff.1 c0 with h | h; exact h; exact absurd h r1.ne'
      have s1 : -Real.sin theta = 0 := by rcases div_eq_zero_iff.1 s0 with h | h; exact h; exact absurd h r2.ne'
      have s2 : Real.sin theta = 0 := by linarith
      rw [c1, s2] at hcs
      norm_num at hcs
    have h1 := h.2.2 _ hw (by
      rw [sp_circular hc]
      simp only [Matrix.cons_val]
      generalize √(g 1 1) = sr at *
      generalize √(g 2 2) = st at *
      rw [← e1, ← e2]
      field_simp
      linear_combination hA)
    rw [sp_circular hc] at h1
    simp only [Matrix.cons_val] at h1
    have h2 : 0 < 1 + g 0 0 * A * A := by
      generalize √(g 1 1) = sr at *
      generalize √(g 2 2) = st at *
      rw [← e1, ← e2] at h1
      field_simp at h1
      linarith
    rw [div?, if_neg h2.ne', Option.bind_some, sqrt?, if_neg (not_lt.2 (by positivity)), Option.bind_some, div?, if_neg r1.ne',
      Option.bind_some, div?, if_neg r2.ne', Option.bind_some]
    exact ⟨_, rfl⟩
  · unfold radialSph
    rw [sqrt?, if_neg (not_lt.2 hr.le), Option.bind_some, div?, if_neg ht, Option.bind_some]
    generalize hA : u 1 * √(g 1 1) / (u 0 * g 0 0 + u 3 * g 0 3) = A
    rw [div_eq_iff ht] at hA
    have hw : (![-A, 1 / √(g 1 1), 0, 0] : Vec) ≠ 0 := vec_ne (i := 1) (by simpa using r1.ne')
    have h1 := h.2.2 _ hw (by
      rw [sp_circular hc]
      simp only [Matrix.cons_val]
      generalize √(g 1 1) = sr at *
      rw [← e1]
      field_simp
      linear_combination hA)
    rw [sp_circular hc] at h1
    simp only [Matrix.cons_val] at h1
    have h2 : 0 < 1 + g 0 0 * A * A := by
      generalize √(g 1 1) = sr at *
      rw [← e1] at h1
      field_simp at h1
      linarith
    rw [div?, if_neg h2.ne', Option.bind_some, sqrt?, if_neg (not_lt.2 (by positivity)), Option.bind_some, div?, if_neg r1.ne',
      Option.bind_some]
    exact ⟨_, rfl⟩
  · unfold toroidalSph
    dsimp only
    have ht' : g 0 0 + u 3 / u 0 * g 0 3 ≠ 0 := by
      intro e
      apply ht
      have : u 0 * (u 3 / u 0) = u 3 := by field_simp
      linear_combination u 0 * e - g 0 3 * this
    rw [if_neg hu, div?, if_neg ht', Option.bind_some]
    generalize hA : (g 0 3 + u 3 / u 0 * g 3 3) / (g 0 0 + u 3 / u 0 * g 0 3) = A
    rw [div_eq_iff ht'] at hA
    have hw : (![-A, 0, 0, 1] : Vec) ≠ 0 := vec_ne (i := 3) (by simp)
    have h1 := h.2.2 _ hw (by
      rw [sp_circular hc]
      simp only [Matrix.cons_val]
      have : u 0 * (u 3 / u 0) = u 3 := by field_simp
      linear_combination u 0 * hA + (A * g 0 3 - g 3 3) * this)
    rw [sp_circular hc] at h1
    simp only [Matrix.cons_val] at h1
    have h2 : 0 < A * A * g 0 0 - 2 * g 0 3 * A + g 3 3 := by linarith
    rw [div?, if_neg h2.ne', Option.bind_some, if_neg (not_lt.2 (by positivity))]
    exact ⟨_, rfl⟩

/-! ### Examples -/

theorem flat_circular : Circular flat := by
  constructor <;> first | exact flat_symm | simp [flat]

/-- An emitter at rest in flat space: every hypothesis can be met. -/
example : ∃ b, cartesian flat ![1, 0, 0, 0] 1 2 2 = some b ∧ InFrame flat ![1, 0, 0, 0] b ∧ Along b ![1, 2, 2] := by
  obtain ⟨b, hb⟩ := cartesian_exists flat_lorentzian 1 2 2 (by norm_num) (by simp [flat])
  exact ⟨b, hb, cartesian_ok flat_symm _ _ _ _ hb⟩

/-- Poloidal, moving towards decreasing colatitude: the product with the velocity is -40/9. -/
example : ∃ b, poloidalSph flat ![5 / 3, 0, -4 / 3, 0] = some b ∧ sp flat b ![5 / 3, 0, -4 / 3, 0] ≠ 0 := by
  have h : ∃ b, poloidalSph flat ![5 / 3, 0, -4 / 3, 0] = some b := by
    unfold poloidalSph div? sqrt?
    simp only [flat, Matrix.diagonal_apply_eq, Matrix.cons_val]
    norm_num
  obtain ⟨b, hb⟩ := h
  exact ⟨b, hb, poloidalSph_wrong flat_circular _ (by simp [flat]) (by simp [flat]) (by norm_num) (by simp; norm_num) (by simp [flat]) hb⟩

/-- Parabolic, moving in colatitude. -/
example : ∃ b, parabolicSph flat ![5 / 4, 0, 3 / 4, 0] 1 (Real.pi / 2) 1 = some b ∧ sp flat b ![5 / 4, 0, 3 / 4, 0] ≠ 0 := by
  have h : ∃ b, parabolicSph flat ![5 / 4, 0, 3 / 4, 0] 1 (Real.pi / 2) 1 = some b := by
    unfold parabolicSph div? sqrt? hemisphere
    have := Real.pi_pos.ne'
    simp only [scalarProd_eq, flat_sp]
    simp only [flat, Matrix.diagonal_apply_eq, Matrix.cons_val]
    norm_num [this]
  obtain ⟨b, hb⟩ := h
  exact ⟨b, hb, parabolicSph_wrong flat_circular _ (by simp [flat]) (by simp [flat]) (by simp [flat]) one_ne_zero one_pos hb⟩

end Gyoto.BField
