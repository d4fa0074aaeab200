import Verif.Lemmas.Jet
import Mathlib.Tactic.Ring
import Mathlib.Tactic.LinearCombination
import Mathlib.Tactic.FieldSimp
import Mathlib.Tactic.Positivity
import Mathlib.Analysis.Real.Pi.Bounds

/-!
# C118: the shape of the jet and its density at the base
# C119: the velocity of the jet
# C120: the combined magnetic field
-/

namespace Gyoto.JetFlow

open Gyoto.MetricAlg Gyoto.KerrBL Gyoto.Spacetime
open Gyoto.Transfer (Out)
open Gyoto.USphere (Kind)
open Gyoto.HotSpot (Outside sp_circ)

/-! ## C118: the settings -/

/-- C118. After setters that throw nothing, from a new jet, two parabolas that have both been given are in order, and so are two angles. -/
theorem order_kept (l : List Call) (h : (Jet.new.run l).2 = false) :
    ((Jet.new.run l).1.kIn ≠ -1 → (Jet.new.run l).1.kOut ≠ -1 → (Jet.new.run l).1.kOut ≤ (Jet.new.run l).1.kIn) ∧
    ((Jet.new.run l).1.angIn ≠ -1 → (Jet.new.run l).1.angOut ≠ -1 → (Jet.new.run l).1.angIn ≤ (Jet.new.run l).1.angOut) := by
  have key : ∀ (l : List Call) (s : Jet), ((s.kIn ≠ -1 → s.kOut ≠ -1 → s.kOut ≤ s.kIn) ∧ (s.angIn ≠ -1 → s.angOut ≠ -1 → s.angIn ≤ s.angOut)) →
      (s.run l).2 = false → (((s.run l).1.kIn ≠ -1 → (s.run l).1.kOut ≠ -1 → (s.run l).1.kOut ≤ (s.run l).1.kIn) ∧
        ((s.run l).1.angIn ≠ -1 → (s.run l).1.angOut ≠ -1 → (s.run l).1.angIn ≤ (s.run l).1.angOut)) := by
    intro l
    induction l with
    | nil => intro s hs _; exact hs
    | cons c l ih =>
      intro s hs hr
      unfold Jet.run at hr ⊢
      rcases e : s.call c with ⟨t, b⟩
      rw [e] at hr
      cases b with
      | true => exact absurd hr (by simp)
      | false =>
        refine ih t ?_ hr
        obtain ⟨h1, h2⟩ := hs
        cases c <;> simp only [Jet.call, Prod.mk.injEq, decide_eq_false_iff_not, not_and, not_lt, gt_iff_lt, and_true] at e
        case alpha x =>
          split_ifs at e
          · simp at e
          · simp only [Prod.mk.injEq, and_true] at e
            subst e; exact ⟨h1, h2⟩
        case innerParabola => obtain ⟨rfl, e⟩ := e; exact ⟨fun _ => e, h2⟩
        case outerParabola => obtain ⟨rfl, e⟩ := e; exact ⟨fun a _ => e a, h2⟩
        case outerAngle => obtain ⟨rfl, e⟩ := e; exact ⟨h1, fun a _ => e a⟩
        case innerAngle => obtain ⟨rfl, e⟩ := e; exact ⟨h1, fun _ => e⟩
        all_goals (subst e; exact ⟨h1, h2⟩)
  exact key l _ ⟨fun h => absurd rfl h, fun h => absurd rfl h⟩ h

/-- C118. The fraction of the toroidal field stays between 0 and 1, whatever is asked. -/
theorem alpha_kept (s : Jet) (h : 0 ≤ s.alpha ∧ s.alpha ≤ 1) (c : Call) : 0 ≤ (s.call c).1.alpha ∧ (s.call c).1.alpha ≤ 1 := by
  cases c <;> try exact h
  case alpha x =>
    simp only [Jet.call]
    split_ifs with hx
    · exact h
    · push Not at hx; exact hx

/-- C118, finding: a parameter that is refused is kept all the same, and the parabolas are no longer in order. -/
theorem refused_kept_wrong {s : Jet} {x : ℝ} (h : s.kIn ≠ -1) (hx : s.kIn < x) :
    (s.call (.outerParabola x)).2 = true ∧ (s.call (.outerParabola x)).1.kOut = x ∧
      (s.call (.outerParabola x)).1.kIn < (s.call (.outerParabola x)).1.kOut := by
  refine ⟨?_, rfl, hx⟩
  simp only [Jet.call, decide_eq_true_eq]
  exact ⟨h, hx⟩

/-- C118, finding: whether two parabolas in order are accepted depends on which one is given first. -/
theorem change_order_wrong : ∃ s : Jet, (Jet.new.run [.innerParabola 2, .outerParabola 1]) = (s, false) ∧
    (s.run [.innerParabola 0.5, .outerParabola 0.2]).2 = true ∧ (s.run [.outerParabola 0.2, .innerParabola 0.5]).2 = false := by
  refine ⟨{ Jet.new with kIn := 2, kOut := 1 }, ?_, ?_, ?_⟩ <;> norm_num [Jet.run, Jet.call, Jet.new]

example : (Jet.new.run [.innerParabola 2, .outerParabola 1, .alpha 0.3]).2 = false := by norm_num [Jet.run, Jet.call, Jet.new]

/-! ## C118: where the jet is -/

/-- C118. A jet with parabolic walls is the set of the points beyond the inner radius between the two sheets. -/
theorem inside_parabolas {s : Jet} (hp : s.parabolic = true) (ho : 0 < s.kOut) (hi : s.kOut ≤ s.kIn) (k : Kind) (p : Vec) (hr : 0 ≤ cyl k p) :
    ∃ d, s.delta k p = some d ∧ (d < 0 ↔ s.rin ≤ radius k p ∧ BetweenParabolas s.kIn s.kOut (cyl k p) (height k p)) := by
  have hz := height_nonneg k p
  have hI : 0 < s.kIn := by linarith
  unfold Jet.delta
  by_cases hb : radius k p < s.rin
  · exact ⟨_, by rw [if_pos hb], ⟨fun h => by linarith, fun h => by linarith [h.1]⟩⟩
  · rw [if_neg hb, if_pos hp, wall_pos hz hI, wall_pos hz ho]
    refine ⟨_, rfl, ?_⟩
    have hle : √(height k p / s.kIn) ≤ √(height k p / s.kOut) := Real.sqrt_le_sqrt (div_le_div_of_nonneg_left hz ho hi)
    rw [prod_neg_iff hle]
    unfold BetweenParabolas
    rw [abs_of_nonneg hz]
    have e1 : √(height k p / s.kIn) < cyl k p ↔ height k p < s.kIn * cyl k p ^ 2 := by
      rw [Real.sqrt_lt (div_nonneg hz hI.le) hr, div_lt_iff₀ hI, mul_comm]
    have e2 : cyl k p < √(height k p / s.kOut) ↔ s.kOut * cyl k p ^ 2 < height k p := by
      rw [Real.lt_sqrt hr, lt_div_iff₀ ho, mul_comm]
    rw [e1, e2]
    exact ⟨fun h => ⟨not_lt.1 hb, h.2, h.1⟩, fun h => ⟨h.2.2, h.2.1⟩⟩

/-- C118. A jet with conical walls is the set of the points beyond the inner radius whose direction is between the two angles. -/
theorem inside_cones {s : Jet} (hp : s.parabolic = false) (h0 : 0 ≤ s.angIn) (hi : s.angIn ≤ s.angOut) (ho : s.angOut < Real.pi / 2) (k : Kind)
    (p : Vec) {r t : ℝ} (h : IsPolar r t (cyl k p) (height k p)) :
    ∃ d, s.delta k p = some d ∧ (d < 0 ↔ s.rin ≤ radius k p ∧ s.angIn < t ∧ t < s.angOut) := by
  have hz := height_nonneg k p
  have hpi := Real.pi_pos
  have c1 : 0 < Real.cos s.angIn := Real.cos_pos_of_mem_Ioo ⟨by linarith, by linarith⟩
  have c2 : 0 < Real.cos s.angOut := Real.cos_pos_of_mem_Ioo ⟨by linarith, ho⟩
  unfold Jet.delta
  by_cases hb : radius k p < s.rin
  · exact ⟨_, by rw [if_pos hb], ⟨fun h => by linarith, fun h => by linarith [h.1]⟩⟩
  · rw [if_neg hb, if_neg (by rw [hp]; simp), if_neg (by rintro (h | h) <;> linarith)]
    refine ⟨_, rfl, ?_⟩
    rw [prod_neg_iff (cone_mono hz h0 hi ho)]
    have e1 := (cone_lt h h0 (lt_of_le_of_lt hi ho)).1
    have e2 := (cone_lt h (h0.trans hi) ho).2
    rw [abs_of_nonneg hz] at e1 e2
    rw [e1, e2]
    exact ⟨fun h => ⟨not_lt.1 hb, h⟩, fun h => h.2⟩

/-- In spherical coordinates the angle is the colatitude, or its supplement in the south. -/
theorem polar_spherical {p : Vec} (hr : 0 < p 1) (h0 : 0 ≤ p 2) (h1 : p 2 ≤ Real.pi) :
    IsPolar (p 1) (min (p 2) (Real.pi - p 2)) (cyl .spherical p) (height .spherical p) := by
  have hpi := Real.pi_pos
  rcases le_total (p 2) (Real.pi - p 2) with h | h
  · rw [min_eq_left h]
    have hc : 0 ≤ Real.cos (p 2) := Real.cos_nonneg_of_mem_Icc ⟨by linarith, by linarith⟩
    exact ⟨hr, h0, by linarith, rfl, by simp only [height]; rw [abs_abs, abs_of_nonneg (mul_nonneg hr.le hc)]⟩
  · rw [min_eq_right h]
    have hc : 0 ≤ Real.cos (Real.pi - p 2) := Real.cos_nonneg_of_mem_Icc ⟨by linarith, by linarith⟩
    refine ⟨hr, by linarith, by linarith, by simp only [cyl]; rw [Real.sin_pi_sub], ?_⟩
    simp only [height]
    have : p 1 * Real.cos (p 2) = -(p 1 * Real.cos (Real.pi - p 2)) := by rw [Real.cos_pi_sub]; ring
    rw [abs_abs, this, abs_neg, abs_of_nonneg (mul_nonneg hr.le hc)]

/-- C118, finding: as long as one of the parabolas has not been given, the distance to the jet is not a number beyond the base, off the plane;
nothing is thrown. -/
theorem unset_wrong {s : Jet} (hp : s.parabolic = true) (h : s.kIn = -1 ∨ s.kOut = -1) (k : Kind) (p : Vec) (hr : s.rin ≤ radius k p)
    (hz : 0 < height k p) : s.delta k p = none := by
  unfold Jet.delta
  rw [if_neg (not_lt.2 hr), if_pos hp]
  rcases h with h | h
  · rw [h, wall_neg hz (by norm_num)]; rfl
  · rw [h, wall_neg (k := -1) hz (by norm_num)]
    cases wall (height k p) s.kIn <;> rfl

/-- C118, finding: angles that have not been given make a jet without any point. -/
theorem unset_angles_wrong {s : Jet} (hp : s.parabolic = false) (h : s.angIn = -1) (h' : s.angOut = -1) (k : Kind) (p : Vec) :
    ∃ d, s.delta k p = some d ∧ 0 ≤ d := by
  have c : Real.cos (-1) ≠ 0 := by
    rw [Real.cos_neg]; exact Real.cos_one_pos.ne'
  unfold Jet.delta
  by_cases hb : radius k p < s.rin
  · exact ⟨_, by rw [if_pos hb], by linarith⟩
  · rw [if_neg hb, if_neg (by rw [hp]; simp), if_neg (by rw [h, h']; simpa using c)]
    refine ⟨_, rfl, ?_⟩
    rw [h, h']
    exact mul_self_nonneg _

/-- C118, finding: with an outer angle beyond the right angle, which is accepted, the jet is the funnel that it should surround. -/
theorem wide_wrong {s : Jet} (hp : s.parabolic = false) (h0 : 0 < s.angIn) (hi : s.angIn < Real.pi / 2) (ho : Real.pi / 2 < s.angOut)
    (ho' : s.angOut < Real.pi) (k : Kind) (p : Vec) {r t : ℝ} (h : IsPolar r t (cyl k p) (height k p)) (hr : s.rin ≤ radius k p) :
    (({ s with angIn := -1 } : Jet).call (.innerAngle s.angIn)).2 = false ∧ ∃ d, s.delta k p = some d ∧ (d < 0 ↔ t < s.angIn) := by
  have hz := height_nonneg k p
  have hpi := Real.pi_pos
  have c1 : 0 < Real.cos s.angIn := Real.cos_pos_of_mem_Ioo ⟨by linarith, by linarith⟩
  have c2 : Real.cos s.angOut < 0 := Real.cos_neg_of_pi_div_two_lt_of_lt ho (by linarith)
  have t2 : Real.tan s.angOut < 0 := by
    rw [Real.tan_eq_sin_div_cos]
    exact div_neg_of_pos_of_neg (Real.sin_pos_of_pos_of_lt_pi (by linarith) ho') c2
  refine ⟨by simp only [Jet.call, decide_eq_false_iff_not]; rintro ⟨-, hx⟩; linarith, ?_⟩
  unfold Jet.delta
  rw [if_neg (not_lt.2 hr), if_neg (by rw [hp]; simp), if_neg (by rintro (h | h) <;> linarith)]
  refine ⟨_, rfl, ?_⟩
  have e := (cone_lt h h0.le hi).2
  rw [abs_of_nonneg hz] at e
  rw [← e]
  have hpos : 0 < cyl k p - height k p * Real.tan s.angOut := by
    have h1 := h.rho
    have h2 := h.z
    rw [abs_of_nonneg hz] at h2
    rw [h1, h2]
    have hs := Real.sin_nonneg_of_nonneg_of_le_pi h.lo (by linarith [h.hi])
    have hc := Real.cos_nonneg_of_mem_Icc (x := t) ⟨by linarith [h.lo], h.hi⟩
    have hsc := Real.sin_sq_add_cos_sq t
    have hr0 := h.pos
    rcases hs.lt_or_eq with hs' | hs'
    · have := mul_pos hr0 hs'
      have := mul_nonneg (mul_nonneg hr0.le hc) (neg_nonneg.2 t2.le)
      linarith
    · rw [← hs'] at hsc ⊢
      have hc' : 0 < Real.cos t := by
        rcases hc.lt_or_eq with h | h
        · exact h
        · rw [← h] at hsc; norm_num at hsc
      have := mul_pos (mul_pos hr0 hc') (neg_pos.2 t2)
      linarith
  constructor
  · intro hd
    by_contra hn
    have := mul_nonneg (sub_nonneg.2 (not_lt.1 hn)) hpos.le
    linarith
  · intro hd
    exact mul_neg_of_neg_of_pos (sub_neg.2 hd) hpos

example : IsPolar 10 (Real.pi / 6) (cyl .spherical ![0, 10, Real.pi / 6, 0]) (height .spherical ![0, 10, Real.pi / 6, 0]) := by
  have h := polar_spherical (p := ![0, 10, Real.pi / 6, 0]) (by norm_num [Matrix.cons_val_one])
    (by simp only [Matrix.cons_val]; positivity) (by simp only [Matrix.cons_val]; linarith [Real.pi_pos])
  have e : min (Real.pi / 6) (Real.pi - Real.pi / 6) = Real.pi / 6 := min_eq_left (by linarith [Real.pi_pos])
  simpa only [Matrix.cons_val, Matrix.cons_val_one, e] using h

/-! ## C118: the density and the temperature -/

/-- C118. The density goes as the inverse square of the distance to the axis. -/
theorem density_law {s : Jet} {ρ n k : ℝ} (h : s.density ρ = some n) (hk : k ≠ 0) : s.density (k * ρ) = some (n / k ^ 2) := by
  unfold Jet.density at h ⊢
  cases e : s.baseRadius with
  | none => rw [e] at h; cases h
  | some b =>
    rw [e] at h
    simp only [Option.bind_some, BField.div_some] at h ⊢
    obtain ⟨h0, rfl⟩ := h
    have hρ : ρ ≠ 0 := by rintro rfl; simp at h0
    exact ⟨by positivity, by field_simp⟩

/-- C118. For parabolic walls, the density given is that at the place where the outer sheet meets the sphere of the base. -/
theorem base_parabola {s : Jet} (hp : s.parabolic = true) (hk : 0 < s.kOut) (hr : 0 < s.rin) :
    ∃ ρ z, 0 < ρ ∧ z = s.kOut * ρ ^ 2 ∧ ρ ^ 2 + z ^ 2 = s.rin ^ 2 ∧ s.density ρ = some s.n0 := by
  obtain ⟨D, hD⟩ : ∃ D, D = 1 / (s.kOut * s.kOut) + 4 * s.rin * s.rin := ⟨_, rfl⟩
  have hDp : 0 < D := by rw [hD]; positivity
  have hq := Real.sq_sqrt hDp.le
  have hlt : 1 / s.kOut < √D := by
    rw [Real.lt_sqrt (by positivity), hD]
    have e : (1 / s.kOut) ^ 2 = 1 / (s.kOut * s.kOut) := by field_simp
    rw [e]
    have : 0 < 4 * s.rin * s.rin := by positivity
    linarith
  obtain ⟨z, hz⟩ : ∃ z, z = 0.5 * (-1 / s.kOut + √D) := ⟨_, rfl⟩
  have hz0 : 0 < z := by
    rw [hz, neg_div]; linarith
  have hρ : 0 < z / s.kOut := div_pos hz0 hk
  have hb : s.baseRadius = some √(z / s.kOut) := by
    unfold Jet.baseRadius
    simp only [if_pos hp, if_neg hk.ne', ← hD, ← hz]
    unfold BField.sqrt?
    rw [if_neg (not_lt.2 hρ.le)]
  have hs := Real.sq_sqrt hρ.le
  have hsp := Real.sqrt_pos.2 hρ
  refine ⟨√(z / s.kOut), z, hsp, by rw [hs]; field_simp, ?_, ?_⟩
  · rw [hs]
    have e : √D = 2 * z + 1 / s.kOut := by rw [hz]; field_simp; ring
    rw [e, hD] at hq
    have k0 := hk.ne'
    field_simp at hq ⊢
    apply mul_left_cancel₀ k0
    linear_combination hq / 4
  · unfold Jet.density
    rw [hb]
    simp only [Option.bind_some, BField.div_some]
    exact ⟨(mul_pos hsp hsp).ne', by field_simp⟩

/-- C118. For parabolic walls, the density given, in electrons per cubic metre, is that where the outer sheet meets the sphere of the base, whatever
is then set but the density: a cubic centimetre there holds a millionth of it. -/
theorem density_given {s t : Jet} {x : ℝ} {l : List Call} (h : s.run (.density x :: l) = (t, false)) (hl : ∀ y, Call.density y ∉ l)
    (hp : t.parabolic = true) (hk : 0 < t.kOut) (hr : 0 < t.rin) :
    ∃ ρ z n, 0 < ρ ∧ z = t.kOut * ρ ^ 2 ∧ ρ ^ 2 + z ^ 2 = t.rin ^ 2 ∧ t.density ρ = some n ∧ n * 100 ^ 3 = x := by
  have key : ∀ (l : List Call) (s t : Jet), s.run l = (t, false) → (∀ y, Call.density y ∉ l) → t.n0 = s.n0 := by
    intro l
    induction l with
    | nil => intro s t h _; cases h; rfl
    | cons c l ih =>
      intro s t h hl
      unfold Jet.run at h
      rcases e : s.call c with ⟨u, b⟩
      rw [e] at h
      cases b with
      | true => exact absurd (congrArg Prod.snd h) (by simp)
      | false =>
        rw [ih u t h fun y hy => hl y (List.mem_cons_of_mem _ hy)]
        cases c <;> simp only [Jet.call, Prod.mk.injEq] at e
        case density y => exact absurd (List.mem_cons_self ..) (hl y)
        case alpha y =>
          split_ifs at e
          · simp at e
          · simp only [Prod.mk.injEq, and_true] at e
            subst e; rfl
        all_goals (obtain ⟨rfl, -⟩ := e; rfl)
  have hn : t.n0 = x * 1e-6 := key l _ t (by simpa only [Jet.run, Jet.call] using h) hl
  obtain ⟨ρ, z, h1, h2, h3, h4⟩ := base_parabola hp hk hr
  refine ⟨ρ, z, _, h1, h2, h3, h4, ?_⟩
  rw [hn]
  norm_num
  ring

example : ∃ t, Jet.new.run [.density 2e12, .outerParabola 1] = (t, false) ∧ t.parabolic = true ∧ 0 < t.kOut ∧ 0 < t.rin :=
  ⟨{ Jet.new with n0 := 2e12 * 1e-6, kOut := 1 }, by simp only [Jet.run, Jet.call, Jet.new, ne_eq, not_true_eq_false, false_and, decide_false], rfl,
    by norm_num, by norm_num [Jet.new]⟩

/-- C118, finding: for conical walls the density given is not that of the base: where the outer cone meets the sphere of the base, the gas is denser by
the inverse square of the cosine of the angle. -/
theorem base_cone_wrong {s : Jet} (hp : s.parabolic = false) (ha : 0 < s.angOut) (ha' : s.angOut < Real.pi / 2) (hr : 0 < s.rin) (hn : 0 < s.n0) :
    ∃ ρ z n, IsPolar s.rin s.angOut ρ z ∧ s.density ρ = some n ∧ n = s.n0 / Real.cos s.angOut ^ 2 ∧ s.n0 < n := by
  have hpi := Real.pi_pos
  have hc : 0 < Real.cos s.angOut := Real.cos_pos_of_mem_Ioo ⟨by linarith, ha'⟩
  have hs : 0 < Real.sin s.angOut := Real.sin_pos_of_pos_of_lt_pi ha (by linarith)
  refine ⟨s.rin * Real.sin s.angOut, s.rin * Real.cos s.angOut, _, ⟨hr, ha.le, ha'.le, rfl, abs_of_pos (by positivity)⟩, ?_, rfl, ?_⟩
  · unfold Jet.density Jet.baseRadius
    rw [if_neg (by rw [hp]; simp), if_neg hc.ne']
    simp only [Option.bind_some, BField.div_some]
    refine ⟨by positivity, ?_⟩
    rw [Real.tan_eq_sin_div_cos]
    field_simp
  · rw [lt_div_iff₀ (by positivity)]
    have h1 : Real.cos s.angOut ^ 2 < 1 := by nlinarith [Real.sin_sq_add_cos_sq s.angOut]
    nlinarith

/-- C118, partial: it is that of the outer cone at the height of the inner radius. -/
theorem base_cone_partial {s : Jet} (hp : s.parabolic = false) (ha : 0 < s.angOut) (ha' : s.angOut < Real.pi / 2) (hr : 0 < s.rin) :
    ∃ r ρ, IsPolar r s.angOut ρ s.rin ∧ s.density ρ = some s.n0 := by
  have hpi := Real.pi_pos
  have hc : 0 < Real.cos s.angOut := Real.cos_pos_of_mem_Ioo ⟨by linarith, ha'⟩
  have hs : 0 < Real.sin s.angOut := Real.sin_pos_of_pos_of_lt_pi ha (by linarith)
  refine ⟨s.rin / Real.cos s.angOut, s.rin / Real.cos s.angOut * Real.sin s.angOut,
    ⟨by positivity, ha.le, ha'.le, rfl, by rw [abs_of_pos hr]; field_simp⟩, ?_⟩
  unfold Jet.density Jet.baseRadius
  rw [if_neg (by rw [hp]; simp), if_neg hc.ne']
  simp only [Option.bind_some, BField.div_some]
  refine ⟨by positivity, ?_⟩
  rw [Real.tan_eq_sin_div_cos]
  field_simp

/-- C118. The temperature is that given at the inner radius, and a power of the radius. -/
theorem temperature_law {s : Jet} (h : 0 < s.rin) {r k : ℝ} (hr : 0 < r) (hk : 0 < k) : s.temperature s.rin = some s.T0 ∧
    ∃ T, s.temperature r = some T ∧ s.temperature (k * r) = some (k ^ (-s.slope) * T) := by
  unfold Jet.temperature
  rw [if_neg (by rintro (x | x) <;> linarith), div_self h.ne', Real.one_rpow, mul_one, if_neg (by rintro (x | x) <;> linarith),
    if_neg (by have := mul_pos hk hr; rintro (x | x) <;> linarith)]
  refine ⟨rfl, _, rfl, ?_⟩
  rw [Option.some.injEq, Real.rpow_neg hk.le, ← Real.inv_rpow hk.le, mul_left_comm, ← Real.mul_rpow (by positivity) (by positivity)]
  congr 2
  field_simp

/-! ## C119: the velocity -/

/-- C119. The velocity of the jet is that of an observer, with the Lorentz factor given for the observer without angular momentum. Its speed
around the axis is the multiple given of its radial speed where it flows outwards. -/
theorem velocity_ok {g : Tensor} {tt rr hh pp tp : ℝ} (h : Outside g tt rr hh pp tp) (hp : 0 < pp) {s : Jet} (hg : 1 ≤ s.gamma) (pos : Vec) :
    ∃ w u, IsZamo g w ∧ s.getVelocity g pos = .ok u ∧ IsObserver g u ∧ lorentz g w u = s.gamma ∧
      (s.outflowing = true → s.stag < pos 1 → scalarProd g u (eastward g) = s.ratio * scalarProd g u (outward g)) := by
  have hg2 : 1 ≤ s.gamma * s.gamma := by nlinarith
  obtain ⟨e1, e2, e3, -, e5⟩ := flow_sp h hp hg2 pos
  have hz := zamo_ok h hp
  refine ⟨_, _, hz, getVelocity_eq h hp hg2 pos, ⟨?_, by rw [← scalarProd_eq]; exact e1⟩, e2, fun ho hs => ?_⟩
  · have := hz.future
    simp only [Jet.flow, Matrix.cons_val_zero, mul_zero, add_zero]
    exact mul_pos (by linarith) this
  · rw [e5, e3, heading_ratio, show s.dir (pos 1) = 1 from if_pos ⟨ho, hs⟩]
    ring

/-- C119. In a conical jet the gas moves away from the centre, without changing its colatitude, unless it is below the stagnation radius or the jet
is said to flow inwards: then it moves towards the centre. -/
theorem conical_heading {g : Tensor} {tt rr hh pp tp : ℝ} (h : Outside g tt rr hh pp tp) (hp : 0 < pp) {s : Jet} (hg : 1 < s.gamma)
    (hc : s.parabolic = false) (pos : Vec) : ∃ u, s.getVelocity g pos = .ok u ∧ u 2 = 0 ∧
      (s.outflowing = true → s.stag < pos 1 → 0 < u 1) ∧ (s.outflowing = false ∨ pos 1 ≤ s.stag → u 1 < 0) := by
  have hg2 : 1 ≤ s.gamma * s.gamma := by nlinarith
  have hr := Real.sqrt_pos.2 h.rr
  have hh0 : (s.heading (pos 1) (pos 2)) = (1 / √(1 + s.ratio * s.ratio), 0, s.ratio / √(1 + s.ratio * s.ratio)) := by
    unfold Jet.heading; rw [if_neg (by rw [hc]; simp)]
  have hq : 0 < √(1 + s.ratio * s.ratio) := Real.sqrt_pos.2 (by linarith [mul_self_nonneg s.ratio])
  have hV : 0 < √(s.gamma * s.gamma - 1) := Real.sqrt_pos.2 (by nlinarith)
  have hg0 : 0 < s.gamma := by linarith
  refine ⟨_, getVelocity_eq h hp hg2 pos, ?_, fun a b => ?_, fun a => ?_⟩
  · simp only [Jet.flow, hh0, zamo, Matrix.cons_val]; ring
  · simp only [Jet.flow, hh0, zamo, Matrix.cons_val_one, Matrix.cons_val_zero, show s.dir (pos 1) = 1 from if_pos ⟨a, b⟩]
    have : 0 < √(s.gamma * s.gamma - 1) / s.gamma * (1 * (1 / √(1 + s.ratio * s.ratio)) / √rr) := by positivity
    nlinarith
  · have hd : s.dir (pos 1) = -1 := if_neg (by
      rintro ⟨a1, a2⟩
      rcases a with a | a
      · rw [a] at a1; cases a1
      · linarith)
    simp only [Jet.flow, hh0, zamo, Matrix.cons_val_one, Matrix.cons_val_zero, hd]
    have : 0 < √(s.gamma * s.gamma - 1) / s.gamma * (1 / √(1 + s.ratio * s.ratio) / √rr) := by positivity
    have e : s.gamma * (0 + √(s.gamma * s.gamma - 1) / s.gamma * (-1 * (1 / √(1 + s.ratio * s.ratio)) / √rr)) =
        -(s.gamma * (√(s.gamma * s.gamma - 1) / s.gamma * (1 / √(1 + s.ratio * s.ratio) / √rr))) := by ring
    rw [e]
    exact neg_neg_of_pos (mul_pos hg0 this)

/-- How fast the gas of a parabolic jet crosses the sheets of the inner parabola. -/
theorem across {g : Tensor} {tt rr hh pp tp : ℝ} (h : Outside g tt rr hh pp tp) (hp : 0 < pp) {s : Jet} (hg : 1 < s.gamma)
    (hc : s.parabolic = true) {pos : Vec} {sz : ℝ} (hsz : sz = if pos 1 * Real.cos (pos 2) < 0 then -1 else 1) :
    ∃ u c, s.getVelocity g pos = .ok u ∧ 0 < c ∧ acrossParabola sz s.kIn pos u = s.dir (pos 1) * c *
      ((Real.sin (pos 2) + 2 * sz * s.kIn * (pos 1 * Real.sin (pos 2)) * Real.cos (pos 2)) *
        (Real.cos (pos 2) - 2 * sz * s.kIn * (pos 1 * Real.sin (pos 2)) * Real.sin (pos 2))) * (√hh - pos 1 * √rr) := by
  have hg2 : 1 ≤ s.gamma * s.gamma := by nlinarith
  have hr := Real.sqrt_pos.2 h.rr
  have ht := Real.sqrt_pos.2 h.hh
  have hV : 0 < √(s.gamma * s.gamma - 1) := Real.sqrt_pos.2 (by nlinarith)
  have hg0 : 0 < s.gamma := by linarith
  obtain ⟨c, hc0, e1, e2⟩ := heading_parabolic hc (pos 1) (pos 2) sz hsz
  refine ⟨_, √(s.gamma * s.gamma - 1) * c / (√rr * √hh), getVelocity_eq h hp hg2 pos, by positivity, ?_⟩
  simp only [acrossParabola, zDot, rhoDot, Jet.flow, zamo, e1, e2, Matrix.cons_val, Matrix.cons_val_one, Matrix.cons_val_zero]
  field_simp
  ring

/-- C119. Where the metric of the meridional planes is that of a flat plane, up to a factor, the gas of a parabolic jet moves along the sheets that
have the shape of the inner wall: on it, the gas stays on it. -/
theorem along_wall {g : Tensor} {tt rr hh pp tp : ℝ} (h : Outside g tt rr hh pp tp) (hp : 0 < pp) {s : Jet} (hg : 1 < s.gamma)
    (hc : s.parabolic = true) {pos : Vec} (hr : 0 < pos 1) (hflat : hh = pos 1 ^ 2 * rr) :
    ∃ u, s.getVelocity g pos = .ok u ∧ acrossParabola (if pos 1 * Real.cos (pos 2) < 0 then -1 else 1) s.kIn pos u = 0 := by
  obtain ⟨u, c, e, -, ha⟩ := across h hp hg hc (pos := pos) rfl
  refine ⟨u, e, ?_⟩
  rw [ha, hflat, Real.sqrt_mul (by positivity), Real.sqrt_sq hr.le]
  ring

/-- C119, finding: elsewhere the gas of the inner wall leaves it. -/
theorem leaves_wall_wrong {g : Tensor} {tt rr hh pp tp : ℝ} (h : Outside g tt rr hh pp tp) (hp : 0 < pp) {s : Jet} (hg : 1 < s.gamma)
    (hc : s.parabolic = true) (hk : 0 < s.kIn) {pos : Vec} (hr : 0 < pos 1) (hs : 0 < Real.sin (pos 2)) (hz : Real.cos (pos 2) ≠ 0)
    (hw : |pos 1 * Real.cos (pos 2)| = s.kIn * (pos 1 * Real.sin (pos 2)) ^ 2) (hcurved : hh ≠ pos 1 ^ 2 * rr) :
    ∃ u, s.getVelocity g pos = .ok u ∧ acrossParabola (if pos 1 * Real.cos (pos 2) < 0 then -1 else 1) s.kIn pos u ≠ 0 := by
  obtain ⟨u, c, e, hc0, ha⟩ := across h hp hg hc (pos := pos) rfl
  refine ⟨u, e, ?_⟩
  rw [ha]
  have hd : s.dir (pos 1) ≠ 0 := by
    intro h0; have := dir_sq s (pos 1); rw [h0] at this; norm_num at this
  have hsz : ∃ sz : ℝ, sz = (if pos 1 * Real.cos (pos 2) < 0 then -1 else 1) ∧ sz * sz = 1 ∧ sz * Real.cos (pos 2) = |Real.cos (pos 2)| := by
    by_cases hn : pos 1 * Real.cos (pos 2) < 0
    · rw [if_pos hn]
      have : Real.cos (pos 2) < 0 := by
        by_contra hx; have := mul_nonneg hr.le (not_lt.1 hx); linarith
      exact ⟨-1, rfl, by norm_num, by rw [abs_of_neg this]; ring⟩
    · rw [if_neg hn]
      have : 0 ≤ Real.cos (pos 2) := nonneg_of_mul_nonneg_right (not_lt.1 hn) hr
      exact ⟨1, rfl, by norm_num, by rw [abs_of_nonneg this]; ring⟩
  obtain ⟨sz, esz, sz2, szc⟩ := hsz
  rw [← esz]
  -- on the wall, `k ρ` is the cotangent
  have hkρ : s.kIn * (pos 1 * Real.sin (pos 2)) * Real.sin (pos 2) = |Real.cos (pos 2)| := by
    rw [abs_mul, abs_of_pos hr] at hw
    have : pos 1 * (s.kIn * (pos 1 * Real.sin (pos 2)) * Real.sin (pos 2) - |Real.cos (pos 2)|) = 0 := by linear_combination -hw
    rcases mul_eq_zero.1 this with h | h
    · exact absurd h hr.ne'
    · linarith
  have f1 : Real.sin (pos 2) + 2 * sz * s.kIn * (pos 1 * Real.sin (pos 2)) * Real.cos (pos 2) ≠ 0 := by
    have e : Real.sin (pos 2) + 2 * sz * s.kIn * (pos 1 * Real.sin (pos 2)) * Real.cos (pos 2) =
        Real.sin (pos 2) + 2 * s.kIn * (pos 1 * Real.sin (pos 2)) * |Real.cos (pos 2)| := by rw [← szc]; ring
    rw [e]
    positivity
  have f2 : Real.cos (pos 2) - 2 * sz * s.kIn * (pos 1 * Real.sin (pos 2)) * Real.sin (pos 2) ≠ 0 := by
    have e : Real.cos (pos 2) - 2 * sz * s.kIn * (pos 1 * Real.sin (pos 2)) * Real.sin (pos 2) = -Real.cos (pos 2) := by
      linear_combination (-2 * sz) * hkρ + (2 * sz) * szc + (-2 * Real.cos (pos 2)) * sz2
    rw [e]
    exact neg_ne_zero.2 hz
  have f3 : √hh - pos 1 * √rr ≠ 0 := by
    intro h0
    apply hcurved
    have e : √hh = pos 1 * √rr := by linarith
    rw [← Real.sq_sqrt h.hh.le, e, mul_pow, Real.sq_sqrt h.rr.le]
  exact mul_ne_zero (mul_ne_zero (mul_ne_zero hd hc0.ne') (mul_ne_zero f1 f2)) f3

/-- Outside the horizon of Kerr's metric, off the axis. -/
theorem kerr_out {a : ℝ} {p : Vec} (hr : 0 < p 1) (hd : 0 < p 1 * p 1 - 2 * p 1 + a * a) (hs : Real.sin (p 2) ≠ 0) :
    Outside (gmunu a p) (gmunu a p 0 0) (gmunu a p 1 1) (gmunu a p 2 2) (gmunu a p 3 3) (gmunu a p 0 3) ∧ 0 < gmunu a p 3 3 ∧
      gmunu a p 2 2 = (p 1 * p 1 - 2 * p 1 + a * a) * gmunu a p 1 1 ∧ 0 < gmunu a p 1 1 := by
  have hS : 0 < p 1 * p 1 + a * a * (Real.cos (p 2) * Real.cos (p 2)) := by
    have : 0 ≤ a * a * (Real.cos (p 2) * Real.cos (p 2)) := mul_nonneg (mul_self_nonneg _) (mul_self_nonneg _)
    nlinarith
  have hs2 : 0 < Real.sin (p 2) * Real.sin (p 2) := mul_self_pos.2 hs
  have hc2 : Real.cos (p 2) * Real.cos (p 2) = 1 - Real.sin (p 2) * Real.sin (p 2) := by linarith [Real.sin_sq_add_cos_sq (p 2), sq (Real.sin (p 2)), sq (Real.cos (p 2))]
  obtain ⟨S, hSe⟩ : ∃ S, S = p 1 * p 1 + a * a * (Real.cos (p 2) * Real.cos (p 2)) := ⟨_, rfl⟩
  obtain ⟨q, hq⟩ : ∃ q, q = Real.sin (p 2) * Real.sin (p 2) := ⟨_, rfl⟩
  have e : gmunu a p = circ (-1 + 2 * p 1 / S) (S / (p 1 * p 1 - 2 * p 1 + a * a)) S
      ((p 1 * p 1 + a * a + 2 * p 1 * (a * a) * q / S) * q) (-2 * a * p 1 * q / S) := by
    rw [hSe, hq]; rfl
  rw [← hSe] at hS
  rw [← hq] at hs2
  rw [e]
  simp only [circ00, circ11, circ22, circ33, circ03]
  have hpp : 0 < p 1 * p 1 + a * a + 2 * p 1 * (a * a) * q / S := by
    have h1 : 0 ≤ a * a := mul_self_nonneg a
    have h2 : 0 ≤ 2 * p 1 * (a * a) * q / S := by positivity
    nlinarith
  refine ⟨⟨rfl, by positivity, hS, ?_⟩, mul_pos hpp hs2, (mul_div_cancel₀ S hd.ne').symm, by positivity⟩
  have hSq : S = p 1 * p 1 + a * a * (1 - q) := by rw [hSe, hc2, hq]
  have key : (-1 + 2 * p 1 / S) * ((p 1 * p 1 + a * a + 2 * p 1 * (a * a) * q / S) * q) - (-2 * a * p 1 * q / S) ^ 2 =
      -(p 1 * p 1 - 2 * p 1 + a * a) * q := by
    field_simp
    rw [hSq]
    ring
  rw [key]
  nlinarith

/-- C119, finding: around a black hole, of any spin, the gas of the inner wall leaves the sheath. -/
theorem kerr_leaves_wrong {a : ℝ} {s : Jet} (hg : 1 < s.gamma) (hc : s.parabolic = true) (hk : 0 < s.kIn) {pos : Vec} (hr : a * a < 2 * pos 1)
    (hd : 0 < pos 1 * pos 1 - 2 * pos 1 + a * a) (hs : 0 < Real.sin (pos 2)) (hz : Real.cos (pos 2) ≠ 0)
    (hw : |pos 1 * Real.cos (pos 2)| = s.kIn * (pos 1 * Real.sin (pos 2)) ^ 2) :
    ∃ u, s.getVelocity (gmunu a pos) pos = .ok u ∧ acrossParabola (if pos 1 * Real.cos (pos 2) < 0 then -1 else 1) s.kIn pos u ≠ 0 := by
  have hr0 : 0 < pos 1 := by linarith [mul_self_nonneg a]
  obtain ⟨h, hp, e, h1⟩ := kerr_out hr0 hd hs.ne'
  refine leaves_wall_wrong h hp hg hc hk hr0 hs hz hw ?_
  rw [e]
  intro h0
  have := mul_right_cancel₀ h1.ne' h0
  nlinarith

/-- C119, finding: where the jet flows inwards, the ratio of the speeds is the opposite of the one given. -/
theorem inflow_ratio_wrong {g : Tensor} {tt rr hh pp tp : ℝ} (h : Outside g tt rr hh pp tp) (hp : 0 < pp) {s : Jet} (hg : 1 ≤ s.gamma) (pos : Vec)
    (ho : s.outflowing = false ∨ pos 1 ≤ s.stag) :
    ∃ u, s.getVelocity g pos = .ok u ∧ scalarProd g u (eastward g) = -s.ratio * scalarProd g u (outward g) := by
  have hg2 : 1 ≤ s.gamma * s.gamma := by nlinarith
  obtain ⟨-, -, e3, -, e5⟩ := flow_sp h hp hg2 pos
  have hd : s.dir (pos 1) = -1 := if_neg (by
    rintro ⟨a1, a2⟩
    rcases ho with a | a
    · rw [a] at a1; cases a1
    · linarith)
  refine ⟨_, getVelocity_eq h hp hg2 pos, ?_⟩
  rw [e5, e3, heading_ratio, hd]
  ring

/-- C119, finding: a Lorentz factor below -1 is accepted, and the gas moves towards the past. -/
theorem negative_wrong {g : Tensor} {tt rr hh pp tp : ℝ} (h : Outside g tt rr hh pp tp) (hp : 0 < pp) {s : Jet} (hg : s.gamma ≤ -1) (pos : Vec) :
    ∃ u, s.getVelocity g pos = .ok u ∧ u 0 < 0 := by
  have hg2 : 1 ≤ s.gamma * s.gamma := by nlinarith
  refine ⟨_, getVelocity_eq h hp hg2 pos, ?_⟩
  have := (zamo_ok h hp).future
  simp only [Jet.flow, Matrix.cons_val_zero, mul_zero, add_zero]
  exact mul_neg_of_neg_of_pos (by linarith) this

/-- C119. A Lorentz factor between -1 and 1 gives an error wherever the velocity is asked. -/
theorem slow_throws (s : Jet) (h1 : -1 < s.gamma) (h2 : s.gamma < 1) (g : Tensor) (pos : Vec) : s.getVelocity g pos = .throws := by
  unfold Jet.getVelocity
  rw [if_pos (Or.inl (by nlinarith))]

/-- C119, finding: in Cartesian coordinates a conical jet flows along the first axis everywhere, whatever the place. -/
theorem cartesian_wrong {s : Jet} (hg : 1 < s.gamma) (hc : s.parabolic = false) (hr : s.ratio = 0) (ho : s.outflowing = true) (hs : s.stag ≤ 0)
    {pos : Vec} (hx : 0 < pos 1) :
    s.getVelocity (circ (-1) 1 1 1 0) pos = .ok ![s.gamma, √(s.gamma * s.gamma - 1), 0, 0] := by
  have hg2 : 1 ≤ s.gamma * s.gamma := by nlinarith
  have h : Outside (circ (-1) 1 1 1 0) (-1) 1 1 1 0 := ⟨rfl, one_pos, one_pos, by norm_num⟩
  have hh0 : (s.heading (pos 1) (pos 2)) = (1, 0, 0) := by
    unfold Jet.heading; rw [if_neg (by rw [hc]; simp)]; norm_num [hr]
  have hg0 : s.gamma ≠ 0 := by intro h; linarith
  rw [getVelocity_eq h one_pos hg2]
  congr 1
  funext i
  have hd : s.dir (pos 1) = 1 := if_pos ⟨ho, by linarith⟩
  fin_cases i
  · show s.flow 1 1 1 (zamo (-1) 1 0) pos 0 = s.gamma
    simp only [Jet.flow, zamo, Matrix.cons_val_zero]; norm_num
  · show s.flow 1 1 1 (zamo (-1) 1 0) pos 1 = √(s.gamma * s.gamma - 1)
    simp only [Jet.flow, zamo, hh0, hd, Matrix.cons_val_zero, Matrix.cons_val_one, Real.sqrt_one]; field_simp; ring
  · show s.flow 1 1 1 (zamo (-1) 1 0) pos 2 = 0
    simp only [Jet.flow, zamo, hh0, hd, Matrix.cons_val]; norm_num
  · show s.flow 1 1 1 (zamo (-1) 1 0) pos 3 = 0
    simp only [Jet.flow, zamo, hh0, hd, Matrix.cons_val]; norm_num

/-- A jet around a black hole of spin 1/2, at ten radii and 30 degrees from the axis. -/
example : ∃ w u, IsZamo (gmunu 0.5 ![0, 10, Real.pi / 6, 0]) w ∧
    ({ Jet.new with gamma := 2 } : Jet).getVelocity (gmunu 0.5 ![0, 10, Real.pi / 6, 0]) ![0, 10, Real.pi / 6, 0] = .ok u ∧
    lorentz (gmunu 0.5 ![0, 10, Real.pi / 6, 0]) w u = 2 := by
  obtain ⟨h, hp, -⟩ := kerr_out (a := 0.5) (p := ![0, 10, Real.pi / 6, 0]) (by norm_num [Matrix.cons_val_one]) (by norm_num [Matrix.cons_val_one])
    (by simp only [Matrix.cons_val, Real.sin_pi_div_six]; norm_num)
  obtain ⟨w, u, a, b, -, c, -⟩ := velocity_ok h hp (s := { Jet.new with gamma := 2 }) (by norm_num) ![0, 10, Real.pi / 6, 0]
  exact ⟨w, u, a, b, c⟩

/-! ## C120: the combined field -/

/-- C120. The combined field, when there is one, is a unit vector. -/
theorem combined_unit {g : Tensor} (h : BField.Circular g) {s : Jet} {par : ℝ} {u pos b : Vec} (hb : s.combined par g u pos = some b) :
    sp g b b = 1 := by
  unfold Jet.combined at hb
  simp only [Option.bind_eq_some_iff, BField.div_some, BField.sqrt_some] at hb
  obtain ⟨bp, hbp, bt, hbt, A, ⟨hA, rfl⟩, -, ⟨hA0, -⟩, hb⟩ := hb
  have p : BField.parse "Parabolic" = some (.parabolic, false) := (BField.parse_spec _ _ _).2 (by decide)
  have t : BField.parse "Toroidal" = some (.toroidal, false) := (BField.parse_spec _ _ _).2 (by decide)
  simp only [BField.computeB4vect, p, t, Option.bind_some, BField.vector, Bool.false_eq_true, if_false, Option.map_id'] at hbp hbt
  have up := BField.parabolicSph_unit u hbp
  obtain ⟨⟨-, ut⟩, a, -, t1, t2, -⟩ := BField.toroidalSph_ok h u hbt
  obtain ⟨-, -, -, n, hn, -, e⟩ := BField.parabolicSph_some u hbp
  have p3 : bp 3 = 0 := by
    have := congrFun e 3
    simp only [Pi.smul_apply, smul_eq_mul, Matrix.cons_val] at this
    rcases mul_eq_zero.1 this with h | h
    · exact absurd h hn.ne'
    · exact h
  simp only [Matrix.cons_val_zero, Matrix.cons_val_one, mul_zero] at t1 t2
  have hs := Real.mul_self_sqrt hA
  simp only [Option.some.injEq] at hb
  subst hb
  rw [BField.sp_circular h] at up ut ⊢
  rw [t1, t2] at ut ⊢
  rw [p3] at up ⊢
  generalize √(s.alpha ^ 2 + (1 - s.alpha) ^ 2 + 2 * s.alpha * (1 - s.alpha) * (g 0 0 * bp 0 * bt 0 + g 0 3 * bp 0 * bt 3)) = A at *
  field_simp
  linear_combination s.alpha ^ 2 * ut + (1 - s.alpha) ^ 2 * up - hs

/-- C120. It is orthogonal to the velocity of the emitter when the two fields it is made of are. -/
theorem combined_frame {g : Tensor} (h : BField.Circular g) {s : Jet} {par : ℝ} {u pos b : Vec} (hu : g 0 3 * u 3 = 0) (hu2 : u 2 = 0)
    (hb : s.combined par g u pos = some b) : BField.InFrame g u b := by
  refine ⟨?_, combined_unit h hb⟩
  unfold Jet.combined at hb
  simp only [Option.bind_eq_some_iff, BField.div_some, BField.sqrt_some] at hb
  obtain ⟨bp, hbp, bt, hbt, A, ⟨hA, rfl⟩, -, ⟨hA0, -⟩, hb⟩ := hb
  have p : BField.parse "Parabolic" = some (.parabolic, false) := (BField.parse_spec _ _ _).2 (by decide)
  have t : BField.parse "Toroidal" = some (.toroidal, false) := (BField.parse_spec _ _ _).2 (by decide)
  simp only [BField.computeB4vect, p, t, Option.bind_some, BField.vector, Bool.false_eq_true, if_false, Option.map_id'] at hbp hbt
  have o1 := (BField.parabolicSph_partial h u hu hu2 hbp).1
  have o2 := (BField.toroidalSph_ok h u hbt).1.1
  simp only [Option.some.injEq] at hb
  subst hb
  rw [BField.sp_circular h] at o1 o2 ⊢
  generalize √(s.alpha ^ 2 + (1 - s.alpha) ^ 2 + 2 * s.alpha * (1 - s.alpha) * (g 0 0 * bp 0 * bt 0 + g 0 3 * bp 0 * bt 3)) = A at *
  field_simp
  linear_combination s.alpha * o2 + (1 - s.alpha) * o1

/-- C120. The two ends of the range: the parabolic field and the toroidal one. -/
theorem combined_ends {g : Tensor} {s : Jet} {par : ℝ} {u pos bp bt : Vec}
    (hp : BField.computeB4vect .spherical g "Parabolic" u pos par = some bp)
    (ht : BField.computeB4vect .spherical g "Toroidal" u pos 0.75 = some bt) :
    (s.alpha = 0 → s.combined par g u pos = some bp) ∧ (s.alpha = 1 → s.combined par g u pos = some bt) := by
  constructor <;> intro ha <;> unfold Jet.combined <;> rw [hp, ht, ha] <;>
    simp only [Option.bind_some, Option.bind_eq_some_iff, BField.div_some, BField.sqrt_some]
  · exact ⟨1, ⟨by norm_num, by norm_num⟩, 1, ⟨by norm_num, by norm_num⟩, by congr 1; funext i; ring⟩
  · exact ⟨1, ⟨by norm_num, by norm_num⟩, 1, ⟨by norm_num, by norm_num⟩, by congr 1; funext i; ring⟩

/-- C120, finding: the same jet, "Combined", has a field when light is polarised and another one, in another direction, when it is not. -/
theorem polarised_wrong {g : Tensor} {s : Jet} {u pos b b' : Vec} (ha : s.alpha = 0) (h0 : g 0 0 * u 0 ≠ 0) (hr : 0 < pos 1)
    (hh : BField.hemisphere (pos 2) ≠ 0) (hb : s.field "Combined" g u pos = some b) (hb' : s.fieldP "Combined" g u pos = some b') :
    ∀ k : ℝ, b' ≠ k • b := by
  unfold Jet.field at hb
  unfold Jet.fieldP at hb'
  rw [if_pos rfl] at hb hb'
  have p : BField.parse "Parabolic" = some (.parabolic, false) := (BField.parse_spec _ _ _).2 (by decide)
  have key : ∀ {par : ℝ} {b : Vec}, s.combined par g u pos = some b → BField.parabolicSph g u (pos 1) (pos 2) par = some b := by
    intro par b hb
    have hb'' := hb
    unfold Jet.combined at hb
    simp only [Option.bind_eq_some_iff] at hb
    obtain ⟨bp, hbp, bt, hbt, -⟩ := hb
    have e := (combined_ends (s := s) hbp hbt).1 ha
    rw [hb''] at e
    simp only [BField.computeB4vect, p, Option.bind_some, BField.vector, Bool.false_eq_true, if_false, Option.map_id'] at hbp
    rw [hbp, e]
  have k1 := key hb
  have k2 := key hb'
  obtain ⟨-, -, hs, n, hn, -, e⟩ := BField.parabolicSph_some u k1
  obtain ⟨-, -, -, m, hm, -, e'⟩ := BField.parabolicSph_some u k2
  have hc : 1 - |Real.cos (pos 2)| ≠ 0 := by
    intro hc
    apply hs
    have h1 := Real.cos_sq_add_sin_sq (pos 2)
    have h2 : Real.cos (pos 2) ^ 2 = 1 := by rw [← sq_abs, show |Real.cos (pos 2)| = 1 by linarith]; norm_num
    have : Real.sin (pos 2) ^ 2 = 0 := by linarith
    exact pow_eq_zero_iff (two_ne_zero) |>.1 this
  intro k hk
  have a1 := congrFun e 1
  have a2 := congrFun e 2
  have b1 := congrFun e' 1
  have b2 := congrFun e' 2
  rw [hk] at b1 b2
  simp only [Pi.smul_apply, smul_eq_mul, Matrix.cons_val, Matrix.cons_val_one] at a1 a2 b1 b2
  have q1 : pos 1 ^ ((1 : ℝ) - 2) * pos 1 ^ ((0.75 : ℝ) - 3) = pos 1 ^ ((1 : ℝ) - 3) * pos 1 ^ ((0.75 : ℝ) - 2) := by
    rw [← Real.rpow_add hr, ← Real.rpow_add hr]; norm_num
  have x1 : 0 < pos 1 ^ ((1 : ℝ) - 3) := Real.rpow_pos_of_pos hr _
  have x2 : 0 < pos 1 ^ ((0.75 : ℝ) - 2) := Real.rpow_pos_of_pos hr _
  generalize pos 1 ^ ((1 : ℝ) - 2) = y1 at *
  generalize pos 1 ^ ((1 : ℝ) - 3) = y2 at *
  generalize pos 1 ^ ((0.75 : ℝ) - 2) = y3 at *
  generalize pos 1 ^ ((0.75 : ℝ) - 3) = y4 at *
  obtain ⟨C, hC⟩ : ∃ C, C = -(1 / 2) * (g 0 0 * u 0) * BField.hemisphere (pos 2) := ⟨_, rfl⟩
  obtain ⟨D, hD⟩ : ∃ D, D = 1 / 2 * (g 0 0 * u 0) * (1 - |Real.cos (pos 2)|) / Real.sin (pos 2) := ⟨_, rfl⟩
  have C0 : C ≠ 0 := by rw [hC]; exact mul_ne_zero (mul_ne_zero (by norm_num) h0) hh
  have D0 : D ≠ 0 := by rw [hD]; exact div_ne_zero (mul_ne_zero (mul_ne_zero (by norm_num) h0) hc) hs
  rw [← hC] at a1 b1
  rw [← hD] at a2 b2
  have cross : C * y1 * (D * y4 * 0.75) = D * y2 * 1 * (C * y3) := by
    rw [← a1, ← b2, ← a2, ← b1]; ring
  have : C * D * (y2 * y3) = 0 := by
    linear_combination -4 * cross + 3 * C * D * q1
  exact (mul_ne_zero (mul_ne_zero C0 D0) (mul_pos x1 x2).ne') this

/-- In flat space, for gas at rest at 60 degrees from the axis, both fields exist. -/
example : ∃ b b', Jet.new.field "Combined" (circ (-1) 1 (4 ^ 2) (4 ^ 2 * Real.sin (Real.pi / 3) ^ 2) 0) ![1, 0, 0, 0] ![0, 4, Real.pi / 3, 0] = some b ∧
    Jet.new.fieldP "Combined" (circ (-1) 1 (4 ^ 2) (4 ^ 2 * Real.sin (Real.pi / 3) ^ 2) 0) ![1, 0, 0, 0] ![0, 4, Real.pi / 3, 0] = some b' := by
  obtain ⟨g, hg⟩ : ∃ g, g = circ (-1) 1 (4 ^ 2) (4 ^ 2 * Real.sin (Real.pi / 3) ^ 2) 0 := ⟨_, rfl⟩
  have hs : Real.sin (Real.pi / 3) ≠ 0 := by rw [Real.sin_pi_div_three]; positivity
  have p : BField.parse "Parabolic" = some (.parabolic, false) := (BField.parse_spec _ _ _).2 (by decide)
  have t : BField.parse "Toroidal" = some (.toroidal, false) := (BField.parse_spec _ _ _).2 (by decide)
  have bt : ∃ bt, BField.computeB4vect .spherical g "Toroidal" ![1, 0, 0, 0] ![0, 4, Real.pi / 3, 0] 0.75 = some bt := by
    simp only [BField.computeB4vect, t, Option.bind_some, BField.vector, Bool.false_eq_true, if_false, Option.map_id', BField.toroidalSph]
    rw [if_neg (by norm_num)]
    simp only [Matrix.cons_val_zero, Matrix.cons_val, hg, circ00, circ03, circ33]
    norm_num [BField.div?, Real.sin_pi_div_three]
    positivity
  have bp : ∀ par : ℝ, 0 ≤ par → par ≤ 1.25 →
      ∃ bp, BField.computeB4vect .spherical g "Parabolic" ![1, 0, 0, 0] ![0, 4, Real.pi / 3, 0] par = some bp := by
    intro par h0 h1
    simp only [BField.computeB4vect, p, Option.bind_some, BField.vector, Bool.false_eq_true, if_false, Option.map_id', BField.parabolicSph]
    rw [if_neg (by rintro (h | h) <;> linarith)]
    simp only [Matrix.cons_val_zero, Matrix.cons_val_one, Matrix.cons_val, hg, circ00, circ11, circ22, sp_circ]
    have hh : BField.hemisphere (Real.pi / 3) = 1 := by
      unfold BField.hemisphere
      rw [if_neg (by linarith [Real.pi_pos]), Real.cos_pi_div_three]; norm_num
    rw [hh]
    simp only [BField.div?, if_neg hs, Option.bind_some, BField.sqrt?]
    have yp : 0 < (4 : ℝ) ^ (par - 2) := Real.rpow_pos_of_pos (by norm_num) _
    generalize (4 : ℝ) ^ (par - 2) = y at *
    generalize (if Real.pi / 3 = 0 then (0 : ℝ) else 0.5 * (-1 * 1) * (1 - |Real.cos (Real.pi / 3)|) / Real.sin (Real.pi / 3) * 4 ^ (par - 3) * par) = w
    have e : 0 < (1 / 2 * y) * (1 / 2 * y) + 16 * w * w := by nlinarith [mul_pos yp yp, mul_self_nonneg w]
    norm_num
    rw [if_neg (by linarith)]
    simp only [Option.bind_some]
    have : √(1 / 2 * y * (1 / 2 * y) + 16 * w * w) ≠ 0 := (Real.sqrt_pos.2 e).ne'
    simp only [if_neg this, Option.bind_some]
    exact ⟨_, rfl⟩
  rw [← hg]
  obtain ⟨bt, ht⟩ := bt
  obtain ⟨b1, h1⟩ := bp 1 (by norm_num) (by norm_num)
  obtain ⟨b2, h2⟩ := bp 0.75 (by norm_num) (by norm_num)
  exact ⟨b1, b2, by unfold Jet.field; rw [if_pos rfl]; exact (combined_ends h1 ht).1 rfl,
    by unfold Jet.fieldP; rw [if_pos rfl]; exact (combined_ends h2 ht).1 rfl⟩

end Gyoto.JetFlow
