import Verif.Model.Functors
import Mathlib.Topology.Order.IntermediateValue
import Mathlib.Topology.Algebra.Order.Field
import Mathlib.Topology.Order.LeftRightNhds
import Mathlib.Analysis.SpecificLimits.Basic
import Mathlib.Topology.Order.OrderClosed
import Mathlib.Tactic.Linarith
import Mathlib.Tactic.Ring
import Mathlib.Tactic.FieldSimp
import Mathlib.Tactic.Positivity
import Mathlib.Tactic.NormNum

/-! # What the root finders return -/

namespace Gyoto.Functors

open Set

theorem sign_pos {a : ℝ} (h : 0 ≤ a) : sign a = 1 := if_pos h
theorem sign_neg {a : ℝ} (h : a < 0) : sign a = -1 := if_neg (not_le.mpr h)

/-- `x` is a point of the bracket at which `f` is zero up to the tolerance, or a point next to which `f` changes its sign. -/
def NearZero (f : ℝ → ℝ) (r1 r2 x : ℝ) : Prop :=
  x ∈ uIcc r1 r2 ∧ (|f x| ≤ 1 / 1000000000 ∨ ∃ y ∈ uIcc r1 r2, |x - y| < 1 / 100000 ∧ f x * f y < 0)

/-- One turn, from a bracket: the point tried is in the bracket; if it is not a zero, the new interval is a bracket, is within the old one,
is at most half as long and has the point as an end. -/
theorem turn (f : ℝ → ℝ) (s : Pair) (h1 : s.v1 = f s.r1) (h2 : s.v2 = f s.r2) (h : s.v1 * s.v2 < 0) :
    ∃ r3 r4, r3 = 1 / 2 * (s.r1 + s.r2) ∧ 0 < f r3 * f r3 - s.v1 * s.v2 ∧
      r4 = r3 + (r3 - s.r1) * sign (s.v1 - s.v2) * f r3 / Real.sqrt (f r3 * f r3 - s.v1 * s.v2) ∧ r4 ∈ uIcc s.r1 s.r2 ∧
      (f r4 ≠ 0 → ∃ s', s' = choose s r3 (f r3) r4 (f r4) ∧ s'.v1 = f s'.r1 ∧ s'.v2 = f s'.r2 ∧ s'.v1 * s'.v2 < 0 ∧
        uIcc s'.r1 s'.r2 ⊆ uIcc s.r1 s.r2 ∧ |s'.r1 - s'.r2| ≤ |s.r1 - s.r2| / 2 ∧ (s'.r1 = r4 ∨ s'.r2 = r4)) := by
  obtain ⟨r1, r2, v1, v2⟩ := s
  simp only at *
  obtain ⟨r3, hr3⟩ : ∃ r3, r3 = 1 / 2 * (r1 + r2) := ⟨_, rfl⟩
  obtain ⟨v3, hv3⟩ : ∃ v3, v3 = f r3 := ⟨_, rfl⟩
  have hD : 0 < v3 * v3 - v1 * v2 := by nlinarith [mul_self_nonneg v3]
  obtain ⟨w, hw⟩ : ∃ w, w = Real.sqrt (v3 * v3 - v1 * v2) := ⟨_, rfl⟩
  have hw0 : 0 < w := by rw [hw]; exact Real.sqrt_pos.mpr hD
  have hww : w * w = v3 * v3 - v1 * v2 := by rw [hw]; exact Real.mul_self_sqrt hD.le
  have hq : |v3 / w| < 1 := by
    rw [abs_div, abs_of_pos hw0, div_lt_one hw0]
    apply abs_lt_of_sq_lt_sq _ hw0.le
    nlinarith
  obtain ⟨q, hqd⟩ : ∃ q, q = v3 / w := ⟨_, rfl⟩
  rw [← hqd] at hq
  obtain ⟨hq1, hq2⟩ := abs_lt.mp hq
  have hq3 : q * w = v3 := by rw [hqd]; field_simp
  obtain ⟨σ, hσ⟩ : ∃ σ, σ = sign (v1 - v2) := ⟨_, rfl⟩
  obtain ⟨r4, hr4⟩ : ∃ r4, r4 = r3 + (r3 - r1) * σ * v3 / w := ⟨_, rfl⟩
  have hr4' : r4 = r3 + (r2 - r1) / 2 * (σ * q) := by rw [hr4, hqd, hr3]; ring
  have hcase : (0 < v1 ∧ v2 < 0 ∧ σ = 1) ∨ (v1 < 0 ∧ 0 < v2 ∧ σ = -1) := by
    rcases mul_neg_iff.mp h with ⟨a, b⟩ | ⟨a, b⟩
    · exact .inl ⟨a, b, by rw [hσ, sign_pos (by linarith)]⟩
    · exact .inr ⟨a, b, by rw [hσ, sign_neg (by linarith)]⟩
  have ht : |σ * q| < 1 := by
    rcases hcase with ⟨-, -, e⟩ | ⟨-, -, e⟩ <;> rw [e]
    · rw [one_mul]; exact hq
    · rw [neg_one_mul, abs_neg]; exact hq
  obtain ⟨t, htd⟩ : ∃ t, t = σ * q := ⟨_, rfl⟩
  rw [← htd] at ht hr4'
  obtain ⟨ht1, ht2⟩ := abs_lt.mp ht
  -- a point of the segment, from the middle
  have seg : ∀ u : ℝ, -1 ≤ u → u ≤ 1 → r3 + (r2 - r1) / 2 * u ∈ uIcc r1 r2 := by
    intro u hu1 hu2
    rw [hr3, mem_uIcc]
    rcases le_total r1 r2 with hle | hle
    · left; constructor <;> nlinarith
    · right; constructor <;> nlinarith
  have m1 : r1 ∈ uIcc r1 r2 := left_mem_uIcc
  have m2 : r2 ∈ uIcc r1 r2 := right_mem_uIcc
  have m3 : r3 ∈ uIcc r1 r2 := by simpa using seg 0 (by norm_num) (by norm_num)
  have m4 : r4 ∈ uIcc r1 r2 := by rw [hr4']; exact seg t ht1.le ht2.le
  have len : ∀ u : ℝ, |u| ≤ 1 → |(r2 - r1) / 2 * u| ≤ |r1 - r2| / 2 := by
    intro u hu
    rw [abs_mul, abs_div, abs_of_pos (show (0 : ℝ) < 2 by norm_num), abs_sub_comm r2 r1]
    exact mul_le_of_le_one_right (by positivity) hu
  refine ⟨r3, r4, hr3, by rw [← hv3]; exact hD, by rw [← hv3, ← hσ, ← hw]; exact hr4, m4, fun hne => ?_⟩
  obtain ⟨v4, hv4⟩ : ∃ v4, v4 = f r4 := ⟨_, rfl⟩
  rw [← hv3, ← hv4]
  rw [← hv4] at hne
  -- a zero at the middle would be the point tried
  have hv30 : v3 ≠ 0 := by
    intro h0
    have : r4 = r3 := by rw [hr4, h0]; simp
    rw [hv4, this, ← hv3] at hne
    exact hne h0
  refine ⟨_, rfl, ?_⟩
  unfold choose
  by_cases c1 : sign v3 ≠ sign v4
  · rw [if_pos c1]
    refine ⟨hv3, hv4, ?_, uIcc_subset_uIcc m3 m4, ?_, .inr rfl⟩
    · show v3 * v4 < 0
      rcases lt_or_gt_of_ne hv30 with a | a <;> rcases lt_or_gt_of_ne hne with b | b
      · exact absurd (by rw [sign_neg a, sign_neg b]) c1
      · exact mul_neg_of_neg_of_pos a b
      · exact mul_neg_of_pos_of_neg a b
      · exact absurd (by rw [sign_pos a.le, sign_pos b.le]) c1
    · show |r3 - r4| ≤ _
      have : r3 - r4 = (r2 - r1) / 2 * (-t) := by rw [hr4']; ring
      rw [this]
      exact len _ (by rw [abs_neg]; exact ht.le)
  · rw [if_neg c1]
    have c1' : sign v3 = sign v4 := not_not.mp c1
    have hpos : ∀ x : ℝ, |x| ≤ 1 → 0 ≤ x → |1 - x| ≤ 1 := fun x hx h0 => by
      rw [abs_of_nonneg (by linarith [(abs_le.mp hx).2])]; linarith
    have hneg : ∀ x : ℝ, |x| ≤ 1 → x ≤ 0 → |1 + x| ≤ 1 := fun x hx h0 => by
      rw [abs_of_nonneg (by linarith [(abs_le.mp hx).1])]; linarith
    -- the sign of the displacement
    have tq : v3 = q * w := hq3.symm
    have side : (0 < v3 * v1 → 0 < t) ∧ (v3 * v1 < 0 → t < 0) := by
      rcases hcase with ⟨a, b, e⟩ | ⟨a, b, e⟩
      · rw [htd, e, one_mul]
        constructor
        · intro hp
          have : 0 < v3 := by
            by_contra hc
            exact absurd hp (not_lt.mpr (mul_nonpos_of_nonpos_of_nonneg (not_lt.mp hc) a.le))
          rw [hqd]; positivity
        · intro hp
          have : v3 < 0 := by
            by_contra hc
            exact absurd hp (not_lt.mpr (mul_nonneg (not_lt.mp hc) a.le))
          rw [hqd]; exact div_neg_of_neg_of_pos this hw0
      · rw [htd, e]
        constructor
        · intro hp
          have : v3 < 0 := by nlinarith
          rw [hqd]
          have := div_neg_of_neg_of_pos this hw0
          linarith
        · intro hp
          have : 0 < v3 := by nlinarith
          rw [hqd]
          have := div_pos this hw0
          linarith
    have same : 0 < v3 * v4 := by
      rcases lt_or_gt_of_ne hv30 with a | a <;> rcases lt_or_gt_of_ne hne with b | b
      · exact mul_pos_of_neg_of_neg a b
      · rw [sign_neg a, sign_pos b.le] at c1'; norm_num at c1'
      · rw [sign_neg b, sign_pos a.le] at c1'; norm_num at c1'
      · exact mul_pos a b
    have hv10 : v1 ≠ 0 := by rintro rfl; simp at h
    by_cases c2 : sign v1 ≠ sign v4
    · rw [if_pos c2]
      have h14 : v1 * v4 < 0 := by
        rcases lt_or_gt_of_ne hv10 with a | a <;> rcases lt_or_gt_of_ne hne with b | b
        · exact absurd (by rw [sign_neg a, sign_neg b]) c2
        · exact mul_neg_of_neg_of_pos a b
        · exact mul_neg_of_pos_of_neg a b
        · exact absurd (by rw [sign_pos a.le, sign_pos b.le]) c2
      have h31 : v3 * v1 < 0 := by
        by_contra hc
        have g1 : 0 ≤ (v3 * v1) * (v3 * v4) := mul_nonneg (not_lt.mp hc) same.le
        have g2 : (v3 * v3) * (v1 * v4) < 0 := mul_neg_of_pos_of_neg (mul_self_pos.mpr hv30) h14
        have g3 : (v3 * v1) * (v3 * v4) = (v3 * v3) * (v1 * v4) := by ring
        linarith only [g1, g2, g3]
      have ht0 := side.2 h31
      refine ⟨h1, hv4, h14, uIcc_subset_uIcc m1 m4, ?_, .inr rfl⟩
      show |r1 - r4| ≤ _
      have : r1 - r4 = (r2 - r1) / 2 * (-(1 + t)) := by rw [hr4', hr3]; ring
      rw [this]
      exact len _ (by rw [abs_neg]; exact hneg t ht.le ht0.le)
    · rw [if_neg c2]
      have c2' : sign v1 = sign v4 := not_not.mp c2
      have h14 : 0 < v1 * v4 := by
        rcases lt_or_gt_of_ne hv10 with a | a <;> rcases lt_or_gt_of_ne hne with b | b
        · exact mul_pos_of_neg_of_neg a b
        · rw [sign_neg a, sign_pos b.le] at c2'; norm_num at c2'
        · rw [sign_neg b, sign_pos a.le] at c2'; norm_num at c2'
        · exact mul_pos a b
      have h31 : 0 < v3 * v1 := by
        by_contra hc
        have g1 : (v3 * v1) * (v3 * v4) ≤ 0 := mul_nonpos_of_nonpos_of_nonneg (not_lt.mp hc) same.le
        have g2 : 0 < (v3 * v3) * (v1 * v4) := mul_pos (mul_self_pos.mpr hv30) h14
        have g3 : (v3 * v1) * (v3 * v4) = (v3 * v3) * (v1 * v4) := by ring
        linarith only [g1, g2, g3]
      have ht0 := side.1 h31
      refine ⟨hv4, h2, ?_, uIcc_subset_uIcc m4 m2, ?_, .inl rfl⟩
      · show v4 * v2 < 0
        by_contra hc
        have g1 : 0 ≤ (v4 * v2) * (v1 * v4) := mul_nonneg (not_lt.mp hc) h14.le
        have g2 : (v4 * v4) * (v1 * v2) < 0 := mul_neg_of_pos_of_neg (mul_self_pos.mpr hne) h
        have g3 : (v4 * v2) * (v1 * v4) = (v4 * v4) * (v1 * v2) := by ring
        linarith only [g1, g2, g3]
      · show |r4 - r2| ≤ _
        have : r4 - r2 = (r2 - r1) / 2 * (-(1 - t)) := by rw [hr4', hr3]; ring
        rw [this]
        exact len _ (by rw [abs_neg]; exact hpos t ht.le ht0.le)

theorem loop_ok (f : ℝ → ℝ) : ∀ (n : ℕ) (s : Pair), s.v1 = f s.r1 → s.v2 = f s.r2 → s.v1 * s.v2 < 0 →
    |s.r1 - s.r2| < 1 / 100000 * 2 ^ (n + 1) → ∀ m, n + 1 ≤ m → ∃ r, riddersLoop f m s = .done r ∧ NearZero f s.r1 s.r2 r := by
  intro n
  induction n with
  | zero =>
    intro s h1 h2 h hlen m hm
    obtain ⟨m, rfl⟩ : ∃ k, m = k + 1 := ⟨m - 1, by omega⟩
    obtain ⟨r3, r4, e3, hD, e4, m4, rest⟩ := turn f s h1 h2 h
    refine ⟨r4, ?_, m4, ?_⟩
    · rw [riddersLoop]
      simp only [← e3]
      rw [if_neg (not_le.mpr hD), ← e4, if_neg]
      rintro ⟨ha, hb⟩
      have hne : f r4 ≠ 0 := by
        intro h0; rw [h0, abs_zero] at hb; norm_num [fTol] at hb
      obtain ⟨s', es, -, -, -, -, hl, -⟩ := rest hne
      rw [← es, drTol] at ha
      norm_num at hlen
      linarith
    · by_cases hne : f r4 = 0
      · left; rw [hne]; norm_num
      · obtain ⟨s', es, g1, g2, g, hs, hl, he⟩ := rest hne
        right
        norm_num at hlen
        rcases he with he | he
        · refine ⟨s'.r2, hs right_mem_uIcc, ?_, ?_⟩
          · rw [← he]; linarith
          · rw [← he, ← g1, ← g2]; exact g
        · refine ⟨s'.r1, hs left_mem_uIcc, ?_, ?_⟩
          · rw [← he, abs_sub_comm]; linarith
          · rw [← he, ← g1, ← g2, mul_comm]; exact g
  | succ n ih =>
    intro s h1 h2 h hlen m hm
    obtain ⟨m, rfl⟩ : ∃ k, m = k + 1 := ⟨m - 1, by omega⟩
    obtain ⟨r3, r4, e3, hD, e4, m4, rest⟩ := turn f s h1 h2 h
    rw [riddersLoop]
    simp only [← e3]
    rw [if_neg (not_le.mpr hD), ← e4]
    by_cases hne : f r4 = 0
    · rw [if_neg (by rintro ⟨-, hb⟩; rw [hne, abs_zero] at hb; norm_num [fTol] at hb)]
      exact ⟨r4, rfl, m4, .inl (by rw [hne]; norm_num)⟩
    · obtain ⟨s', es, g1, g2, g, hs, hl, he⟩ := rest hne
      rw [← es]
      by_cases hstop : |s'.r1 - s'.r2| ≥ drTol ∧ |f r4| > fTol
      · rw [if_pos hstop]
        obtain ⟨r, e, hr, hz⟩ := ih s' g1 g2 g (by rw [pow_succ] at hlen; linarith) m (by omega)
        refine ⟨r, e, hs hr, ?_⟩
        rcases hz with hz | ⟨y, hy, hz⟩
        · exact .inl hz
        · exact .inr ⟨y, hs hy, hz⟩
      · rw [if_neg hstop]
        refine ⟨r4, rfl, m4, ?_⟩
        rcases not_and_or.mp hstop with hc | hc
        · have hc' := not_le.mp hc
          rw [drTol] at hc'
          right
          rcases he with he | he
          · exact ⟨s'.r2, hs right_mem_uIcc, by rw [← he]; exact hc', by rw [← he, ← g1, ← g2]; exact g⟩
          · exact ⟨s'.r1, hs left_mem_uIcc, by rw [← he, abs_sub_comm]; exact hc', by rw [← he, ← g1, ← g2, mul_comm]; exact g⟩
        · left
          have := not_lt.mp hc
          rwa [fTol] at this

/-- From a bracket, `ridders` ends, after a number of turns that does not depend on the function, without a NaN, and returns a point of the
bracket that is a zero up to the tolerance or next to which the function changes its sign. -/
theorem ridders_ok (r1 r2 : ℝ) : ∃ N, ∀ f : ℝ → ℝ, f r1 * f r2 < 0 → ∃ r, (∀ n, N ≤ n → ridders f r1 r2 n = .done r) ∧ NearZero f r1 r2 r := by
  obtain ⟨n, hn⟩ : ∃ n : ℕ, |r1 - r2| * 100000 < 2 ^ n := pow_unbounded_of_one_lt _ (by norm_num)
  refine ⟨n + 1, fun f h => ?_⟩
  have hlen : |r1 - r2| < 1 / 100000 * 2 ^ (n + 1) := by
    rw [pow_succ]
    have : (0 : ℝ) < 2 ^ n := by positivity
    linarith
  have key := loop_ok f n ⟨r1, r2, f r1, f r2⟩ rfl rfl h hlen
  obtain ⟨r, e, hz⟩ := key (n + 1) (le_refl _)
  refine ⟨r, fun m hm => ?_, hz⟩
  have mono : ∀ (k : ℕ) (s : Pair) (r : ℝ), riddersLoop f k s = .done r → riddersLoop f (k + 1) s = .done r := by
    intro k
    induction k with
    | zero => intro s r hr; cases hr
    | succ k ih =>
      intro s r hr
      rw [riddersLoop] at hr ⊢
      simp only at hr ⊢
      split_ifs at hr ⊢ with c1 c2
      · exact ih _ _ hr
      · exact hr
  show riddersLoop f m _ = _
  induction m, hm using Nat.le_induction with
  | base => exact e
  | succ m _ ih => exact mono m _ _ ih

/-- For a continuous function there is a zero within the tolerance of what is returned. -/
theorem ridders_root (r1 r2 : ℝ) : ∃ N, ∀ f : ℝ → ℝ, ContinuousOn f (uIcc r1 r2) → f r1 * f r2 < 0 →
    ∃ r, (∀ n, N ≤ n → ridders f r1 r2 n = .done r) ∧ r ∈ uIcc r1 r2 ∧
      (|f r| ≤ 1 / 1000000000 ∨ ∃ z ∈ uIcc r1 r2, f z = 0 ∧ |r - z| < 1 / 100000) := by
  obtain ⟨N, hN⟩ := ridders_ok r1 r2
  refine ⟨N, fun f hf h => ?_⟩
  obtain ⟨r, hr, hm, hz⟩ := hN f h
  refine ⟨r, hr, hm, ?_⟩
  rcases hz with hz | ⟨y, hy, hl, hs⟩
  · exact .inl hz
  · right
    have hsub := uIcc_subset_uIcc hm hy
    have h0 : (0 : ℝ) ∈ uIcc (f r) (f y) := by
      rw [mem_uIcc]
      rcases mul_neg_iff.mp hs with ⟨a, b⟩ | ⟨a, b⟩
      · exact .inr ⟨b.le, a.le⟩
      · exact .inl ⟨a.le, b.le⟩
    obtain ⟨z, hz, hfz⟩ := intermediate_value_uIcc (hf.mono hsub) h0
    refine ⟨z, hsub hz, hfz, lt_of_le_of_lt ?_ hl⟩
    rw [abs_sub_comm r z, abs_sub_comm r y]
    exact abs_sub_left_of_mem_uIcc hz

/-- Without a bracket there may be a NaN at the first turn. -/
theorem ridders_unbracketed_wrong : ∃ f : ℝ → ℝ, Continuous f ∧ (∃ z ∈ uIcc (-1 : ℝ) 1, f z = 0) ∧ ∀ n, ridders f (-1) 1 (n + 1) = .nan := by
  refine ⟨fun x => x * x, by fun_prop, ⟨0, by rw [mem_uIcc]; norm_num, by norm_num⟩, fun n => ?_⟩
  rw [ridders, riddersLoop]
  norm_num

/-! ## The secant -/

/-- When `secant` says that it has converged, the value is small, or the last two points are close. -/
theorem secant_status (f : ℝ → ℝ) (r1 r2 r : ℝ) (h : secant f r1 r2 = .ret r 0) :
    |f r| < 1 / 1000000000 ∨ ∃ y, |r - y| < 1 / 100000 ∧ ∃ a b, f a ≠ f b ∧ r = a - f a * (b - a) / (f b - f a) ∧ (y = a ∨ y = b) := by
  suffices H : ∀ (n : ℕ) (s : Pair) (last : ℝ), s.v1 = f s.r1 → s.v2 = f s.r2 → secantLoop f n s last = .ret r 0 →
      |f r| < 1 / 1000000000 ∨ ∃ y, |r - y| < 1 / 100000 ∧ ∃ a b, f a ≠ f b ∧ r = a - f a * (b - a) / (f b - f a) ∧ (y = a ∨ y = b) from
    H 20 ⟨r1, r2, f r1, f r2⟩ 0 rfl rfl h
  intro n
  induction n with
  | zero => intro s last _ _ h; cases h
  | succ n ih =>
    intro s last h1 h2 h
    rw [secantLoop] at h
    by_cases c0 : s.v2 - s.v1 = 0
    · rw [if_pos c0] at h
      cases h
    · rw [if_neg c0] at h
      obtain ⟨r3, e3⟩ : ∃ r3, r3 = s.r1 - s.v1 * (s.r2 - s.r1) / (s.v2 - s.v1) := ⟨_, rfl⟩
      simp only [← e3] at h
      by_cases c1 : |(chooseSec s r3 (f r3)).r1 - (chooseSec s r3 (f r3)).r2| < drTol ∨ |f r3| < fTol
      · rw [if_pos c1] at h
        obtain rfl : r3 = r := by injection h
        rcases c1 with c1 | c1
        · right
          unfold chooseSec at c1
          have hne : f s.r1 ≠ f s.r2 := by
            rw [← h1, ← h2]; intro e; exact c0 (by rw [e, sub_self])
          split_ifs at c1 with c3
          · exact ⟨s.r2, by simpa [drTol] using c1, s.r1, s.r2, hne, by rw [← h1, ← h2]; exact e3, .inr rfl⟩
          · exact ⟨s.r1, by rw [abs_sub_comm]; simpa [drTol] using c1, s.r1, s.r2, hne, by rw [← h1, ← h2]; exact e3, .inl rfl⟩
        · left
          simpa [fTol] using c1
      · rw [if_neg c1] at h
        by_cases c2 : (chooseSec s r3 (f r3)).v2 = (chooseSec s r3 (f r3)).v1
        · rw [if_pos c2] at h
          cases h
        · rw [if_neg c2] at h
          refine ih _ _ ?_ ?_ h
          · unfold chooseSec
            split_ifs
            · rfl
            · exact h1
          · unfold chooseSec
            split_ifs
            · exact h2
            · rfl

/-- When `secant` gives up, because two values are equal (`status` 1) or after the last turn (`status` 2), the value is not small and the last
point is close to neither of the two points whose chord gave it. -/
theorem secant_failed (f : ℝ → ℝ) (r1 r2 r : ℝ) (k : ℕ) (hk : k ≠ 0) (h : secant f r1 r2 = .ret r k) :
    1 / 1000000000 ≤ |f r| ∧ ∃ a b, f a ≠ f b ∧ r = a - f a * (b - a) / (f b - f a) ∧ 1 / 100000 ≤ |r - a| ∧ 1 / 100000 ≤ |r - b| := by
  suffices H : ∀ (n : ℕ) (s : Pair) (last : ℝ), s.v1 = f s.r1 → s.v2 = f s.r2 → secantLoop f n s last = .ret r k →
      (n ≠ 0 ∨ 1 / 1000000000 ≤ |f last| ∧
        ∃ a b, f a ≠ f b ∧ last = a - f a * (b - a) / (f b - f a) ∧ 1 / 100000 ≤ |last - a| ∧ 1 / 100000 ≤ |last - b|) →
      1 / 1000000000 ≤ |f r| ∧ ∃ a b, f a ≠ f b ∧ r = a - f a * (b - a) / (f b - f a) ∧ 1 / 100000 ≤ |r - a| ∧ 1 / 100000 ≤ |r - b| from
    H 20 ⟨r1, r2, f r1, f r2⟩ 0 rfl rfl h (.inl (by norm_num))
  intro n
  induction n with
  | zero =>
    intro s last _ _ h hl
    obtain rfl : last = r := by
      rw [secantLoop] at h
      injection h
    rcases hl with hl | hl
    · exact absurd rfl hl
    · exact hl
  | succ n ih =>
    intro s last h1 h2 h _
    rw [secantLoop] at h
    by_cases c0 : s.v2 - s.v1 = 0
    · rw [if_pos c0] at h
      cases h
    · rw [if_neg c0] at h
      obtain ⟨r3, e3⟩ : ∃ r3, r3 = s.r1 - s.v1 * (s.r2 - s.r1) / (s.v2 - s.v1) := ⟨_, rfl⟩
      simp only [← e3] at h
      by_cases c1 : |(chooseSec s r3 (f r3)).r1 - (chooseSec s r3 (f r3)).r2| < drTol ∨ |f r3| < fTol
      · rw [if_pos c1] at h
        injection h with _ h
        exact absurd h.symm hk
      · rw [if_neg c1] at h
        push Not at c1
        obtain ⟨c3, c4⟩ := c1
        have hne : f s.r1 ≠ f s.r2 := by
          rw [← h1, ← h2]; intro e; exact c0 (by rw [e, sub_self])
        have hd : 1 / 100000 ≤ |r3 - s.r1| ∧ 1 / 100000 ≤ |r3 - s.r2| := by
          unfold chooseSec drTol at c3
          rw [abs_sub_comm r3 s.r1, abs_sub_comm r3 s.r2]
          split_ifs at c3 with c5
          · simp only at c3
            rw [abs_sub_comm r3 s.r2] at c3
            exact ⟨c3.trans c5, c3⟩
          · simp only at c3
            exact ⟨c3, c3.trans (not_le.mp c5).le⟩
        have good : 1 / 1000000000 ≤ |f r3| ∧
            ∃ a b, f a ≠ f b ∧ r3 = a - f a * (b - a) / (f b - f a) ∧ 1 / 100000 ≤ |r3 - a| ∧ 1 / 100000 ≤ |r3 - b| :=
          ⟨by simpa [fTol] using c4, s.r1, s.r2, hne, by rw [← h1, ← h2]; exact e3, hd.1, hd.2⟩
        by_cases c2 : (chooseSec s r3 (f r3)).v2 = (chooseSec s r3 (f r3)).v1
        · rw [if_pos c2] at h
          obtain rfl : r3 = r := by injection h
          exact good
        · rw [if_neg c2] at h
          refine ih _ _ ?_ ?_ h (.inr good)
          · unfold chooseSec
            split_ifs
            · rfl
            · exact h1
          · unfold chooseSec
            split_ifs
            · exact h2
            · rfl

/-- For the absolute value plus one, from 1 and 2, `secant` gives up at -1. -/
example : secant (fun x => |x| + 1) 1 2 = .ret (-1) 1 := by
  rw [secant, secantLoop]
  norm_num [chooseSec, drTol, fTol, abs_of_pos, abs_of_neg]

/-- For an affine function that is not constant the result is the zero, and `status` is 0. -/
theorem secant_affine (a b r1 r2 : ℝ) (ha : a ≠ 0) (hr : r1 ≠ r2) : secant (fun x => a * x + b) r1 r2 = .ret (-b / a) 0 := by
  have hd : a * r2 + b - (a * r1 + b) ≠ 0 := by
    intro h
    have : a * (r2 - r1) = 0 := by linarith
    rcases mul_eq_zero.mp this with h | h
    · exact ha h
    · exact hr (by linarith)
  have hd' : r2 - r1 ≠ 0 := fun h => hr (by linarith)
  have e : r1 - (a * r1 + b) * (r2 - r1) / (a * r2 + b - (a * r1 + b)) = -b / a := by
    have : a * r2 + b - (a * r1 + b) = a * (r2 - r1) := by ring
    rw [this]
    field_simp
    ring
  rw [secant, secantLoop]
  simp only []
  rw [if_neg hd, e, if_pos]
  right
  have : a * (-b / a) + b = 0 := by field_simp; ring
  rw [this]
  norm_num [fTol]

/-- `secant` says that it has converged next to a point where the function is far from zero and has no zero at all: a jump. -/
theorem secant_jump_wrong : ∃ f : ℝ → ℝ, (∀ x, f x ≠ 0) ∧ (∀ x, x ≠ 0 → ContinuousAt f x) ∧ ∃ r1 r2 r, secant f r1 r2 = .ret r 0 ∧ 1 ≤ |f r| := by
  refine ⟨fun x => if 0 ≤ x then 1 else -1, fun x => ?_, fun x hx => ?_, -1 / 1000000, 1 / 500000, 1 / 2000000, ?_, ?_⟩
  · simp only []
    split_ifs <;> norm_num
  · rcases lt_or_gt_of_ne hx with h | h
    · refine (continuousAt_const (y := (-1 : ℝ))).congr ?_
      filter_upwards [Iio_mem_nhds h] with y hy
      rw [if_neg (not_le.mpr hy)]
    · refine (continuousAt_const (y := (1 : ℝ))).congr ?_
      filter_upwards [Ioi_mem_nhds h] with y hy
      rw [if_pos (le_of_lt hy)]
  · rw [secant, secantLoop]
    norm_num [chooseSec, drTol, fTol, abs_of_pos, abs_of_neg]
  · norm_num

/-- Two points with the same value give a division by zero at the first turn. -/
theorem secant_equal_wrong (f : ℝ → ℝ) (r1 r2 : ℝ) (h : f r1 = f r2) : secant f r1 r2 = .nan := by
  rw [secant, secantLoop]
  simp only []
  rw [if_pos (by rw [h, sub_self])]

/-! ## Examples -/

/-- The square root of two. -/
example : ∃ r, (∃ N, ∀ n, N ≤ n → ridders (fun x => x * x - 2) 0 2 n = .done r) ∧ r ∈ uIcc (0 : ℝ) 2 ∧
    (|r * r - 2| ≤ 1 / 1000000000 ∨ ∃ z ∈ uIcc (0 : ℝ) 2, z * z - 2 = 0 ∧ |r - z| < 1 / 100000) := by
  obtain ⟨N, hN⟩ := ridders_root 0 2
  obtain ⟨r, h1, h2, h3⟩ := hN (fun x => x * x - 2) (by fun_prop) (by norm_num)
  exact ⟨r, ⟨N, h1⟩, h2, h3⟩

example : secant (fun x => 2 * x + 3) 0 1 = .ret (-3 / 2) 0 := secant_affine 2 3 0 1 (by norm_num) (by norm_num)

end Gyoto.Functors
