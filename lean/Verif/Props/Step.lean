import Verif.Model.Step
import Mathlib.Tactic.Linarith
import Mathlib.Tactic.Positivity
import Mathlib.Tactic.NormNum
import Mathlib.Tactic.FieldSimp
import Mathlib.Analysis.SpecificLimits.Basic

/-!
# The integration step respects the configured limits (C41, C57)

* `deltaMax_ge_min`, `deltaMax_le`, `deltaMax_exact`: the largest step allowed at a position.
* `object_cap`, `complex_cap`: the limit set by the object, and by a composite object.
* `adaptive_terminates_partial`: the search for a step ends (the smallest step is positive).
* `adaptive_within_limits`, `adaptive_never_throws`: the step made is within the limits, goes in the
  requested direction, and the two internal errors are never reported.
* `adaptive_accepted`: the step is the one accepted by the stepper, or the smallest one, made by the
  fixed-step integrator when all attempts were refused.
* Findings: `min_over_max_wrong` (the smallest step wins over the largest one when they are in
  conflict), `adaptive_zero_min_wrong` (with a smallest step of zero the search may never end).
-/

namespace Gyoto.Step

/-! ### Specification -/

/-- The step limits are consistent at this position. -/
def Consistent (L : Limits) (cartesian : Bool) (pos : Fin 4 → ℝ) (h1max : ℝ) : Prop :=
  L.deltaMin ≤ L.deltaMax ∧ L.deltaMin ≤ h1max ∧ L.deltaMin ≤ distance cartesian pos * L.overR

/-- The distance is the largest coordinate in absolute value, or the radius. -/
theorem distance_eq (pos : Fin 4 → ℝ) :
    distance false pos = |pos 1| ∧ distance true pos = max (max |pos 1| |pos 2|) |pos 3| := by
  refine ⟨rfl, ?_⟩
  simp only [distance, if_true]
  split_ifs with h1 h2 h2
  · rw [max_eq_right (by rw [max_eq_right h1.le]; exact h2.le)]
  · rw [max_eq_right h1.le, max_eq_left (not_lt.1 h2)]
  · rw [max_eq_left (not_lt.1 h1), max_eq_right h2.le]
  · rw [max_eq_left (not_lt.1 h1), max_eq_left (not_lt.1 h2)]

/-- **C41**: never below the configured smallest step. -/
theorem deltaMax_ge_min (L : Limits) (cartesian : Bool) (pos : Fin 4 → ℝ) (h1max : ℝ) :
    L.deltaMin ≤ deltaMax L cartesian pos h1max := by
  simp only [deltaMax]
  split_ifs <;> linarith

/-- **C41**: the exact value: the smallest of the three limits, but not less than the configured
smallest step. -/
theorem deltaMax_exact (L : Limits) (cartesian : Bool) (pos : Fin 4 → ℝ) (h1max : ℝ) :
    deltaMax L cartesian pos h1max =
      max L.deltaMin (min (min h1max (distance cartesian pos * L.overR)) L.deltaMax) := by
  simp only [deltaMax]
  generalize distance cartesian pos * L.overR = a
  have e1 : (if h1max > a then a else h1max) = min h1max a := by
    split_ifs with h
    · exact (min_eq_right h.le).symm
    · exact (min_eq_left (not_lt.1 h)).symm
  rw [e1]
  generalize min h1max a = b
  have e2 : (if b > L.deltaMax then L.deltaMax else b) = min b L.deltaMax := by
    split_ifs with h
    · exact (min_eq_right h.le).symm
    · exact (min_eq_left (not_lt.1 h)).symm
  rw [e2]
  generalize min b L.deltaMax = d
  split_ifs with h
  · exact (max_eq_left h.le).symm
  · exact (max_eq_right (not_lt.1 h)).symm

/-- **C41**: with consistent limits, not above the largest step, the argument, or the fraction of
the distance. -/
theorem deltaMax_le (L : Limits) (cartesian : Bool) (pos : Fin 4 → ℝ) (h1max : ℝ)
    (h : Consistent L cartesian pos h1max) :
    deltaMax L cartesian pos h1max ≤ L.deltaMax ∧ deltaMax L cartesian pos h1max ≤ h1max ∧
      deltaMax L cartesian pos h1max ≤ distance cartesian pos * L.overR := by
  obtain ⟨h1, h2, h3⟩ := h
  rw [deltaMax_exact]
  refine ⟨max_le h1 (min_le_right _ _), max_le h2 ?_, max_le h3 ?_⟩
  · exact (min_le_left _ _).trans (min_le_left _ _)
  · exact (min_le_left _ _).trans (min_le_right _ _)

/-- Finding: when the limits are in conflict, the smallest step wins over the largest one and over
the fraction of the distance. -/
theorem min_over_max_wrong : ∃ (L : Limits) (pos : Fin 4 → ℝ) (h1max : ℝ),
    L.deltaMax < deltaMax L false pos h1max ∧ h1max < deltaMax L false pos h1max := by
  refine ⟨⟨2, 1, 1⟩, ![0, 10, 0, 0], 1 / 2, ?_, ?_⟩ <;> rw [deltaMax_exact] <;>
    norm_num [distance]

/-- The object's limit: the configured value inside `rMax`, half the distance outside. -/
theorem object_cap (cartesian : Bool) (rMax inside : ℝ) (pos : Fin 4 → ℝ) (r : ℝ)
    (hr : if cartesian then 0 ≤ r ∧ r ^ 2 = pos 1 ^ 2 + pos 2 ^ 2 + pos 3 ^ 2 else r = pos 1) :
    (r < rMax → objectDeltaMax cartesian rMax inside pos = inside) ∧
      (rMax ≤ r → objectDeltaMax cartesian rMax inside pos = r / 2) := by
  have e : (if cartesian then √(pos 1 * pos 1 + pos 2 * pos 2 + pos 3 * pos 3) else pos 1) = r := by
    cases cartesian with
    | false => simp only [Bool.false_eq_true, if_false] at hr ⊢; exact hr.symm
    | true =>
      simp only [if_true] at hr ⊢
      rw [show pos 1 * pos 1 + pos 2 * pos 2 + pos 3 * pos 3 = r ^ 2 by rw [hr.2]; ring,
        Real.sqrt_sq hr.1]
  simp only [objectDeltaMax, e]
  constructor <;> intro h
  · rw [if_pos h]
  · rw [if_neg (not_lt.2 h)]; norm_num; ring

theorem foldl_min (huge : ℝ) (parts : List ℝ) :
    let r := parts.foldl (fun h1max tmp => if h1max > tmp then tmp else h1max) huge
    r ≤ huge ∧ (∀ x ∈ parts, r ≤ x) ∧ (r = huge ∨ r ∈ parts) := by
  induction parts generalizing huge with
  | nil => simp
  | cons a l ih =>
    simp only [List.foldl_cons]
    obtain ⟨h1, h2, h3⟩ := ih (if huge > a then a else huge)
    refine ⟨?_, ?_, ?_⟩
    · refine h1.trans ?_; split_ifs with h <;> linarith
    · intro x hx
      rcases List.mem_cons.1 hx with rfl | hx
      · refine h1.trans ?_; split_ifs with h <;> linarith
      · exact h2 x hx
    · rcases h3 with h3 | h3
      · by_cases h : huge > a
        · right; rw [h3, if_pos h]; exact List.mem_cons_self
        · left; rw [h3, if_neg h]
      · right; exact List.mem_cons_of_mem _ h3

/-- A composite object's limit is the smallest of its parts'. -/
theorem complex_cap (huge : ℝ) (parts : List ℝ) (hp : ∀ x ∈ parts, x ≤ huge) :
    (∀ x ∈ parts, complexDeltaMax huge parts ≤ x) ∧
      (parts ≠ [] → complexDeltaMax huge parts ∈ parts) := by
  obtain ⟨h1, h2, h3⟩ := foldl_min huge parts
  refine ⟨h2, fun hne => ?_⟩
  rcases h3 with h3 | h3
  · obtain ⟨a, l, rfl⟩ := List.exists_cons_of_ne_nil hne
    have ha : a = huge :=
      le_antisymm (hp a List.mem_cons_self) (h3 ▸ h2 a List.mem_cons_self)
    unfold complexDeltaMax
    rw [h3, ha]
    exact List.mem_cons_self
  · exact h3

/-! ### The adaptive step -/

section Adaptive
variable {σ : Type}

/-- What is known of the loop's result: the time is that of an attempt within the limits. -/
theorem attempts_spec {S : Stepper σ} (hS : S.Odeint) {fix : σ → σ} {dmin h1max s : ℝ}
    (hs : s = 1 ∨ s = -1) (h0 : 0 < dmin) :
    ∀ n xx h1 r, attempts S fix dmin h1max n xx 0 h1 = some r → dmin ≤ s * h1 → s * h1 ≤ h1max →
      0 < s * r.2.2.2 ∧
      (r.1 = true → dmin ≤ s * r.2.2.1 ∧ s * r.2.2.1 ≤ h1max ∧
        ∃ k h x', S.tryStep (fix^[k] xx) 0 h = (true, x', r.2.2.1, r.2.2.2) ∧ r.2.1 = fix x') ∧
      (r.1 = false → r.2.2.1 = 0 ∧ s * r.2.2.2 < dmin ∧ ∃ k, r.2.1 = fix^[k] xx) := by
  have habs : ∀ x : ℝ, 0 ≤ s * x → |x| = s * x := by
    rcases hs with rfl | rfl
    · intro x hx; rw [one_mul] at hx ⊢; exact abs_of_nonneg hx
    · intro x hx
      rw [neg_one_mul] at hx ⊢
      exact abs_of_nonpos (by linarith)
  intro n
  induction n with
  | zero => intro xx h1 r h; simp [attempts] at h
  | succ n ih =>
    intro xx h1 r h hlo hhi
    rw [attempts] at h
    rcases hT : S.tryStep xx 0 h1 with ⟨ok, x', t', h'⟩
    simp only [hT] at h
    have hne : h1 ≠ 0 := by rintro rfl; simp at hlo; linarith
    cases ok with
    | true =>
      simp only [Bool.true_eq_false, false_and, and_false, if_false, Option.some.injEq] at h
      subst h
      obtain ⟨ht, hp⟩ := hS.accepted _ _ _ _ _ _ hne hT
      rw [zero_add] at ht
      subst ht
      refine ⟨?_, fun _ => ⟨hlo, hhi, 0, t', x', hT, rfl⟩, fun e => by simp at e⟩
      rcases hs with rfl | rfl
      · dsimp only
        have : 0 < t' := by linarith
        rw [one_mul]
        exact (pos_iff_pos_of_mul_pos hp).1 this
      · dsimp only
        have : t' < 0 := by linarith
        have := (neg_iff_neg_of_mul_pos hp).1 this
        linarith
    | false =>
      obtain ⟨rfl, rfl, q, hq0, hq1, rfl⟩ := hS.refused _ _ _ _ _ _ hT
      have hpos : 0 < s * (q * h1) := by
        have : 0 < s * h1 := by linarith
        rw [mul_left_comm]; positivity
      have hlt : s * (q * h1) < h1max := by
        have : 0 < s * h1 := by linarith
        rw [mul_left_comm]
        nlinarith
      rw [habs _ hpos.le] at h
      by_cases hc : s * (q * h1) ≥ dmin
      · rw [if_pos ⟨hc, rfl, hlt⟩] at h
        obtain ⟨j1, j2, j3⟩ := ih _ _ _ h hc hlt.le
        refine ⟨j1, fun e => ?_, fun e => ?_⟩
        · obtain ⟨u1, u2, k, h', x'', u3, u4⟩ := j2 e
          exact ⟨u1, u2, k + 1, h', x'', u3, u4⟩
        · obtain ⟨u1, u2, k, u3⟩ := j3 e
          exact ⟨u1, u2, k + 1, u3⟩
      · rw [if_neg (fun h => hc h.1), Option.some.injEq] at h
        subst h
        exact ⟨hpos, fun e => by simp at e, fun _ => ⟨rfl, not_le.1 hc, 1, rfl⟩⟩

/-- The sign used by `nextStep`. -/
theorem clamp_spec (delta h1max dmin s : ℝ) (hs : s = if delta > 0 then 1 else -1) (h0 : 0 < dmin)
    (hm : dmin ≤ h1max) :
    (s = 1 ∨ s = -1) ∧ dmin ≤ s * clampStep delta h1max dmin ∧
      s * clampStep delta h1max dmin ≤ h1max := by
  have h1 : s = 1 ∨ s = -1 := by rw [hs]; split_ifs <;> simp
  have hss : s * s = 1 := by rcases h1 with h | h <;> rw [h] <;> norm_num
  have hd : |delta| = s * delta := by
    rw [hs]; split_ifs with h
    · rw [one_mul, abs_of_pos h]
    · rw [neg_one_mul, abs_of_nonpos (not_lt.1 h)]
  refine ⟨h1, ?_⟩
  have habs : |s| = 1 := by rcases h1 with h | h <;> rw [h] <;> norm_num
  simp only [clampStep, ← hs]
  by_cases hb : |delta| > h1max
  · rw [if_pos hb, abs_mul, habs, one_mul, abs_of_pos (by linarith), if_neg (not_lt.2 hm),
      ← mul_assoc, hss, one_mul]
    exact ⟨hm, le_rfl⟩
  · rw [if_neg hb]
    by_cases hc : |delta| < dmin
    · rw [if_pos hc, ← mul_assoc, hss, one_mul]
      exact ⟨le_rfl, hm⟩
    · rw [if_neg hc, ← hd]
      exact ⟨not_lt.1 hc, not_lt.1 hb⟩

/-- **C57**: the two internal errors ("h1 changed sign", "used step larger than provided") are never
reported. -/
theorem adaptive_never_throws (S : Stepper σ) (hS : S.Odeint) (fix : σ → σ) (L : Limits)
    (h0 : 0 < L.deltaMin) (cartesian : Bool) (pos : Fin 4 → ℝ) (delta h1max : ℝ) (n : ℕ) (xx : σ)
    (r : Except Fail (Done σ)) (h : adaptive S fix L cartesian pos delta h1max n xx = some r) :
    ∃ d, r = .ok d := by
  simp only [adaptive, Option.map_eq_some_iff] at h
  obtain ⟨a, ha, rfl⟩ := h
  obtain ⟨hs, hlo, hhi⟩ := clamp_spec delta (deltaMax L cartesian pos h1max) L.deltaMin _ rfl h0
    (deltaMax_ge_min ..)
  obtain ⟨h1, h2, h3⟩ := attempts_spec hS hs h0 n xx _ a ha hlo hhi
  have hM : 0 < deltaMax L cartesian pos h1max := h0.trans_le (deltaMax_ge_min ..)
  rw [conclude, if_neg (not_lt.2 h1.le), if_neg]
  · split_ifs <;> exact ⟨_, rfl⟩
  · rw [not_lt]
    cases e : a.1 with
    | false => rw [(h3 e).1, abs_zero]; exact hM.le
    | true =>
      obtain ⟨u1, u2, -⟩ := h2 e
      rw [abs_le]
      rcases hs with hs | hs <;> rw [hs] at u1 u2 <;> constructor <;> linarith

/-- **C57**: the step made goes in the requested direction and its size lies between the smallest
step and the largest step allowed at this position; the next proposed step has the same
direction. -/
theorem adaptive_within_limits (S : Stepper σ) (hS : S.Odeint) (fix : σ → σ) (L : Limits)
    (h0 : 0 < L.deltaMin) (cartesian : Bool) (pos : Fin 4 → ℝ) (delta h1max : ℝ) (n : ℕ) (xx : σ)
    (d : Done σ) (h : adaptive S fix L cartesian pos delta h1max n xx = some (.ok d)) :
    L.deltaMin ≤ |d.dt| ∧ |d.dt| ≤ deltaMax L cartesian pos h1max ∧
      (0 < delta → 0 < d.dt ∧ 0 < d.delta) ∧ (delta < 0 → d.dt < 0 ∧ d.delta < 0) := by
  simp only [adaptive, Option.map_eq_some_iff] at h
  obtain ⟨a, ha, h⟩ := h
  obtain ⟨hs, hlo, hhi⟩ := clamp_spec delta (deltaMax L cartesian pos h1max) L.deltaMin _ rfl h0
    (deltaMax_ge_min ..)
  obtain ⟨h1, h2, h3⟩ := attempts_spec hS hs h0 n xx _ a ha hlo hhi
  have hM : L.deltaMin ≤ deltaMax L cartesian pos h1max := deltaMax_ge_min ..
  generalize hsg : (if delta > 0 then (1 : ℝ) else -1) = s at *
  have key : L.deltaMin ≤ s * d.dt ∧ s * d.dt ≤ deltaMax L cartesian pos h1max ∧
      0 < s * d.delta := by
    rw [conclude, if_neg (not_lt.2 h1.le)] at h
    split_ifs at h with hb hc
    · cases h
      have : s * s = 1 := by rcases hs with h | h <;> rw [h] <;> norm_num
      dsimp only
      rw [← mul_assoc, this, one_mul]
      exact ⟨le_rfl, hM, h1⟩
    · cases h
      have e : a.1 = true := by simpa using hc
      exact ⟨(h2 e).1, (h2 e).2.1, h1⟩
  obtain ⟨k1, k2, k3⟩ := key
  have hd : |d.dt| = s * d.dt := by
    rcases hs with h | h <;> rw [h] at k1 ⊢
    · rw [one_mul] at k1 ⊢; exact abs_of_pos (by linarith)
    · rw [neg_one_mul] at k1 ⊢; exact abs_of_neg (by linarith)
  rw [hd]
  refine ⟨k1, k2, fun hp => ?_, fun hp => ?_⟩
  · rw [if_pos hp] at hsg
    rw [← hsg] at k1 k3
    constructor <;> linarith
  · rw [if_neg (not_lt.2 hp.le)] at hsg
    rw [← hsg] at k1 k3
    constructor <;> linarith

/-- **C57**: the new state is that of a step accepted by the stepper, from the old state (up to
repairs of the transported basis, `fix`); when every attempt was refused, it is the result of the
fixed-step integrator with the smallest step. -/
theorem adaptive_accepted (S : Stepper σ) (hS : S.Odeint) (fix : σ → σ) (L : Limits)
    (h0 : 0 < L.deltaMin) (cartesian : Bool) (pos : Fin 4 → ℝ) (delta h1max : ℝ) (n : ℕ) (xx : σ)
    (d : Done σ) (h : adaptive S fix L cartesian pos delta h1max n xx = some (.ok d)) :
    (d.accepted = true → ∃ k h x', S.tryStep (fix^[k] xx) 0 h = (true, x', d.dt, d.delta) ∧
      d.state = fix x') ∧
    (d.accepted = false → |d.dt| = L.deltaMin ∧ ∃ k, d.state = S.doStep (fix^[k] xx) d.dt) := by
  simp only [adaptive, Option.map_eq_some_iff] at h
  obtain ⟨a, ha, h⟩ := h
  obtain ⟨hs, hlo, hhi⟩ := clamp_spec delta (deltaMax L cartesian pos h1max) L.deltaMin _ rfl h0
    (deltaMax_ge_min ..)
  obtain ⟨h1, h2, h3⟩ := attempts_spec hS hs h0 n xx _ a ha hlo hhi
  rw [conclude, if_neg (not_lt.2 h1.le)] at h
  split_ifs at h with hb hc hc'
  all_goals cases h
  all_goals refine ⟨fun e => ?_, fun e => ?_⟩
  all_goals first
    | (simp at e; done)
    | skip
  · obtain ⟨-, -, k, hk⟩ := h3 hc
    exact ⟨by rw [abs_mul, abs_one, one_mul, abs_of_pos h0], k, by rw [hk]⟩
  · obtain ⟨-, -, k, hk⟩ := h3 hc
    exact ⟨by rw [abs_mul, abs_neg, abs_one, one_mul, abs_of_pos h0], k, by rw [hk]⟩
  all_goals exact (h2 (by simpa using hc)).2.2

/-- **C57**: the search for a step ends.  Partial: for a positive smallest step, see
`adaptive_zero_min_wrong`. -/
theorem adaptive_terminates_partial (S : Stepper σ) (hS : S.Odeint) (fix : σ → σ) (L : Limits)
    (h0 : 0 < L.deltaMin) (cartesian : Bool) (pos : Fin 4 → ℝ) (delta h1max : ℝ) (xx : σ) :
    ∃ n r, adaptive S fix L cartesian pos delta h1max n xx = some r := by
  obtain ⟨hs, hlo, hhi⟩ := clamp_spec delta (deltaMax L cartesian pos h1max) L.deltaMin _ rfl h0
    (deltaMax_ge_min ..)
  simp only [adaptive, Option.map_eq_some_iff]
  suffices H : ∀ n t x h, |h| * (9 / 10) ^ n < L.deltaMin →
      ∃ r, attempts S fix L.deltaMin (deltaMax L cartesian pos h1max) (n + 1) x t h = some r by
    set h1 := clampStep delta (deltaMax L cartesian pos h1max) L.deltaMin
    obtain ⟨n, hn⟩ := exists_pow_lt_of_lt_one (show 0 < L.deltaMin / (|h1| + 1) by positivity)
      (show (9 / 10 : ℝ) < 1 by norm_num)
    have : |h1| * (9 / 10) ^ n < L.deltaMin := by
      rw [lt_div_iff₀ (by positivity)] at hn
      have : (0 : ℝ) < (9 / 10) ^ n := by positivity
      nlinarith
    obtain ⟨r, hr⟩ := H n 0 xx h1 this
    exact ⟨n + 1, _, r, hr, rfl⟩
  intro n
  induction n with
  | zero =>
    intro t x h hh
    rw [attempts]
    rcases hT : S.tryStep x t h with ⟨ok, x', t', h'⟩
    cases ok with
    | true => simp
    | false =>
      obtain ⟨rfl, rfl, q, hq0, hq1, rfl⟩ := hS.refused _ _ _ _ _ _ hT
      have : ¬ |q * h| ≥ L.deltaMin := by
        rw [not_le, abs_mul, abs_of_pos hq0]
        have := abs_nonneg h
        rw [pow_zero, mul_one] at hh
        nlinarith
      exact ⟨_, if_neg (fun h => this h.1)⟩
  | succ n ih =>
    intro t x h hh
    rw [attempts]
    rcases hT : S.tryStep x t h with ⟨ok, x', t', h'⟩
    cases ok with
    | true => simp
    | false =>
      obtain ⟨rfl, rfl, q, hq0, hq1, rfl⟩ := hS.refused _ _ _ _ _ _ hT
      dsimp only
      split_ifs with hc
      · apply ih
        have hp : (0 : ℝ) < (9 / 10) ^ n := by positivity
        have := abs_nonneg h
        rw [pow_succ] at hh
        rw [abs_mul, abs_of_pos hq0]
        have : q * |h| * (9 / 10) ^ n ≤ 9 / 10 * |h| * (9 / 10) ^ n := by gcongr
        linarith
      · exact ⟨_, rfl⟩

end Adaptive

/-- A stepper that refuses every step, halving it. -/
noncomputable def stubborn : Stepper Unit := ⟨fun _ t h => (false, (), t, 1 / 2 * h), fun _ _ => ()⟩

theorem stubborn_odeint : stubborn.Odeint where
  refused := by
    rintro x t h x' t' h' e
    simp only [stubborn, Prod.mk.injEq, true_and] at e
    exact ⟨rfl, e.1.symm, 1 / 2, by norm_num, by norm_num, e.2.symm⟩
  accepted := by
    rintro x t h x' t' h' - e
    simp [stubborn] at e

/-- Finding: `DeltaMin = 0` is accepted, and then a stepper that goes on refusing keeps `nextStep`
in its loop for ever. -/
theorem adaptive_zero_min_wrong : ∃ (L : Limits) (pos : Fin 4 → ℝ), L.deltaMin = 0 ∧
    ∀ n, adaptive stubborn id L false pos 1 1 n () = none := by
  refine ⟨⟨0, 1, 1⟩, ![0, 10, 0, 0], rfl, fun n => ?_⟩
  have hM : deltaMax ⟨0, 1, 1⟩ false ![0, 10, 0, 0] 1 = 1 := by
    rw [deltaMax_exact]; norm_num [distance]
  simp only [adaptive, hM, Option.map_eq_none_iff]
  have hc : clampStep 1 1 0 = 1 := by norm_num [clampStep]
  rw [hc]
  suffices H : ∀ n h, 0 < h → h ≤ 1 → attempts stubborn id 0 1 n () 0 h = none from
    H n 1 one_pos le_rfl
  intro n
  induction n with
  | zero => intro h _ _; rfl
  | succ n ih =>
    intro h h0 h1
    rw [attempts]
    simp only [stubborn]
    rw [if_pos]
    · exact ih _ (by linarith) (by linarith)
    · refine ⟨abs_nonneg _, trivial, ?_⟩
      rw [abs_of_pos (by linarith)]
      linarith

/-! ### Examples -/

/-- A stepper that accepts steps up to 1 and asks for half the step otherwise. -/
noncomputable def upToOne : Stepper ℝ :=
  ⟨fun x t h => if |h| ≤ 1 then (true, x + h, t + h, h) else (false, x, t, 1 / 2 * h),
    fun x h => x + h⟩

theorem upToOne_odeint : upToOne.Odeint where
  refused := by
    intro x t h x' t' h' e
    simp only [upToOne] at e
    split_ifs at e
    · simp at e
    · simp only [Prod.mk.injEq, true_and] at e
      exact ⟨e.1.symm, e.2.1.symm, 1 / 2, by norm_num, by norm_num, e.2.2.symm⟩
  accepted := by
    intro x t h x' t' h' h0 e
    simp only [upToOne] at e
    split_ifs at e
    · simp only [Prod.mk.injEq, true_and] at e
      exact ⟨e.2.1.symm, by rw [← e.2.2]; exact mul_self_pos.2 h0⟩
    · simp at e

/-- A proposed step of 100 at distance 10 is cut to 4 (the configured maximum), refused at 4 and 2,
and accepted at 1, backwards. -/
example : adaptive upToOne id ⟨1 / 1000, 4, 1⟩ false ![0, 10, 0, 0] (-100) 50 3 7 =
    some (.ok ⟨6, -1, -1, true⟩) := by
  have hM : deltaMax ⟨1 / 1000, 4, 1⟩ false ![0, 10, 0, 0] 50 = 4 := by
    rw [deltaMax_exact]; norm_num [distance]
  have hc : clampStep (-100) 4 (1 / 1000) = -4 := by norm_num [clampStep]
  simp only [adaptive, hM, hc, attempts, upToOne]
  norm_num [conclude]

example (L : Limits) : L = ⟨1, 5, 1 / 2⟩ → Consistent L true ![0, 3, -4, 2] 100 ∧
    deltaMax L true ![0, 3, -4, 2] 100 = 2 := by
  rintro rfl
  have : distance true ![0, 3, -4, 2] = 4 := by
    rw [(distance_eq _).2]
    simp
    norm_num
  refine ⟨⟨by norm_num, by norm_num, by rw [this]; norm_num⟩, ?_⟩
  rw [deltaMax_exact, this]
  norm_num

end Gyoto.Step
