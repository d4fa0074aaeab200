import Verif.Model.StarTrace
import Verif.Spec.Moving
import Mathlib.Analysis.Real.Sqrt
import Mathlib.Analysis.Real.Pi.Bounds
import Mathlib.Tactic.Linarith
import Mathlib.Tactic.NormNum
import Mathlib.Tactic.Positivity

/-! # C113. The trace of a star -/

namespace Gyoto.StarTrace

open Gyoto.MetricAlg (Vec)
open Gyoto.Transfer (Out)
open Gyoto.USphere (Kind P3 dist2)
open Gyoto.Paths (place)

/-- The dates of the trace. -/
def Trace.dates (s : Trace) : ℝ × ℝ := (s.tmin, s.tmax)

/-- C113. Whatever is called, in any order, the first date is not after the last one. -/
theorem dates_ordered (junk : P3) {os : List Op} {s : Trace} (h : Trace.new.run junk os = .ok s) : s.tmin ≤ s.tmax := by
  have key : ∀ (os : List Op) (s s' : Trace), s.tmin ≤ s.tmax → s.run junk os = .ok s' → s'.tmin ≤ s'.tmax := by
    intro os
    induction os with
    | nil => intro s s' h e; cases e; exact h
    | cons o os ih =>
      intro s s' h e
      rcases e1 : s.step junk o with t | _ | _
      · simp only [Trace.run, e1] at e
        refine ih t s' ?_ e
        have rein : ∀ s : Trace, s.reInit.tmin = s.tmin ∧ s.reInit.tmax = s.tmax := by
          intro s; unfold Trace.reInit Trace.reset; rcases s.kind with _ | k <;> rcases s.init with _ | i <;> exact ⟨rfl, rfl⟩
        have comp : ∀ s t : Trace, s.computeXYZ = .ok t → t.tmin = s.tmin ∧ t.tmax = s.tmax := by
          intro s t e; unfold Trace.computeXYZ at e; rcases e2 : s.kind with _ | k <;> rw [e2] at e <;> cases e; exact ⟨rfl, rfl⟩
        cases o with
        | setMin x =>
          cases e1
          unfold Trace.setMin
          split_ifs with hx
          · exact hx.le
          · exact not_lt.1 hx
        | setMax x =>
          cases e1
          unfold Trace.setMax
          split_ifs with hx
          · exact hx.le
          · exact not_lt.1 hx
        | move p =>
          obtain ⟨a, b⟩ := comp _ _ e1
          rw [a, b, (rein _).1, (rein _).2]; exact h
        | metric k =>
          obtain ⟨a, b⟩ := comp _ _ e1
          rw [a, b, (rein _).1, (rein _).2]; exact h
        | told k =>
          rcases e2 : s.kind with _ | k'
          · simp [Trace.step, e2] at e1
          · simp only [Trace.step, e2, Out.ok.injEq] at e1
            rw [← e1, (rein _).1, (rein _).2]; exact h
        | store l p =>
          rcases e2 : s.kind with _ | k'
          · simp [Trace.step, e2] at e1
          · rcases e3 : s.init with _ | i
            · simp [Trace.step, e2, e3] at e1
            · simp only [Trace.step, e2, e3] at e1
              split_ifs at e1 <;> cases e1 <;> exact h
        | reset => cases e1; exact h
      · simp [Trace.run, e1] at e
      · simp [Trace.run, e1] at e
  exact key os .new s le_rfl h

/-- C113. Giving the first date, the last date and the first date again always sets both. -/
theorem thrice (s : Trace) {a b : ℝ} (h : a ≤ b) : (((s.setMin a).setMax b).setMin a).dates = (a, b) := by
  have last : ∀ t : Trace, t.tmax = b → (t.setMin a).dates = (a, b) := by
    intro t ht
    unfold Trace.setMin Trace.dates
    rw [if_neg (by linarith), ht]
  apply last
  unfold Trace.setMax
  split_ifs with hx
  · exfalso
    revert hx
    unfold Trace.setMin
    split_ifs with hy <;> simp only <;> intro hx <;> linarith
  · rfl

/-- C113. Giving each once, the first date first, sets both if and only if the first date is not after the old last date; and in the other order,
if and only if the last date is not before the old first date. -/
theorem twice_iff {s : Trace} (hs : s.tmin ≤ s.tmax) {a b : ℝ} (h : a ≤ b) :
    (((s.setMin a).setMax b).dates = (a, b) ↔ a ≤ s.tmax) ∧ (((s.setMax b).setMin a).dates = (a, b) ↔ s.tmin ≤ b) := by
  constructor
  · unfold Trace.setMin
    split_ifs with hx
    · unfold Trace.setMax Trace.dates
      simp only
      rw [if_neg (by linarith)]
      simp only [Prod.mk.injEq, and_true]
      constructor <;> intro e <;> linarith
    · unfold Trace.setMax Trace.dates
      simp only
      rw [if_neg (by linarith)]
      simp only [true_iff]
      exact not_lt.1 hx
  · unfold Trace.setMax
    split_ifs with hx
    · unfold Trace.setMin Trace.dates
      simp only
      rw [if_neg (by linarith)]
      simp only [Prod.mk.injEq, true_and]
      constructor <;> intro e <;> linarith
    · unfold Trace.setMin Trace.dates
      simp only
      rw [if_neg (by linarith)]
      simp only [true_iff]
      exact not_lt.1 hx

/-- C113 (negation). A file gives the first date before the last one, as the code writes it. What is read into a new object is what was written if
and only if the first date is not positive: otherwise the trace begins at the date 0. -/
theorem written_wrong {a b : ℝ} (h : a ≤ b) : (((Trace.new.setMin a).setMax b).dates = (a, b) ↔ a ≤ 0) ∧
    (0 < a → ((Trace.new.setMin a).setMax b).dates = (0, b)) := by
  refine ⟨(twice_iff (s := .new) le_rfl h).1, fun h0 => ?_⟩
  unfold Trace.setMin Trace.new Trace.setMax Trace.dates
  simp only
  rw [if_pos h0]
  simp only
  rw [if_neg (by linarith)]

/-- Example: the dates in the documentation of the class. -/
example : ((Trace.new.setMin 600).setMax 600).dates = (0, 600) := (written_wrong le_rfl).2 (by norm_num)

/-! ## The cache -/

theorem cart_eq_place (k : Kind) (p : Vec) : cart k p = place k p := by cases k <;> rfl

/-- What is cached is the place of each event, and the initial one is off the axis. -/
structure Fresh (s : Trace) : Prop where
  xyz : ∀ k, s.kind = some k → ∀ i ∈ s.slots, i.xyz = place k i.pos
  off : s.kind = some .spherical → ∀ i, s.init = some i → i.pos 2 ≠ 0
  bare : s.kind = none → s.init = none

/-- The same metric tells without another kind of coordinates. -/
def SameKind (s : Trace) : Op → Prop
  | .told k => s.kind = some k
  | _ => True

/-- No metric changes its kind of coordinates on the way. -/
def Steady (junk : P3) : Trace → List Op → Prop
  | _, [] => True
  | s, o :: os => SameKind s o ∧ ∀ s', s.step junk o = .ok s' → Steady junk s' os

theorem kick_off {k : Kind} (p : Vec) (h : k = .spherical) : kick k p 2 ≠ 0 := by
  subst h
  unfold kick
  simp only
  split_ifs with h
  · show (1e-10 : ℝ) ≠ 0
    norm_num
  · exact h

theorem kick_id {k : Kind} {p : Vec} (h : k = .spherical → p 2 ≠ 0) : kick k p = p := by
  unfold kick
  cases k with
  | spherical => simp only; rw [if_neg (h rfl)]
  | cartesian => rfl

/-- What `reInit` and `computeXYZ` leave. -/
theorem fresh_compute {s t : Trace} (h : s.reInit.computeXYZ = .ok t) : Fresh t := by
  rcases hk : s.kind with _ | k
  · have : s.reInit.kind = none := by unfold Trace.reInit; rw [hk]; exact hk
    unfold Trace.computeXYZ at h
    rw [this] at h
    cases h
  · have hk' : s.reInit.kind = some k := by
      unfold Trace.reInit; rw [hk]; rcases s.init with _ | i
      · exact hk
      · exact hk
    unfold Trace.computeXYZ at h
    rw [hk'] at h
    simp only [Out.ok.injEq] at h
    subst h
    refine ⟨fun k' e i hi => ?_, fun e i hi => ?_, fun e => ?_⟩
    · cases e
      simp only [Trace.slots, List.mem_append, List.mem_reverse, List.mem_map, Option.mem_toList, Option.map_eq_some_iff] at hi
      rcases hi with (⟨j, -, rfl⟩ | ⟨j, -, rfl⟩) | ⟨j, -, rfl⟩ <;> exact cart_eq_place _ _
    · cases e
      simp only [Option.map_eq_some_iff] at hi
      obtain ⟨j, hj, rfl⟩ := hi
      unfold Trace.reInit at hj
      rw [hk] at hj
      rcases e0 : s.init with _ | i0
      · rw [e0] at hj
        simp only [Trace.reset, e0] at hj
        cases hj
      · rw [e0] at hj
        simp only [Option.some.injEq] at hj
        rw [← hj]
        exact kick_off _ rfl
    · cases e

theorem fresh_step {junk : P3} {s t : Trace} {o : Op} (h : Fresh s) (ho : SameKind s o) (e : s.step junk o = .ok t) : Fresh t := by
  cases o with
  | setMin x => cases e; unfold Trace.setMin; split_ifs <;> exact ⟨h.xyz, h.off, h.bare⟩
  | setMax x => cases e; unfold Trace.setMax; split_ifs <;> exact ⟨h.xyz, h.off, h.bare⟩
  | move p => exact fresh_compute e
  | metric k => exact fresh_compute e
  | told k =>
    have ho : s.kind = some k := ho
    simp only [Trace.step, ho, Out.ok.injEq] at e
    rcases e0 : s.init with _ | i0
    · have : t = { s with kind := some k, before := [], after := [] } := by rw [← e]; unfold Trace.reInit; simp only [e0]; rfl
      subst this
      refine ⟨fun k' _ i hi => ?_, fun _ i hi => ?_, fun e' => by cases e'⟩
      · simp [Trace.slots, e0] at hi
      · simp only [e0] at hi; cases hi
    · have hk : kick k i0.pos = i0.pos := kick_id fun hk => h.off (by rw [ho, hk]) i0 e0
      have : t = { s with kind := some k, before := [], init := some i0, after := [] } := by
        rw [← e]; unfold Trace.reInit; simp only [e0, hk]; rfl
      subst this
      refine ⟨fun k' e' i hi => ?_, fun e' i hi => ?_, fun e' => by cases e'⟩
      · simp only [Trace.slots, List.reverse_nil, List.nil_append, List.append_nil, Option.toList_some, List.mem_singleton] at hi
        subst hi
        refine h.xyz k' (ho.trans e') i ?_
        simp [Trace.slots, e0]
      · cases hi
        exact h.off (ho.trans e') i0 e0
  | store l p =>
    rcases e2 : s.kind with _ | k
    · simp [Trace.step, e2] at e
    · rcases e3 : s.init with _ | i0
      · simp [Trace.step, e2, e3] at e
      · simp only [Trace.step, e2, e3] at e
        cases l with
        | true =>
          simp only [if_true, Out.ok.injEq] at e
          subst e
          refine ⟨fun k' e' i hi => ?_, fun e' i hi => h.off (e2.trans e') i (e3.trans hi), fun e' => by cases e'⟩
          simp only [Option.some.injEq] at e'
          subst e'
          simp only [Trace.slots, List.mem_append, List.mem_singleton] at hi
          rcases hi with hi | hi | rfl
          · exact h.xyz k e2 i (by simp only [Trace.slots, List.mem_append, e3]; exact .inl hi)
          · exact h.xyz k e2 i (by simp only [Trace.slots, List.mem_append]; exact .inr hi)
          · exact cart_eq_place _ _
        | false =>
          simp only [Bool.false_eq_true, if_false, Out.ok.injEq] at e
          subst e
          refine ⟨fun k' e' i hi => ?_, fun e' i hi => h.off (e2.trans e') i (e3.trans hi), fun e' => by cases e'⟩
          simp only [Option.some.injEq] at e'
          subst e'
          simp only [Trace.slots, List.reverse_append, List.reverse_cons, List.reverse_nil, List.nil_append, List.mem_append, List.mem_singleton] at hi
          rcases hi with ((rfl | hi) | hi) | hi
          · exact cart_eq_place _ _
          · exact h.xyz k e2 i (by simp only [Trace.slots, List.mem_append]; exact .inl (.inl hi))
          · exact h.xyz k e2 i (by simp only [Trace.slots, List.mem_append, e3]; exact .inl (.inr hi))
          · exact h.xyz k e2 i (by simp only [Trace.slots, List.mem_append]; exact .inr hi)
  | reset =>
    cases e
    refine ⟨fun k e' i hi => ?_, h.off, h.bare⟩
    simp only [Trace.slots, Trace.reset, List.reverse_nil, List.nil_append, List.append_nil] at hi
    exact h.xyz k e' i (by simp only [Trace.slots, List.mem_append]; exact .inl (.inr hi))

/-- C113. As long as no metric changes its kind of coordinates, what is cached is the place of each stored event, whatever is called. -/
theorem cache_partial {junk : P3} {os : List Op} {s : Trace} (h : Trace.new.run junk os = .ok s) (hs : Steady junk .new os) {k : Kind}
    (hk : s.kind = some k) : ∀ i ∈ s.slots, i.xyz = place k i.pos := by
  have key : ∀ (os : List Op) (s s' : Trace), Fresh s → Steady junk s os → s.run junk os = .ok s' → Fresh s' := by
    intro os
    induction os with
    | nil => intro s s' h _ e; cases e; exact h
    | cons o os ih =>
      intro s s' h hs e
      rcases e1 : s.step junk o with t | _ | _
      · simp only [Trace.run, e1] at e
        exact ih t s' (fresh_step h hs.1 e1) (hs.2 t e1) e
      · simp [Trace.run, e1] at e
      · simp [Trace.run, e1] at e
  refine (key os .new s ⟨fun k e => ?_, fun e => ?_, fun _ => rfl⟩ hs h).xyz k hk
  · cases e
  · cases e

/-- C113 (negation). A metric that goes from Cartesian to spherical coordinates tells, and the trace starts anew from the same four numbers, which
now are another place; but the cache keeps the old one, and the trace is there. -/
theorem stale_wrong (junk : P3) : ∃ (os : List Op) (s : Trace), Trace.new.run junk os = .ok s ∧ s.kind = some .spherical ∧
    ∃ i ∈ s.slots, i.pos = ![0, 5, 1, 0] ∧ i.xyz = (5, 1, 0) ∧ i.xyz ≠ place .spherical i.pos := by
  refine ⟨[.metric .cartesian, .move ![0, 5, 1, 0], .told .spherical], ⟨some .spherical, 0, 0, [], some ⟨![0, 5, 1, 0], (5, 1, 0)⟩, []⟩, ?_, rfl,
    ⟨![0, 5, 1, 0], (5, 1, 0)⟩, by simp [Trace.slots], rfl, rfl, ?_⟩
  · simp [Trace.run, Trace.step, Trace.new, Trace.reInit, Trace.reset, Trace.computeXYZ, cart, kick]
  · intro e
    have h1 : (1 : ℝ) = 5 * Real.sin 1 * Real.sin 0 := congrArg (fun p : P3 => p.2.1) e
    simp at h1

/-! ## What is inside -/

theorem fold_lt {s : Trace} {c : P3} {R : ℝ} (l : List Slot) (d : ℝ) :
    l.foldl (fun d2 i => if i.pos 0 < s.tmin ∨ i.pos 0 > s.tmax then d2 else let tmp := dist2 c i.xyz; if tmp < d2 then tmp else d2) d < R ↔
      d < R ∨ ∃ i ∈ l, s.tmin ≤ i.pos 0 ∧ i.pos 0 ≤ s.tmax ∧ dist2 c i.xyz < R := by
  induction l generalizing d with
  | nil => simp
  | cons j l ih =>
    rw [List.foldl_cons, ih]
    simp only [List.mem_cons, exists_eq_or_imp]
    by_cases hj : j.pos 0 < s.tmin ∨ j.pos 0 > s.tmax
    · rw [if_pos hj]
      have : ¬(s.tmin ≤ j.pos 0 ∧ j.pos 0 ≤ s.tmax ∧ dist2 c j.xyz < R) := by
        rintro ⟨a, b, -⟩
        rcases hj with hj | hj <;> linarith
      tauto
    · rw [if_neg hj]
      push Not at hj
      split_ifs with h1
      · constructor
        · rintro (h | h)
          · exact .inr (.inl ⟨hj.1, hj.2, h⟩)
          · exact .inr (.inr h)
        · rintro (h | ⟨-, -, h⟩ | h)
          · exact .inl (by linarith)
          · exact .inl h
          · exact .inr h
      · constructor
        · rintro (h | h)
          · exact .inl h
          · exact .inr (.inr h)
        · rintro (h | ⟨-, -, h⟩ | h)
          · exact .inl h
          · exact .inl (by linarith)
          · exact .inr h

/-- C113. A point is in the trace of radius `R` exactly when it is less than `R` away from one of the places that the star was found at between the
two dates: the date of the point itself does not matter. -/
theorem inside_iff {s : Trace} {k : Kind} (hk : s.kind = some k) (hf : ∀ i ∈ s.slots, i.xyz = place k i.pos) {R2 : ℝ} (hR : R2 ≤ dblMax) (p : Vec) :
    ∃ v, s.value p = .ok v ∧ (v < R2 ↔ ∃ i ∈ s.slots, s.tmin ≤ i.pos 0 ∧ i.pos 0 ≤ s.tmax ∧ dist2 (place k p) (place k i.pos) < R2) := by
  unfold Trace.value
  rw [hk]
  refine ⟨_, rfl, ?_⟩
  simp only
  rw [fold_lt, cart_eq_place]
  constructor
  · rintro (h | ⟨i, hi, a, b, c⟩)
    · linarith
    · exact ⟨i, hi, a, b, by rw [← hf i hi]; exact c⟩
  · rintro ⟨i, hi, a, b, c⟩
    exact .inr ⟨i, hi, a, b, by rw [hf i hi]; exact c⟩

/-- The distance between two places. -/
noncomputable def dist (p q : P3) : ℝ := √(dist2 p q)

theorem dist2_nonneg (p q : P3) : 0 ≤ dist2 p q := by
  unfold dist2
  nlinarith [mul_self_nonneg (p.1 - q.1), mul_self_nonneg (p.2.1 - q.2.1), mul_self_nonneg (p.2.2 - q.2.2)]

theorem dist_triangle (p q r : P3) : dist p r ≤ dist p q + dist q r := by
  unfold dist
  have h1 := Real.sq_sqrt (dist2_nonneg p q)
  have h2 := Real.sq_sqrt (dist2_nonneg q r)
  have n1 := Real.sqrt_nonneg (dist2 p q)
  have n2 := Real.sqrt_nonneg (dist2 q r)
  rw [Real.sqrt_le_left (by positivity)]
  have cs : (p.1 - q.1) * (q.1 - r.1) + (p.2.1 - q.2.1) * (q.2.1 - r.2.1) + (p.2.2 - q.2.2) * (q.2.2 - r.2.2) ≤
      √(dist2 p q) * √(dist2 q r) := by
    rw [← Real.sqrt_mul (dist2_nonneg p q)]
    refine Real.le_sqrt_of_sq_le ?_
    unfold dist2
    nlinarith [sq_nonneg ((p.1 - q.1) * (q.2.1 - r.2.1) - (p.2.1 - q.2.1) * (q.1 - r.1)),
      sq_nonneg ((p.1 - q.1) * (q.2.2 - r.2.2) - (p.2.2 - q.2.2) * (q.1 - r.1)),
      sq_nonneg ((p.2.1 - q.2.1) * (q.2.2 - r.2.2) - (p.2.2 - q.2.2) * (q.2.1 - r.2.1))]
  have e : dist2 p r = dist2 p q + dist2 q r +
      2 * ((p.1 - q.1) * (q.1 - r.1) + (p.2.1 - q.2.1) * (q.2.1 - r.2.1) + (p.2.2 - q.2.2) * (q.2.2 - r.2.2)) := by
    unfold dist2; ring
  nlinarith

/-- C113. What is promised, up to the steps of the integration: if the star moves at most at the speed `c`, and one of its stored events between the
two dates is at most `h` away in time from the date `t`, then all that is inside of the star at the date `t`, but for a shell as thick as the star
goes in `h`, is in the trace. -/
theorem covers_partial {s : Trace} {k : Kind} (hk : s.kind = some k) (hf : ∀ i ∈ s.slots, i.xyz = place k i.pos) {R : ℝ}
    (hR : R ^ 2 ≤ dblMax) {orbit : ℝ → P3} {c h t : ℝ} (hc : 0 ≤ c) (hspeed : ∀ u v, dist (orbit u) (orbit v) ≤ c * |u - v|)
    (hon : ∀ i ∈ s.slots, place k i.pos = orbit (i.pos 0)) (hnear : ∃ i ∈ s.slots, s.tmin ≤ i.pos 0 ∧ i.pos 0 ≤ s.tmax ∧ |t - i.pos 0| ≤ h)
    (p : Vec) (hp : dist (place k p) (orbit t) + c * h < R) : ∃ v, s.value p = .ok v ∧ v < R ^ 2 := by
  obtain ⟨v, e, hv⟩ := inside_iff hk hf hR p
  refine ⟨v, e, hv.2 ?_⟩
  obtain ⟨i, hi, a, b, d⟩ := hnear
  refine ⟨i, hi, a, b, ?_⟩
  have h1 := dist_triangle (place k p) (orbit t) (place k i.pos)
  have h2 := hspeed t (i.pos 0)
  rw [← hon i hi] at h2
  have h3 := mul_le_mul_of_nonneg_left d hc
  have h4 : dist (place k p) (place k i.pos) < R := by linarith
  unfold dist at h4
  rwa [Real.sqrt_lt' (by linarith [Real.sqrt_nonneg (dist2 (place k p) (place k i.pos))])] at h4

/-- C113 (negation). "All the points that would be inside a Star at any date between TMin and TMax" does not hold: between two stored events that
are further apart than the star is wide, its centre is not in its own trace. Here it goes along a line, from 0 to 3 while the time does, has radius
1, and the centre is asked halfway. -/
theorem gap_wrong : ∃ s : Trace, s.kind = some .cartesian ∧ s.tmin = 0 ∧ s.tmax = 3 ∧ (∀ i ∈ s.slots, i.xyz = place .cartesian i.pos) ∧
    (∀ i ∈ s.slots, place .cartesian i.pos = (i.pos 0, 0, 0)) ∧ ∃ v, s.value ![1.5, 1.5, 0, 0] = .ok v ∧ ¬v < 1 ^ 2 := by
  obtain ⟨s, hs⟩ : ∃ s : Trace, s = ⟨some .cartesian, 0, 3, [], some ⟨![0, 0, 0, 0], (0, 0, 0)⟩, [⟨![3, 3, 0, 0], (3, 0, 0)⟩]⟩ := ⟨_, rfl⟩
  have sl : s.slots = [⟨![0, 0, 0, 0], (0, 0, 0)⟩, ⟨![3, 3, 0, 0], (3, 0, 0)⟩] := by rw [hs]; rfl
  have hf : ∀ i ∈ s.slots, i.xyz = place .cartesian i.pos := by
    rw [sl]; intro i hi; simp only [List.mem_cons, List.not_mem_nil, or_false] at hi; rcases hi with rfl | rfl <;> simp [place]
  have hk : s.kind = some .cartesian := by rw [hs]
  obtain ⟨v, e, hv⟩ := inside_iff hk hf (R2 := 1 ^ 2) (by norm_num [dblMax]) ![1.5, 1.5, 0, 0]
  refine ⟨s, hk, by rw [hs], by rw [hs], hf, ?_, v, e, ?_⟩
  · rw [sl]; intro i hi; simp only [List.mem_cons, List.not_mem_nil, or_false] at hi; rcases hi with rfl | rfl <;> simp [place]
  · rw [hv, sl]
    rintro ⟨i, hi, -, -, hd⟩
    simp only [List.mem_cons, List.not_mem_nil, or_false] at hi
    rcases hi with rfl | rfl <;> simp [place, dist2] at hd <;> norm_num at hd

/-- Example: a trace of three events in spherical coordinates, made by calls. -/
example (junk : P3) : ∃ s, Trace.new.run junk [.metric .spherical, .setMax 2, .move ![0, 6, 1, 0], .store true ![1, 6, 1, 0.1],
    .store false ![-1, 6, 1, -0.1], .told .spherical, .store true ![1, 6, 1, 0.1]] = .ok s ∧ s.dates = (0, 2) ∧ s.slots.length = 2 ∧
    ∀ i ∈ s.slots, i.xyz = place .spherical i.pos := by
  have e : ∃ s, Trace.new.run junk [.metric .spherical, .setMax 2, .move ![0, 6, 1, 0], .store true ![1, 6, 1, 0.1],
      .store false ![-1, 6, 1, -0.1], .told .spherical, .store true ![1, 6, 1, 0.1]] = .ok s ∧ s.dates = (0, 2) ∧ s.slots.length = 2 ∧
      s.kind = some .spherical := by
    simp [Trace.run, Trace.step, Trace.new, Trace.reInit, Trace.reset, Trace.computeXYZ, cart, kick, Trace.setMax, Trace.dates, Trace.slots,
      show ¬(2 : ℝ) < 0 by norm_num]
  obtain ⟨s, e, d, l, k⟩ := e
  refine ⟨s, e, d, l, cache_partial e ?_ k⟩
  simp [Steady, SameKind, Trace.step, Trace.new, Trace.reInit, Trace.reset, Trace.computeXYZ, cart, kick, Trace.setMax, show ¬(2 : ℝ) < 0 by norm_num]

end Gyoto.StarTrace
