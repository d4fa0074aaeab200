import Verif.Model.Impact
import Verif.Props.Bisect
import Mathlib.Tactic.Linarith

/-! # C35: going through an object -/

namespace Gyoto.Impact

open Gyoto.Bisect

theorem Surface.le {f : ℝ → ℝ} {v a b t : ℝ} (h : Surface f v a b t) (hab : a ≤ b) : a ≤ t ∧ t ≤ b := by
  have := h.between; rwa [min_eq_left hab, max_eq_right hab] at this

theorem Surface.ge {f : ℝ → ℝ} {v a b t : ℝ} (h : Surface f v a b t) (hab : b ≤ a) : b ≤ t ∧ t ≤ a := by
  have := h.between; rwa [min_eq_right hab, max_eq_left hab] at this

/-- One turn of the loop: the four cases. -/
theorem walk_step {F : Set ℝ} {rnd : ℝ → ℝ} (hr : Rounding F rnd) {o : Obj} {t1 cur next : ℝ} {k : ℕ} {as : List ℝ} {hs : List (ℝ × ℝ)}
    (ht1 : t1 ∈ F) (hcur : cur ∈ F) (hgt : t1 < cur) (hnext : next = max (rnd (cur - o.delta)) t1)
    (hle : next ≤ cur) (h : walk rnd o t1 (k + 1) cur (decide (o.f cur ≤ o.crit)) = some (as, hs)) :
    next ∈ F ∧ ∃ date dt asked as' hs', walk rnd o t1 k next (decide (o.f next ≤ o.crit)) = some (as', hs') ∧
      as = asked ++ as' ∧ hs = (if dt ≠ 0 then (date, dt) :: hs' else hs') ∧ (∀ s ∈ asked, next ≤ s ∧ s ≤ cur) ∧
      ((o.f cur ≤ o.crit ∧ o.f next ≤ o.crit ∧ date = cur ∧ dt = cur - next) ∨
       (o.f cur ≤ o.crit ∧ o.crit < o.f next ∧ ∃ t, Surface o.f o.crit cur next t ∧ date = cur ∧ dt = cur - t) ∨
       (o.crit < o.f cur ∧ o.f next ≤ o.crit ∧ ∃ t, Surface o.f o.crit next cur t ∧ date = t ∧ dt = t - next) ∨
       (o.crit < o.f cur ∧ o.crit < o.f next ∧ dt = 0)) := by
  have hF : next ∈ F := by
    rw [hnext]; rcases max_choice (rnd (cur - o.delta)) t1 with e | e <;> rw [e]
    · exact hr.mem _
    · exact ht1
  refine ⟨hF, ?_⟩
  rw [walk, if_pos hgt] at h
  simp only [← hnext] at h
  simp only [Option.bind_eq_some_iff, Option.map_eq_some_iff, Prod.exists, Prod.mk.injEq] at h
  obtain ⟨date, dt, asked, hcase, as', hs', hw, has, hhs⟩ := h
  refine ⟨date, dt, asked, as', hs', hw, has.symm, hhs.symm, ?_⟩
  by_cases hc : o.f cur ≤ o.crit <;> by_cases hn : o.f next ≤ o.crit
  · simp [stretch, hc, hn] at hcase
    obtain ⟨rfl, rfl, rfl⟩ := hcase
    exact ⟨by simp [hle], Or.inl ⟨hc, hn, rfl, rfl⟩⟩
  · simp [stretch, hc, hn] at hcase
    obtain ⟨t, a, hv, rfl, rfl, rfl⟩ := hcase
    obtain ⟨hsf, -, ha⟩ := findValue_surface hr k _ _ _ _ hcur hF hc (not_le.1 hn).le hv
    rw [min_eq_right hle, max_eq_left hle] at ha
    refine ⟨?_, Or.inr (Or.inl ⟨hc, not_le.1 hn, t, hsf, rfl, rfl⟩)⟩
    intro s hs
    rcases List.mem_cons.1 hs with rfl | hs
    · exact ⟨le_rfl, hle⟩
    · exact ha s hs
  · simp [stretch, hc, hn] at hcase
    obtain ⟨a, hv, rfl, rfl⟩ := hcase
    obtain ⟨hsf, -, ha⟩ := findValue_surface hr k _ _ _ _ hF hcur hn (not_le.1 hc).le hv
    rw [min_eq_left hle, max_eq_right hle] at ha
    refine ⟨?_, Or.inr (Or.inr (Or.inl ⟨not_le.1 hc, hn, date, hsf, rfl, rfl⟩))⟩
    intro s hs
    rcases List.mem_cons.1 hs with rfl | hs
    · exact ⟨le_rfl, hle⟩
    rcases List.mem_append.1 hs with hs | hs
    · exact ha s hs
    · obtain rfl : s = date := by simpa using hs
      exact Surface.le hsf hle
  · simp [stretch, hc, hn] at hcase
    obtain ⟨rfl, rfl, rfl⟩ := hcase
    exact ⟨by simp [hle], Or.inr (Or.inr (Or.inr ⟨not_le.1 hc, not_le.1 hn, rfl⟩))⟩

/-- Stretches that contribute: of positive length, both ends in the segment `[t1, t2]` and inside the object; each one ends
before the previous one starts (the loop goes back in time). -/
structure Stretches (f : ℝ → ℝ) (crit t1 t2 : ℝ) (hs : List (ℝ × ℝ)) : Prop where
  each : ∀ h ∈ hs, 0 < h.2 ∧ t1 ≤ h.1 - h.2 ∧ h.1 ≤ t2 ∧ f h.1 ≤ crit ∧ f (h.1 - h.2) ≤ crit
  disjoint : hs.Pairwise fun a b => b.1 ≤ a.1 - a.2

theorem walk_stretches {F : Set ℝ} {rnd : ℝ → ℝ} (hr : Rounding F rnd) {o : Obj} (hd : 0 < o.delta) {t1 : ℝ} (ht1 : t1 ∈ F) :
    ∀ (k : ℕ) (cur : ℝ) (as : List ℝ) (hs : List (ℝ × ℝ)), cur ∈ F → t1 ≤ cur →
      walk rnd o t1 k cur (decide (o.f cur ≤ o.crit)) = some (as, hs) →
      (∀ s ∈ as, t1 ≤ s ∧ s ≤ cur) ∧ Stretches o.f o.crit t1 cur hs := by
  intro k
  induction k with
  | zero => intro cur as hs _ _ h; simp [walk] at h
  | succ k ih =>
    intro cur as hs hcur hle h
    rcases lt_or_eq_of_le hle with hgt | rfl
    · have hn : max (rnd (cur - o.delta)) t1 ≤ cur := by
        refine max_le ?_ hle
        have := hr.mono (show cur - o.delta ≤ cur by linarith)
        rwa [hr.fix _ hcur] at this
      obtain ⟨hF, date, dt, asked, as', hs', hw, rfl, rfl, hasked, hcase⟩ := walk_step hr ht1 hcur hgt rfl hn h
      have h1n : t1 ≤ max (rnd (cur - o.delta)) t1 := le_max_right _ _
      obtain ⟨ha, hst⟩ := ih _ _ _ hF h1n hw
      refine ⟨fun s hs => ?_, ?_⟩
      · rcases List.mem_append.1 hs with hs | hs
        · exact ⟨h1n.trans (hasked s hs).1, (hasked s hs).2⟩
        · exact ⟨(ha s hs).1, (ha s hs).2.trans hn⟩
      · have old : Stretches o.f o.crit t1 cur hs' :=
          ⟨fun h hh => let e := hst.each h hh; ⟨e.1, e.2.1, e.2.2.1.trans hn, e.2.2.2⟩, hst.disjoint⟩
        split_ifs with hdt
        · have key : 0 < dt ∧ max (rnd (cur - o.delta)) t1 ≤ date - dt ∧ date ≤ cur ∧ o.f date ≤ o.crit ∧ o.f (date - dt) ≤ o.crit := by
            rcases hcase with ⟨c1, c2, rfl, rfl⟩ | ⟨c1, c2, t, hsf, rfl, rfl⟩ | ⟨c1, c2, t, hsf, rfl, rfl⟩ | ⟨c1, c2, rfl⟩
            · have : 0 < date - max (rnd (date - o.delta)) t1 := lt_of_le_of_ne (by linarith) (Ne.symm hdt)
              exact ⟨this, by rw [sub_sub_cancel], le_rfl, c1, by rwa [sub_sub_cancel]⟩
            · have hb := Surface.ge hsf hn
              exact ⟨lt_of_le_of_ne (by linarith [hb.2]) (Ne.symm hdt), by rw [sub_sub_cancel]; exact hb.1, le_rfl, c1,
                by rw [sub_sub_cancel]; exact hsf.inside⟩
            · have hb := Surface.le hsf hn
              exact ⟨lt_of_le_of_ne (by linarith [hb.1]) (Ne.symm hdt), by rw [sub_sub_cancel], hb.2, hsf.inside,
                by rwa [sub_sub_cancel]⟩
            · exact absurd rfl hdt
          refine ⟨fun h hh => ?_, List.pairwise_cons.2 ⟨fun h hh => ?_, old.disjoint⟩⟩
          · rcases List.mem_cons.1 hh with rfl | hh
            · exact ⟨key.1, h1n.trans key.2.1, key.2.2.1, key.2.2.2⟩
            · exact old.each h hh
          · exact (hst.each h hh).2.2.1.trans key.2.1
        · exact old
    · rw [walk, if_neg (lt_irrefl _)] at h
      simp only [Option.some.injEq, Prod.mk.injEq] at h
      obtain ⟨rfl, rfl⟩ := h
      exact ⟨by simp, ⟨by simp, List.Pairwise.nil⟩⟩

theorem bound_of_surface {f : ℝ → ℝ} {crit m t a : ℝ} (h : Surface f crit m t a) : ∃ w, |w - a| ≤ 1 / 10000 ∧ crit ≤ f w ∧ min m t ≤ w ∧ w ≤ max m t := by
  obtain ⟨w, h1, h2, h3, h4⟩ := h.near
  exact ⟨w, h1, h4, h2, h3⟩

/-- What `ends` finds. -/
structure Ends (f : ℝ → ℝ) (crit t1 t2 a b : ℝ) : Prop where
  le1 : t1 ≤ a
  le : a ≤ b
  le2 : b ≤ t2
  in1 : f a ≤ crit
  in2 : f b ≤ crit
  start : f t1 ≤ crit → a = t1
  start' : crit < f t1 → ∃ w, |w - a| ≤ 1 / 10000 ∧ crit ≤ f w ∧ t1 ≤ w ∧ w ≤ t2
  stop : f t2 ≤ crit → b = t2
  stop' : crit < f t2 → ∃ w, |w - b| ≤ 1 / 10000 ∧ crit ≤ f w ∧ t1 ≤ w ∧ w ≤ t2

theorem ends_spec {F : Set ℝ} {rnd : ℝ → ℝ} (hr : Rounding F rnd) {o : Obj} {k : ℕ} {t1 t2 : ℝ} (h1 : t1 ∈ F) (h2 : t2 ∈ F) (h12 : t1 ≤ t2)
    {e : (ℝ × ℝ) ⊕ (ℝ × ℝ)} {asked : List ℝ} (h : ends rnd o k t1 t2 = some (e, asked)) :
    (∀ s ∈ asked, t1 ≤ s ∧ s ≤ t2) ∧
    (∀ t v, e = .inl (t, v) → v = o.f t ∧ t1 ≤ t ∧ t ≤ t2 ∧ o.crit < v ∧ v ≤ o.f t1 ∧ v ≤ o.f t2) ∧
    (∀ a b, e = .inr (a, b) → a ∈ F ∧ b ∈ F ∧ Ends o.f o.crit t1 t2 a b) := by
  unfold ends at h
  by_cases hv1 : o.f t1 > o.crit
  · by_cases hv2 : o.f t2 > o.crit
    · simp only [hv1, hv2, if_true] at h
      simp only [Option.bind_eq_bind, Option.bind_eq_some_iff] at h
      obtain ⟨m, hm, h⟩ := h
      have hms : m.val = o.f m.tmin ∧ t1 ≤ m.tmin ∧ m.tmin ≤ t2 ∧ m.tmin ∈ F ∧ m.val ≤ o.f t1 ∧ m.val ≤ o.f t2 ∧
          ∀ s ∈ m.asked, t1 ≤ s ∧ s ≤ t2 := by
        unfold closestOf at hm
        split_ifs at hm with hs hlt
        · obtain rfl := Option.some.inj hm; exact ⟨rfl, le_rfl, h12, h1, le_rfl, hlt.le, by simp⟩
        · obtain rfl := Option.some.inj hm; exact ⟨rfl, h12, le_rfl, h2, not_lt.1 hlt, le_rfl, by simp⟩
        · exact findMin_spec hr h1 h2 h12 hm
      obtain ⟨m1, m2, m3, m4, m5, m6, m7⟩ := hms
      split_ifs at h with hmiss
      · simp only [Option.some.injEq, Prod.mk.injEq] at h
        obtain ⟨rfl, rfl⟩ := h
        refine ⟨m7, fun t v hev => ?_, fun a b hev => by simp at hev⟩
        simp only [Sum.inl.injEq, Prod.mk.injEq] at hev
        obtain ⟨rfl, rfl⟩ := hev
        exact ⟨m1, m2, m3, hmiss, m5, m6⟩
      · simp only [Option.bind_eq_some_iff, Option.some.injEq, Prod.exists, Prod.mk.injEq] at h
        obtain ⟨b, a2, hb, a, a1, ha, rfl, rfl⟩ := h
        have hin : o.f m.tmin ≤ o.crit := m1 ▸ not_lt.1 hmiss
        obtain ⟨sb, bF, ab⟩ := findValue_surface hr k _ _ _ _ m4 h2 hin hv2.le hb
        obtain ⟨sa, aF, aa⟩ := findValue_surface hr k _ _ _ _ m4 h1 hin hv1.le ha
        have lb := Surface.le sb m3
        have la := Surface.ge sa m2
        rw [min_eq_left m3, max_eq_right m3] at ab
        rw [min_eq_right m2, max_eq_left m2] at aa
        refine ⟨fun s hs => ?_, fun t v hev => by simp at hev, fun a' b' hev => ?_⟩
        · rcases List.mem_append.1 hs with hs | hs
          · rcases List.mem_append.1 hs with hs | hs
            · exact m7 s hs
            · exact ⟨m2.trans (ab s hs).1, (ab s hs).2⟩
          · exact ⟨(aa s hs).1, (aa s hs).2.trans m3⟩
        · simp only [Sum.inr.injEq, Prod.mk.injEq] at hev
          obtain ⟨rfl, rfl⟩ := hev
          refine ⟨aF, bF, la.1, la.2.trans lb.1, lb.2, sa.inside, sb.inside, fun h => absurd h (not_le.2 hv1), fun _ => ?_,
            fun h => absurd h (not_le.2 hv2), fun _ => ?_⟩
          · obtain ⟨w, w1, w2, w3, w4⟩ := bound_of_surface sa
            rw [min_eq_right m2] at w3; rw [max_eq_left m2] at w4
            exact ⟨w, w1, w2, w3, w4.trans m3⟩
          · obtain ⟨w, w1, w2, w3, w4⟩ := bound_of_surface sb
            rw [min_eq_left m3] at w3; rw [max_eq_right m3] at w4
            exact ⟨w, w1, w2, m2.trans w3, w4⟩
    · simp only [hv1, hv2, if_true, if_false] at h
      simp only [Option.bind_eq_bind, Option.bind_eq_some_iff, Option.some.injEq, Prod.exists, Prod.mk.injEq] at h
      obtain ⟨a, a1, ha, rfl, rfl⟩ := h
      obtain ⟨sa, aF, aa⟩ := findValue_surface hr k _ _ _ _ h2 h1 (not_lt.1 hv2) hv1.le ha
      have la := Surface.ge sa h12
      rw [min_eq_right h12, max_eq_left h12] at aa
      refine ⟨aa, fun t v hev => by simp at hev, fun a' b' hev => ?_⟩
      simp only [Sum.inr.injEq, Prod.mk.injEq] at hev
      obtain ⟨rfl, rfl⟩ := hev
      refine ⟨aF, h2, la.1, la.2, le_rfl, sa.inside, not_lt.1 hv2, fun h => absurd h (not_le.2 hv1), fun _ => ?_, fun _ => rfl,
        fun h => absurd h hv2⟩
      obtain ⟨w, w1, w2, w3, w4⟩ := bound_of_surface sa
      rw [min_eq_right h12] at w3; rw [max_eq_left h12] at w4
      exact ⟨w, w1, w2, w3, w4⟩
  · by_cases hv2 : o.f t2 > o.crit
    · simp only [hv1, hv2, if_true, if_false] at h
      simp only [Option.bind_eq_bind, Option.bind_eq_some_iff, Option.some.injEq, Prod.exists, Prod.mk.injEq] at h
      obtain ⟨b, a2, hb, rfl, rfl⟩ := h
      obtain ⟨sb, bF, ab⟩ := findValue_surface hr k _ _ _ _ h1 h2 (not_lt.1 hv1) hv2.le hb
      have lb := Surface.le sb h12
      rw [min_eq_left h12, max_eq_right h12] at ab
      refine ⟨ab, fun t v hev => by simp at hev, fun a' b' hev => ?_⟩
      simp only [Sum.inr.injEq, Prod.mk.injEq] at hev
      obtain ⟨rfl, rfl⟩ := hev
      refine ⟨h1, bF, le_rfl, lb.1, lb.2, not_lt.1 hv1, sb.inside, fun _ => rfl, fun h => absurd h hv1,
        fun h => absurd h (not_le.2 hv2), fun _ => ?_⟩
      obtain ⟨w, w1, w2, w3, w4⟩ := bound_of_surface sb
      rw [min_eq_left h12] at w3; rw [max_eq_right h12] at w4
      exact ⟨w, w1, w2, w3, w4⟩
    · simp only [hv1, hv2, if_false, Option.some.injEq, Prod.mk.injEq] at h
      obtain ⟨rfl, rfl⟩ := h
      refine ⟨by simp, fun t v hev => by simp at hev, fun a' b' hev => ?_⟩
      simp only [Sum.inr.injEq, Prod.mk.injEq] at hev
      obtain ⟨rfl, rfl⟩ := hev
      exact ⟨h1, h2, le_rfl, h12, le_rfl, not_lt.1 hv1, not_lt.1 hv2, fun _ => rfl, fun h => absurd h hv1, fun _ => rfl,
        fun h => absurd h hv2⟩

/-- **C35** Whatever the object and the rounding: only dates of the segment are asked; the stretches that contribute are of
positive length, inside the segment, with both ends inside the object, and do not overlap; a segment is said to be missed only if
both its ends are outside, and then the distance stored is that at the date stored, not larger than at the ends. -/
theorem impact_in_segment {F : Set ℝ} {rnd : ℝ → ℝ} (hr : Rounding F rnd) {o : Obj} (hd : 0 < o.delta) {k : ℕ} {t1 t2 : ℝ} (h1 : t1 ∈ F)
    (h2 : t2 ∈ F) (h12 : t1 ≤ t2) {r : Res} (h : impact rnd o k t1 t2 = some r) :
    (∀ s ∈ r.asked, t1 ≤ s ∧ s ≤ t2) ∧ Stretches o.f o.crit t1 t2 r.hits ∧
    (r.hit = false → r.hits = [] ∧ o.crit < o.f t1 ∧ o.crit < o.f t2 ∧
      ∃ t, r.closest = some (t, o.f t) ∧ t1 ≤ t ∧ t ≤ t2 ∧ o.crit < o.f t ∧ o.f t ≤ o.f t1 ∧ o.f t ≤ o.f t2) := by
  simp only [impact, Option.bind_eq_bind, Option.bind_eq_some_iff, Prod.exists] at h
  obtain ⟨e, asked, he, h⟩ := h
  obtain ⟨ha, hmiss, hend⟩ := ends_spec hr h1 h2 h12 he
  match e, h with
  | .inl (t, v), h =>
    simp only [Option.some.injEq] at h
    subst h
    obtain ⟨rfl, m1, m2, m3, m4, m5⟩ := hmiss t v rfl
    exact ⟨ha, ⟨by simp, List.Pairwise.nil⟩, fun _ => ⟨rfl, m3.trans_le m4, m3.trans_le m5, t, rfl, m1, m2, m3, m4, m5⟩⟩
  | .inr (a, b), h =>
    simp only [Option.bind_eq_some_iff, Prod.exists, Option.some.injEq] at h
    obtain ⟨as, hs, hw, rfl⟩ := h
    obtain ⟨aF, bF, E⟩ := hend a b rfl
    rw [show true = decide (o.f b ≤ o.crit) by simp [E.in2]] at hw
    obtain ⟨hwa, hst⟩ := walk_stretches hr hd aF k b as hs bF E.le hw
    refine ⟨fun s hs => ?_, ⟨fun h hh => ?_, hst.disjoint⟩, by simp⟩
    · rcases List.mem_append.1 hs with hs | hs
      · exact ha s hs
      rcases List.mem_cons.1 hs with rfl | hs
      · exact ⟨E.le1.trans E.le, E.le2⟩
      · exact ⟨E.le1.trans (hwa s hs).1, (hwa s hs).2.trans E.le2⟩
    · have := hst.each h hh
      exact ⟨this.1, E.le1.trans this.2.1, this.2.2.1.trans E.le2, this.2.2.2⟩

/-! ## Nothing inside is left out -/

/-- What has to come out of a step from `b` back to `a`: the whole step if both ends are inside; up to the surface if one is; nothing
if both are outside. -/
structure StepOk (f : ℝ → ℝ) (crit a b : ℝ) (hs : List (ℝ × ℝ)) : Prop where
  both : f b ≤ crit → f a ≤ crit → (b, b - a) ∈ hs
  late : f b ≤ crit → crit < f a → ∃ t, Surface f crit b a t ∧ (t = b ∨ (b, b - t) ∈ hs) ∧
    ∀ h ∈ hs, h.1 ≤ a ∨ b ≤ h.1 - h.2 ∨ h = (b, b - t)
  early : crit < f b → f a ≤ crit → ∃ t, Surface f crit a b t ∧ (t = a ∨ (t, t - a) ∈ hs) ∧
    ∀ h ∈ hs, h.1 ≤ a ∨ b ≤ h.1 - h.2 ∨ h = (t, t - a)
  none : crit < f b → crit < f a → ∀ h ∈ hs, h.1 ≤ a ∨ b ≤ h.1 - h.2

/-- **C35** With exact arithmetic the steps of the loop go back from the exit date by `delta` until the entry date, and each
contributes what it has to. -/
theorem walk_covers {o : Obj} (hd : 0 < o.delta) {t1 : ℝ} :
    ∀ (k : ℕ) (cur : ℝ) (as : List ℝ) (hs : List (ℝ × ℝ)), t1 ≤ cur → walk id o t1 k cur (decide (o.f cur ≤ o.crit)) = some (as, hs) →
      ∀ n : ℕ, t1 < cur - n * o.delta → StepOk o.f o.crit (max (cur - (n + 1) * o.delta) t1) (cur - n * o.delta) hs := by
  intro k
  induction k with
  | zero => intro cur as hs _ h; simp [walk] at h
  | succ k ih =>
    intro cur as hs hle h n hn
    have hnd : (0 : ℝ) ≤ n * o.delta := by positivity
    have hgt : t1 < cur := by linarith
    have hnx : max (id (cur - o.delta)) t1 ≤ cur := max_le (by simp; linarith) hle
    obtain ⟨-, date, dt, asked, as', hs', hw, rfl, rfl, hasked, hcase⟩ := walk_step exact trivial trivial hgt rfl hnx h
    have h1n : t1 ≤ max (id (cur - o.delta)) t1 := le_max_right _ _
    obtain ⟨-, hst⟩ := walk_stretches exact hd trivial k _ _ _ trivial h1n hw
    have hlate : ∀ h ∈ hs', h.1 ≤ max (id (cur - o.delta)) t1 := fun h hh => (hst.each h hh).2.2.1
    cases n with
    | zero =>
      simp only [Nat.cast_zero, zero_add, one_mul, zero_mul, sub_zero]
      have hnlt : max (cur - o.delta) t1 < cur := max_lt (by linarith) hgt
      simp only [id] at hcase hlate
      clear h hw hst hasked hnx h1n
      generalize max (cur - o.delta) t1 = next at *
      rcases hcase with ⟨c1, c2, rfl, rfl⟩ | ⟨c1, c2, t, hsf, rfl, rfl⟩ | ⟨c1, c2, t, hsf, rfl, rfl⟩ | ⟨c1, c2, rfl⟩
      · refine ⟨fun _ _ => ?_, fun _ h => absurd h (not_lt.2 c2), fun h => absurd h (not_lt.2 c1), fun h => absurd h (not_lt.2 c1)⟩
        split_ifs with hdt
        · simp
        · simp at hdt; linarith
      · refine ⟨fun _ h => absurd h (not_le.2 c2), fun _ _ => ⟨t, hsf, ?_, ?_⟩, fun h => absurd h (not_lt.2 c1), fun h => absurd h (not_lt.2 c1)⟩
        · by_cases e : date - t = 0
          · left; linarith
          · right; simp [e]
        · intro h hh
          split_ifs at hh with hdt
          · rcases List.mem_cons.1 hh with rfl | hh
            · right; right; rfl
            · left; exact hlate h hh
          · left; exact hlate h hh
      · refine ⟨fun h => absurd h (not_le.2 c1), fun h => absurd h (not_le.2 c1), fun _ _ => ⟨date, hsf, ?_, ?_⟩, fun _ h => absurd h (not_lt.2 c2)⟩
        · by_cases e : date - next = 0
          · left; linarith
          · right; simp [e]
        · intro h hh
          split_ifs at hh with hdt
          · rcases List.mem_cons.1 hh with rfl | hh
            · right; right; rfl
            · left; exact hlate h hh
          · left; exact hlate h hh
      · refine ⟨fun h => absurd h (not_le.2 c1), fun h => absurd h (not_le.2 c1), fun _ h => absurd h (not_le.2 c2), fun _ _ h hh => ?_⟩
        left; exact hlate h (by simpa using hh)
    | succ n =>
      have hne : id (cur - o.delta) = cur - o.delta := rfl
      have hnx' : max (id (cur - o.delta)) t1 = cur - o.delta := max_eq_left (by rw [hne]; push_cast at hn; nlinarith)
      rw [hnx'] at hw hcase hlate
      have e1 : cur - ((n + 1 : ℕ) : ℝ) * o.delta = cur - o.delta - n * o.delta := by push_cast; ring
      have e2 : cur - (((n + 1 : ℕ) : ℝ) + 1) * o.delta = cur - o.delta - (n + 1) * o.delta := by push_cast; ring
      rw [e1] at hn
      have S := ih _ _ _ (by nlinarith [show (0 : ℝ) ≤ n * o.delta by positivity]) hw n hn
      rw [e1, e2]
      have hfirst : cur - o.delta ≤ date - dt ∨ dt = 0 := by
        rcases hcase with ⟨c1, c2, rfl, rfl⟩ | ⟨c1, c2, t, hsf, rfl, rfl⟩ | ⟨c1, c2, t, hsf, rfl, rfl⟩ | ⟨c1, c2, rfl⟩
        · left; linarith
        · left; rw [sub_sub_cancel]; exact (Surface.ge hsf (by linarith)).1
        · left; linarith
        · right; rfl
      have hsub : ∀ h, h ∈ hs' → h ∈ (if dt ≠ 0 then (date, dt) :: hs' else hs') := fun h hh => by
        split_ifs
        · exact List.mem_cons_of_mem _ hh
        · exact hh
      have hall : ∀ h, h ∈ (if dt ≠ 0 then (date, dt) :: hs' else hs') → h ∈ hs' ∨ cur - o.delta - n * o.delta ≤ h.1 - h.2 := by
        intro h hh
        split_ifs at hh with hdt
        · rcases List.mem_cons.1 hh with rfl | hh
          · right
            have := hfirst.resolve_right hdt
            have : (0 : ℝ) ≤ n * o.delta := by positivity
            simp only; linarith
          · exact Or.inl hh
        · exact Or.inl hh
      refine ⟨fun a b => hsub _ (S.both a b), fun a b => ?_, fun a b => ?_, fun a b h hh => ?_⟩
      · obtain ⟨t, s1, s2, s3⟩ := S.late a b
        exact ⟨t, s1, s2.imp_right (hsub _), fun h hh => (hall h hh).elim (s3 h) fun e => Or.inr (Or.inl e)⟩
      · obtain ⟨t, s1, s2, s3⟩ := S.early a b
        exact ⟨t, s1, s2.imp_right (hsub _), fun h hh => (hall h hh).elim (s3 h) fun e => Or.inr (Or.inl e)⟩
      · exact (hall h hh).elim (S.none a b h) Or.inr

theorem walk_total {o : Obj} {t1 : ℝ} (hd : 0 < o.delta) :
    ∀ (k : ℕ) (cur : ℝ) (as : List ℝ) (hs : List (ℝ × ℝ)), t1 ≤ cur → (∀ t, t1 ≤ t → t ≤ cur → o.f t ≤ o.crit) →
      walk id o t1 k cur (decide (o.f cur ≤ o.crit)) = some (as, hs) → (hs.map Prod.snd).sum = cur - t1 := by
  intro k
  induction k with
  | zero => intro cur as hs _ _ h; simp [walk] at h
  | succ k ih =>
    intro cur as hs hle hin h
    rcases lt_or_eq_of_le hle with hgt | rfl
    · have hnx : max (id (cur - o.delta)) t1 ≤ cur := max_le (by simp; linarith) hle
      have h1n : t1 ≤ max (id (cur - o.delta)) t1 := le_max_right _ _
      obtain ⟨-, date, dt, asked, as', hs', hw, rfl, rfl, hasked, hcase⟩ := walk_step exact trivial trivial hgt rfl hnx h
      have hrec := ih _ _ _ h1n (fun t a b => hin t a (b.trans hnx)) hw
      rcases hcase with ⟨c1, c2, rfl, rfl⟩ | ⟨c1, c2, -⟩ | ⟨c1, -⟩ | ⟨c1, -⟩
      · split_ifs with hdt
        · rw [List.map_cons, List.sum_cons, hrec]; ring
        · rw [hrec]; push Not at hdt; linarith
      · exact absurd (hin _ h1n hnx) (not_le.2 c2)
      · exact absurd (hin _ hle le_rfl) (not_le.2 c1)
      · exact absurd (hin _ hle le_rfl) (not_le.2 c1)
    · rw [walk, if_neg (lt_irrefl _)] at h
      simp only [Option.some.injEq, Prod.mk.injEq] at h
      obtain ⟨rfl, rfl⟩ := h
      simp

/-- **C35** With exact arithmetic, in a segment that is hit, the object is gone through from an exit date back to an entry date (the ends
of the segment if they are inside the object), in steps of `delta`, each one contributing exactly its part inside the object up to the tolerance.
If everything in between is inside, the lengths add up to the length between these two dates. -/
theorem impact_covers {o : Obj} (hd : 0 < o.delta) {k : ℕ} {t1 t2 : ℝ} (h12 : t1 ≤ t2) {r : Res} (h : impact id o k t1 t2 = some r)
    (hhit : r.hit = true) : ∃ a b, Ends o.f o.crit t1 t2 a b ∧
      (∀ n : ℕ, a < b - n * o.delta → StepOk o.f o.crit (max (b - (n + 1) * o.delta) a) (b - n * o.delta) r.hits) ∧
      ((∀ t, a ≤ t → t ≤ b → o.f t ≤ o.crit) → (r.hits.map Prod.snd).sum = b - a) := by
  simp only [impact, Option.bind_eq_bind, Option.bind_eq_some_iff, Prod.exists] at h
  obtain ⟨e, asked, he, h⟩ := h
  obtain ⟨ha, hmiss, hend⟩ := ends_spec exact trivial trivial h12 he
  match e, h with
  | .inl (t, v), h =>
    simp only [Option.some.injEq] at h
    subst h
    simp at hhit
  | .inr (a, b), h =>
    simp only [Option.bind_eq_some_iff, Prod.exists, Option.some.injEq] at h
    obtain ⟨as, hs, hw, rfl⟩ := h
    obtain ⟨aF, bF, E⟩ := hend a b rfl
    rw [show true = decide (o.f b ≤ o.crit) by simp [E.in2]] at hw
    exact ⟨a, b, E, walk_covers hd k b as hs E.le hw, fun hin => walk_total hd k b as hs E.le hin hw⟩

/-! ## Termination -/

theorem stretch_mono {rnd : ℝ → ℝ} {o : Obj} {k m : ℕ} (hk : k ≤ m) {cur next : ℝ} {c n : Bool} {r : ℝ × ℝ × List ℝ}
    (h : stretch rnd o k cur next c n = some r) : stretch rnd o m cur next c n = some r := by
  cases c <;> cases n <;> simp only [stretch, if_true, if_false, Bool.false_eq_true] at h ⊢
  · exact h
  · obtain ⟨v, hv, he⟩ := Option.map_eq_some_iff.1 h
    rw [findValue_mono _ _ _ _ _ hk hv]; exact congrArg some he
  · obtain ⟨v, hv, he⟩ := Option.map_eq_some_iff.1 h
    rw [findValue_mono _ _ _ _ _ hk hv]; exact congrArg some he
  · exact h

theorem walk_mono {rnd : ℝ → ℝ} {o : Obj} {t1 : ℝ} : ∀ (k m : ℕ) (cur : ℝ) (c : Bool) (r : List ℝ × List (ℝ × ℝ)), k ≤ m →
    walk rnd o t1 k cur c = some r → walk rnd o t1 m cur c = some r := by
  intro k
  induction k with
  | zero => intro m cur c r _ h; simp [walk] at h
  | succ k ih =>
    intro m cur c r hm h
    obtain ⟨m, rfl⟩ : ∃ m', m = m' + 1 := ⟨m - 1, by omega⟩
    rw [walk] at h ⊢
    by_cases hgt : cur > t1
    · rw [if_pos hgt] at h ⊢
      simp only [Option.bind_eq_some_iff, Option.map_eq_some_iff] at h
      obtain ⟨s, hs, r', hr', he⟩ := h
      simp only [stretch_mono (show k ≤ m by omega) hs, Option.bind_some, ih m _ _ _ (by omega) hr']
      exact congrArg some he
    · rw [if_neg hgt] at h ⊢; exact h

theorem stretch_terminates {rnd : ℝ → ℝ} (hf : Fine rnd) (o : Obj) (cur next : ℝ) (c n : Bool) : ∃ k r, stretch rnd o k cur next c n = some r := by
  cases c <;> cases n <;> simp only [stretch, if_true, if_false, Bool.false_eq_true]
  · exact ⟨0, _, rfl⟩
  · obtain ⟨k, r, h⟩ := findValue_terminates_partial hf o.f o.crit next cur
    exact ⟨k, _, by rw [h]; rfl⟩
  · obtain ⟨k, r, h⟩ := findValue_terminates_partial hf o.f o.crit cur next
    exact ⟨k, _, by rw [h]; rfl⟩
  · exact ⟨0, _, rfl⟩

theorem walk_terminates {o : Obj} (hd : 0 < o.delta) (t1 : ℝ) : ∀ (n : ℕ) (cur : ℝ) (c : Bool), cur - t1 ≤ n * o.delta →
    ∃ k r, walk id o t1 k cur c = some r := by
  intro n
  induction n with
  | zero =>
    intro cur c h
    exact ⟨1, ([], []), by rw [walk, if_neg (by push_cast at h; linarith)]⟩
  | succ n ih =>
    intro cur c h
    by_cases hgt : cur > t1
    · obtain ⟨k1, s, hs⟩ := stretch_terminates fine_exact o cur (max (id (cur - o.delta)) t1) c (decide (o.f (max (id (cur - o.delta)) t1) ≤ o.crit))
      obtain ⟨k2, r, hr⟩ := ih (max (id (cur - o.delta)) t1) (decide (o.f (max (id (cur - o.delta)) t1) ≤ o.crit)) (by
        have : (0 : ℝ) ≤ n * o.delta := by positivity
        push_cast at h
        rcases max_choice (id (cur - o.delta)) t1 with e | e <;> rw [e]
        · simp only [id]; linarith
        · linarith)
      refine ⟨max k1 k2 + 1, (s.2.2 ++ r.1, if s.2.1 ≠ 0 then (s.1, s.2.1) :: r.2 else r.2), ?_⟩
      rw [walk, if_pos hgt]
      simp only [stretch_mono (le_max_left k1 k2) hs, Option.bind_some, walk_mono _ _ _ _ _ (le_max_right k1 k2) hr, Option.map_some]
    · exact ⟨1, _, by rw [walk, if_neg hgt]⟩

/-- **C35 (partial: exact arithmetic, see `impact_step_wrong`)** With exact arithmetic and a positive step, `Impact` returns, whatever the object. -/
theorem impact_terminates_partial {o : Obj} (hd : 0 < o.delta) (t1 t2 : ℝ) : ∃ k r, impact id o k t1 t2 = some r := by
  have hends : ∃ k e, ∀ k' ≥ k, ends id o k' t1 t2 = some e := by
    unfold ends
    by_cases hv1 : o.f t1 > o.crit <;> by_cases hv2 : o.f t2 > o.crit <;> simp only [hv1, hv2, if_true, if_false]
    · have hc : ∃ k m, ∀ k' ≥ k, closestOf id o k' t1 t2 = some m := by
        unfold closestOf
        by_cases hs : o.f t1 > o.safety ∧ o.f t2 > o.safety
        · exact ⟨0, _, fun k' _ => by rw [if_pos hs]⟩
        · obtain ⟨k, m, h⟩ := findMin_terminates_fine fine_exact o.f o.crit t1 t2
          exact ⟨k, m, fun k' hk' => by rw [if_neg hs]; exact findMin_mono hk' h⟩
      obtain ⟨k0, m, hm⟩ := hc
      obtain ⟨k1, r1, h1⟩ := findValue_terminates_partial fine_exact o.f o.crit m.tmin t1
      obtain ⟨k2, r2, h2⟩ := findValue_terminates_partial fine_exact o.f o.crit m.tmin t2
      refine ⟨max k0 (max k1 k2), if m.val > o.crit then (.inl (m.tmin, m.val), m.asked) else (.inr (r1.1, r2.1), m.asked ++ r2.2 ++ r1.2),
        fun k' hk' => ?_⟩
      have i0 : k0 ≤ k' := le_trans (le_max_left _ _) hk'
      have i1 : k1 ≤ k' := le_trans (le_trans (le_max_left k1 k2) (le_max_right k0 _)) hk'
      have i2 : k2 ≤ k' := le_trans (le_trans (le_max_right k1 k2) (le_max_right k0 _)) hk'
      simp only [hm k' i0, Option.bind_eq_bind, Option.bind_some, findValue_mono _ _ _ _ _ i1 h1, findValue_mono _ _ _ _ _ i2 h2]
      split_ifs <;> rfl
    · obtain ⟨k1, r1, h1⟩ := findValue_terminates_partial fine_exact o.f o.crit t2 t1
      exact ⟨k1, (.inr (r1.1, t2), r1.2), fun k' hk' => by rw [findValue_mono _ _ _ _ _ hk' h1]; rfl⟩
    · obtain ⟨k1, r1, h1⟩ := findValue_terminates_partial fine_exact o.f o.crit t1 t2
      exact ⟨k1, (.inr (t1, r1.1), r1.2), fun k' hk' => by rw [findValue_mono _ _ _ _ _ hk' h1]; rfl⟩
    · exact ⟨0, _, fun _ _ => rfl⟩
  obtain ⟨k1, ⟨e, asked⟩, he⟩ := hends
  match e, he with
  | .inl c, he => exact ⟨k1, ⟨false, some c, asked, []⟩, by simp only [impact, he k1 le_rfl, Option.bind_eq_bind, Option.bind_some]⟩
  | .inr (a, b), he =>
    obtain ⟨n, hn⟩ := exists_nat_ge ((b - a) / o.delta)
    obtain ⟨k2, r, hr⟩ := walk_terminates hd a n b true ((div_le_iff₀ hd).1 hn)
    refine ⟨max k1 k2, ⟨true, none, asked ++ b :: r.1, r.2⟩, ?_⟩
    simp only [impact, he _ (le_max_left k1 k2), Option.bind_eq_bind, Option.bind_some, walk_mono _ _ _ _ _ (le_max_right k1 k2) hr]

/-- **Finding (C35)** Nothing checks that the step is positive and larger than the spacing of dates: as soon as going back by one step does
not change the date, `Impact` never returns. -/
theorem impact_step_wrong {rnd : ℝ → ℝ} {o : Obj} {t1 t2 : ℝ} (h12 : t1 < t2) (h1 : o.f t1 ≤ o.crit) (h2 : o.f t2 ≤ o.crit)
    (hstuck : ∀ t, t1 < t → t ≤ rnd (t - o.delta)) (k : ℕ) : impact rnd o k t1 t2 = none := by
  have hw : ∀ (k : ℕ) (cur : ℝ) (c : Bool), t1 < cur → walk rnd o t1 k cur c = none := by
    intro k
    induction k with
    | zero => intros; rfl
    | succ k ih =>
      intro cur c hgt
      rw [walk, if_pos hgt]
      simp only [ih (max (rnd (cur - o.delta)) t1) _ (lt_max_of_lt_left (hgt.trans_le (hstuck cur hgt))), Option.map_none]
      cases stretch rnd o k cur (max (rnd (cur - o.delta)) t1) c (decide (o.f (max (rnd (cur - o.delta)) t1) ≤ o.crit)) <;> rfl
  simp [impact, ends, not_lt.2 h1, not_lt.2 h2, hw k t2 true h12]

/-- Step zero, accepted by `deltaInObj`. -/
example (k : ℕ) : impact id ⟨fun _ => 0, 1, 2, 0⟩ k 0 1 = none :=
  impact_step_wrong (by norm_num) (by norm_num) (by norm_num) (fun t _ => by simp) k

/-- A sphere of radius 1 crossed at unit speed between dates -3 and 3 with a step of 2: whatever the details, everything asked is in the
segment, something is hit and no stretch is longer than the diameter. -/
example : ∃ k r, impact id ⟨fun t => t ^ 2, 1, 100, 2⟩ k (-3) 3 = some r ∧ (∀ s ∈ r.asked, -3 ≤ s ∧ s ≤ 3) ∧ ∀ h ∈ r.hits, h.2 ≤ 2 := by
  obtain ⟨k, r, h⟩ := impact_terminates_partial (o := ⟨fun t => t ^ 2, 1, 100, 2⟩) (by norm_num) (-3) 3
  obtain ⟨h1, h2, -⟩ := impact_in_segment exact (by norm_num) trivial trivial (by norm_num) h
  refine ⟨k, r, h, h1, fun x hx => ?_⟩
  obtain ⟨-, -, -, a, b⟩ := h2.each x hx
  simp only at a b
  have := abs_le_one_iff_mul_self_le_one.2 (by nlinarith : x.1 * x.1 ≤ 1)
  have h3 := abs_le_one_iff_mul_self_le_one.2 (by nlinarith : (x.1 - x.2) * (x.1 - x.2) ≤ 1)
  linarith [(abs_le.1 this).2, (abs_le.1 h3).1]

/-! ## Closest approach of photons that miss -/

/-- **C35** After any number of missed segments, the distance stored is the smallest of the initial one and those of all
segments. -/
theorem closest_distance (l : List (ℝ × ℝ)) (d : Closest) (x : ℝ) (hx : d.distance = some x) :
    ∃ y, (l.foldl (fun d m => d.update m.1 m.2) d).distance = some y ∧ y ≤ x ∧ (∀ m ∈ l, y ≤ m.2) ∧ (y = x ∨ ∃ m ∈ l, y = m.2) := by
  induction l generalizing d x with
  | nil => exact ⟨x, hx, le_rfl, by simp, Or.inl rfl⟩
  | cons m l ih =>
    obtain ⟨y, h1, h2, h3, h4⟩ := ih (d.update m.1 m.2) (if x > m.2 then m.2 else x) (by simp [Closest.update, hx])
    refine ⟨y, h1, ?_, ?_, ?_⟩
    · split_ifs at h2 <;> linarith
    · intro m' hm'
      rcases List.mem_cons.1 hm' with rfl | hm'
      · split_ifs at h2 <;> linarith
      · exact h3 m' hm'
    · rcases h4 with h4 | ⟨m', hm', h4⟩
      · split_ifs at h4
        · exact Or.inr ⟨m, by simp, h4⟩
        · exact Or.inl h4
      · exact Or.inr ⟨m', List.mem_cons_of_mem _ hm', h4⟩

theorem first_dmin_fixed (l : List (ℝ × ℝ)) (d : Closest) (x : ℝ) (hx : d.first_dmin = some x) (hf : d.first_dmin_found = true) :
    (l.foldl (fun d m => d.update m.1 m.2) d).first_dmin = some x ∧ (l.foldl (fun d m => d.update m.1 m.2) d).first_dmin_found = true := by
  induction l generalizing d with
  | nil => exact ⟨hx, hf⟩
  | cons m l ih => exact ih _ (by simp [Closest.update, hx, hf]) (by simp [Closest.update, hx, hf])

/-- **C35** The first minimum: the distances of the segments decrease strictly until the value stored, and the next one, if any, is not
smaller. -/
theorem first_minimum (l : List (ℝ × ℝ)) (d : Closest) (x : ℝ) (hx : d.first_dmin = some x) (hf : d.first_dmin_found = false) :
    ∃ pre post y, l = pre ++ post ∧ (x :: pre.map Prod.snd).Pairwise (· > ·) ∧ (x :: pre.map Prod.snd).getLast? = some y ∧
      (∀ m ∈ post.head?, y ≤ m.2) ∧ (l.foldl (fun d m => d.update m.1 m.2) d).first_dmin = some y ∧
      ((l.foldl (fun d m => d.update m.1 m.2) d).first_dmin_found = true ↔ post ≠ []) := by
  induction l generalizing d x with
  | nil => exact ⟨[], [], x, rfl, by simp, by simp, by simp, hx, by simp [hf]⟩
  | cons m l ih =>
    by_cases hm : x > m.2
    · obtain ⟨pre, post, y, h1, h2, h3, h4, h5, h6⟩ := ih (d.update m.1 m.2) m.2 (by simp [Closest.update, hx, hf, hm])
        (by simp [Closest.update, hx, hf, hm])
      refine ⟨m :: pre, post, y, by rw [h1]; rfl, ?_, ?_, h4, h5, h6⟩
      · rw [List.map_cons, List.pairwise_cons]
        refine ⟨fun z hz => ?_, h2⟩
        rcases List.mem_cons.1 hz with rfl | hz
        · exact hm
        · exact (List.rel_of_pairwise_cons h2 hz).trans hm
      · rw [List.map_cons, List.getLast?_cons_cons]; exact h3
    · obtain ⟨h5, h6⟩ := first_dmin_fixed l (d.update m.1 m.2) x (by simp [Closest.update, hx, hm])
        (by simp [Closest.update, hx, hf, hm])
      exact ⟨[], m :: l, x, rfl, by simp, by simp, by simpa using not_lt.1 hm, h5, by simpa using h6⟩

/-- Two minima: the first one is kept in one place, the smallest in the other. -/
example : ((([(1, 5), (2, 3), (3, 4), (4, 1)] : List (ℝ × ℝ)).foldl (fun (d : Closest) m => d.update m.1 m.2) ⟨some 0, some 9, some 9, false⟩).first_dmin,
    (([(1, 5), (2, 3), (3, 4), (4, 1)] : List (ℝ × ℝ)).foldl (fun (d : Closest) m => d.update m.1 m.2) ⟨some 0, some 9, some 9, false⟩).distance) = (some 3, some 1) := by
  norm_num [Closest.update]

end Gyoto.Impact
