import Verif.Model.Bisect
import Mathlib.Algebra.Order.Archimedean.Real.Basic
import Mathlib.Analysis.SpecificLimits.Basic
import Mathlib.Tactic.NormNum
import Mathlib.Tactic.Linarith

/-! # C34: searching a date along a photon -/

namespace Gyoto.Bisect

/-- What is assumed of the rounding of dates: it is monotone, gives dates of the set `F` of representable ones and leaves them
unchanged. Holds for exact arithmetic (`exact`) and for rounding to nearest. -/
structure Rounding (F : Set ℝ) (rnd : ℝ → ℝ) : Prop where
  mem : ∀ x, rnd x ∈ F
  fix : ∀ x ∈ F, rnd x = x
  mono : Monotone rnd

theorem exact : Rounding Set.univ id := ⟨fun _ => trivial, fun _ _ => rfl, monotone_id⟩

theorem Rounding.mid {F : Set ℝ} {rnd : ℝ → ℝ} (h : Rounding F rnd) {a b : ℝ} (ha : a ∈ F) (hb : b ∈ F) :
    min a b ≤ rnd (0.5 * (a + b)) ∧ rnd (0.5 * (a + b)) ≤ max a b := by
  have h1 : min a b ≤ 0.5 * (a + b) := by
    have := min_le_left a b; have := min_le_right a b; rw [show (0.5 : ℝ) = 1 / 2 by norm_num]; linarith
  have h2 : 0.5 * (a + b) ≤ max a b := by
    have := le_max_left a b; have := le_max_right a b; rw [show (0.5 : ℝ) = 1 / 2 by norm_num]; linarith
  have f1 : rnd (min a b) = min a b := by rcases min_choice a b with e | e <;> rw [e] <;> exact h.fix _ ‹_›
  have f2 : rnd (max a b) = max a b := by rcases max_choice a b with e | e <;> rw [e] <;> exact h.fix _ ‹_›
  exact ⟨f1 ▸ h.mono h1, f2 ▸ h.mono h2⟩

theorem step_in {rnd f : ℝ → ℝ} {value tin tout : ℝ} (hfar : |tout - tin| > tTol) (hlt : f (rnd (0.5 * (tin + tout))) < value) (k : ℕ) :
    findValue rnd f value (k + 1) tin tout =
      (findValue rnd f value k (rnd (0.5 * (tin + tout))) tout).map fun r => (r.1, rnd (0.5 * (tin + tout)) :: r.2) := by
  rw [findValue, if_pos hfar]; simp only [if_pos hlt]

theorem step_out {rnd f : ℝ → ℝ} {value tin tout : ℝ} (hfar : |tout - tin| > tTol) (hlt : ¬ f (rnd (0.5 * (tin + tout))) < value) (k : ℕ) :
    findValue rnd f value (k + 1) tin tout =
      (findValue rnd f value k tin (rnd (0.5 * (tin + tout)))).map fun r => (r.1, rnd (0.5 * (tin + tout)) :: r.2) := by
  rw [findValue, if_pos hfar]; simp only [if_neg hlt]

theorem step_end {rnd f : ℝ → ℝ} {value tin tout : ℝ} (hfar : ¬ |tout - tin| > tTol) (k : ℕ) :
    findValue rnd f value (k + 1) tin tout = some (tin, []) := by
  rw [findValue, if_neg hfar]

/-- What a search between the date `tin` and the date `tout` has to find: a date of the segment, inside the object, less than the
tolerance away from a date of the segment that is outside. -/
structure Surface (f : ℝ → ℝ) (value tin tout t : ℝ) : Prop where
  between : min tin tout ≤ t ∧ t ≤ max tin tout
  inside : f t ≤ value
  near : ∃ w, |w - t| ≤ 1 / 10000 ∧ min tin tout ≤ w ∧ w ≤ max tin tout ∧ value ≤ f w

theorem Surface.mono {f : ℝ → ℝ} {value a b c d t : ℝ} (h : Surface f value a b t) (h1 : min c d ≤ min a b) (h2 : max a b ≤ max c d) :
    Surface f value c d t :=
  ⟨⟨h1.trans h.between.1, h.between.2.trans h2⟩, h.inside,
    h.near.imp fun _ hw => ⟨hw.1, h1.trans hw.2.1, hw.2.2.1.trans h2, hw.2.2.2⟩⟩

/-- **C34** Starting from a date inside the object and a date outside (or on the surface), whatever the rounding, the date found is
inside the object, between the two, and less than the tolerance away from a date that is not strictly inside. Only dates between
the two are asked. -/
theorem findValue_surface {F : Set ℝ} {rnd f : ℝ → ℝ} (hr : Rounding F rnd) {value : ℝ} :
    ∀ (k : ℕ) (tin tout t : ℝ) (asked : List ℝ), tin ∈ F → tout ∈ F → f tin ≤ value → value ≤ f tout →
      findValue rnd f value k tin tout = some (t, asked) →
      Surface f value tin tout t ∧ t ∈ F ∧ ∀ s ∈ asked, min tin tout ≤ s ∧ s ≤ max tin tout := by
  intro k
  induction k with
  | zero => intro tin tout t asked _ _ _ _ h; simp [findValue] at h
  | succ k ih =>
    intro tin tout t asked hin hout h1 h2 h
    by_cases hfar : |tout - tin| > tTol
    on_goal 1 => by_cases hlt : f (rnd (0.5 * (tin + tout))) < value
    · rw [step_in hfar hlt] at h
      obtain ⟨⟨t', a'⟩, hr', he⟩ := Option.map_eq_some_iff.1 h
      simp only [Prod.mk.injEq] at he
      obtain ⟨rfl, rfl⟩ := he
      have hm := hr.mid hin hout
      obtain ⟨hs, hF, ha⟩ := ih _ _ _ _ (hr.mem _) hout hlt.le h2 hr'
      have l1 : min tin tout ≤ min (rnd (0.5 * (tin + tout))) tout := le_min hm.1 (min_le_right _ _)
      have l2 : max (rnd (0.5 * (tin + tout))) tout ≤ max tin tout := max_le hm.2 (le_max_right _ _)
      refine ⟨hs.mono l1 l2, hF, fun s hs' => ?_⟩
      rcases List.mem_cons.1 hs' with rfl | hs'
      · exact hm
      · exact ⟨l1.trans (ha s hs').1, (ha s hs').2.trans l2⟩
    · rw [step_out hfar hlt] at h
      obtain ⟨⟨t', a'⟩, hr', he⟩ := Option.map_eq_some_iff.1 h
      simp only [Prod.mk.injEq] at he
      obtain ⟨rfl, rfl⟩ := he
      have hm := hr.mid hin hout
      obtain ⟨hs, hF, ha⟩ := ih _ _ _ _ hin (hr.mem _) h1 (not_lt.1 hlt) hr'
      have l1 : min tin tout ≤ min tin (rnd (0.5 * (tin + tout))) := le_min (min_le_left _ _) hm.1
      have l2 : max tin (rnd (0.5 * (tin + tout))) ≤ max tin tout := max_le (le_max_left _ _) hm.2
      refine ⟨hs.mono l1 l2, hF, fun s hs' => ?_⟩
      rcases List.mem_cons.1 hs' with rfl | hs'
      · exact hm
      · exact ⟨l1.trans (ha s hs').1, (ha s hs').2.trans l2⟩
    · rw [step_end hfar] at h
      simp only [Option.some.injEq, Prod.mk.injEq] at h
      obtain ⟨rfl, rfl⟩ := h
      refine ⟨⟨⟨min_le_left _ _, le_max_left _ _⟩, h1, tout, ?_, min_le_right _ _, le_max_right _ _, h2⟩, hin, by simp⟩
      rw [tTol] at hfar
      norm_num at hfar ⊢
      linarith

/-- More steps do not change the result. -/
theorem findValue_mono {rnd f : ℝ → ℝ} {value : ℝ} :
    ∀ (k m : ℕ) (tin tout : ℝ) (r : ℝ × List ℝ), k ≤ m → findValue rnd f value k tin tout = some r →
      findValue rnd f value m tin tout = some r := by
  intro k
  induction k with
  | zero => intro m tin tout r _ h; simp [findValue] at h
  | succ k ih =>
    intro m tin tout r hm h
    obtain ⟨m, rfl⟩ : ∃ m', m = m' + 1 := ⟨m - 1, by omega⟩
    by_cases hfar : |tout - tin| > tTol
    on_goal 1 => by_cases hlt : f (rnd (0.5 * (tin + tout))) < value
    · rw [step_in hfar hlt] at h ⊢
      obtain ⟨r', hr', he⟩ := Option.map_eq_some_iff.1 h
      rw [ih m _ _ r' (by omega) hr']; exact congrArg some he
    · rw [step_out hfar hlt] at h ⊢
      obtain ⟨r', hr', he⟩ := Option.map_eq_some_iff.1 h
      rw [ih m _ _ r' (by omega) hr']; exact congrArg some he
    · rw [step_end hfar] at h ⊢
      exact h

/-- Roundings fine enough for the search: the rounded midpoint of two dates that are further apart than the tolerance is at most a
quarter of their distance away from the midpoint. -/
def Fine (rnd : ℝ → ℝ) : Prop := ∀ a b, |b - a| > 1 / 10000 → |rnd (0.5 * (a + b)) - 0.5 * (a + b)| ≤ |b - a| / 4

theorem fine_exact : Fine id := fun a b _ => by simp; positivity

theorem Fine.shrink {rnd : ℝ → ℝ} (h : Fine rnd) {a b : ℝ} (hab : |b - a| > 1 / 10000) :
    |b - rnd (0.5 * (a + b))| ≤ 3 / 4 * |b - a| ∧ |rnd (0.5 * (a + b)) - a| ≤ 3 / 4 * |b - a| := by
  have h' := h a b hab
  generalize rnd (0.5 * (a + b)) = t at *
  norm_num at h'
  constructor
  · calc |b - t| = |(b - a) / 2 - (t - 1 / 2 * (a + b))| := by congr 1; ring
      _ ≤ |(b - a) / 2| + |t - 1 / 2 * (a + b)| := abs_sub _ _
      _ ≤ _ := by rw [abs_div]; norm_num; linarith
  · calc |t - a| = |(b - a) / 2 + (t - 1 / 2 * (a + b))| := by congr 1; ring
      _ ≤ |(b - a) / 2| + |t - 1 / 2 * (a + b)| := abs_add_le _ _
      _ ≤ _ := by rw [abs_div]; norm_num; linarith

/-- **C34 (partial: dates that are too coarse are excluded, see `findValue_adjacent_wrong`)** With exact arithmetic, or a rounding that is fine enough, the search ends, for any function and any two dates. -/
theorem findValue_terminates_partial {rnd : ℝ → ℝ} (hf : Fine rnd) (f : ℝ → ℝ) (value tin tout : ℝ) :
    ∃ k r, findValue rnd f value k tin tout = some r := by
  obtain ⟨n, hn⟩ : ∃ n : ℕ, |tout - tin| * (3 / 4 : ℝ) ^ n ≤ 1 / 10000 := by
    have := (tendsto_pow_atTop_nhds_zero_of_lt_one (r := (3 / 4 : ℝ)) (by norm_num) (by norm_num)).const_mul |tout - tin|
    rw [mul_zero] at this
    obtain ⟨n, hn⟩ := (this.eventually_lt_const (show (0 : ℝ) < 1 / 10000 by norm_num)).exists
    exact ⟨n, hn.le⟩
  refine ⟨n + 1, ?_⟩
  induction n generalizing tin tout with
  | zero =>
    have : ¬ |tout - tin| > tTol := by rw [tTol]; norm_num at hn ⊢; linarith
    exact ⟨_, by rw [findValue, if_neg this]⟩
  | succ n ih =>
    by_cases hfar : |tout - tin| > tTol
    · have hs := hf.shrink (a := tin) (b := tout) (by rw [tTol] at hfar; norm_num at hfar ⊢; linarith)
      have hp : (0 : ℝ) < (3 / 4) ^ n := by positivity
      rw [pow_succ] at hn
      by_cases hlt : f (rnd (0.5 * (tin + tout))) < value
      · obtain ⟨r, hr⟩ := ih (rnd (0.5 * (tin + tout))) tout
          (le_trans (mul_le_mul_of_nonneg_right hs.1 hp.le) (le_trans (le_of_eq (by ring)) hn))
        exact ⟨_, by rw [step_in hfar hlt, hr]; rfl⟩
      · obtain ⟨r, hr⟩ := ih tin (rnd (0.5 * (tin + tout)))
          (le_trans (mul_le_mul_of_nonneg_right hs.2 hp.le) (le_trans (le_of_eq (by ring)) hn))
        exact ⟨_, by rw [step_out hfar hlt, hr]; rfl⟩
    · exact ⟨_, by rw [findValue, if_neg hfar]⟩

/-- **Finding (C34)** As soon as there is no representable date between the two while they are further apart than the tolerance,
the search never ends (`findMin` has a test for this, `findValue` does not). With doubles, this happens for dates beyond 2^39. -/
theorem findValue_adjacent_wrong {F : Set ℝ} {rnd f : ℝ → ℝ} (hr : Rounding F rnd) {value tin tout : ℝ} (hin : tin ∈ F) (hout : tout ∈ F)
    (hadj : ∀ t ∈ F, min tin tout ≤ t → t ≤ max tin tout → t = tin ∨ t = tout) (hfar : |tout - tin| > 1 / 10000)
    (h1 : f tin < value) (h2 : value ≤ f tout) (k : ℕ) : findValue rnd f value k tin tout = none := by
  have hfar' : |tout - tin| > tTol := by rw [tTol]; norm_num at hfar ⊢; linarith
  have hm := hr.mid hin hout
  induction k with
  | zero => rfl
  | succ k ih =>
    rcases hadj _ (hr.mem _) hm.1 hm.2 with e | e
    · rw [step_in hfar' (by rw [e]; exact h1), e, ih]; rfl
    · rw [step_out hfar' (by rw [e]; exact not_lt.2 h2), e, ih]; rfl

/-- **C34** `findMin`: the value returned is that of the function at the date returned, which is in the segment and representable, and is not
larger than the values at both ends. Only dates of the segment are asked. The dates of the segment and their number do not
matter. -/
theorem minLoop_spec {F : Set ℝ} {rnd f : ℝ → ℝ} (hr : Rounding F rnd) {threshold : ℝ} :
    ∀ (k : ℕ) (t1 t2 cur : ℝ) (m : Min), t1 ∈ F → t2 ∈ F → t1 ≤ t2 → minLoop rnd f threshold k t1 t2 (f t1) (f t2) cur = some m →
      m.val = f m.tmin ∧ t1 ≤ m.tmin ∧ m.tmin ≤ t2 ∧ m.tmin ∈ F ∧ m.val ≤ f t1 ∧ m.val ≤ f t2 ∧ ∀ s ∈ m.asked, t1 ≤ s ∧ s ≤ t2 := by
  intro k
  induction k with
  | zero => intro t1 t2 cur m _ _ _ h; simp [minLoop] at h
  | succ k ih =>
    intro t1 t2 cur m h1 h2 h12 h
    have hstop : ∀ m : Min, m = (if f t1 < f t2 then ⟨f t1, t1, []⟩ else ⟨f t2, t2, []⟩ : Min) →
        m.val = f m.tmin ∧ t1 ≤ m.tmin ∧ m.tmin ≤ t2 ∧ m.tmin ∈ F ∧ m.val ≤ f t1 ∧ m.val ≤ f t2 ∧ ∀ s ∈ m.asked, t1 ≤ s ∧ s ≤ t2 := by
      intro m hm
      split_ifs at hm with hlt
      · subst hm; exact ⟨rfl, le_rfl, h12, h1, le_rfl, hlt.le, by simp⟩
      · subst hm; exact ⟨rfl, h12, le_rfl, h2, not_lt.1 hlt, le_rfl, by simp⟩
    have hm := hr.mid h1 h2
    rw [min_eq_left h12, max_eq_right h12] at hm
    rw [minLoop] at h
    by_cases hgo : |t2 - t1| > tTol ∧ cur > threshold
    · rw [if_pos hgo] at h
      by_cases hend : rnd (0.5 * (t1 + t2)) = t1 ∨ rnd (0.5 * (t1 + t2)) = t2
      · simp only [if_pos hend, Option.some.injEq] at h
        exact hstop m h.symm
      · simp only [if_neg hend] at h
        by_cases hlt : f t1 < f t2
        · rw [if_pos hlt] at h
          obtain ⟨m', hm', he⟩ := Option.map_eq_some_iff.1 h
          obtain ⟨a1, a2, a3, a4, a5, a6, a7⟩ := ih _ _ _ _ h1 (hr.mem _) hm.1 hm'
          subst he
          refine ⟨a1, a2, a3.trans hm.2, a4, a5, a5.trans hlt.le, fun s hs => ?_⟩
          rcases List.mem_cons.1 hs with rfl | hs
          · exact hm
          · exact ⟨(a7 s hs).1, (a7 s hs).2.trans hm.2⟩
        · rw [if_neg hlt] at h
          obtain ⟨m', hm', he⟩ := Option.map_eq_some_iff.1 h
          obtain ⟨a1, a2, a3, a4, a5, a6, a7⟩ := ih _ _ _ _ (hr.mem _) h2 hm.2 hm'
          subst he
          refine ⟨a1, hm.1.trans a2, a3, a4, a6.trans (not_lt.1 hlt), a6, fun s hs => ?_⟩
          rcases List.mem_cons.1 hs with rfl | hs
          · exact hm
          · exact ⟨hm.1.trans (a7 s hs).1, (a7 s hs).2⟩
    · rw [if_neg hgo, Option.some.injEq] at h
      exact hstop m h.symm

/-- **C34** See `minLoop_spec`. -/
theorem findMin_spec {F : Set ℝ} {rnd f : ℝ → ℝ} (hr : Rounding F rnd) {threshold t1 t2 : ℝ} {k : ℕ} {m : Min} (h1 : t1 ∈ F) (h2 : t2 ∈ F)
    (h12 : t1 ≤ t2) (h : findMin rnd f threshold k t1 t2 = some m) :
    m.val = f m.tmin ∧ t1 ≤ m.tmin ∧ m.tmin ≤ t2 ∧ m.tmin ∈ F ∧ m.val ≤ f t1 ∧ m.val ≤ f t2 ∧ ∀ s ∈ m.asked, t1 ≤ s ∧ s ≤ t2 := by
  obtain ⟨m', hm', he⟩ := Option.map_eq_some_iff.1 h
  obtain ⟨a1, a2, a3, a4, a5, a6, a7⟩ := minLoop_spec hr k t1 t2 _ m' h1 h2 h12 hm'
  subst he
  refine ⟨a1, a2, a3, a4, a5, a6, fun s hs => ?_⟩
  rcases List.mem_cons.1 hs with rfl | hs
  · exact ⟨le_rfl, h12⟩
  rcases List.mem_cons.1 hs with rfl | hs
  · exact ⟨h12, le_rfl⟩
  · exact a7 s hs

/-- **C34** `findMin` ends whenever there are finitely many representable dates in the segment (as with doubles), whatever their
spacing. -/
theorem findMin_terminates {F : Set ℝ} {rnd f : ℝ → ℝ} (hr : Rounding F rnd) {threshold t1 t2 : ℝ} (h1 : t1 ∈ F) (h2 : t2 ∈ F)
    (h12 : t1 ≤ t2) (hfin : (F ∩ Set.Icc t1 t2).Finite) : ∃ k m, findMin rnd f threshold k t1 t2 = some m := by
  suffices H : ∀ (n : ℕ) (t1 t2 val1 val2 cur : ℝ), t1 ∈ F → t2 ∈ F → t1 ≤ t2 → (F ∩ Set.Icc t1 t2).Finite →
      (F ∩ Set.Icc t1 t2).ncard ≤ n → ∃ m, minLoop rnd f threshold (n + 1) t1 t2 val1 val2 cur = some m by
    obtain ⟨m, hm⟩ := H _ t1 t2 (f t1) (f t2) dblMax h1 h2 h12 hfin le_rfl
    exact ⟨_, _, by rw [findMin, hm]; rfl⟩
  intro n
  induction n with
  | zero =>
    intro t1 t2 val1 val2 cur h1 h2 h12 hfin hn
    have := (Set.ncard_eq_zero hfin).1 (by omega)
    exact absurd (show t1 ∈ F ∩ Set.Icc t1 t2 from ⟨h1, le_rfl, h12⟩) (by rw [this]; simp)
  | succ n ih =>
    intro t1 t2 val1 val2 cur h1 h2 h12 hfin hn
    have hm := hr.mid h1 h2
    rw [min_eq_left h12, max_eq_right h12] at hm
    rw [minLoop]
    by_cases hgo : |t2 - t1| > tTol ∧ cur > threshold
    · rw [if_pos hgo]
      by_cases hend : rnd (0.5 * (t1 + t2)) = t1 ∨ rnd (0.5 * (t1 + t2)) = t2
      · simp only [if_pos hend]; exact ⟨_, rfl⟩
      · simp only [if_neg hend]
        push Not at hend
        by_cases hlt : val1 < val2
        · have hss : F ∩ Set.Icc t1 (rnd (0.5 * (t1 + t2))) ⊂ F ∩ Set.Icc t1 t2 := by
            refine ⟨fun x hx => ⟨hx.1, hx.2.1, hx.2.2.trans hm.2⟩, fun hsub => ?_⟩
            exact hend.2 (le_antisymm hm.2 (hsub ⟨h2, h12, le_rfl⟩).2.2)
          obtain ⟨m, hm'⟩ := ih t1 (rnd (0.5 * (t1 + t2))) val1 (f (rnd (0.5 * (t1 + t2)))) (f (rnd (0.5 * (t1 + t2)))) h1 (hr.mem _)
            hm.1 (hfin.subset hss.1) (by have := Set.ncard_lt_ncard hss hfin; omega)
          rw [if_pos hlt, hm']; exact ⟨_, rfl⟩
        · have hss : F ∩ Set.Icc (rnd (0.5 * (t1 + t2))) t2 ⊂ F ∩ Set.Icc t1 t2 := by
            refine ⟨fun x hx => ⟨hx.1, hm.1.trans hx.2.1, hx.2.2⟩, fun hsub => ?_⟩
            exact hend.1 (le_antisymm (hsub ⟨h1, le_rfl, h12⟩).2.1 hm.1)
          obtain ⟨m, hm'⟩ := ih (rnd (0.5 * (t1 + t2))) t2 (f (rnd (0.5 * (t1 + t2)))) val2 (f (rnd (0.5 * (t1 + t2)))) (hr.mem _) h2
            hm.2 (hfin.subset hss.1) (by have := Set.ncard_lt_ncard hss hfin; omega)
          rw [if_neg hlt, hm']; exact ⟨_, rfl⟩
    · rw [if_neg hgo]; exact ⟨_, rfl⟩

/-- **C34** `findMin` ends with exact arithmetic or a rounding that is fine enough, whatever the function. -/
theorem findMin_terminates_fine {rnd : ℝ → ℝ} (hf : Fine rnd) (f : ℝ → ℝ) (threshold t1 t2 : ℝ) :
    ∃ k m, findMin rnd f threshold k t1 t2 = some m := by
  suffices H : ∀ (n : ℕ) (t1 t2 val1 val2 cur : ℝ), |t2 - t1| * (3 / 4 : ℝ) ^ n ≤ 1 / 10000 →
      ∃ m, minLoop rnd f threshold (n + 1) t1 t2 val1 val2 cur = some m by
    have := (tendsto_pow_atTop_nhds_zero_of_lt_one (r := (3 / 4 : ℝ)) (by norm_num) (by norm_num)).const_mul |t2 - t1|
    rw [mul_zero] at this
    obtain ⟨n, hn⟩ := (this.eventually_lt_const (show (0 : ℝ) < 1 / 10000 by norm_num)).exists
    obtain ⟨m, hm⟩ := H n t1 t2 (f t1) (f t2) dblMax hn.le
    exact ⟨_, _, by rw [findMin, hm]; rfl⟩
  intro n
  induction n with
  | zero =>
    intro t1 t2 val1 val2 cur hn
    have : ¬ (|t2 - t1| > tTol ∧ cur > threshold) := by rw [tTol]; norm_num at hn ⊢; intro h; linarith
    exact ⟨_, by rw [minLoop, if_neg this]⟩
  | succ n ih =>
    intro t1 t2 val1 val2 cur hn
    rw [minLoop]
    by_cases hgo : |t2 - t1| > tTol ∧ cur > threshold
    · have hs := hf.shrink (a := t1) (b := t2) (by have := hgo.1; rw [tTol] at this; norm_num at this ⊢; linarith)
      have hp : (0 : ℝ) < (3 / 4) ^ n := by positivity
      rw [pow_succ] at hn
      rw [if_pos hgo]
      by_cases hend : rnd (0.5 * (t1 + t2)) = t1 ∨ rnd (0.5 * (t1 + t2)) = t2
      · simp only [if_pos hend]; exact ⟨_, rfl⟩
      · simp only [if_neg hend]
        by_cases hlt : val1 < val2
        · obtain ⟨m, hm⟩ := ih t1 (rnd (0.5 * (t1 + t2))) val1 (f (rnd (0.5 * (t1 + t2)))) (f (rnd (0.5 * (t1 + t2))))
            (le_trans (mul_le_mul_of_nonneg_right hs.2 hp.le) (le_trans (le_of_eq (by ring)) hn))
          rw [if_pos hlt, hm]; exact ⟨_, rfl⟩
        · obtain ⟨m, hm⟩ := ih (rnd (0.5 * (t1 + t2))) t2 (f (rnd (0.5 * (t1 + t2)))) val2 (f (rnd (0.5 * (t1 + t2))))
            (le_trans (mul_le_mul_of_nonneg_right hs.1 hp.le) (le_trans (le_of_eq (by ring)) hn))
          rw [if_neg hlt, hm]; exact ⟨_, rfl⟩
    · rw [if_neg hgo]; exact ⟨_, rfl⟩

theorem findMin_mono {rnd f : ℝ → ℝ} {threshold : ℝ} {k k' : ℕ} (hk : k ≤ k') {t1 t2 : ℝ} {m : Min}
    (h : findMin rnd f threshold k t1 t2 = some m) : findMin rnd f threshold k' t1 t2 = some m := by
  suffices H : ∀ (k k' : ℕ) (t1 t2 val1 val2 cur : ℝ) (m : Min), k ≤ k' → minLoop rnd f threshold k t1 t2 val1 val2 cur = some m →
      minLoop rnd f threshold k' t1 t2 val1 val2 cur = some m by
    obtain ⟨m', hm', he⟩ := Option.map_eq_some_iff.1 h
    rw [findMin, H _ _ _ _ _ _ _ _ hk hm']; exact congrArg some he
  intro k
  induction k with
  | zero => intro k' t1 t2 val1 val2 cur m _ h; simp [minLoop] at h
  | succ k ih =>
    intro k' t1 t2 val1 val2 cur m hk h
    obtain ⟨k', rfl⟩ : ∃ k'', k' = k'' + 1 := ⟨k' - 1, by omega⟩
    rw [minLoop] at h ⊢
    by_cases hgo : |t2 - t1| > tTol ∧ cur > threshold
    · rw [if_pos hgo] at h ⊢
      by_cases hend : rnd (0.5 * (t1 + t2)) = t1 ∨ rnd (0.5 * (t1 + t2)) = t2
      · simp only [if_pos hend] at h ⊢; exact h
      · simp only [if_neg hend] at h ⊢
        by_cases hlt : val1 < val2
        · rw [if_pos hlt] at h ⊢
          obtain ⟨m', hm', he⟩ := Option.map_eq_some_iff.1 h
          rw [ih _ _ _ _ _ _ _ (by omega) hm']; exact congrArg some he
        · rw [if_neg hlt] at h ⊢
          obtain ⟨m', hm', he⟩ := Option.map_eq_some_iff.1 h
          rw [ih _ _ _ _ _ _ _ (by omega) hm']; exact congrArg some he
    · rw [if_neg hgo] at h ⊢; exact h

/-- Sphere of radius 1 around date 0: from the centre to date 2, the surface is found from the inside. -/
example : ∃ k t asked, findValue id (fun t => t ^ 2) 1 k 0 2 = some (t, asked) ∧ 1 - 1 / 10000 ≤ t ∧ t ≤ 1 := by
  obtain ⟨k, ⟨t, asked⟩, h⟩ := findValue_terminates_partial fine_exact (fun t => t ^ 2) 1 0 2
  obtain ⟨hs, -, -⟩ := findValue_surface exact k 0 2 t asked trivial trivial (by norm_num) (by norm_num) h
  refine ⟨k, t, asked, h, ?_, ?_⟩
  · obtain ⟨w, hw, h0, -, h1⟩ := hs.near
    have h0' : 0 ≤ w := le_trans (by norm_num) h0
    have : 1 ≤ w := by nlinarith
    have := abs_le.1 hw
    linarith [this.2]
  · have h0 : 0 ≤ t := le_trans (by norm_num) hs.between.1
    have := hs.inside
    nlinarith

/-- Whole numbers as the only representable dates: the search does not end. -/
example (k : ℕ) : findValue (fun x => (⌊x⌋ : ℝ)) (fun t => t) (1 / 2) k 0 1 = none := by
  have hr : Rounding (Set.range fun n : ℤ => (n : ℝ)) (fun x => (⌊x⌋ : ℝ)) :=
    ⟨fun x => ⟨_, rfl⟩, by rintro _ ⟨n, rfl⟩; simp, fun x y h => by exact_mod_cast Int.floor_mono h⟩
  refine findValue_adjacent_wrong hr ⟨0, by simp⟩ ⟨1, by simp⟩ ?_ (by norm_num) (by norm_num) (by norm_num) k
  rintro _ ⟨n, rfl⟩ h0 h1
  norm_num at h0 h1
  have a0 : 0 ≤ n := by exact_mod_cast h0
  have a1 : n ≤ 1 := by exact_mod_cast h1
  rcases (by omega : n = 0 ∨ n = 1) with rfl | rfl <;> simp

end Gyoto.Bisect
