import Verif.Lemmas.DateSearch
import Verif.Props.Worldline
import Mathlib.Tactic.FieldSimp
import Mathlib.Tactic.Ring
import Mathlib.Tactic.Linarith
import Mathlib.Algebra.Order.Field.Basic
import Mathlib.Algebra.Order.Ring.Rat

/-! # C04 — looking up dates on a worldline -/

set_option linter.unusedSectionVars false

namespace Gyoto.Wline
variable {T : Type} [LinearOrder T]

/-- Specification of an answer about a date, in terms of what the arrays contain: the very point having
this date, or two consecutive points, the first strictly before the date and the second not before. -/
def Answers (s : Store T) (date : T) : Found → Prop
  | .exact i => s.imin ≤ i ∧ i ≤ s.imax ∧ s.get i = some date
  | .between a b => b = a + 1 ∧ s.imin ≤ a ∧ b ≤ s.imax ∧
      ∃ ta tb, s.get a = some ta ∧ s.get b = some tb ∧ ta < date ∧ date ≤ tb

/-- Specification of the whole request on the trajectory `l` (dates of the computed points): each request
`(date, pts)` (where `pts` are the points the integrator finds beyond the known part, when it is asked) is
answered from a trajectory which extends the former one by `pts`, at the end where the date is missing. -/
inductive AnswersAll : List T → List (T × List T) → List (Store T × Found) → List T → Prop where
  | nil (l) : AnswersAll l [] [] l
  | cons {l date pts rest s f l1 k fs l2} :
      Rep s l1 k → Answers s date f →
      ((l1 = l ∧ (∃ a ∈ l, a ≤ date) ∧ (∃ b ∈ l, date ≤ b)) ∨
       (l1 = l ++ pts ∧ ∃ t, l.getLast? = some t ∧ t < date) ∨
       (l1 = pts.reverse ++ l ∧ ∃ t, l.head? = some t ∧ date < t)) →
      AnswersAll l1 rest fs l2 → AnswersAll l ((date, pts) :: rest) ((s, f) :: fs) l2

/-- Some date is out of reach: the integrator, having been asked, stopped short of it. -/
inductive OutOfReach : List T → List (T × List T) → Prop where
  | future {l date pts rest t} : (l ++ pts).getLast? = some t → t < date →
      OutOfReach l ((date, pts) :: rest)
  | past {l date pts rest t} : (pts.reverse ++ l).head? = some t → date < t →
      OutOfReach l ((date, pts) :: rest)
  | later {l l1 date pts rest} : (l1 = l ∨ l1 = l ++ pts ∨ l1 = pts.reverse ++ l) →
      OutOfReach l1 rest → OutOfReach l ((date, pts) :: rest)

theorem answers_of_correct {s : Store T} {date f} (h : Correct s date f) : Answers s date f := by
  cases f with
  | exact i => exact h
  | between a b =>
    obtain ⟨h1, h2, h3, ⟨ta, h4, h5⟩, ⟨tb, h6, h7⟩⟩ := h
    exact ⟨h1, h2, h3, ta, tb, h4, h6, h5, h7⟩

theorem lookupAll_spec (reqs : List (T × List T)) : ∀ (st : SState T) (l : List T) (k : Nat),
    Rep st.s l k → Kept st →
    (∃ fs s' l' k', lookupAll st reqs = .ok (fs, s') ∧ Rep s' l' k' ∧ AnswersAll l reqs fs l') ∨
    (lookupAll st reqs = .error .cannotReach ∧ OutOfReach l reqs) := by
  induction reqs with
  | nil => intro st l k h _; exact Or.inl ⟨[], st.s, l, k, rfl, h, .nil l⟩
  | cons r rest ih =>
    obtain ⟨date, pts⟩ := r
    intro st l k h hk
    rcases lookup1_spec h hk date pts with ⟨st', f, l', k', e1, e2, e3, e4, e5⟩ | ⟨e1, e2⟩
    · rcases ih st' l' k' e2 e3 with ⟨fs, s2, l2, k2, g1, g2, g3⟩ | ⟨g1, g2⟩
      · refine Or.inl ⟨(st'.s, f) :: fs, s2, l2, k2, by simp [lookupAll, e1, g1], g2, ?_⟩
        exact .cons e2 (answers_of_correct e4) e5 g3
      · refine Or.inr ⟨by simp [lookupAll, e1, g1], .later ?_ g2⟩
        rcases e5 with ⟨h, _⟩ | ⟨h, _⟩ | ⟨h, _⟩
        · exact Or.inl h
        · exact Or.inr (Or.inl h)
        · exact Or.inr (Or.inr h)
    · refine Or.inr ⟨by simp [lookupAll, e1], ?_⟩
      rcases e2 with ⟨t, h1, h2⟩ | ⟨t, h1, h2⟩
      · exact .future h1 h2
      · exact .past h1 h2

/-- **C04.** Whatever trajectory the worldline holds, whatever dates are asked, in any order, and whatever
the integrator delivers when the worldline must be extended: no read is out of bounds; either every date is
answered with the right stored point or with two neighbours around the date, or the reported failure is
genuine. -/
theorem date_lookup {s : Store T} {t : Traj T} (h : Holds s t) (reqs : List (T × List T)) :
    (∃ fs s' l', lookup s reqs = .ok (fs, s') ∧ AnswersAll t.all reqs fs l') ∨
    (lookup s reqs = .error .cannotReach ∧ OutOfReach t.all reqs) := by
  have hr : Rep s t.all t.past.length := by
    obtain ⟨⟨a, b, c⟩, d, e, f⟩ := h
    have : t.past.length < t.all.length := by simp [Traj.all]
    refine ⟨this, by omega, by omega, c, fun j hj => ?_⟩
    have := f j hj
    unfold Store.get at this
    rwa [if_pos (by omega)] at this
  have h1 := hr.hk; have h2 := hr.himax
  rcases lookupAll_spec reqs ⟨s, s.imin, s.imax⟩ _ _ hr
    ⟨le_refl _, by simp only; omega, le_refl _⟩ with ⟨fs, s', l', k', e1, _, e3⟩ | e
  · exact Or.inl ⟨fs, s', l', e1, e3⟩
  · exact Or.inr e

/-- No out-of-bounds access, in short. -/
theorem date_lookup_no_ub {s : Store T} {t : Traj T} (h : Holds s t) (reqs : List (T × List T)) :
    lookup s reqs ≠ .error .ub := by
  rcases date_lookup h reqs with ⟨fs, s', l', e, -⟩ | ⟨e, -⟩ <;> rw [e] <;> simp

/-- If the dates of the trajectory strictly increase, there is only one correct bracket: the answer does not
depend on the dates asked before. -/
theorem bracket_unique {s : Store T} {l : List T} {k : Nat} (h : Rep s l k)
    (hs : l.Pairwise (· < ·)) {date : T} {a b a' b' : Nat}
    (h1 : Answers s date (.between a b)) (h2 : Answers s date (.between a' b')) : a = a' ∧ b = b' := by
  have mono : ∀ i j ti tj, s.imin ≤ i → i < j → j ≤ s.imax → s.get i = some ti → s.get j = some tj →
      ti < tj := by
    intro i j ti tj hi hij hj gi gj
    obtain ⟨q1, r1⟩ := rd_rep h hi (by omega)
    obtain ⟨q2, r2⟩ := rd_rep h (i := j) (by omega) hj
    rw [rd_get, gi] at r1
    rw [rd_get, gj] at r2
    simp only [Option.some.injEq] at r1 r2
    rw [r1, r2]
    exact List.pairwise_iff_getElem.1 hs _ _ _ _ (by omega)
  obtain ⟨p1, p2, p3, ta, tb, p4, p5, p6, p7⟩ := h1
  obtain ⟨q1, q2, q3, ta', tb', q4, q5, q6, q7⟩ := h2
  have : a = a' := by
    rcases Nat.lt_trichotomy a a' with hh | hh | hh
    · rcases Nat.lt_or_ge b a' with hb | hb
      · exact absurd (lt_of_le_of_lt p7 (lt_trans (mono b a' tb ta' (by omega) hb (by omega) p5 q4) q6))
          (lt_irrefl _)
      · have : b = a' := by omega
        subst this
        rw [p5] at q4; simp at q4; subst q4
        exact absurd (lt_of_le_of_lt p7 q6) (lt_irrefl _)
    · exact hh
    · rcases Nat.lt_or_ge b' a with hb | hb
      · exact absurd (lt_of_le_of_lt q7 (lt_trans (mono b' a tb' ta (by omega) hb (by omega) q5 p4) p6))
          (lt_irrefl _)
      · have : b' = a := by omega
        subst this
        rw [q5] at p4; simp at p4; subst p4
        exact absurd (lt_of_le_of_lt q7 p6) (lt_irrefl _)
  omega

/-- A worldline with three points in arrays of four elements (example). -/
def exStore : Store Int :=
  ⟨4, 0, 0, 2, fun j => if j = 2 then some 20 else if j = 1 then some 10 else if j = 0 then some 0 else none⟩

/-- Requests before, inside, on, and after the known part. -/
example : Holds exStore ⟨[], 0, [10, 20]⟩ ∧
    (lookup exStore [(15, []), (-5, [-3, -8]), (-3, []), (25, [30])]).map (fun r => r.1.map (·.2)) =
      .ok [.between 1 2, .between 2 3, .exact 3, .between 6 7] := by
  constructor
  · refine ⟨by decide, by decide, by decide, ?_⟩
    intro j hj
    simp [Traj.all] at hj
    rcases j with _ | _ | _ | j
    · rfl
    · rfl
    · rfl
    · omega
  · simp [exStore, lookup, lookupAll, lookup1, rd, Store.get, finish, bisect,
      fillE, Store.fill, Store.fillLoop, Store.fillStep, Store.expand, Store.put]
    rfl

section interpolation
variable {K : Type} [Field K] [LinearOrder K] [IsStrictOrderedRing K]

/-- **C04, choice of the estimates.** Starting from two points around the date, keeping the best of the
integrator's two tries leaves two points around the date, at most as far apart. -/
theorem best_bracket (date bl bh rl rh : K) (h1 : bl < date) (h2 : date < bh) :
    let b := bestBracket date bl bh rl rh
    bl ≤ b.1 ∧ b.1 ≤ date ∧ date < b.2 ∧ b.2 ≤ bh ∧ (rl ≤ date → rl ≤ b.1) ∧ (rh ≤ date → rh ≤ b.1) ∧
      (date < rl → b.2 ≤ rl) ∧ (date < rh → b.2 ≤ rh) := by
  simp only [bestBracket]
  split_ifs <;> simp only <;> refine ⟨?_, ?_, ?_, ?_, ?_, ?_, ?_, ?_⟩ <;> intros <;> linarith

/-- **C04, interpolation.** For a bracketing pair the weights are those of a convex combination which, for
the date itself, gives back the date. -/
theorem interpolation_at_date (date bl bh xl xh : K) (h1 : bl ≤ date) (h2 : date < bh) :
    lerpAt date bl bh bl bh = date ∧
    min xl xh ≤ lerpAt date bl bh xl xh ∧ lerpAt date bl bh xl xh ≤ max xl xh ∧
    (date = bl → lerpAt date bl bh xl xh = xl) := by
  have hd : 0 < bh - bl := by linarith
  have hne : bh - bl ≠ 0 := ne_of_gt hd
  set f := (date - bl) * (1 / (bh - bl)) with hf
  have hf0 : 0 ≤ f := mul_nonneg (by linarith) (le_of_lt (by positivity))
  have hf1 : f ≤ 1 := by
    rw [hf, mul_one_div, div_le_one hd]; linarith
  have e : ∀ xl xh, lerpAt date bl bh xl xh = xl * (1 - f) + xh * f := fun _ _ => rfl
  refine ⟨?_, ?_, ?_, ?_⟩
  · rw [e, hf]; field_simp; ring
  · rw [e]
    have := mul_le_mul_of_nonneg_right (min_le_left xl xh) (show 0 ≤ 1 - f by linarith)
    have := mul_le_mul_of_nonneg_right (min_le_right xl xh) hf0
    nlinarith
  · rw [e]
    have := mul_le_mul_of_nonneg_right (le_max_left xl xh) (show 0 ≤ 1 - f by linarith)
    have := mul_le_mul_of_nonneg_right (le_max_right xl xh) hf0
    nlinarith
  · intro h; rw [e, hf, h]; simp

example : (1 : ℚ) ≤ 2 ∧ (2 : ℚ) < 4 ∧ lerpAt (2 : ℚ) 1 4 10 40 = 20 := by
  norm_num [lerpAt]

end interpolation

end Gyoto.Wline
