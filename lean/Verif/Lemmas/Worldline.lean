import Verif.Model.Worldline
import Mathlib.Tactic.Ring

namespace Gyoto.Wline
variable {α : Type}

/-- The store holds the points `l`, the initial one being at position `k`. -/
structure Rep (s : Store α) (l : List α) (k : Nat) : Prop where
  hk : k < l.length
  hi0 : s.i0 = s.imin + k
  himax : s.imax + 1 = s.imin + l.length
  hsize : s.imax < s.size
  hdata : ∀ j, j < l.length → s.data (s.imin + j) = l[j]?

theorem Rep.get {s : Store α} {l k} (h : Rep s l k) {j : Nat} (hj : j < l.length) :
    s.get (s.imin + j) = l[j]? := by
  have := h.himax; have := h.hsize
  unfold Store.get
  rw [if_pos (by omega), h.hdata j hj]

theorem rep_expand {s : Store α} {l k} (h : Rep s l k) (d : Dir) : Rep (s.expand d).1 l k := by
  obtain ⟨h1, h2, h3, h4, h5⟩ := h
  cases d with
  | fwd =>
    refine ⟨h1, by simp [Store.expand, h2], by simp [Store.expand, h3], by
      simp only [Store.expand]; omega, fun j hj => ?_⟩
    simp only [Store.expand, Nat.add_zero, Nat.sub_zero]
    rw [if_pos (by omega)]
    exact h5 j hj
  | bwd =>
    refine ⟨h1, by simp only [Store.expand]; omega, by simp only [Store.expand]; omega, by
      simp only [Store.expand]; omega, fun j hj => ?_⟩
    simp only [Store.expand]
    rw [if_pos (by omega), show s.imin + s.size + j - s.size = s.imin + j by omega]
    exact h5 j hj

theorem rep_setInit {s : Store α} (hs : 0 < s.size) (hi : s.i0 < s.size) (m d c) :
    ∃ s', s.setInit m d c = some s' ∧ Rep s' [c] 0 ∧ s'.size = s.size := by
  have hdir : ∀ i, i < s.size → ∃ s', Store.put { s with i0 := i, imin := i, imax := i } i c = some s' ∧
      Rep s' [c] 0 ∧ s'.size = s.size := by
    intro i hi
    refine ⟨{ s with i0 := i, imin := i, imax := i, data := fun j => if j = i then some c else s.data j },
      by simp [Store.put, hi], ⟨by simp, by simp, by simp, hi, ?_⟩, rfl⟩
    intro j hj
    simp at hj
    subst hj
    simp
  unfold Store.setInit
  apply hdir
  split
  · exact hi
  · omega
  · exact hs

theorem rep_reset {s : Store α} {l : List α} {k} (h : Rep s l k) :
    Rep s.reset [l[k]'h.hk] 0 := by
  have hk := h.hk; have h3 := h.himax; have h2 := h.hi0; have h4 := h.hsize
  unfold Store.reset
  rw [if_pos (by omega)]
  refine ⟨by simp, by simp, by simp, by simp only; omega, fun j hj => ?_⟩
  simp at hj
  subst hj
  simp only [Nat.add_zero, h2]
  rw [h.hdata k hk]
  simp

theorem fillLoop_fwd (pts : List α) : ∀ (s : Store α) (l : List α) (k ind : Nat),
    Rep { s with imax := ind } l k →
    ∃ s' ind', s.fillLoop .fwd ind pts = some (s', ind') ∧
      Rep { s' with imax := ind' } (l ++ pts) k := by
  induction pts with
  | nil => intro s l k ind h; exact ⟨s, ind, rfl, by simpa using h⟩
  | cons p ps ih =>
    intro s l k ind h
    have key : ∃ s1 ind1, s.fillStep .fwd ind p = some (s1, ind1) ∧
        Rep { s1 with imax := ind1 } (l ++ [p]) k := by
      have hsz := h.hsize
      simp only at hsz
      by_cases he : ind = s.size - 1
      · have h' := rep_expand h .fwd
        rw [he] at h'
        obtain ⟨a1, a2, a3, a4, a5⟩ := h'
        simp only [Store.expand] at a2 a3 a4 a5
        simp only [Store.fillStep, if_pos he, Store.expand, Store.put]
        rw [if_pos (by omega)]
        refine ⟨_, _, rfl, ⟨by simp; omega, ?_, ?_, ?_, ?_⟩⟩
        · simp only; omega
        · simp only [List.length_append, List.length_cons, List.length_nil]; omega
        · simp only; omega
        · intro j hj
          simp only [List.length_append, List.length_cons, List.length_nil] at hj
          simp only
          by_cases hjl : j < l.length
          · rw [if_neg (by omega), List.getElem?_append_left hjl]
            exact a5 j hjl
          · have : j = l.length := by omega
            subst this
            rw [if_pos (by omega)]
            simp
      · obtain ⟨a1, a2, a3, a4, a5⟩ := h
        simp only at a2 a3 a4 a5
        simp only [Store.fillStep, if_neg he, Store.put]
        rw [if_pos (by omega)]
        refine ⟨_, _, rfl, ⟨by simp; omega, ?_, ?_, ?_, ?_⟩⟩
        · simp only; omega
        · simp only [List.length_append, List.length_cons, List.length_nil]; omega
        · simp only; omega
        · intro j hj
          simp only [List.length_append, List.length_cons, List.length_nil] at hj
          simp only
          by_cases hjl : j < l.length
          · rw [if_neg (by omega), List.getElem?_append_left hjl]
            exact a5 j hjl
          · have : j = l.length := by omega
            subst this
            rw [if_pos (by omega)]
            simp
    obtain ⟨s1, ind1, e1, r1⟩ := key
    obtain ⟨s2, ind2, e2, r2⟩ := ih s1 _ _ ind1 r1
    refine ⟨s2, ind2, by simp [Store.fillLoop, e1, e2], by simpa using r2⟩

theorem fillLoop_bwd (pts : List α) : ∀ (s : Store α) (l : List α) (k ind : Nat),
    Rep { s with imin := ind } l k →
    ∃ s' ind', s.fillLoop .bwd ind pts = some (s', ind') ∧
      Rep { s' with imin := ind' } (pts.reverse ++ l) (k + pts.length) := by
  induction pts with
  | nil => intro s l k ind h; exact ⟨s, ind, rfl, by simpa using h⟩
  | cons p ps ih =>
    intro s l k ind h
    have key : ∃ s1 ind1, s.fillStep .bwd ind p = some (s1, ind1) ∧
        Rep { s1 with imin := ind1 } (p :: l) (k + 1) := by
      have hsz := h.hsize
      simp only at hsz
      by_cases he : ind = 0
      · have h' := rep_expand h .bwd
        rw [he] at h'
        obtain ⟨a1, a2, a3, a4, a5⟩ := h'
        simp only [Store.expand] at a2 a3 a4 a5
        simp only [Store.fillStep, if_pos he, Store.expand, Store.put]
        rw [if_neg (by omega), if_pos (by omega)]
        refine ⟨_, _, rfl, ⟨by simp; omega, ?_, ?_, ?_, ?_⟩⟩
        · simp only; omega
        · simp only [List.length_cons]; omega
        · simp only; omega
        · intro j hj
          simp only [List.length_cons] at hj
          simp only
          cases j with
          | zero => simp
          | succ j =>
            rw [if_neg (by omega), show s.size - 1 + (j + 1) = 0 + s.size + j by omega]
            simpa using a5 j (by omega)
      · obtain ⟨a1, a2, a3, a4, a5⟩ := h
        simp only at a2 a3 a4 a5
        simp only [Store.fillStep, if_neg he, Store.put]
        rw [if_pos (by omega)]
        refine ⟨_, _, rfl, ⟨by simp; omega, ?_, ?_, ?_, ?_⟩⟩
        · simp only; omega
        · simp only [List.length_cons]; omega
        · simp only; omega
        · intro j hj
          simp only [List.length_cons] at hj
          simp only
          cases j with
          | zero => simp
          | succ j =>
            rw [if_neg (by omega), show ind - 1 + (j + 1) = ind + j by omega]
            simpa using a5 j (by omega)
    obtain ⟨s1, ind1, e1, r1⟩ := key
    obtain ⟨s2, ind2, e2, r2⟩ := ih s1 _ _ ind1 r1
    refine ⟨s2, ind2, by simp [Store.fillLoop, e1, e2], ?_⟩
    have : k + 1 + ps.length = k + (p :: ps).length := by simp; omega
    rw [this] at r2
    simpa using r2

theorem rep_fill {s : Store α} {l k} (h : Rep s l k) (d : Dir) (pts : List α) :
    ∃ s', s.fill d pts = some s' ∧
      match d with
      | .fwd => Rep s' (l ++ pts) k
      | .bwd => Rep s' (pts.reverse ++ l) (k + pts.length) := by
  have hk := h.hk; have h3 := h.himax; have h4 := h.hsize
  cases d with
  | fwd =>
    simp only [Store.fill]
    by_cases he : s.imax = s.size - 1
    · have h' := rep_expand h .fwd
      have hind : (s.expand .fwd).2 = (s.expand .fwd).1.imax := by simp [Store.expand, he]
      rw [if_pos he]
      have hget : ∃ p, (s.expand .fwd).1.get (s.expand .fwd).2 = some p := by
        have e : (s.expand .fwd).2 = (s.expand .fwd).1.imin + (l.length - 1) := by
          rw [hind]; have := h'.himax; omega
        refine ⟨l[l.length - 1]'(by omega), ?_⟩
        rw [e, h'.get (by omega)]; simp
      obtain ⟨p, hp⟩ := hget
      obtain ⟨s', ind', e1, r1⟩ := fillLoop_fwd pts (s.expand .fwd).1 l k (s.expand .fwd).2
        (by rw [hind]; exact h')
      rcases hx : s.expand .fwd with ⟨s1, ind1⟩
      rw [hx] at hp e1
      simp only at hp e1
      refine ⟨_, by simp [hp, e1], r1⟩
    · rw [if_neg he]
      have hget : ∃ p, s.get s.imax = some p := by
        have e : s.imax = s.imin + (l.length - 1) := by omega
        refine ⟨l[l.length - 1]'(by omega), ?_⟩
        rw [e, h.get (by omega)]; simp
      obtain ⟨p, hp⟩ := hget
      obtain ⟨s', ind', e1, r1⟩ := fillLoop_fwd pts s l k s.imax h
      refine ⟨_, by simp [hp, e1], r1⟩
  | bwd =>
    simp only [Store.fill]
    by_cases he : s.imin = 0
    · have h' := rep_expand h .bwd
      have hind : (s.expand .bwd).2 = (s.expand .bwd).1.imin := by simp [Store.expand, he]
      rw [if_pos he]
      have hget : ∃ p, (s.expand .bwd).1.get (s.expand .bwd).2 = some p := by
        refine ⟨l[0]'(by omega), ?_⟩
        have := h'.get (j := 0) (by omega)
        rw [hind]; simpa [List.getElem?_eq_getElem (show 0 < l.length by omega)] using this
      obtain ⟨p, hp⟩ := hget
      obtain ⟨s', ind', e1, r1⟩ := fillLoop_bwd pts (s.expand .bwd).1 l k (s.expand .bwd).2
        (by rw [hind]; exact h')
      rcases hx : s.expand .bwd with ⟨s1, ind1⟩
      rw [hx] at hp e1
      simp only at hp e1
      refine ⟨_, by simp [hp, e1], r1⟩
    · rw [if_neg he]
      have hget : ∃ p, s.get s.imin = some p := by
        refine ⟨l[0]'(by omega), ?_⟩
        have := h.get (j := 0) (by omega)
        simpa [List.getElem?_eq_getElem (show 0 < l.length by omega)] using this
      obtain ⟨p, hp⟩ := hget
      obtain ⟨s', ind', e1, r1⟩ := fillLoop_bwd pts s l k s.imin h
      refine ⟨_, by simp [hp, e1], r1⟩

/-- Points of a call to `hit` which get stored: up to and including the first one that stops it. -/
def stored : List (α × Bool) → List α
  | [] => []
  | (p, stop) :: ps => p :: (if stop then [] else stored ps)

theorem rep_hitLoopBwd (pts : List (α × Bool)) : ∀ (s : Store α) (l : List α) (k : Nat),
    Rep s l k → 0 < s.imin →
    ∃ s', hitLoopBwd s s.imin pts = some s' ∧
      Rep s' ((stored pts).reverse ++ l) (k + (stored pts).length) := by
  induction pts with
  | nil => intro s l k h _; exact ⟨s, rfl, by simpa [stored] using h⟩
  | cons x ps ih =>
    obtain ⟨p, stop⟩ := x
    intro s l k h hpos
    obtain ⟨a1, a2, a3, a4, a5⟩ := h
    have hput : s.put (s.imin - 1) p =
        some { s with data := fun j => if j = s.imin - 1 then some p else s.data j } := by
      simp only [Store.put]; rw [if_pos (by omega)]
    have hr : Rep (Store.mk s.size (s.imin - 1) s.i0 s.imax
        (fun j => if j = s.imin - 1 then some p else s.data j)) (p :: l) (k + 1) := by
      refine ⟨by simp; omega, by simp only; omega, by simp only [List.length_cons]; omega, a4, ?_⟩
      intro j hj
      simp only [List.length_cons] at hj
      simp only
      cases j with
      | zero => simp
      | succ j =>
        rw [if_neg (by omega), show s.imin - 1 + (j + 1) = s.imin + j by omega]
        simpa using a5 j (by omega)
    simp only [hitLoopBwd, if_neg (show ¬ s.imin = 0 by omega), hput, Option.bind_some]
    rw [if_neg (by simp)]
    cases stop with
    | true => exact ⟨_, rfl, by simpa [stored] using hr⟩
    | false =>
      simp only [Bool.false_eq_true, if_false]
      have e3 : k + 1 + (stored ps).length = k + (stored ((p, false) :: ps)).length := by
        simp [stored]; omega
      by_cases he : s.imin - 1 = 0
      · rw [if_pos he]
        have hr2 := rep_expand hr .bwd
        have hsz : 0 < s.size := by omega
        have := ih _ _ _ hr2 (by simp only [Store.expand]; omega)
        obtain ⟨s', e1, e2⟩ := this
        refine ⟨s', ?_, ?_⟩
        · rw [← e1]
          simp [Store.expand, he]
        · rw [e3] at e2; simpa [stored] using e2
      · rw [if_neg he]
        obtain ⟨s', e1, e2⟩ := ih _ _ _ hr (by simp only; omega)
        refine ⟨s', e1, ?_⟩
        rw [e3] at e2; simpa [stored] using e2

theorem scanBwd_spec {s : Store α} {l k} (h : Rep s l k) (hpos : 0 < s.imin)
    (inTime impact : α → Bool) (i : Nat) (hi : i < s.i0) (hlo : s.imin ≤ i + 1) :
    ∃ r, scanBwd s inTime impact false i = some r ∧
      (r.2 = true ∨ r.1 + 1 = s.imin ∨
        (s.imin ≤ r.1 ∧ r.1 < s.i0 ∧ ∃ p, s.get r.1 = some p ∧ inTime p = false)) := by
  have hk := h.hk; have h2 := h.hi0; have h3 := h.himax
  induction i with
  | zero =>
    rw [scanBwd, if_neg (by omega)]
    exact ⟨_, rfl, Or.inr (Or.inl (by simp only; omega))⟩
  | succ i ih =>
    rw [scanBwd]
    by_cases hc : s.imin ≤ i + 1
    · rw [if_pos hc]
      have hg : s.get (i + 1) = some (l[i + 1 - s.imin]'(by omega)) := by
        have := h.get (j := i + 1 - s.imin) (by omega)
        rw [show s.imin + (i + 1 - s.imin) = i + 1 by omega] at this
        rw [this]; simp
      simp only [hg]
      split
      · split
        · exact ⟨_, rfl, Or.inl rfl⟩
        · exact ih (by omega) (by omega)
      · rename_i ht
        exact ⟨_, rfl, Or.inr (Or.inr ⟨hc, hi, _, hg, by simpa using ht⟩)⟩
    · rw [if_neg hc]
      exact ⟨_, rfl, Or.inr (Or.inl (by simp only; omega))⟩

theorem rep_hitBwd {s : Store α} {l k} (h : Rep s l k) (hpos : 0 < s.imin)
    (inTime beforeT impact : α → Bool) (htot : ∀ p, inTime p = false → beforeT p = true)
    (pts : List (α × Bool)) :
    ∃ s', s.hitBwd inTime beforeT impact pts = some s' ∧
      ∃ new, (new = [] ∨ new = stored pts) ∧ Rep s' (new.reverse ++ l) (k + new.length) := by
  have hk := h.hk; have h2 := h.hi0; have h3 := h.himax
  obtain ⟨i, hi⟩ : ∃ i, s.i0 = i + 1 := ⟨s.i0 - 1, by omega⟩
  obtain ⟨⟨ind, hit⟩, hs, hcase⟩ := scanBwd_spec h hpos inTime impact i (by omega) (by omega)
  simp only at hcase
  simp only [Store.hitBwd, hi, hs, Option.bind_some]
  cases hit with
  | true => exact ⟨s, by simp, [], Or.inl rfl, by simpa using h⟩
  | false =>
    simp only [Bool.false_eq_true, if_false]
    rcases hcase with hcase | hcase | ⟨c1, c2, p, c3, c4⟩
    · simp at hcase
    · rw [if_neg (by omega)]
      simp only [Option.bind_some, Bool.false_eq_true, if_false]
      have e : (if ind ≠ i + 1 then ind + 1 else ind) = s.imin := by
        rw [if_pos (by omega)]; exact hcase
      simp only [e]
      rw [if_neg (by omega)]
      have hget : ∃ p, s.get s.imin = some p := by
        refine ⟨l[0]'(by omega), ?_⟩
        have := h.get (j := 0) (by omega)
        simpa [List.getElem?_eq_getElem (show 0 < l.length by omega)] using this
      obtain ⟨p, hp⟩ := hget
      obtain ⟨s', e1, e2⟩ := rep_hitLoopBwd pts s l k h hpos
      exact ⟨s', by simp [hp, e1], stored pts, Or.inr rfl, e2⟩
    · rw [if_pos c1, c3]
      simp only [Option.map_some, Option.bind_some, htot p c4, if_true]
      exact ⟨s, rfl, [], Or.inl rfl, by simpa using h⟩

/-- Forward integration in `hit` beyond the end of the arrays. -/
theorem hitLoopFwd_overflow : ∀ (pts : List (α × Bool)) (s : Store α),
    s.imax < s.size → s.size - s.imax ≤ pts.length → (∀ x ∈ pts, x.2 = false) →
    hitLoopFwd s s.imax pts = none := by
  intro pts
  induction pts with
  | nil => intro s h1 h2; simp at h2; omega
  | cons x ps ih =>
    obtain ⟨p, stop⟩ := x
    intro s h1 h2 h3
    have hstop : stop = false := h3 (p, stop) (by simp)
    subst hstop
    simp only [List.length_cons] at h2
    simp only [hitLoopFwd, Store.put]
    by_cases hb : s.imax + 1 < s.size
    · rw [if_pos hb]
      simp only [Option.bind_some]
      rw [if_neg (by simp)]
      simp only [Bool.false_eq_true, if_false]
      rw [if_neg (by omega)]
      exact ih { s with imax := s.imax + 1, data := fun j => if j = s.imax + 1 then some p else s.data j }
        hb (by simp only; omega) (fun y hy => h3 y (by simp [hy]))
    · rw [if_neg hb]; rfl

end Gyoto.Wline
