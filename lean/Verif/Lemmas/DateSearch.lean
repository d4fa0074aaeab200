import Verif.Model.DateSearch
import Verif.Lemmas.Worldline
import Mathlib.Tactic.Push

set_option linter.unusedSectionVars false

namespace Gyoto.Wline
variable {T : Type} [LinearOrder T]

theorem rd_rep {s : Store T} {l k} (h : Rep s l k) {i : Nat} (h1 : s.imin ≤ i) (h2 : i ≤ s.imax) :
    ∃ (hlt : i - s.imin < l.length), rd s i = .ok (l[i - s.imin]) := by
  have h3 := h.himax
  have hlt : i - s.imin < l.length := by omega
  refine ⟨hlt, ?_⟩
  have := h.get (j := i - s.imin) hlt
  rw [show s.imin + (i - s.imin) = i by omega] at this
  simp [rd, this, hlt]

/-- `bisect` ends on neighbours which bracket the date. -/
theorem bisect_spec {s : Store T} {l k} (h : Rep s l k) (date : T) (curl curh : Nat)
    (h1 : s.imin ≤ curl) (h2 : curl < curh) (h3 : curh ≤ s.imax)
    (hl : ∀ t, rd s curl = .ok t → t ≤ date) (hh : ∀ t, rd s curh = .ok t → date ≤ t) :
    ∃ a, bisect s date curl curh = .ok (a, a + 1) ∧ curl ≤ a ∧ a + 1 ≤ curh ∧
      (∀ t, rd s a = .ok t → t ≤ date) ∧ (∀ t, rd s (a + 1) = .ok t → date ≤ t) := by
  fun_induction bisect s date curl curh with
  | case1 curl curh hgt curm e he =>
    obtain ⟨_, hr⟩ := rd_rep h (i := curm) (by omega) (by omega)
    rw [hr] at he; simp at he
  | case2 curl curh hgt curm t ht hle ih =>
    obtain ⟨a, e1, e2, e3, e4, e5⟩ := ih (by omega) (by omega) h3
      (fun t' ht' => by rw [ht] at ht'; simp at ht'; exact ht' ▸ hle) hh
    exact ⟨a, e1, by omega, e3, e4, e5⟩
  | case3 curl curh hgt curm t ht hle ih =>
    obtain ⟨a, e1, e2, e3, e4, e5⟩ := ih h1 (by omega) (by omega) hl
      (fun t' ht' => by rw [ht] at ht'; simp at ht'; rw [← ht']; exact le_of_lt (not_le.1 hle))
    exact ⟨a, e1, e2, by omega, e4, e5⟩
  | case4 curl curh hgt =>
    refine ⟨curl, ?_, le_refl _, by omega, hl, ?_⟩
    · congr 2; omega
    · rw [show curl + 1 = curh by omega]; exact hh

/-- What an answer means. -/
def Correct (s : Store T) (date : T) : Found → Prop
  | .exact i => s.imin ≤ i ∧ i ≤ s.imax ∧ s.get i = some date
  | .between a b => b = a + 1 ∧ s.imin ≤ a ∧ b ≤ s.imax ∧
      (∃ ta, s.get a = some ta ∧ ta < date) ∧ (∃ tb, s.get b = some tb ∧ date ≤ tb)

theorem rd_get {s : Store T} {i t} : rd s i = .ok t ↔ s.get i = some t := by
  unfold rd
  split <;> simp_all

/-- Indices kept between two dates. -/
def Kept (st : SState T) : Prop :=
  st.s.imin ≤ st.curl ∧ st.curl ≤ st.curh ∧ st.curh ≤ st.s.imax

theorem finish_spec {s : Store T} {l k} (h : Rep s l k) (date : T) (curl curh : Nat)
    (h1 : s.imin ≤ curl) (h2 : curl < curh) (h3 : curh ≤ s.imax)
    (hl : ∀ t, rd s curl = .ok t → t ≤ date) (hh : ∀ t, rd s curh = .ok t → date ≤ t) :
    ∃ st f, finish s date curl curh = .ok (st, f) ∧ st.s = s ∧ Kept st ∧ Correct s date f := by
  obtain ⟨a, e1, e2, e3, e4, e5⟩ := bisect_spec h date curl curh h1 h2 h3 hl hh
  obtain ⟨_, r1⟩ := rd_rep h (i := a) (by omega) (by omega)
  obtain ⟨_, r2⟩ := rd_rep h (i := a + 1) (by omega) (by omega)
  simp only [finish, e1, r1]
  refine ⟨_, _, rfl, rfl, ⟨by simp only; omega, by simp only; omega, by simp only; omega⟩, ?_⟩
  split
  · rename_i hd
    exact ⟨by omega, by omega, by rw [← rd_get, r1, hd]⟩
  · rename_i hd
    refine ⟨rfl, by omega, by omega, ⟨_, rd_get.1 r1, lt_of_le_of_ne (e4 _ r1) (Ne.symm hd)⟩,
      ⟨_, rd_get.1 r2, e5 _ r2⟩⟩

theorem fillLoop_keep (pts : List T) : ∀ (d : Dir) (s : Store T) (ind : Nat) s' ind',
    s.fillLoop d ind pts = some (s', ind') →
    match d with
    | .fwd => s'.imin = s.imin
    | .bwd => s'.size - s'.imax = s.size - s.imax := by
  induction pts with
  | nil =>
    intro d s ind s' ind' h
    simp only [Store.fillLoop, Option.some.injEq, Prod.mk.injEq] at h
    obtain ⟨rfl, rfl⟩ := h
    cases d <;> rfl
  | cons p ps ih =>
    intro d s ind s' ind' h
    simp only [Store.fillLoop] at h
    rcases hs : s.fillStep d ind p with _ | ⟨s1, i1⟩
    · simp [hs] at h
    · simp only [hs, Option.bind_some] at h
      have := ih d s1 i1 s' ind' h
      cases d with
      | fwd =>
        simp only at this ⊢
        rw [this]
        simp only [Store.fillStep, Store.put] at hs
        split at hs <;> simp only [Store.expand] at hs <;> split at hs <;> simp at hs <;>
          obtain ⟨rfl, -⟩ := hs <;> simp
      | bwd =>
        simp only at this ⊢
        rw [this]
        simp only [Store.fillStep, Store.put] at hs
        simp only [Store.expand] at hs
        by_cases hi : ind = 0
        · simp only [hi, if_true] at hs
          split at hs
          · simp at hs
          · split at hs <;> simp at hs
            obtain ⟨rfl, -⟩ := hs
            simp only
            omega
        · simp only [hi, if_false] at hs
          split at hs <;> simp at hs
          obtain ⟨rfl, -⟩ := hs
          rfl

theorem fill_fwd {s : Store T} {l k} (h : Rep s l k) (pts : List T) :
    ∃ s', fillE s .fwd pts = .ok s' ∧ Rep s' (l ++ pts) k ∧ s'.imin = s.imin := by
  obtain ⟨s', e1, e2⟩ := rep_fill h .fwd pts
  refine ⟨s', by simp [fillE, e1], e2, ?_⟩
  have h2 := h.hi0; have h3 := e2.hi0
  simp only [Store.fill] at e1
  split at e1
  all_goals
    simp only [Option.bind_eq_some_iff, Option.map_eq_some_iff] at e1
    obtain ⟨_, -, ⟨s1, i1⟩, e3, rfl⟩ := e1
    have := fillLoop_keep pts .fwd _ _ _ _ e3
    simpa [Store.expand] using this

theorem fill_bwd {s : Store T} {l k} (h : Rep s l k) (pts : List T) :
    ∃ s', fillE s .bwd pts = .ok s' ∧ Rep s' (pts.reverse ++ l) (k + pts.length) ∧
      s'.size - s'.imax = s.size - s.imax := by
  obtain ⟨s', e1, e2⟩ := rep_fill h .bwd pts
  refine ⟨s', by simp [fillE, e1], e2, ?_⟩
  simp only [Store.fill] at e1
  split at e1
  all_goals
    simp only [Option.bind_eq_some_iff, Option.map_eq_some_iff] at e1
    obtain ⟨_, -, ⟨s1, i1⟩, e3, rfl⟩ := e1
    have := fillLoop_keep pts .bwd _ _ _ _ e3
    simp [Store.expand] at this ⊢
    omega

/-- The worldline reaches the date. -/
def Covers (l : List T) (date : T) : Prop := (∃ a ∈ l, a ≤ date) ∧ (∃ b ∈ l, date ≤ b)

theorem lookup1_spec {st : SState T} {l k} (h : Rep st.s l k) (hk : Kept st) (date : T) (pts : List T) :
    (∃ st' f l' k', lookup1 st date pts = .ok (st', f) ∧ Rep st'.s l' k' ∧ Kept st' ∧
      Correct st'.s date f ∧
      ((l' = l ∧ Covers l date) ∨ (l' = l ++ pts ∧ ∃ t, l.getLast? = some t ∧ t < date) ∨
        (l' = pts.reverse ++ l ∧ ∃ t, l.head? = some t ∧ date < t))) ∨
    (lookup1 st date pts = .error .cannotReach ∧
      ((∃ t, (l ++ pts).getLast? = some t ∧ t < date) ∨
       (∃ t, (pts.reverse ++ l).head? = some t ∧ date < t))) := by
  obtain ⟨k1, k2, k3⟩ := hk
  have hlen := h.hk; have himax := h.himax; have hsz := h.hsize
  obtain ⟨q1, r1⟩ := rd_rep h (i := st.s.imax) (by omega) (le_refl _)
  obtain ⟨q2, r2⟩ := rd_rep h (i := st.s.imin) (le_refl _) (by omega)
  obtain ⟨q3, r3⟩ := rd_rep h (i := st.curh) (by omega) (by omega)
  obtain ⟨q4, r4⟩ := rd_rep h (i := st.curl) (by omega) (by omega)
  simp only [lookup1, r1, r2, r3, r4]
  have hlast : l.getLast? = some (l[st.s.imax - st.s.imin]) := by
    rw [List.getLast?_eq_getElem?]
    simp [show l.length - 1 = st.s.imax - st.s.imin by omega]
  have hhead : l.head? = some (l[st.s.imin - st.s.imin]) := by
    rw [List.head?_eq_getElem?]
    simp
  by_cases c1 : date = l[st.s.imax - st.s.imin]
  · rw [if_pos c1]
    have hmem : date ∈ l := by rw [c1]; exact List.getElem_mem _
    exact Or.inl ⟨st, _, l, k, rfl, h, ⟨k1, k2, k3⟩, ⟨by omega, le_refl _, by rw [← rd_get, r1, ← c1]⟩,
      Or.inl ⟨rfl, ⟨date, hmem, le_refl _⟩, ⟨date, hmem, le_refl _⟩⟩⟩
  rw [if_neg c1]
  by_cases c2 : l[st.s.imax - st.s.imin] < date
  · rw [if_pos c2]
    obtain ⟨s', e1, e2, e3⟩ := fill_fwd h pts
    have hmax' := e2.himax; have hk' := e2.hk
    obtain ⟨q5, r5⟩ := rd_rep e2 (i := s'.imax) (by omega) (le_refl _)
    simp only [e1, r5]
    have hlast' : (l ++ pts).getLast? = some ((l ++ pts)[s'.imax - s'.imin]) := by
      rw [List.getLast?_eq_getElem?]
      rw [show (l ++ pts).length - 1 = s'.imax - s'.imin by omega, List.getElem?_eq_getElem q5]
    simp only [List.length_append] at hmax'
    have hcurl : rd s' st.s.imax = .ok (l[st.s.imax - st.s.imin]) := by
      obtain ⟨q6, r6⟩ := rd_rep e2 (i := st.s.imax) (by omega) (by omega)
      rw [r6]
      congr 1
      rw [List.getElem_append_left (by omega)]
      simp [e3]
    split
    · rename_i c3
      refine Or.inr ⟨rfl, Or.inl ⟨_, hlast', ?_⟩⟩
      rcases c3 with c3 | c3
      · have hx := (congrArg (rd s') c3).symm.trans hcurl
        rw [r5] at hx
        simp only [Except.ok.injEq] at hx
        rw [hx]; exact c2
      · exact c3
    · rename_i c3
      push Not at c3
      obtain ⟨st', f, g1, g2, g3, g4⟩ := finish_spec e2 date st.s.imax s'.imax (by omega) (by omega)
        (le_refl _)
        (fun t ht => by rw [hcurl] at ht; simp at ht; rw [← ht]; exact le_of_lt c2)
        (fun t ht => by rw [r5] at ht; simp only [Except.ok.injEq] at ht; rw [← ht]; exact c3.2)
      exact Or.inl ⟨st', f, _, k, g1, g2 ▸ e2, g3, g2 ▸ g4, Or.inr (Or.inl ⟨rfl, _, hlast, c2⟩)⟩
  rw [if_neg c2]
  have hlt : date < l[st.s.imax - st.s.imin] := lt_of_le_of_ne (not_lt.1 c2) c1
  by_cases c3 : date < l[st.s.imin - st.s.imin]
  · rw [if_pos c3]
    obtain ⟨s', e1, e2, e3⟩ := fill_bwd h pts
    have hmax' := e2.himax; have hk' := e2.hk; have hsz' := e2.hsize
    obtain ⟨q5, r5⟩ := rd_rep e2 (i := s'.imin) (le_refl _) (by omega)
    simp only [e1, r5]
    have hhead' : (pts.reverse ++ l).head? = some ((pts.reverse ++ l)[s'.imin - s'.imin]) := by
      rw [List.head?_eq_getElem?, ← List.getElem?_eq_getElem, Nat.sub_self]
    simp only [List.length_append, List.length_reverse] at hmax'
    have hpos : s'.size - (st.s.size - st.s.imin) = s'.imin + pts.length := by omega
    rw [hpos]
    have hcurh : rd s' (s'.imin + pts.length) = .ok (l[st.s.imin - st.s.imin]) := by
      obtain ⟨q6, r6⟩ := rd_rep e2 (i := s'.imin + pts.length) (by omega) (by omega)
      rw [r6]
      congr 1
      rw [List.getElem_append_right (by simp)]
      simp
    split
    · rename_i c4
      refine Or.inr ⟨rfl, Or.inr ⟨_, hhead', ?_⟩⟩
      rcases c4 with c4 | c4
      · rw [← c4, r5] at hcurh
        simp only [Except.ok.injEq] at hcurh
        rw [hcurh]; exact c3
      · exact c4
    · rename_i c4
      push Not at c4
      obtain ⟨st', f, g1, g2, g3, g4⟩ := finish_spec e2 date s'.imin (s'.imin + pts.length)
        (le_refl _) (by omega) (by omega)
        (fun t ht => by rw [r5] at ht; simp only [Except.ok.injEq] at ht; rw [← ht]; exact c4.2)
        (fun t ht => by rw [hcurh] at ht; simp at ht; rw [← ht]; exact le_of_lt (by simpa using c3))
      exact Or.inl ⟨st', f, _, _, g1, g2 ▸ e2, g3, g2 ▸ g4, Or.inr (Or.inr ⟨rfl, _, hhead, c3⟩)⟩
  rw [if_neg c3]
  have hge := not_lt.1 c3
  have hcov : Covers l date := ⟨⟨_, List.getElem_mem _, hge⟩, ⟨_, List.getElem_mem _, le_of_lt hlt⟩⟩
  have fin : ∀ a b, st.s.imin ≤ a → a < b → b ≤ st.s.imax → (∀ t, rd st.s a = .ok t → t ≤ date) →
      (∀ t, rd st.s b = .ok t → date ≤ t) →
      ∃ st' f l' k', finish st.s date a b = .ok (st', f) ∧ Rep st'.s l' k' ∧ Kept st' ∧
      Correct st'.s date f ∧
      ((l' = l ∧ Covers l date) ∨ (l' = l ++ pts ∧ ∃ t, l.getLast? = some t ∧ t < date) ∨
        (l' = pts.reverse ++ l ∧ ∃ t, l.head? = some t ∧ date < t)) := by
    intro a b h1 h2 h3 h4 h5
    obtain ⟨st', f, g1, g2, g3, g4⟩ := finish_spec h date a b h1 h2 h3 h4 h5
    exact ⟨st', f, l, k, g1, g2 ▸ h, g3, g2 ▸ g4, Or.inl ⟨rfl, hcov⟩⟩
  left
  split
  · rename_i c4
    apply fin _ _ (by omega)
    · rcases Nat.lt_or_ge st.curh st.s.imax with hh | hh
      · exact hh
      · have : st.curh = st.s.imax := by omega
        simp only [this] at c4
        exact absurd c4 (not_le.2 hlt)
    · exact le_refl _
    · intro t ht; rw [r3] at ht; simp at ht; rw [← ht]; exact c4
    · intro t ht; rw [r1] at ht; simp at ht; rw [← ht]; exact le_of_lt hlt
  · rename_i c4
    have c4 := not_le.1 c4
    split
    · rename_i c5
      apply fin _ _ (le_refl _)
      · rcases Nat.lt_or_ge st.s.imin st.curl with hh | hh
        · exact hh
        · have : st.curl = st.s.imin := by omega
          simp only [this] at c5
          exact absurd c5 (not_lt.2 hge)
      · omega
      · intro t ht; rw [r2] at ht; simp at ht; rw [← ht]; simpa using hge
      · intro t ht; rw [r4] at ht; simp at ht; rw [← ht]; exact le_of_lt c5
    · rename_i c5
      have c5 := not_lt.1 c5
      apply fin _ _ k1
      · rcases Nat.lt_or_ge st.curl st.curh with hh | hh
        · exact hh
        · have : st.curl = st.curh := by omega
          simp only [this] at c5
          exact absurd c4 (not_lt.2 c5)
      · exact k3
      · intro t ht; rw [r4] at ht; simp at ht; rw [← ht]; exact c5
      · intro t ht; rw [r3] at ht; simp at ht; rw [← ht]; exact le_of_lt c4

end Gyoto.Wline
