import Verif.Model.Mpi
import Verif.Lemmas.CoordSet
import Mathlib.Algebra.Order.BigOperators.Group.Finset
import Mathlib.Algebra.BigOperators.Intervals

namespace Gyoto.Mpi
open Gyoto.Coords
variable {P S R : Type}

/-- Worker has been told to stop. -/
def isTold : WState P R → Bool
  | .told => true
  | .stopped => true
  | _ => false

/-- The position whose result is pending at a worker, or just computed. -/
def holds (f : P → R) : WState P R → P → Prop
  | .toWork q, p => q = p
  | .busy q, p => q = p
  | .answered r, p => r = f p
  | _, _ => False

/-- Has a task pending. -/
def hasTask : WState P R → Bool
  | .toWork _ => true
  | .busy _ => true
  | .answered _ => true
  | _ => false

/-- Invariant, with a ghost map: the rank of the position pending at each worker. -/
structure Inv (c : Cfg P S R) (n : Nat) (pix : List P) (st : State P S R) (idx : Nat → Nat) : Prop where
  hij : Enum2 c.set st.ij (pix.drop st.cnt)
  hcnt : st.cnt ≤ pix.length
  htask : ∀ w, hasTask (st.ws w) = true → 1 ≤ w ∧ w ≤ n ∧ idx w < st.cnt ∧
    ∃ p, pix[idx w]? = some p ∧ holds c.f (st.ws w) p ∧ st.cell w = c.cellOf (idx w) p
  hdist : ∀ w w', w ≠ w' → hasTask (st.ws w) = true → hasTask (st.ws w') = true → idx w ≠ idx w'
  himg : ∀ l p, l < st.cnt → pix[l]? = some p → (∀ w, hasTask (st.ws w) = true → idx w ≠ l) →
    st.img (c.cellOf l p) = some (c.f p)
  hrest : ∀ d, (∀ l p, l < st.cnt → pix[l]? = some p → c.cellOf l p ≠ d) → st.img d = none
  hsent : st.sent.reverse = pix.take st.cnt
  hstops : st.stops.Nodup ∧ ∀ w, w ∈ st.stops ↔ (1 ≤ w ∧ w ≤ n ∧ isTold (st.ws w) = true)
  hwork : st.working + st.stops.length = n
  hend : st.stops ≠ [] → st.cnt = pix.length

theorem inv_init (c : Cfg P S R) (n : Nat) (pix : List P) (he : Enum2 c.set c.set.start pix) :
    Inv c n pix (init c n) (fun _ => 0) := by
  refine ⟨by simpa [init] using he, by simp [init], by simp [init, hasTask], by simp [init, hasTask],
    by simp [init], by simp [init], by simp [init], by simp [init, isTold], by simp [init],
    by simp [init]⟩

theorem upd_same {α : Type} (g : Nat → α) (w x) : upd g w x w = x := by simp [upd]
theorem upd_other {α : Type} (g : Nat → α) {w v} (x) (h : v ≠ w) : upd g w x v = g v := by simp [upd, h]

/-- Distinct positions have distinct destinations. -/
def Inj (c : Cfg P S R) (pix : List P) : Prop :=
  ∀ l l' p p', pix[l]? = some p → pix[l']? = some p' → c.cellOf l p = c.cellOf l' p' → l = l'

/-- The manager deals with worker `w`. -/
theorem inv_serve {c : Cfg P S R} {n : Nat} {pix : List P} {st : State P S R} {idx : Nat → Nat}
    (h : Inv c n pix st idx) (hinj : Inj c pix) {w : Nat} (hw1 : 1 ≤ w) (hwn : w ≤ n)
    (res : Option R)
    (hcase : (st.ws w = .asking ∧ res = none) ∨ (∃ r, st.ws w = .answered r ∧ res = some r)) :
    ∃ st' idx', serve c st w res = some st' ∧ Inv c n pix st' idx' := by
  obtain ⟨h1, h2, h3, h4, h5, h6, h7, ⟨h8, h8'⟩, h9, h10⟩ := h
  have hnt : isTold (st.ws w) = false := by
    rcases hcase with ⟨e, _⟩ | ⟨r, e, _⟩ <;> rw [e] <;> rfl
  -- the image after storing: what was pending at `w` is now done
  have himg' : ∀ (img' : Nat → Option R),
      (img' = imgAfter st.img (st.cell w) res) →
      (∀ l p, l < st.cnt → pix[l]? = some p →
        (∀ v, v ≠ w → hasTask (st.ws v) = true → idx v ≠ l) → img' (c.cellOf l p) = some (c.f p)) ∧
      (∀ d, (∀ l p, l < st.cnt → pix[l]? = some p → c.cellOf l p ≠ d) → img' d = none) := by
    intro img' he
    rcases hcase with ⟨e, rfl⟩ | ⟨r, e, rfl⟩
    · simp only [imgAfter] at he
      subst he
      refine ⟨fun l p hl hp hv => h5 l p hl hp fun v ht => ?_, h6⟩
      by_cases hvw : v = w
      · subst hvw; rw [e] at ht; simp [hasTask] at ht
      · exact hv v hvw ht
    · simp only [imgAfter] at he
      subst he
      have ht : hasTask (st.ws w) = true := by rw [e]; rfl
      obtain ⟨_, _, t3, p0, t4, t5, t6⟩ := h3 w ht
      rw [e] at t5
      simp only [holds] at t5
      constructor
      · intro l p hl hp hv
        rw [t6]
        by_cases hc : c.cellOf l p = c.cellOf (idx w) p0
        · have hli := hinj _ _ _ _ hp t4 hc
          subst hli
          rw [t4] at hp
          simp only [Option.some.injEq] at hp
          subst hp
          rw [upd_same, t5]
        · rw [upd_other _ _ hc]
          refine h5 l p hl hp fun v htv => ?_
          by_cases hvw : v = w
          · subst hvw
            rintro rfl
            rw [t4] at hp
            simp only [Option.some.injEq] at hp
            exact hc (by rw [hp])
          · exact hv v hvw htv
      · intro d hd
        rw [t6, upd_other _ _ (fun hc => hd _ _ t3 t4 hc.symm)]
        exact h6 d hd
  obtain ⟨i1, i2⟩ := himg' _ rfl
  unfold serve
  split
  · rename_i hv
    generalize hr : pix.drop st.cnt = rr at h1
    cases h1 with
    | done hn => rw [hv] at hn; simp at hn
    | @more _ p rest _ hd hrest =>
      have hlt : st.cnt < pix.length := by
        by_contra hc
        rw [List.drop_eq_nil_of_le (by omega)] at hr
        simp at hr
      rw [List.drop_eq_getElem_cons hlt] at hr
      simp only [List.cons.injEq] at hr
      have hget : pix[st.cnt]? = some p := by rw [List.getElem?_eq_getElem hlt, hr.1]
      simp only [hd]
      refine ⟨_, upd idx w st.cnt, rfl, ?_⟩
      have hinv : Inv c n pix
          { st with cell := upd st.cell w (c.cellOf st.cnt p), cnt := st.cnt + 1, ij := c.set.next st.ij, ws := upd st.ws w (.toWork p), sent := p :: st.sent, img := imgAfter st.img (st.cell w) res }
          (upd idx w st.cnt) := by
        refine ⟨by simpa [hr.2] using hrest, by simp only; omega, ?_, ?_, ?_, ?_, ?_, ⟨h8, ?_⟩, h9, ?_⟩
        · intro v
          simp only
          by_cases hvw : v = w
          · subst hvw
            simp only [upd_same]
            exact fun _ => ⟨hw1, hwn, by omega, p, hget, rfl, rfl⟩
          · rw [upd_other _ _ hvw, upd_other _ _ hvw, upd_other _ _ hvw]
            intro ht
            obtain ⟨t1, t2, t3, t4⟩ := h3 v ht
            exact ⟨t1, t2, by omega, t4⟩
        · intro v v' hne
          simp only
          by_cases hvw : v = w
          · subst hvw
            have hvw' : v' ≠ v := fun h => hne h.symm
            rw [upd_same, upd_same, upd_other _ _ hvw', upd_other _ _ hvw']
            intro _ ht
            have := (h3 v' ht).2.2.1
            omega
          · rw [upd_other _ _ hvw, upd_other _ _ hvw]
            by_cases hvw' : v' = w
            · subst hvw'
              rw [upd_same, upd_same]
              intro ht _
              have := (h3 v ht).2.2.1
              omega
            · rw [upd_other _ _ hvw', upd_other _ _ hvw']
              exact h4 v v' hne
        · intro l q hl hq hv
          simp only at hl hv ⊢
          have hne : l ≠ st.cnt := by
            have := hv w (by rw [upd_same]; rfl)
            rw [upd_same] at this
            omega
          refine i1 l q (by omega) hq fun v hvw ht => ?_
          have := hv v
          rw [upd_other _ _ hvw, upd_other _ _ hvw] at this
          exact this ht
        · intro d hd'
          exact i2 d fun l q hl hq => hd' l q (by simp only; omega) hq
        · simp only [List.reverse_cons, h7]
          rw [List.take_add_one, hget]; rfl
        · intro v
          simp only
          rw [h8' v]
          by_cases hvw : v = w
          · subst hvw; rw [upd_same, hnt]; simp [isTold]
          · rw [upd_other _ _ hvw]
        · intro hne
          have := h10 hne
          omega
      exact hinv
  · rename_i hv
    have hlen : st.cnt = pix.length := by
      generalize hr : pix.drop st.cnt = rr at h1
      cases h1 with
      | done hn =>
        have := List.drop_eq_nil_iff.1 hr
        omega
      | more hn _ _ => exact absurd hn hv
    refine ⟨_, idx, rfl, ?_⟩
    have hws : w ∉ st.stops := by
      rw [h8', hnt]; simp
    have hwpos : st.stops.length < n := by
      have hsub : (w :: st.stops).Nodup := List.nodup_cons.2 ⟨hws, h8⟩
      have hss : (w :: st.stops) ⊆ (List.range n).map (· + 1) := by
        intro v hv
        simp only [List.mem_map, List.mem_range]
        rcases List.mem_cons.1 hv with rfl | hv
        · exact ⟨v - 1, by omega, by omega⟩
        · have := (h8' v).1 hv
          exact ⟨v - 1, by omega, by omega⟩
      have := (hsub.subperm hss).length_le
      simp at this
      omega
    have hinv : Inv c n pix
        { st with ws := upd st.ws w .told, working := st.working - 1, stops := w :: st.stops, img := imgAfter st.img (st.cell w) res } idx := by
      refine ⟨h1, h2, ?_, ?_, ?_, i2, h7, ⟨List.nodup_cons.2 ⟨hws, h8⟩, ?_⟩, ?_, fun _ => hlen⟩
      · intro v
        simp only
        by_cases hvw : v = w
        · subst hvw; rw [upd_same]; simp [hasTask]
        · rw [upd_other _ _ hvw]; exact h3 v
      · intro v v' hne
        simp only
        by_cases hvw : v = w
        · subst hvw; rw [upd_same]; simp [hasTask]
        · rw [upd_other _ _ hvw]
          by_cases hvw' : v' = w
          · subst hvw'; rw [upd_same]; simp [hasTask]
          · rw [upd_other _ _ hvw']; exact h4 v v' hne
      · intro l q hl hq hv
        refine i1 l q hl hq fun v hvw ht => ?_
        have := hv v
        simp only at this
        rw [upd_other _ _ hvw] at this
        exact this ht
      · intro v
        simp only [List.mem_cons]
        by_cases hvw : v = w
        · subst hvw; rw [upd_same]; simp [isTold]; omega
        · rw [upd_other _ _ hvw, h8' v]; simp [hvw]
      · simp only [List.length_cons]; omega
    exact hinv

theorem inv_step {c : Cfg P S R} {n : Nat} {pix : List P} {st : State P S R} {idx : Nat → Nat}
    (h : Inv c n pix st idx) (hinj : Inj c pix) {a : Act} {o : Option (State P S R)}
    (hs : step c n st a = some o) : ∃ st' idx', o = some st' ∧ Inv c n pix st' idx' := by
  cases a with
  | recv w =>
    simp only [step] at hs
    split at hs
    · simp at hs
    · rename_i hc
      push Not at hc
      rcases hw : st.ws w with _ | p | p | r | _ | _ <;> rw [hw] at hs <;> simp at hs
      · obtain ⟨st', idx', e, hi⟩ := inv_serve h hinj (w := w) (by omega) (by omega) none
          (Or.inl ⟨hw, rfl⟩)
        exact ⟨st', idx', hs ▸ e, hi⟩
      · obtain ⟨st', idx', e, hi⟩ := inv_serve h hinj (w := w) (by omega) (by omega) (some r)
          (Or.inr ⟨r, hw, rfl⟩)
        exact ⟨st', idx', hs ▸ e, hi⟩
  | work w =>
    obtain ⟨h1, h2, h3, h4, h5, h6, h7, ⟨h8, h8'⟩, h9, h10⟩ := h
    simp only [step] at hs
    split at hs
    · simp at hs
    · have key : ∀ x : WState P R, hasTask x = hasTask (st.ws w) → isTold x = isTold (st.ws w) →
          (∀ p, holds c.f (st.ws w) p → holds c.f x p) →
          Inv c n pix { st with ws := upd st.ws w x } idx := by
        intro x ht hto hh
        have eT : ∀ v, hasTask (upd st.ws w x v) = hasTask (st.ws v) := by
          intro v
          by_cases hvw : v = w
          · subst hvw; rw [upd_same, ht]
          · rw [upd_other _ _ hvw]
        have eS : ∀ v, isTold (upd st.ws w x v) = isTold (st.ws v) := by
          intro v
          by_cases hvw : v = w
          · subst hvw; rw [upd_same, hto]
          · rw [upd_other _ _ hvw]
        refine ⟨h1, h2, ?_, ?_, ?_, h6, h7, ⟨h8, ?_⟩, h9, h10⟩
        · intro v
          simp only [eT]
          intro hv
          obtain ⟨t1, t2, t3, p, t4, t5, t6⟩ := h3 v hv
          refine ⟨t1, t2, t3, p, t4, ?_, t6⟩
          by_cases hvw : v = w
          · subst hvw; rw [upd_same]; exact hh p t5
          · rw [upd_other _ _ hvw]; exact t5
        · intro v v'; simp only [eT]; exact h4 v v'
        · simp only [eT]; exact h5
        · intro v; simp only [eS]; exact h8' v
      rcases hw : st.ws w with _ | p | p | r | _ | _ <;> rw [hw] at hs <;> simp at hs
      · exact ⟨_, idx, hs.symm, key _ (by rw [hw]; rfl) (by rw [hw]; rfl) (by rw [hw]; exact fun _ h => h)⟩
      · refine ⟨_, idx, hs.symm, key _ (by rw [hw]; rfl) (by rw [hw]; rfl) ?_⟩
        rw [hw]; intro q h; simp only [holds] at h ⊢; rw [h]
      · exact ⟨_, idx, hs.symm, key _ (by rw [hw]; rfl) (by rw [hw]; rfl) (by rw [hw]; exact fun _ h => h)⟩

theorem inv_reach {c : Cfg P S R} {n : Nat} {pix : List P} (he : Enum2 c.set c.set.start pix)
    (hinj : Inj c pix) {k : Nat} {st : State P S R} (hr : Reach c n k st) :
    ∃ idx, Inv c n pix st idx := by
  induction hr with
  | init => exact ⟨_, inv_init c n pix he⟩
  | step _ hs ih =>
    obtain ⟨idx, hi⟩ := ih
    obtain ⟨st', idx', e, hi'⟩ := inv_step hi hinj hs
    simp only [Option.some.injEq] at e
    subst e
    exact ⟨idx', hi'⟩

/-- Actions left for one worker before it needs the manager to give it a new position. -/
def weight : WState P R → Nat
  | .stopped => 0
  | .told => 1
  | .asking => 2
  | .answered _ => 2
  | .busy _ => 3
  | .toWork _ => 4

/-- Bound on the number of actions left. -/
def work (n len : Nat) (st : State P S R) : Nat :=
  3 * (len - st.cnt) + ∑ i ∈ Finset.range n, weight (st.ws (i + 1))

theorem sum_upd (n : Nat) (ws : Nat → WState P R) (w : Nat) (hw1 : 1 ≤ w) (hwn : w ≤ n) (x : WState P R) :
    ∑ i ∈ Finset.range n, weight (upd ws w x (i + 1)) + weight (ws w) =
      ∑ i ∈ Finset.range n, weight (ws (i + 1)) + weight x := by
  have hm : w - 1 ∈ Finset.range n := Finset.mem_range.2 (by omega)
  rw [← Finset.add_sum_erase _ _ hm,
    ← Finset.add_sum_erase _ (fun i => weight (ws (i + 1))) hm]
  have : ∑ i ∈ (Finset.range n).erase (w - 1), weight (upd ws w x (i + 1)) =
      ∑ i ∈ (Finset.range n).erase (w - 1), weight (ws (i + 1)) := by
    apply Finset.sum_congr rfl
    intro v hv
    rw [Finset.mem_erase] at hv
    rw [upd_other _ _ (by omega)]
  rw [this, show w - 1 + 1 = w by omega, upd_same]
  omega

theorem work_decreases {c : Cfg P S R} {n : Nat} {pix : List P} {st st' : State P S R} {idx : Nat → Nat}
    (h : Inv c n pix st idx) {a : Act} (hs : step c n st a = some (some st')) :
    work n pix.length st' < work n pix.length st := by
  cases a with
  | recv w =>
    simp only [step] at hs
    split at hs
    · simp at hs
    · rename_i hc
      push Not at hc
      have key : ∀ res, weight (st.ws w) = 2 → serve c st w res = some st' →
          work n pix.length st' < work n pix.length st := by
        intro res hwt hsv
        unfold serve at hsv
        split at hsv
        · rename_i hv
          have hlt : st.cnt < pix.length := by
            by_contra hcc
            have h1 := h.hij
            rw [List.drop_eq_nil_of_le (by omega)] at h1
            cases h1 with
            | done hn => rw [hv] at hn; simp at hn
          split at hsv
          · simp at hsv
          · rename_i p hd
            simp only [Option.some.injEq] at hsv
            have := sum_upd n st.ws w (by omega) (by omega) (.toWork p)
            rw [hwt] at this
            have hw2 : weight (WState.toWork p : WState P R) = 4 := rfl
            subst hsv; simp only [work]; omega
        · simp only [Option.some.injEq] at hsv
          have := sum_upd n st.ws w (by omega) (by omega) .told
          rw [hwt] at this
          have hw2 : weight (WState.told : WState P R) = 1 := rfl
          subst hsv; simp only [work]; omega
      rcases hw : st.ws w with _ | p | p | r | _ | _ <;> rw [hw] at hs <;> simp at hs
      · exact key none (by rw [hw]; rfl) hs
      · exact key (some r) (by rw [hw]; rfl) hs
  | work w =>
    simp only [step] at hs
    split at hs
    · simp at hs
    · rename_i hc
      push Not at hc
      rcases hw : st.ws w with _ | p | p | r | _ | _ <;> rw [hw] at hs <;> simp at hs <;> subst hs
      · have := sum_upd n st.ws w (by omega) (by omega) (.busy p)
        rw [hw] at this
        simp only [weight] at this
        simp only [work]
        simp only [weight] at *
        omega
      · have := sum_upd n st.ws w (by omega) (by omega) (.answered (c.f p))
        rw [hw] at this
        simp only [weight] at this
        simp only [work]
        simp only [weight] at *
        omega
      · have := sum_upd n st.ws w (by omega) (by omega) .stopped
        rw [hw] at this
        simp only [weight] at this
        simp only [work]
        simp only [weight] at *
        omega

end Gyoto.Mpi
