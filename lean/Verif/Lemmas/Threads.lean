import Verif.Model.Threads
import Verif.Lemmas.CoordSet
import Mathlib.Algebra.Order.BigOperators.Group.Finset
import Mathlib.Algebra.BigOperators.Intervals

namespace Gyoto.Threads
open Gyoto.Coords
variable {P S R Ph : Type}

/-- Counter and pixel a worker is working on. -/
def task : WState P Ph → Option (Nat × P)
  | .got l p _ => some (l, p)
  | .blanked l p _ => some (l, p)
  | _ => none

/-- Invariant, for the list `pix` of all positions. -/
structure Inv (c : Cfg P S R Ph) (f : P → R) (n : Nat) (pix : List P) (st : State P S R Ph) : Prop where
  hij : Enum2 c.set st.ij (pix.drop st.cnt)
  hcnt : st.cnt ≤ pix.length
  htask : ∀ w l p, task (st.ws w) = some (l, p) → w < n ∧ l < st.cnt ∧ pix[l]? = some p
  hdist : ∀ w w' l p l' p', w ≠ w' → task (st.ws w) = some (l, p) → task (st.ws w') = some (l', p') →
    l ≠ l'
  hlog : st.log.Nodup
  hmem : ∀ l, l ∈ st.log ↔ l < st.cnt ∧ ∀ w p, task (st.ws w) ≠ some (l, p)
  himg : ∀ l p, l ∈ st.log → pix[l]? = some p → st.img (c.cellOf l p) = some (f p)
  hrest : ∀ d, (∀ l p, l < st.cnt → pix[l]? = some p → c.cellOf l p ≠ d) → st.img d = none
  hdone : ∀ w, st.ws w = .done → st.cnt = pix.length

/-- Distinct positions have distinct destinations. -/
def Inj (c : Cfg P S R Ph) (pix : List P) : Prop :=
  ∀ l l' p p', pix[l]? = some p → pix[l']? = some p' → c.cellOf l p = c.cellOf l' p' → l = l'

theorem inv_init (c : Cfg P S R Ph) (f : P → R) (n : Nat) (pix : List P) (ph : Nat → Ph)
    (he : Enum2 c.set c.set.start pix) : Inv c f n pix (init c ph) := by
  refine ⟨by simpa [init] using he, by simp [init], by simp [init, task], by simp [init, task],
    by simp [init], by simp [init, task], by simp [init], by simp [init], by simp [init]⟩

theorem task_setW (ws : Nat → WState P Ph) (w x v) :
    task (setW ws w x v) = if v = w then task x else task (ws v) := by
  unfold setW; split <;> rfl

theorem inv_step {c : Cfg P S R Ph} {f : P → R} {n : Nat} {pix : List P} {st : State P S R Ph}
    (h : Inv c f n pix st) (hf : ∀ ph p, (c.trace ph p).1 = f p) (hinj : Inj c pix)
    (hderef : ∀ s, c.set.deref s ≠ none) {w : Nat} (hw : w < n) :
    ∃ st', step c st w = some st' ∧ Inv c f n pix st' := by
  obtain ⟨h1, h2, h3, h4, h5, h6, h7, h8, h9⟩ := h
  unfold step
  rcases hws : st.ws w with ph | ⟨l, p, ph⟩ | ⟨l, p, ph⟩ | _
  · -- fetch
    rcases hd : c.set.deref st.ij with _ | p
    · exact absurd hd (hderef _)
    simp only
    have htw : task (st.ws w) = none := by rw [hws]; rfl
    split
    · rename_i hv
      refine ⟨_, rfl, ?_⟩
      generalize hr : pix.drop st.cnt = r at h1
      cases h1 with
      | done hn => rw [hv] at hn; simp at hn
      | @more _ p' rest _ hd' hrest =>
        rw [hd] at hd'
        simp only [Option.some.injEq] at hd'
        subst hd'
        have hlt : st.cnt < pix.length := by
          by_contra hc
          rw [List.drop_eq_nil_of_le (by omega)] at hr
          simp at hr
        rw [List.drop_eq_getElem_cons hlt] at hr
        simp only [List.cons.injEq] at hr
        refine ⟨by simpa [hr.2] using hrest, by simp only; omega, ?_, ?_, h5, ?_, h7, ?_, ?_⟩
        · intro v l q
          simp only [task_setW]
          split
          · intro e
            simp only [task, Option.some.injEq, Prod.mk.injEq] at e
            obtain ⟨rfl, rfl⟩ := e
            subst v
            exact ⟨hw, by omega, by rw [List.getElem?_eq_getElem hlt, hr.1]⟩
          · intro e
            obtain ⟨g1, g2, g3⟩ := h3 v l q e
            exact ⟨g1, by omega, g3⟩
        · intro v v' l q l' q' hne
          simp only [task_setW]
          split
          · rw [if_neg (by omega)]
            intro e e'
            simp only [task, Option.some.injEq, Prod.mk.injEq] at e
            have := (h3 v' l' q' e').2.1
            omega
          · split
            · intro e e'
              simp only [task, Option.some.injEq, Prod.mk.injEq] at e'
              have := (h3 v l q e).2.1
              omega
            · exact h4 v v' l q l' q' hne
        · intro l
          simp only [task_setW]
          rw [h6]
          constructor
          · rintro ⟨g1, g2⟩
            refine ⟨by omega, fun v q => ?_⟩
            split
            · simp only [task, ne_eq, Option.some.injEq, Prod.mk.injEq]; omega
            · exact g2 v q
          · rintro ⟨g1, g2⟩
            have hne : l ≠ st.cnt := by
              rintro rfl
              have := g2 w p
              simp [task] at this
            refine ⟨by omega, fun v q e => ?_⟩
            have := g2 v q
            split at this
            · rename_i hv
              subst hv
              rw [htw] at e; simp at e
            · exact this e
        · intro d hd
          exact h8 d (fun l q hl hq => hd l q (by simp only; omega) hq)
        · intro v hv
          simp only [setW] at hv
          split at hv
          · simp at hv
          · have := h9 v hv; omega
    · rename_i hv
      refine ⟨_, rfl, ?_⟩
      have hlen : st.cnt = pix.length := by
        generalize hr : pix.drop st.cnt = r at h1
        cases h1 with
        | done hn =>
          have := List.drop_eq_nil_iff.1 hr
          omega
        | more hn _ _ => exact absurd hn hv
      refine ⟨h1, h2, ?_, ?_, h5, ?_, h7, h8, fun _ _ => hlen⟩
      · intro v l q
        simp only [task_setW]
        split
        · simp [task]
        · exact h3 v l q
      · intro v v' l q l' q' hne
        simp only [task_setW]
        split
        · simp [task]
        · split
          · simp [task]
          · exact h4 v v' l q l' q' hne
      · intro l
        rw [h6]
        simp only [task_setW]
        constructor
        · rintro ⟨g1, g2⟩
          refine ⟨g1, fun v q => ?_⟩
          split
          · simp [task]
          · exact g2 v q
        · rintro ⟨g1, g2⟩
          refine ⟨g1, fun v q e => ?_⟩
          have := g2 v q
          split at this
          · rename_i hv
            subst hv
            rw [htw] at e; simp at e
          · exact this e
  · -- blank
    simp only
    refine ⟨_, rfl, ?_⟩
    have htw : task (st.ws w) = some (l, p) := by rw [hws]; rfl
    obtain ⟨_, g2, g3⟩ := h3 w l p htw
    have ht : ∀ v, task (setW st.ws w (.blanked l p ph) v) = task (st.ws v) := by
      intro v; rw [task_setW]; split
      · rename_i hv; subst hv; rw [htw]; rfl
      · rfl
    refine ⟨h1, h2, ?_, ?_, h5, ?_, ?_, ?_, ?_⟩
    · intro v; simp only [ht]; exact h3 v
    · intro v v'; simp only [ht]; exact h4 v v'
    · simp only [ht]; exact h6
    · intro l' p' hl' hp'
      simp only [setC]
      rw [if_neg]
      · exact h7 l' p' hl' hp'
      · intro e
        have := hinj l' l p' p hp' g3 e
        subst this
        exact ((h6 l').1 hl').2 w p htw
    · intro d hd
      simp only [setC]
      rw [if_neg (fun e => hd l p g2 g3 e.symm)]
      exact h8 d hd
    · intro v hv
      simp only [setW] at hv
      split at hv
      · simp at hv
      · exact h9 v hv
  · -- result
    simp only
    refine ⟨_, rfl, ?_⟩
    have htw : task (st.ws w) = some (l, p) := by rw [hws]; rfl
    obtain ⟨_, g2, g3⟩ := h3 w l p htw
    have hnl : l ∉ st.log := fun hl => ((h6 l).1 hl).2 w p htw
    have ht : ∀ v, task (setW st.ws w (.ready (c.trace ph p).2) v) =
        if v = w then none else task (st.ws v) := by
      intro v; rw [task_setW]; rfl
    refine ⟨h1, h2, ?_, ?_, ?_, ?_, ?_, ?_, ?_⟩
    · intro v l' q
      simp only [ht]
      split
      · simp
      · exact h3 v l' q
    · intro v v' l' q l'' q' hne
      simp only [ht]
      split
      · simp
      · split
        · simp
        · exact h4 v v' l' q l'' q' hne
    · exact List.nodup_cons.2 ⟨hnl, h5⟩
    · intro l'
      simp only [List.mem_cons, ht]
      constructor
      · rintro (rfl | hl')
        · refine ⟨g2, fun v q => ?_⟩
          split
          · simp
          · rename_i hv
            intro e
            exact h4 v w l' q l' p hv e htw rfl
        · obtain ⟨k1, k2⟩ := (h6 l').1 hl'
          refine ⟨k1, fun v q => ?_⟩
          split
          · simp
          · exact k2 v q
      · rintro ⟨k1, k2⟩
        by_cases hl : l' = l
        · exact Or.inl hl
        · right
          rw [h6]
          refine ⟨k1, fun v q e => ?_⟩
          have := k2 v q
          split at this
          · rename_i hv
            subst hv
            rw [htw] at e
            simp only [Option.some.injEq, Prod.mk.injEq] at e
            exact hl e.1.symm
          · exact this e
    · intro l' p' hl' hp'
      simp only [setC]
      by_cases e : c.cellOf l' p' = c.cellOf l p
      · rw [if_pos e]
        have := hinj l' l p' p hp' g3 e
        subst this
        rw [g3] at hp'
        simp only [Option.some.injEq] at hp'
        rw [hf, hp']
      · rw [if_neg e]
        have hl : l' ≠ l := by
          rintro rfl
          rw [g3] at hp'
          simp only [Option.some.injEq] at hp'
          exact e (by rw [hp'])
        simp only [List.mem_cons, hl, false_or] at hl'
        exact h7 l' p' hl' hp'
    · intro d hd
      simp only [setC]
      rw [if_neg (fun e => hd l p g2 g3 e.symm)]
      exact h8 d hd
    · intro v hv
      simp only [setW] at hv
      split at hv
      · simp at hv
      · exact h9 v hv
  · exact ⟨st, rfl, ⟨h1, h2, h3, h4, h5, h6, h7, h8, h9⟩⟩

theorem inv_exec {c : Cfg P S R Ph} {f : P → R} {n : Nat} {pix : List P}
    (hf : ∀ ph p, (c.trace ph p).1 = f p) (hinj : Inj c pix)
    (hderef : ∀ s, c.set.deref s ≠ none) : ∀ (sched : List Nat) (st : State P S R Ph),
    Inv c f n pix st → ∃ st', exec c n st sched = some st' ∧ Inv c f n pix st' := by
  intro sched
  induction sched with
  | nil => intro st h; exact ⟨st, rfl, h⟩
  | cons w sched ih =>
    intro st h
    simp only [exec]
    split
    · rename_i hw
      obtain ⟨st1, e1, h1⟩ := inv_step h hf hinj hderef hw
      obtain ⟨st2, e2, h2⟩ := ih st1 h1
      exact ⟨st2, by simp [e1, e2], h2⟩
    · exact ih st h

/-- Work left for one worker in its present iteration. -/
def weight : WState P Ph → Nat
  | .done => 0
  | .ready _ => 1
  | .blanked .. => 2
  | .got .. => 3

/-- Work left. -/
def work (n : Nat) (len : Nat) (st : State P S R Ph) : Nat :=
  3 * (len - st.cnt) + ∑ w ∈ Finset.range n, weight (st.ws w)

theorem sum_setW (n : Nat) (ws : Nat → WState P Ph) (w : Nat) (hw : w < n) (x : WState P Ph) :
    ∑ v ∈ Finset.range n, weight (setW ws w x v) + weight (ws w) =
      ∑ v ∈ Finset.range n, weight (ws v) + weight x := by
  rw [← Finset.add_sum_erase _ _ (Finset.mem_range.2 hw),
    ← Finset.add_sum_erase _ (fun v => weight (ws v)) (Finset.mem_range.2 hw)]
  have : ∑ v ∈ (Finset.range n).erase w, weight (setW ws w x v) =
      ∑ v ∈ (Finset.range n).erase w, weight (ws v) := by
    apply Finset.sum_congr rfl
    intro v hv
    rw [Finset.mem_erase] at hv
    simp [setW, hv.1]
  rw [this]
  simp only [setW, if_true]
  omega

/-- Any move of a worker which has not finished decreases the work left. -/
theorem work_decreases {c : Cfg P S R Ph} {f : P → R} {n : Nat} {pix : List P} {st st' : State P S R Ph}
    (h : Inv c f n pix st) {w : Nat} (hw : w < n) (hnd : st.ws w ≠ .done)
    (hs : step c st w = some st') : work n pix.length st' < work n pix.length st := by
  unfold step at hs
  rcases hws : st.ws w with ph | ⟨l, p, ph⟩ | ⟨l, p, ph⟩ | _
  · rw [hws] at hs
    rcases hd : c.set.deref st.ij with _ | p
    · simp [hd] at hs
    · simp only [hd] at hs
      split at hs
      · rename_i hv
        simp only [Option.some.injEq] at hs
        subst hs
        have hlt : st.cnt < pix.length := by
          by_contra hc
          have h1 := h.hij
          rw [List.drop_eq_nil_of_le (by omega)] at h1
          cases h1 with
          | done hn => rw [hv] at hn; simp at hn
        have := sum_setW n st.ws w hw (.got st.cnt p ph)
        rw [hws] at this
        simp only [weight] at this
        simp only [work]
        simp only [weight] at *
        omega
      · simp only [Option.some.injEq] at hs
        subst hs
        have := sum_setW n st.ws w hw .done
        rw [hws] at this
        simp only [weight] at this
        simp only [work]
        simp only [weight] at *
        omega
  · rw [hws] at hs
    simp only [Option.some.injEq] at hs
    subst hs
    have := sum_setW n st.ws w hw (.blanked l p ph)
    rw [hws] at this
    simp only [work]
    simp only [weight] at *
    omega
  · rw [hws] at hs
    simp only [Option.some.injEq] at hs
    subst hs
    have := sum_setW n st.ws w hw (.ready (c.trace ph p).2)
    rw [hws] at this
    simp only [work]
    simp only [weight] at *
    omega
  · exact absurd hws hnd

end Gyoto.Threads
