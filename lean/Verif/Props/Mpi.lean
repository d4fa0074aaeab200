import Verif.Lemmas.Mpi
import Verif.Props.Threads

/-! # C08 — distributed ray tracing -/

namespace Gyoto.Mpi
open Gyoto.Coords
variable {P S R : Type}

/-- Hypotheses on a call: the set of positions enumerates `pix`; distinct positions have distinct cells. -/
structure Good (c : Cfg P S R) (pix : List P) : Prop where
  enum : Enum2 c.set c.set.start pix
  cells : ∀ l l' p p', pix[l]? = some p → pix[l']? = some p' → c.cellOf l p = c.cellOf l' p' → l = l'

/-- **C08, safety.** Whatever the order of the messages, no action of the manager or of a worker leads to
undefined behaviour. -/
theorem no_ub {c : Cfg P S R} {pix : List P} (h : Good c pix) {n k : Nat} {st : State P S R}
    (hr : Reach c n k st) (a : Act) : step c n st a ≠ some none := by
  obtain ⟨idx, hi⟩ := inv_reach h.enum h.cells hr
  intro hs
  obtain ⟨st', _, e, -⟩ := inv_step hi h.cells hs
  simp at e

/-- **C08.** With at least one worker, when the manager leaves its loop, whatever the order of the answers:
the image is the specified one, every position was handed out exactly once (in order), and every worker was
told to stop exactly once. -/
theorem manager_result {c : Cfg P S R} {pix : List P} (h : Good c pix) {n k : Nat} (hn : 0 < n)
    {st : State P S R} (hr : Reach c n k st) (hend : st.working = 0) :
    Threads.IsImage c.cellOf c.f pix st.img ∧ st.sent.reverse = pix ∧
      st.stops.Perm ((List.range n).map (· + 1)) := by
  obtain ⟨idx, hi⟩ := inv_reach h.enum h.cells hr
  have hlen : st.stops.length = n := by have := hi.hwork; omega
  have hcnt : st.cnt = pix.length := hi.hend (by intro h; rw [h] at hlen; simp at hlen; omega)
  obtain ⟨hnd, hmem⟩ := hi.hstops
  have hperm : st.stops.Perm ((List.range n).map (· + 1)) := by
    have hss : st.stops ⊆ (List.range n).map (· + 1) := by
      intro v hv
      have := (hmem v).1 hv
      simp only [List.mem_map, List.mem_range]
      exact ⟨v - 1, by omega, by omega⟩
    exact (hnd.subperm hss).perm_of_length_le (by simp [hlen])
  have hno : ∀ w, hasTask (st.ws w) = false := by
    intro w
    by_contra hc
    have ht : hasTask (st.ws w) = true := by simpa using hc
    obtain ⟨h1, h2, -⟩ := hi.htask w ht
    have hw : w ∈ st.stops := by
      rw [hperm.mem_iff]
      simp only [List.mem_map, List.mem_range]
      exact ⟨w - 1, by omega, by omega⟩
    have := ((hmem w).1 hw).2.2
    revert this ht
    cases st.ws w <;> simp [hasTask, isTold]
  refine ⟨⟨fun l p hp => ?_, fun d hd => hi.hrest d fun l p _ hp => hd l p hp⟩, ?_, hperm⟩
  · refine hi.himg l p ?_ hp fun w hw => by rw [hno w] at hw; simp at hw
    rw [hcnt]; exact (List.getElem?_eq_some_iff.1 hp).1
  · rw [hi.hsent, hcnt, List.take_length]

/-- **C08, no deadlock.** As long as the manager has not left its loop or some worker has not stopped, some
action is possible. -/
theorem no_deadlock {c : Cfg P S R} {pix : List P} (h : Good c pix) {n k : Nat} {st : State P S R}
    (hr : Reach c n k st) (hstuck : ∀ a, step c n st a = none) :
    st.working = 0 ∧ ∀ w, 1 ≤ w → w ≤ n → ∃ x, st.ws w = x ∧ (match x with | .stopped => True | _ => False) := by
  obtain ⟨idx, hi⟩ := inv_reach h.enum h.cells hr
  obtain ⟨hnd, hmem⟩ := hi.hstops
  have hw0 : st.working = 0 := by
    by_contra hpos
    -- some worker has not been told to stop
    have hex : ∃ w, 1 ≤ w ∧ w ≤ n ∧ isTold (st.ws w) = false := by
      by_contra hc
      push Not at hc
      have hss : (List.range n).map (· + 1) ⊆ st.stops := by
        intro v hv
        simp only [List.mem_map, List.mem_range] at hv
        obtain ⟨i, hi, rfl⟩ := hv
        exact (hmem _).2 ⟨by omega, by omega, by simpa using hc (i + 1) (by omega) (by omega)⟩
      have hnd' : ((List.range n).map (· + 1)).Nodup :=
        List.Nodup.map (fun a b h => Nat.succ.inj h) List.nodup_range
      have := (hnd'.subperm hss).length_le
      simp at this
      have := hi.hwork
      omega
    obtain ⟨w, h1, h2, h3⟩ := hex
    have a1 := hstuck (.recv w)
    have a2 := hstuck (.work w)
    simp only [step] at a1 a2
    rw [if_neg (by omega)] at a1 a2
    cases hw : st.ws w <;> rw [hw] at a1 a2 h3 <;> simp [isTold] at a1 a2 h3
  refine ⟨hw0, fun w h1 h2 => ⟨_, rfl, ?_⟩⟩
  have hlen : st.stops.length = n := by have := hi.hwork; omega
  have hw : w ∈ st.stops := by
    have hss : st.stops ⊆ (List.range n).map (· + 1) := by
      intro v hv
      have := (hmem v).1 hv
      simp only [List.mem_map, List.mem_range]
      exact ⟨v - 1, by omega, by omega⟩
    rw [((hnd.subperm hss).perm_of_length_le (by simp [hlen])).mem_iff]
    simp only [List.mem_map, List.mem_range]
    exact ⟨w - 1, by omega, by omega⟩
  have ht := ((hmem w).1 hw).2.2
  have a2 := hstuck (.work w)
  simp only [step] at a2
  rw [if_neg (by omega)] at a2
  cases hw : st.ws w <;> rw [hw] at a2 ht <;> simp [isTold] at a2 ht
  trivial

/-- **C08, termination.** No execution is longer than three actions per position plus two per worker. -/
theorem bounded_executions {c : Cfg P S R} {pix : List P} (h : Good c pix) {n k : Nat} {st : State P S R}
    (hr : Reach c n k st) : k ≤ 3 * pix.length + 2 * n := by
  have key : k + work n pix.length st ≤ 3 * pix.length + 2 * n := by
    induction hr with
    | init =>
      simp [work, init, weight]
      omega
    | step hr' hs ih =>
      obtain ⟨idx, hi⟩ := inv_reach h.enum h.cells hr'
      have := work_decreases hi hs
      omega
  omega

/-- Same image as the one computed by threads on a single machine. -/
theorem same_as_threads {Ph : Type} {c : Cfg P S R} {pix : List P} (h : Good c pix) {n k : Nat}
    (hn : 0 < n) {st : State P S R} (hr : Reach c n k st) (hend : st.working = 0)
    {tc : Threads.Cfg P S R Ph} (ht : Threads.Good tc c.f pix) (hcell : tc.cellOf = c.cellOf) {m : Nat}
    (hm : 0 < m) {ph sched} {st' : Threads.State P S R Ph}
    (e : Threads.exec tc m (Threads.init tc ph) sched = some st') (hfin : Threads.finished m st') :
    st.img = st'.img := by
  have h1 := (manager_result h hn hr hend).1
  have h2 := (Threads.image_any_schedule ht hm ph sched e hfin).1
  rw [hcell] at h2
  exact Threads.isImage_unique h1 h2

/-- Two workers, three positions: worker 2 is served first and computes two of them. -/
def exCfg : Cfg (Nat × Nat) (Nat × Nat) Nat :=
  ⟨grid (range 1 3 1) (range 1 1 1), Threads.pixelCell true 3, fun p => 10 * p.1⟩

example : Good exCfg [(1, 1), (2, 1), (3, 1)] := by
  refine ⟨?_, ?_⟩
  · have a := enum_range 3 1 (by decide) (by decide) 2 1 1 (by decide) (by decide)
    have b := enum_range 1 1 (by decide) (by decide) 0 1 1 (by decide) (by decide)
    exact enum_grid (a := range 1 3 1) (b := range 1 1 1) a (by decide) _ _ b
  · intro l l' p p' h h' hc
    exact Threads.pixelCell_injective true 3 _ (by decide) (by decide) h h' hc

/-- The run of that example, action by action. -/
def exRun : List Act := [.recv 2, .work 2, .recv 1, .work 2, .recv 2, .work 2, .work 1, .work 2, .recv 2,
  .work 1, .recv 1, .work 2, .work 1]

def runActs (c : Cfg P S R) (n : Nat) (st : State P S R) : List Act → Option (State P S R)
  | [] => some st
  | a :: as => match step c n st a with
    | some (some st') => runActs c n st' as
    | _ => none

example : ((runActs exCfg 2 (init exCfg 2) exRun).map fun st =>
    (st.working, st.img 0, st.img 1, st.img 2, st.img 3, st.stops)) =
    some (0, some 10, some 20, some 30, none, [1, 2]) := rfl

end Gyoto.Mpi
