import Verif.Lemmas.Threads
import Verif.Props.CoordSet

/-! # C07 — the image does not depend on the schedule of the threads -/

namespace Gyoto.Threads
open Gyoto.Coords
variable {P S R Ph : Type}

/-- Specification: the image for the positions `pix` when the ray at position `p` gives `f p` and the
`l`-th position goes to cell `cell l p`. -/
def IsImage (cell : Nat → P → Nat) (f : P → R) (pix : List P) (img : Nat → Option R) : Prop :=
  (∀ l p, pix[l]? = some p → img (cell l p) = some (f p)) ∧
  (∀ d, (∀ l p, pix[l]? = some p → cell l p ≠ d) → img d = none)

/-- There is only one such image. -/
theorem isImage_unique {cell : Nat → P → Nat} {f : P → R} {pix : List P} {i i' : Nat → Option R}
    (h : IsImage cell f pix i) (h' : IsImage cell f pix i') : i = i' := by
  funext d
  by_cases hd : ∃ l p, pix[l]? = some p ∧ cell l p = d
  · obtain ⟨l, p, h1, rfl⟩ := hd
    rw [h.1 l p h1, h'.1 l p h1]
  · push Not at hd
    rw [h.2 d hd, h'.2 d hd]

/-- Hypotheses on a call of `rayTrace`: the set of positions enumerates `pix` and can always be
dereferenced; the result of a ray does not depend on what the photon was used for before; distinct positions
have distinct destinations. -/
structure Good (c : Cfg P S R Ph) (f : P → R) (pix : List P) : Prop where
  enum : Enum2 c.set c.set.start pix
  deref : ∀ s, c.set.deref s ≠ none
  result : ∀ ph p, (c.trace ph p).1 = f p
  cells : ∀ l l' p p', pix[l]? = some p → pix[l']? = some p' → c.cellOf l p = c.cellOf l' p' → l = l'

/-- **C07, no race.** For any number of threads and any schedule, no undefined behaviour occurs and two
threads never work on the same cell at the same time. -/
theorem no_race {c : Cfg P S R Ph} {f : P → R} {pix : List P} (h : Good c f pix) (n : Nat)
    (ph : Nat → Ph) (sched : List Nat) :
    ∃ st, exec c n (init c ph) sched = some st ∧
      ∀ w w' l p l' p', w ≠ w' → task (st.ws w) = some (l, p) → task (st.ws w') = some (l', p') →
        c.cellOf l p ≠ c.cellOf l' p' := by
  obtain ⟨st, e, hi⟩ := inv_exec h.result h.cells h.deref sched _ (inv_init c f n pix ph h.enum)
  refine ⟨st, e, ?_⟩
  intro w w' l p l' p' hne h1 h2 hc
  exact hi.hdist w w' l p l' p' hne h1 h2
    (h.cells l l' p p' (hi.htask w l p h1).2.2 (hi.htask w' l' p' h2).2.2 hc)

/-- **C07.** When all threads have finished, whatever their number (at least one) and the schedule: every
position has been ray-traced exactly once and the image is the specified one. -/
theorem image_any_schedule {c : Cfg P S R Ph} {f : P → R} {pix : List P} (h : Good c f pix) {n : Nat}
    (hn : 0 < n) (ph : Nat → Ph) (sched : List Nat) {st : State P S R Ph}
    (e : exec c n (init c ph) sched = some st) (hfin : finished n st) :
    IsImage c.cellOf f pix st.img ∧ st.log.Perm (List.range pix.length) := by
  obtain ⟨st', e', hi⟩ := inv_exec h.result h.cells h.deref sched _ (inv_init c f n pix ph h.enum)
  rw [e] at e'
  simp only [Option.some.injEq] at e'
  subst e'
  have hd : ∀ w, w < n → st.ws w = .done := by
    intro w hw
    have := hfin w hw
    split at this
    · assumption
    · exact absurd this id
  have hcnt := hi.hdone 0 (hd 0 hn)
  have hnot : ∀ w l p, task (st.ws w) ≠ some (l, p) := by
    intro w l p ht
    have := (hi.htask w l p ht).1
    rw [hd w this] at ht
    simp [task] at ht
  have hmem : ∀ l, l ∈ st.log ↔ l < pix.length := by
    intro l
    rw [hi.hmem, hcnt]
    exact ⟨fun h => h.1, fun h => ⟨h, fun w p => hnot w l p⟩⟩
  refine ⟨⟨fun l p hp => hi.himg l p ?_ hp, fun d hd' => hi.hrest d fun l p _ hp => hd' l p hp⟩, ?_⟩
  · rw [hmem]
    exact (List.getElem?_eq_some_iff.1 hp).1
  · rw [List.perm_ext_iff_of_nodup hi.hlog List.nodup_range]
    intro l; rw [hmem, List.mem_range]

/-- **C07, same image as with one thread.** -/
theorem same_as_single_thread {c : Cfg P S R Ph} {f : P → R} {pix : List P} (h : Good c f pix) {n : Nat}
    (hn : 0 < n) (ph ph' : Nat → Ph) (sched sched' : List Nat) {st st' : State P S R Ph}
    (e : exec c n (init c ph) sched = some st) (hfin : finished n st)
    (e' : exec c 1 (init c ph') sched' = some st') (hfin' : finished 1 st') : st.img = st'.img :=
  isImage_unique (image_any_schedule h hn ph sched e hfin).1
    (image_any_schedule h one_pos ph' sched' e' hfin').1

theorem exec_append (c : Cfg P S R Ph) (n : Nat) : ∀ (s1 s2 : List Nat) (st : State P S R Ph),
    exec c n st (s1 ++ s2) = (exec c n st s1).bind fun st' => exec c n st' s2 := by
  intro s1
  induction s1 with
  | nil => intro s2 st; rfl
  | cons w s1 ih =>
    intro s2 st
    simp only [List.cons_append, exec]
    split
    · cases hs : step c st w with
      | none => rfl
      | some st1 => simp only [Option.bind_some]; exact ih s2 st1
    · exact ih s2 st

/-- Along any schedule, either nothing changes or the work left decreases. -/
theorem exec_work {c : Cfg P S R Ph} {f : P → R} {pix : List P} (h : Good c f pix) {n : Nat} :
    ∀ (sched : List Nat) (st st' : State P S R Ph), Inv c f n pix st → exec c n st sched = some st' →
      st' = st ∨ work n pix.length st' < work n pix.length st := by
  intro sched
  induction sched with
  | nil => intro st st' _ e; left; simp [exec] at e; exact e.symm
  | cons w sched ih =>
    intro st st' hi e
    simp only [exec] at e
    split at e
    · rename_i hw
      obtain ⟨st1, e1, hi1⟩ := inv_step hi h.result h.cells h.deref hw
      rw [e1] at e
      simp only [Option.bind_some] at e
      have r := ih st1 st' hi1 e
      by_cases hd : st.ws w = .done
      · have : st1 = st := by
          simp only [step, hd, Option.some.injEq] at e1; exact e1.symm
        rwa [this] at r
      · have hlt := work_decreases hi hw hd e1
        rcases r with rfl | r
        · exact Or.inr hlt
        · exact Or.inr (lt_trans r hlt)
    · exact ih st st' hi e

/-- **C07, termination.** If the schedule never forgets any thread, then all threads finish after a finite
time (no deadlock, no livelock). -/
theorem all_threads_finish {c : Cfg P S R Ph} {f : P → R} {pix : List P} (h : Good c f pix) (n : Nat)
    (ph : Nat → Ph) (sigma : Nat → Nat) (fair : ∀ w, w < n → ∀ k, ∃ t, k ≤ t ∧ sigma t = w) :
    ∃ k st, exec c n (init c ph) ((List.range k).map sigma) = some st ∧ finished n st := by
  have hrange : ∀ k t, k ≤ t → (List.range t).map sigma =
      (List.range k).map sigma ++ ((List.range (t - k)).map fun i => sigma (k + i)) := by
    intro k t hkt
    obtain ⟨d, rfl⟩ := Nat.exists_eq_add_of_le hkt
    rw [List.range_add, List.map_append, List.map_map, Nat.add_sub_cancel_left]
    rfl
  have key : ∀ m k st, exec c n (init c ph) ((List.range k).map sigma) = some st → Inv c f n pix st →
      work n pix.length st ≤ m →
      ∃ k st, exec c n (init c ph) ((List.range k).map sigma) = some st ∧ finished n st := by
    intro m
    induction m with
    | zero =>
      intro k st e hi hm
      refine ⟨k, st, e, fun w hw => ?_⟩
      have : weight (st.ws w) ≤ ∑ v ∈ Finset.range n, weight (st.ws v) :=
        Finset.single_le_sum (f := fun v => weight (st.ws v)) (fun _ _ => Nat.zero_le _)
          (Finset.mem_range.2 hw)
      simp only [work] at hm
      have h0 : weight (st.ws w) = 0 := by omega
      cases hw' : st.ws w <;> rw [hw'] at h0 <;> simp [weight] at h0
      trivial
    | succ m ih =>
      intro k st e hi hm
      by_cases hfin : finished n st
      · exact ⟨k, st, e, hfin⟩
      · have : ∃ w, w < n ∧ st.ws w ≠ .done := by
          by_contra hc
          push Not at hc
          apply hfin
          intro w hw
          rw [hc w hw]; trivial
        obtain ⟨w, hw, hnd⟩ := this
        obtain ⟨t, hkt, hst⟩ := fair w hw k
        obtain ⟨st1, e1, hi1⟩ := inv_exec h.result h.cells h.deref
          ((List.range (t - k)).map fun i => sigma (k + i)) st hi
        have et : exec c n (init c ph) ((List.range t).map sigma) = some st1 := by
          rw [hrange k t hkt, exec_append, e]; exact e1
        rcases exec_work h _ st st1 hi e1 with rfl | hlt
        · obtain ⟨st2, e2, hi2⟩ := inv_step hi1 h.result h.cells h.deref hw
          have hlt := work_decreases hi1 hw hnd e2
          refine ih (t + 1) st2 ?_ hi2 (by omega)
          rw [List.range_succ, List.map_append, exec_append, et]
          simp [exec, hst, hw, e2]
        · exact ih t st1 et hi1 (by omega)
  exact key _ 0 _ rfl (inv_init c f n pix ph h.enum) (le_refl _)

/-- Destinations: pixels with coordinates from 1 to `npix` have distinct cells in an allocated image, inside
the image; without allocation the cells are the successive ranks. -/
theorem pixelCell_injective (alloc : Bool) (npix : Nat) (pix : List (Nat × Nat)) (hnd : pix.Nodup)
    (hin : ∀ p ∈ pix, 1 ≤ p.1 ∧ p.1 ≤ npix ∧ 1 ≤ p.2) {l l' : Nat} {p p' : Nat × Nat}
    (h : pix[l]? = some p) (h' : pix[l']? = some p')
    (hc : pixelCell alloc npix l p = pixelCell alloc npix l' p') : l = l' := by
  obtain ⟨hl, e⟩ := List.getElem?_eq_some_iff.1 h
  obtain ⟨hl', e'⟩ := List.getElem?_eq_some_iff.1 h'
  cases alloc with
  | false => simpa [pixelCell] using hc
  | true =>
    simp only [pixelCell, if_true] at hc
    obtain ⟨a1, a2, a3⟩ := hin p (e ▸ List.getElem_mem hl)
    obtain ⟨b1, b2, b3⟩ := hin p' (e' ▸ List.getElem_mem hl')
    have : p = p' := by
      have e1 : (p.2 - 1) * npix + (p.1 - 1) = (p'.2 - 1) * npix + (p'.1 - 1) := by omega
      have e2 : (p.2 - 1) * npix + (p.1 - 1) = (p.1 - 1) + npix * (p.2 - 1) := by
        rw [Nat.mul_comm]; omega
      have e3 : (p'.2 - 1) * npix + (p'.1 - 1) = (p'.1 - 1) + npix * (p'.2 - 1) := by
        rw [Nat.mul_comm]; omega
      rw [e2, e3] at e1
      have hm := congrArg (· % npix) e1
      have hdv := congrArg (· / npix) e1
      simp only [Nat.add_mul_mod_self_left] at hm
      rw [Nat.mod_eq_of_lt (by omega), Nat.mod_eq_of_lt (by omega)] at hm
      simp only [Nat.add_mul_div_left _ _ (show 0 < npix by omega)] at hdv
      rw [Nat.div_eq_of_lt (by omega), Nat.div_eq_of_lt (by omega)] at hdv
      ext <;> omega
    rw [← e, ← e'] at this
    exact (List.Nodup.getElem_inj_iff hnd).1 this

/-- The hypotheses of the theorems hold for a rectangular selection inside the screen. -/
theorem good_grid (alloc : Bool) (npix mi ma d mj mb e : Nat) (hd : 0 < d) (he : 0 < e)
    (hi1 : 1 ≤ mi) (hi : mi ≤ ma) (hi2 : ma ≤ npix) (hj1 : 1 ≤ mj) (hj : mj ≤ mb)
    (hov : ma + d < w64) (hov' : mb + e < w64) (hsz : (range mi ma d).size * (range mj mb e).size < w64)
    (blank : R) (trace : Ph → Nat × Nat → R × Ph) (f : Nat × Nat → R)
    (hf : ∀ ph p, (trace ph p).1 = f p) :
    ∃ pix, Good ⟨grid (range mi ma d) (range mj mb e), pixelCell alloc npix, blank, trace⟩ f pix ∧
      ∀ i j, (i, j) ∈ pix ↔ (mi ≤ i ∧ i ≤ ma ∧ d ∣ i - mi) ∧ (mj ≤ j ∧ j ≤ mb ∧ e ∣ j - mj) := by
  obtain ⟨pix, h1, h2, h3, -⟩ := grid_visits mi ma d mj mb e hd he hi hj hov hov' hsz
  have hnd : pix.Nodup := h3.imp (fun {a b} h => by rintro rfl; omega)
  refine ⟨pix, ⟨h1, by simp [grid, range], hf, ?_⟩, h2⟩
  intro l l' p p' hp hp' hc
  refine pixelCell_injective alloc npix pix hnd ?_ hp hp' hc
  rintro ⟨i, j⟩ hij
  have := (h2 i j).1 hij
  simp only
  omega

/-- A concrete run: a 2 × 1 image, two threads, interleaved, ending with all threads done. -/
example :
    let c : Cfg (Nat × Nat) (Nat × Nat) Nat Nat :=
      ⟨grid (range 1 2 1) (range 1 1 1), pixelCell true 2, 0, fun ph p => (10 * p.1 + p.2, ph + 1)⟩
    ∃ st, exec c 2 (init c fun _ => 0) [0, 1, 1, 0, 0, 1, 1, 0] = some st ∧ finished 2 st ∧
      st.img 0 = some 11 ∧ st.img 1 = some 21 ∧ st.log = [1, 0] := by
  refine ⟨_, rfl, ?_, rfl, rfl, rfl⟩
  intro w hw
  have : w = 0 ∨ w = 1 := by omega
  rcases this with rfl | rfl <;> exact trivial

/-- **Finding (C07).** With an explicit list of positions no thread can ever leave its loop without reading
past the end of the list: positions are read before the end is tested. -/
theorem explicit_positions_overread {V : Type} (u v : List V) (s : Set2 (V × V) (Nat × Nat))
    (hs : bucket (indices u) (indices v) = some s) (cellOf : Nat → V × V → Nat) (blank : R)
    (trace : Ph → V × V → R × Ph) (n : Nat) (ph : Nat → Ph) (sched : List Nat)
    (st : State (V × V) (Nat × Nat) R Ph)
    (e : exec ⟨s, cellOf, blank, trace⟩ n (init ⟨s, cellOf, blank, trace⟩ ph) sched = some st) :
    ∀ w, st.ws w ≠ .done := by
  have hss : ∀ x p, s.deref x = some p → s.valid x = true := by
    unfold bucket at hs
    split at hs
    · simp at hs
    · simp only [Option.some.injEq] at hs
      subst hs
      rintro ⟨i, j⟩ p hp
      simp only [Option.bind_eq_some_iff, Option.map_eq_some_iff, indices] at hp
      obtain ⟨a, ha, b, hb, -⟩ := hp
      have h1 := (List.getElem?_eq_some_iff.1 ha).1
      have h2 := (List.getElem?_eq_some_iff.1 hb).1
      simp [indices, h1, h2]
  have key : ∀ (sched : List Nat) (st st' : State (V × V) (Nat × Nat) R Ph),
      (∀ w, st.ws w ≠ .done) → exec ⟨s, cellOf, blank, trace⟩ n st sched = some st' →
      ∀ w, st'.ws w ≠ .done := by
    intro sched
    induction sched with
    | nil => intro st st' h e; simp [exec] at e; exact e ▸ h
    | cons w sched ih =>
      intro st st' h e
      simp only [exec] at e
      split at e
      · rcases hst : step ⟨s, cellOf, blank, trace⟩ st w with _ | st1
        · rw [hst] at e; simp at e
        · rw [hst] at e
          simp only [Option.bind_some] at e
          refine ih st1 st' ?_ e
          intro x
          unfold step at hst
          rcases hw : st.ws w with q | ⟨l, p, q⟩ | ⟨l, p, q⟩ | _ <;> rw [hw] at hst
          · simp only at hst
            rcases hd : s.deref st.ij with _ | p
            · rw [hd] at hst; simp at hst
            · rw [hd] at hst
              simp only [hss _ _ hd, if_true, Option.some.injEq] at hst
              subst hst
              simp only [setW]
              split
              · simp
              · exact h x
          · simp only [Option.some.injEq] at hst
            subst hst
            simp only [setW]
            split
            · simp
            · exact h x
          · simp only [Option.some.injEq] at hst
            subst hst
            simp only [setW]
            split
            · simp
            · exact h x
          · exact absurd hw (h w)
      · exact ih st st' h e
  exact key sched _ st (by simp [init]) e

end Gyoto.Threads
