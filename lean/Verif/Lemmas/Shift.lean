import Verif.Model.Shift

/-!
# Lemmas about the mass of a `Shift`
-/

namespace Gyoto.Derived

/-- What holds at every moment: the number of a `Shift` is below `next`, and a listener of `k` exists, has `k` as sub-metric, and has its mass. -/
structure Inv (w : World) : Prop where
  below : ∀ s sh, w.shifts s = some sh → s < w.next
  heard : ∀ k, ∀ l ∈ w.listeners k, ∃ sh, w.shifts l = some sh ∧ sh.sub = some k ∧ sh.mass = w.mass k

/-- What holds when nothing is cloned: each `Shift` listens to its sub-metric. -/
def Hooked (w : World) : Prop := ∀ s sh k, w.shifts s = some sh → sh.sub = some k → s ∈ w.listeners k

theorem tell_eq (k : ℕ) (ls : List ℕ) (w : World) (h : ∀ l ∈ ls, ∃ sh, w.shifts l = some sh ∧ sh.sub = some k) :
    tell k ls w = some { w with shifts := fun i => if i ∈ ls then (w.shifts i).map fun sh => { sh with mass := w.mass k } else w.shifts i } := by
  induction ls generalizing w with
  | nil => simp [tell]
  | cons l ls ih =>
    obtain ⟨sh, e, es⟩ := h l (by simp)
    unfold tell
    rw [e]
    simp only [es, if_true]
    rw [ih]
    · congr 1
      simp only [World.mk.injEq, true_and, and_true]
      funext i
      by_cases hi : i = l
      · subst hi
        by_cases hm : i ∈ ls <;> simp [hm, e, es]
      · by_cases hm : i ∈ ls <;> simp [hm, hi]
    · intro l' hl'
      by_cases hi : l' = l
      · exact ⟨{ sh with mass := w.mass k }, by simp [hi, es], es⟩
      · obtain ⟨sh', e', es'⟩ := h l' (by simp [hl'])
        exact ⟨sh', by simp [hi, e'], es'⟩

/-- The world after `mass(m)` of the sub-metric `k`. -/
def afterMass (w : World) (k : ℕ) (m : ℝ) : World :=
  { w with
    mass := fun i => if i = k then m else w.mass i
    shifts := fun i => if i ∈ w.listeners k then (w.shifts i).map fun sh => { sh with mass := m } else w.shifts i }

theorem subMass_eq {w : World} {k : ℕ} (m : ℝ) (h : ∀ l ∈ w.listeners k, ∃ sh, w.shifts l = some sh ∧ sh.sub = some k) :
    subMass w k m = some (afterMass w k m) := by
  unfold subMass
  exact (tell_eq k _ { w with mass := fun i => if i = k then m else w.mass i } h).trans (by simp [afterMass])

theorem after_some {w : World} {k s : ℕ} {m : ℝ} {sh : ShiftObj} (h : (afterMass w k m).shifts s = some sh) :
    ∃ sh', w.shifts s = some sh' ∧ sh.sub = sh'.sub := by
  by_cases hs : s ∈ w.listeners k
  · simp only [afterMass, if_pos hs, Option.map_eq_some_iff] at h
    obtain ⟨sh', e, rfl⟩ := h
    exact ⟨sh', e, rfl⟩
  · simp only [afterMass, if_neg hs] at h
    exact ⟨sh, h, rfl⟩

/-- Setting the mass of a sub-metric makes its listeners right, whatever their masses were. -/
theorem after_inv {w : World} {k : ℕ} {m : ℝ} (hb : ∀ s sh, w.shifts s = some sh → s < w.next)
    (h : ∀ j, ∀ l ∈ w.listeners j, ∃ sh, w.shifts l = some sh ∧ sh.sub = some j ∧ (j ≠ k → sh.mass = w.mass j)) : Inv (afterMass w k m) := by
  refine ⟨fun s sh e => ?_, fun j l hl => ?_⟩
  · obtain ⟨sh', e', -⟩ := after_some e
    exact hb s sh' e'
  · obtain ⟨sh, e, es, em⟩ := h j l hl
    by_cases hk : l ∈ w.listeners k
    · obtain ⟨sh', e', es', -⟩ := h k l hk
      have : j = k := by
        rw [e] at e'
        obtain rfl := Option.some.inj e'
        rw [es] at es'
        exact Option.some.inj es'
      subst this
      exact ⟨{ sh with mass := m }, by simp [afterMass, hk, e], es, by simp [afterMass]⟩
    · have : j ≠ k := fun hjk => hk (hjk ▸ hl)
      exact ⟨sh, by simp [afterMass, hk, e], es, by simp [afterMass, this, em this]⟩

theorem after_hooked {w : World} {k : ℕ} {m : ℝ} (h : Hooked w) : Hooked (afterMass w k m) := by
  intro s sh j e es
  obtain ⟨sh', e', es'⟩ := after_some e
  exact h s sh' j e' (es' ▸ es)

theorem inv_subMass {w : World} (hw : Inv w) (k : ℕ) (m : ℝ) : subMass w k m = some (afterMass w k m) ∧ Inv (afterMass w k m) := by
  refine ⟨subMass_eq m fun l hl => ?_, after_inv hw.below fun j l hl => ?_⟩
  · obtain ⟨sh, e, es, -⟩ := hw.heard k l hl
    exact ⟨sh, e, es⟩
  · obtain ⟨sh, e, es, em⟩ := hw.heard j l hl
    exact ⟨sh, e, es, fun _ => em⟩

/-- After `unhook`, the `Shift` is in no list of listeners. -/
theorem unhook_listeners {w : World} (hw : Inv w) {s : ℕ} {sh : ShiftObj} (e : w.shifts s = some sh) (j l : ℕ) :
    l ∈ (unhook w s sh.sub).listeners j ↔ l ∈ w.listeners j ∧ l ≠ s := by
  have key : s ∈ w.listeners j → sh.sub = some j := fun hs => by
    obtain ⟨sh', e', es', -⟩ := hw.heard j s hs
    rw [e] at e'
    obtain rfl := Option.some.inj e'
    exact es'
  rcases hsub : sh.sub with _ | k
  · simp only [unhook]
    refine ⟨fun h => ⟨h, ?_⟩, fun h => h.1⟩
    rintro rfl
    rw [key h] at hsub
    cases hsub
  · simp only [unhook]
    by_cases hj : j = k
    · subst hj
      simp
    · rw [if_neg hj]
      refine ⟨fun h => ⟨h, ?_⟩, fun h => h.1⟩
      rintro rfl
      rw [key h] at hsub
      exact hj (Option.some.inj hsub)

theorem unhook_rest (w : World) (s : ℕ) (o : Option ℕ) :
    (unhook w s o).mass = w.mass ∧ (unhook w s o).shifts = w.shifts ∧ (unhook w s o).next = w.next := by
  cases o <;> exact ⟨rfl, rfl, rfl⟩

theorem step_inv {w : World} (hw : Inv w) (o : Op) : ∃ w', step w o = some w' ∧ Inv w' ∧ ((∀ s, o ≠ .clone s) → Hooked w → Hooked w') := by
  have fresh : w.shifts w.next = none := by
    by_contra h
    obtain ⟨sh, e⟩ := Option.ne_none_iff_exists'.mp h
    exact lt_irrefl _ (hw.below _ _ e)
  -- a new object: the listeners are not it
  have add (sh0 : ShiftObj) : Inv { w with shifts := fun i => if i = w.next then some sh0 else w.shifts i, next := w.next + 1 } := by
    refine ⟨fun s sh e => ?_, fun k l hl => ?_⟩
    · simp only at e
      split_ifs at e with hs
      · simp [hs]
      · exact Nat.lt_succ_of_lt (hw.below s sh e)
    · obtain ⟨sh, e, es, em⟩ := hw.heard k l hl
      have : l ≠ w.next := fun h => by rw [h, fresh] at e; cases e
      exact ⟨sh, by simp [this, e], es, em⟩
  cases o with
  | new =>
    refine ⟨_, rfl, add _, fun _ hh s sh k e es => ?_⟩
    simp only at e
    split_ifs at e with hs
    · obtain rfl := Option.some.inj e
      cases es
    · exact hh s sh k e es
  | subMass k m =>
    obtain ⟨e, hi⟩ := inv_subMass hw k m
    exact ⟨_, e, hi, fun _ hh => after_hooked hh⟩
  | clone s =>
    rcases e : w.shifts s with _ | sh
    · exact ⟨w, by simp only [step, e], hw, fun _ hh => hh⟩
    · simp only [step, e]
      exact ⟨_, rfl, add sh, fun h => absurd rfl (h s)⟩
  | destroy s =>
    rcases e : w.shifts s with _ | sh
    · exact ⟨w, by simp only [step, e], hw, fun _ hh => hh⟩
    · simp only [step, e]
      obtain ⟨u1, u2, u3⟩ := unhook_rest w s sh.sub
      refine ⟨_, rfl, ⟨fun i sh' e' => ?_, fun k l hl => ?_⟩, fun _ hh i sh' k e' es => ?_⟩
      · simp only [u2] at e'
        split_ifs at e' with hs
        simp only [u3]
        exact hw.below i sh' e'
      · have hl' := (unhook_listeners hw e k l).mp hl
        obtain ⟨sh', e', es, em⟩ := hw.heard k l hl'.1
        exact ⟨sh', by simp [u2, hl'.2, e'], es, by simp [u1, em]⟩
      · simp only [u2] at e'
        split_ifs at e' with hs
        exact (unhook_listeners hw e k i).mpr ⟨hh i sh' k e' es, hs⟩
  | shiftMass s m =>
    rcases e : w.shifts s with _ | sh
    · exact ⟨w, by simp only [step, e], hw, fun _ hh => hh⟩
    · simp only [step, e]
      rcases es : sh.sub with _ | k
      · refine ⟨_, rfl, ⟨fun i sh' e' => ?_, fun k l hl => ?_⟩, fun _ hh i sh' k e' es' => ?_⟩
        · simp only at e'
          split_ifs at e' with hs
          · rw [hs]
            exact hw.below s sh e
          · exact hw.below i sh' e'
        · obtain ⟨sh', e', es', em⟩ := hw.heard k l hl
          have : l ≠ s := fun h => by
            rw [h, e] at e'
            obtain rfl := Option.some.inj e'
            rw [es] at es'
            cases es'
          exact ⟨sh', by simp [this, e'], es', em⟩
        · simp only at e'
          split_ifs at e' with hs
          · obtain rfl := Option.some.inj e'
            cases es'
          · exact hh i sh' k e' es'
      · obtain ⟨e1, hi⟩ := inv_subMass hw k m
        exact ⟨_, e1, hi, fun _ hh => after_hooked hh⟩
  | subMetric s sub =>
    rcases e : w.shifts s with _ | sh
    · exact ⟨w, by simp only [step, e], hw, fun _ hh => hh⟩
    · simp only [step, e]
      obtain ⟨u1, u2, u3⟩ := unhook_rest w s sh.sub
      have ul := unhook_listeners hw e
      have hnext := hw.below s sh e
      rcases sub with _ | k
      · refine ⟨_, rfl, ⟨fun i sh' e' => ?_, fun j l hl => ?_⟩, fun _ hh i sh' j e' es => ?_⟩
        · simp only [u2] at e'
          simp only [u3]
          split_ifs at e' with hs
          · rw [hs]
            exact hnext
          · exact hw.below i sh' e'
        · have hl' := (ul j l).mp hl
          obtain ⟨sh', e', es, em⟩ := hw.heard j l hl'.1
          exact ⟨sh', by simp [u2, hl'.2, e'], es, by simp [u1, em]⟩
        · simp only [u2] at e'
          split_ifs at e' with hs
          · obtain rfl := Option.some.inj e'
            cases es
          · exact (ul j i).mpr ⟨hh i sh' j e' es, hs⟩
      · obtain ⟨W, hW⟩ : ∃ W, W = hook { unhook w s sh.sub with
            shifts := fun i => if i = s then some { sh with sub := some k } else (unhook w s sh.sub).shifts i } s k := ⟨_, rfl⟩
        have wl : ∀ j l, l ∈ W.listeners j ↔ (l ∈ w.listeners j ∧ l ≠ s) ∨ (j = k ∧ l = s) := by
          intro j l
          rw [hW]
          unfold hook
          simp only
          by_cases hj : j = k
          · subst hj
            simp only [if_true, List.mem_cons, ul]
            tauto
          · rw [if_neg hj]
            simp only [ul, hj, false_and, or_false]
        have wm : W.mass = w.mass := by rw [hW]; exact u1
        have wn : W.next = w.next := by rw [hW]; exact u3
        have ws : W.shifts = fun i => if i = s then some { sh with sub := some k } else w.shifts i := by rw [hW]; simp only [hook, u2]
        have heard : ∀ j, ∀ l ∈ W.listeners j, ∃ sh', W.shifts l = some sh' ∧ sh'.sub = some j ∧ (j ≠ k → sh'.mass = W.mass j) := by
          intro j l hl
          rcases (wl j l).mp hl with ⟨h1, h2⟩ | ⟨rfl, rfl⟩
          · obtain ⟨sh', e', es, em⟩ := hw.heard j l h1
            exact ⟨sh', by simp [ws, h2, e'], es, fun _ => by rw [wm, em]⟩
          · exact ⟨{ sh with sub := some j }, by rw [ws]; exact if_pos rfl, rfl, fun h => absurd rfl h⟩
        refine ⟨afterMass W k (W.mass k), ?_, after_inv (fun i sh' e' => ?_) heard, fun _ hh => after_hooked fun i sh' j e' es => ?_⟩
        · simp only
          rw [← hW]
          exact subMass_eq _ fun l hl => by
            obtain ⟨sh', e', es, -⟩ := heard k l hl
            exact ⟨sh', e', es⟩
        · rw [wn]
          simp only [ws] at e'
          split_ifs at e' with hs
          · rw [hs]
            exact hnext
          · exact hw.below i sh' e'
        · simp only [ws] at e'
          split_ifs at e' with hs
          · obtain rfl := Option.some.inj e'
            exact (wl j i).mpr (.inr ⟨(Option.some.inj es).symm, hs⟩)
          · exact (wl j i).mpr (.inl ⟨hh i sh' j e' es, hs⟩)

theorem run_inv {w : World} (hw : Inv w) (os : List Op) :
    ∃ w', run w os = some w' ∧ Inv w' ∧ ((∀ s, Op.clone s ∉ os) → Hooked w → Hooked w') := by
  induction os generalizing w with
  | nil => exact ⟨w, rfl, hw, fun _ hh => hh⟩
  | cons o os ih =>
    obtain ⟨w1, e1, i1, h1⟩ := step_inv hw o
    obtain ⟨w2, e2, i2, h2⟩ := ih i1
    refine ⟨w2, by simp [run, e1, e2], i2, fun hc hh => h2 (fun s hs => hc s (by simp [hs])) (h1 (fun s hs => hc s (by simp [hs])) hh)⟩

end Gyoto.Derived
