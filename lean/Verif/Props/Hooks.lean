import Verif.Lemmas.Hooks

/-! # C02 — change notifications -/

namespace Gyoto.Hooks

/-- Specification, from the history alone (oldest call first): the registrations which have not been
removed by a later removal of the same listener, most recent first. -/
def expected : List Op → List Listener
  | [] => []
  | .hook l :: later => expected later ++ (if Op.unhook l ∈ later then [] else [l])
  | .unhook _ :: later => expected later

theorem run_rep (ops : List Op) (t : Teller) (l : List (Addr × Listener)) (h : Rep t l) :
    ∃ t' l', run t ops = some t' ∧ Rep t' l' ∧
      l'.map Prod.snd = expected ops ++ (l.map Prod.snd).filter (fun x => Op.unhook x ∉ ops) := by
  induction ops generalizing t l with
  | nil => exact ⟨t, l, rfl, h, by simp [expected]⟩
  | cons op ops ih =>
    cases op with
    | hook x =>
      obtain ⟨t', l', h1, h2, h3⟩ := ih (t.hook x) _ (rep_hook h x)
      refine ⟨t', l', by simpa [run, step] using h1, h2, ?_⟩
      rw [h3]
      by_cases hx : Op.unhook x ∈ ops <;> simp [expected, hx]
    | unhook x =>
      obtain ⟨t1, h1, h2⟩ := rep_unhook h x
      obtain ⟨t', l', h3, h4, h5⟩ := ih t1 _ h2
      refine ⟨t', l', by simp [run, step, h1, h3], h4, ?_⟩
      rw [h5]
      simp only [expected]
      congr 1
      rw [List.filter_map, List.filter_map, List.filter_filter]
      congr 1
      apply List.filter_congr
      intro y _
      simp [Bool.and_comm]

/-- **C02.** After any history of registrations and removals (always defined), a notification calls exactly
the registrations still in force, most recent first. -/
theorem notification_reaches_registered (ops : List Op) :
    ∃ t, run Teller.new ops = some t ∧ t.tell = some (expected ops) := by
  obtain ⟨t, l, h1, h2, h3⟩ := run_rep ops _ _ rep_new
  refine ⟨t, h1, ?_⟩
  rw [Teller.tell, tellFrom_chain h2.chain (by have := h2.length_le; omega), h3]
  simp

/-- Registered twice, removed, registered again, next to another listener. -/
example : expected [.hook 1, .hook 2, .hook 1, .unhook 1, .hook 3, .hook 1] = [1, 3, 2] := by decide

/-- **C02, multiplicity.** The number of calls received by a listener is the number of its registrations
since its last removal. -/
theorem calls_count (before after : List Op) (l : Listener) (h : Op.unhook l ∉ after) :
    (expected (before ++ Op.unhook l :: after)).count l = after.count (Op.hook l) := by
  have key : ∀ ops, Op.unhook l ∉ ops → (expected ops).count l = ops.count (Op.hook l) := by
    intro ops
    induction ops with
    | nil => simp [expected]
    | cons op ops ih =>
      intro hn
      simp only [List.mem_cons, not_or] at hn
      have := ih hn.2
      cases op with
      | hook x =>
        simp only [expected, List.count_append, this, List.count_cons]
        by_cases hx : x = l
        · subst hx; simp [hn.2]
        · have : Op.hook x ≠ Op.hook l := by simpa using hx
          split <;> simp [hx]
      | unhook x =>
        simp only [expected, this, List.count_cons]
        simp
  induction before with
  | nil => simpa [expected] using key after h
  | cons op before ih =>
    cases op with
    | hook x =>
      simp only [List.cons_append, expected, List.count_append, ih]
      by_cases hx : x = l
      · subst hx; simp
      · split <;> simp [hx]
    | unhook x => simpa [expected] using ih

example : Op.unhook 7 ∉ [Op.hook 7, .unhook 3, .hook 7] := by decide

/-- **C02, memory.** Destroying the teller after any history deletes every remaining item, once. -/
theorem destroy_frees_all (ops : List Op) :
    ∃ t mem, run Teller.new ops = some t ∧ t.destroy = some mem ∧ ∀ a, mem a = none := by
  obtain ⟨t, l, h1, h2, h3⟩ := run_rep ops _ _ rep_new
  obtain ⟨m, hm, hm2⟩ := deleteFrom_chain h2.chain (fuel := t.fresh + 1)
    (by have := h2.length_le; omega)
  refine ⟨t, m, h1, hm, fun a => ?_⟩
  rw [hm2]
  split
  · rfl
  · rename_i ha
    by_contra hne
    exact ha (h2.live a hne)

/-- **Finding (C02).** A listener that removes itself while being told makes the teller read a deleted
item. -/
theorem self_removal_during_notification_is_ub :
    ∃ t, run Teller.new [.hook 1, .hook 2] = some t ∧
      tellWith (fun l => l = 2) (t.fresh + 1) t t.head = none := by
  refine ⟨_, rfl, ?_⟩
  decide

end Gyoto.Hooks
