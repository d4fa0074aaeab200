import Verif.Model.Register
import Mathlib.Tactic.ByContra

/-!
# Looking up kinds (C17)
-/

namespace Gyoto.Register

/-- What a request asks for: this name and, unless it is empty, this plug-in. -/
def Fits (name plugin : String) (e : Entry) : Prop := e.name = name ∧ (plugin = "" ∨ e.plugin = plugin)

/-- The register after a history of registrations (in chronological order). -/
def registerAll (history : List Entry) : List Entry :=
  history.foldl (fun reg e => register e.plugin reg (e.name, e.sub)) []

theorem registerAll_eq (history : List Entry) : registerAll history = history.reverse := by
  have : ∀ (l acc : List Entry), l.foldl (fun reg e => register e.plugin reg (e.name, e.sub)) acc = l.reverse ++ acc := by
    intro l
    induction l with
    | nil => simp
    | cons e l ih => intro acc; rw [List.foldl_cons, ih]; simp [register]
  rw [registerAll, this, List.append_nil]

theorem find_some {name plugin : String} {reg : List Entry} {s : Nat} {p : String} :
    find name plugin reg = some (s, p) ↔ ∃ newer e older, reg = newer ++ e :: older ∧ Fits name plugin e ∧
      (∀ e' ∈ newer, ¬ Fits name plugin e') ∧ s = e.sub ∧ p = e.plugin := by
  induction reg with
  | nil => simp [find]
  | cons a reg ih =>
    have hfit : (a.name == name && (plugin == "" || a.plugin == plugin)) = true ↔ Fits name plugin a := by
      simp [Fits]
    unfold find
    by_cases hf : Fits name plugin a
    · rw [if_pos (hfit.mpr hf)]
      have hp : (if (plugin == "") = true then a.plugin else plugin) = a.plugin := by
        rcases hf.2 with h | h
        · simp [h]
        · split
          · rfl
          · exact h.symm
      rw [hp]
      simp only [Option.some.injEq, Prod.mk.injEq]
      constructor
      · rintro ⟨rfl, rfl⟩
        exact ⟨[], a, reg, rfl, hf, by simp, rfl, rfl⟩
      · rintro ⟨newer, e, older, h1, h2, h3, rfl, rfl⟩
        cases newer with
        | nil => simp only [List.nil_append, List.cons.injEq] at h1; rw [h1.1]; simp
        | cons b newer =>
          simp only [List.cons_append, List.cons.injEq] at h1
          exact absurd (h1.1 ▸ hf) (h3 b (by simp))
    · rw [if_neg (fun h => hf (hfit.mp h)), ih]
      constructor
      · rintro ⟨newer, e, older, rfl, h2, h3, h4⟩
        refine ⟨a :: newer, e, older, rfl, h2, ?_, h4⟩
        intro e' he'
        rcases List.mem_cons.mp he' with rfl | he'
        · exact hf
        · exact h3 e' he'
      · rintro ⟨newer, e, older, h1, h2, h3, h4⟩
        cases newer with
        | nil => simp only [List.nil_append, List.cons.injEq] at h1; exact absurd (h1.1 ▸ h2) hf
        | cons b newer =>
          simp only [List.cons_append, List.cons.injEq] at h1
          exact ⟨newer, e, older, h1.2, h2, fun e' he' => h3 e' (by simp [he']), h4⟩

theorem find_none {name plugin : String} {reg : List Entry} :
    find name plugin reg = none ↔ ∀ e ∈ reg, ¬ Fits name plugin e := by
  induction reg with
  | nil => simp [find]
  | cons a reg ih =>
    have hfit : (a.name == name && (plugin == "" || a.plugin == plugin)) = true ↔ Fits name plugin a := by
      simp [Fits]
    unfold find
    by_cases hf : Fits name plugin a
    · rw [if_pos (hfit.mpr hf)]
      simp only [reduceCtorEq, List.mem_cons, forall_eq_or_imp, false_iff, not_and]
      intro h; exact absurd hf h
    · rw [if_neg (fun h => hf (hfit.mp h)), ih]
      simp only [List.mem_cons, forall_eq_or_imp]
      exact ⟨fun h => ⟨hf, h⟩, fun h => h.2⟩

/-- **C17.** For every history of registrations: a look-up gives the subcontractor and the plug-in of the most recent registration that
fits the request, and nothing exactly when no registration fits. -/
theorem lookup_most_recent (history : List Entry) (name plugin : String) :
    (∀ s p, find name plugin (registerAll history) = some (s, p) ↔
      ∃ older e newer, history = older ++ e :: newer ∧ Fits name plugin e ∧
        (∀ e' ∈ newer, ¬ Fits name plugin e') ∧ s = e.sub ∧ p = e.plugin) ∧
    (find name plugin (registerAll history) = none ↔ ∀ e ∈ history, ¬ Fits name plugin e) := by
  rw [registerAll_eq]
  constructor
  · intro s p
    rw [find_some]
    constructor
    · rintro ⟨newer, e, older, h1, h2, h3, h4⟩
      refine ⟨older.reverse, e, newer.reverse, ?_, h2, fun e' he' => h3 e' (by simpa using he'), h4⟩
      have := congrArg List.reverse h1
      simpa using this
    · rintro ⟨older, e, newer, rfl, h2, h3, h4⟩
      exact ⟨newer.reverse, e, older.reverse, by simp, h2, fun e' he' => h3 e' (by simpa using he'), h4⟩
  · rw [find_none]; simp

example : find "KerrBL" "" (registerAll [⟨"KerrBL", 1, "stdplug"⟩, ⟨"KerrKS", 2, "stdplug"⟩, ⟨"KerrBL", 3, "mine"⟩]) =
      some (3, "mine") ∧
    find "KerrBL" "stdplug" (registerAll [⟨"KerrBL", 1, "stdplug"⟩, ⟨"KerrKS", 2, "stdplug"⟩, ⟨"KerrBL", 3, "mine"⟩]) =
      some (1, "stdplug") := by decide

/-! ### With plug-in loading -/

/-- `st'` has everything that `st` has, older. -/
def Extends (st st' : St) : Prop := (∃ new, st'.reg = new ++ st.reg) ∧ ∃ new, st'.loaded = new ++ st.loaded

theorem Extends.refl (st : St) : Extends st st := ⟨⟨[], rfl⟩, [], rfl⟩
theorem Extends.trans {a b c : St} (h : Extends a b) (h' : Extends b c) : Extends a c := by
  obtain ⟨⟨x, hx⟩, y, hy⟩ := h
  obtain ⟨⟨x', hx'⟩, y', hy'⟩ := h'
  exact ⟨⟨x' ++ x, by rw [hx', hx, List.append_assoc]⟩, y' ++ y, by rw [hy', hy, List.append_assoc]⟩

theorem foldl_register (name : String) (ks : List (String × Nat)) (reg : List Entry) :
    ks.foldl (register name) reg = (ks.map fun k => (⟨k.1, k.2, name⟩ : Entry)).reverse ++ reg := by
  induction ks generalizing reg with
  | nil => rfl
  | cons k ks ih => rw [List.foldl_cons, ih]; simp [register]

theorem require_extends {w : World} {st st' : St} {p : String} {b : Bool} (h : requirePlugin w st p b = some st') :
    Extends st st' ∧ (b = false → p ≠ "built-in" → p ∈ st'.loaded) := by
  unfold requirePlugin at h
  split at h
  · rename_i hc
    simp only [Option.some.injEq] at h
    subst h
    exact ⟨.refl _, fun _ _ => by simpa using hc⟩
  · unfold loadPlugin at h
    split at h
    · rename_i hb
      simp only [Option.some.injEq] at h
      subst h
      exact ⟨.refl _, fun _ h => absurd (by simpa using hb) h⟩
    · split at h
      · split at h
        · simp only [Option.some.injEq] at h
          subst h
          rename_i hb
          exact ⟨.refl _, fun h => by simp [h] at hb⟩
        · simp at h
      · simp only [Option.some.injEq] at h
        subst h
        exact ⟨⟨⟨_, foldl_register _ _ _⟩, [p], rfl⟩, fun _ _ => by simp⟩

theorem tryPlugin_extends (w : World) (st : St) (p : String) : Extends st (tryPlugin w st p) := by
  unfold tryPlugin
  cases h : requirePlugin w st p true with
  | none => exact .refl _
  | some st' => exact (require_extends h).1

theorem requireAll_extends {w : World} {ps : List String} : ∀ {st st' : St}, requireAll w st ps = some st' →
    Extends st st' ∧ ∀ p ∈ ps, p ≠ "built-in" → p ∈ st'.loaded := by
  induction ps with
  | nil => intro st st' h; simp only [requireAll, Option.some.injEq] at h; subst h; exact ⟨.refl _, by simp⟩
  | cons p ps ih =>
    intro st st' h
    simp only [requireAll, Option.bind_eq_some_iff] at h
    obtain ⟨st1, h1, h2⟩ := h
    obtain ⟨e1, l1⟩ := require_extends h1
    obtain ⟨e2, l2⟩ := ih h2
    refine ⟨e1.trans e2, fun q hq hb => ?_⟩
    rcases List.mem_cons.mp hq with rfl | hq
    · obtain ⟨_, new, hn⟩ := e2
      rw [hn]; simp [l1 rfl hb]
    · exact l2 q hq hb

theorem fillEmpty_extends (w : World) (ps : List String) : ∀ st, Extends st (fillEmpty w st ps) := by
  induction ps with
  | nil => intro st; exact .refl _
  | cons p ps ih =>
    intro st
    unfold fillEmpty
    split
    · exact .refl _
    · exact (tryPlugin_extends w st p).trans (ih _)

theorem tryIn_extends (w : World) (name : String) (ps : List String) : ∀ st, Extends st (tryIn w name st ps).2 := by
  induction ps with
  | nil => intro st; exact .refl _
  | cons p ps ih =>
    intro st
    unfold tryIn
    simp only
    split
    · exact tryPlugin_extends w st p
    · exact (tryPlugin_extends w st p).trans (ih _)

theorem findIn_some {name : String} {reg : List Entry} {ps : List String} {s : Nat} (h : findIn name reg ps = some s) :
    ∃ before p after, ps = before ++ p :: after ∧ (∀ q ∈ before, find name q reg = none) ∧
      ∃ p', find name p reg = some (s, p') := by
  induction ps with
  | nil => simp [findIn] at h
  | cons p ps ih =>
    unfold findIn at h
    split at h
    · rename_i s' p' hf
      simp only [Option.some.injEq] at h
      subst h
      exact ⟨[], p, ps, rfl, by simp, p', hf⟩
    · rename_i hf
      obtain ⟨b, q, a, rfl, h2, h3⟩ := ih h
      refine ⟨p :: b, q, a, rfl, ?_, h3⟩
      intro x hx
      rcases List.mem_cons.mp hx with rfl | hx
      · exact hf
      · exact h2 x hx

theorem findIn_none {name : String} {reg : List Entry} {ps : List String} :
    findIn name reg ps = none ↔ ∀ p ∈ ps, find name p reg = none := by
  induction ps with
  | nil => simp [findIn]
  | cons p ps ih =>
    unfold findIn
    cases hf : find name p reg with
    | some x => simp [hf]
    | none => simp [hf, ih]

theorem tryIn_some {w : World} {name : String} {ps : List String} : ∀ {st st' : St} {s : Nat},
    tryIn w name st ps = (some s, st') → ∃ p ∈ ps, ∃ p', find name p st'.reg = some (s, p') := by
  induction ps with
  | nil => intro st st' s h; simp [tryIn] at h
  | cons p ps ih =>
    intro st st' s h
    unfold tryIn at h
    simp only at h
    split at h
    · rename_i s' p' hf
      simp only [Prod.mk.injEq, Option.some.injEq] at h
      obtain ⟨rfl, rfl⟩ := h
      exact ⟨p, by simp, p', hf⟩
    · obtain ⟨q, hq, h'⟩ := ih h
      exact ⟨q, by simp [hq], h'⟩

/-- **C17, plug-ins requested.** When all the plug-ins named are mandatory (none is a fall-back): the call succeeds only if all can be loaded, and
then they are loaded; nothing already registered is lost; the result is the most recent registration of this name by the first plug-in of the
list which has one; if none has, it is an error, or nothing if failure is tolerated. -/
theorem from_named_plugins (w : World) (st : St) (name : String) (plugins : List String) (errmode : Bool)
    (hne : plugins ≠ []) (hm : ∀ p ∈ plugins, isFallback p = false) (hp : ∀ p ∈ plugins, p ≠ "")
    (r : Option Nat) (ps : List String) (st' : St)
    (h : getSubcontractor w st name plugins errmode = some (r, ps, st')) :
    Extends st st' ∧ ps = plugins ∧ (∀ p ∈ plugins, p ≠ "built-in" → p ∈ st'.loaded) ∧
    (∀ s, r = some s → ∃ before p after, plugins = before ++ p :: after ∧
      (∀ q ∈ before, ∀ e ∈ st'.reg, ¬ (e.name = name ∧ e.plugin = q)) ∧
      ∃ newer e older, st'.reg = newer ++ e :: older ∧ e.name = name ∧ e.plugin = p ∧ e.sub = s ∧
        ∀ e' ∈ newer, ¬ (e'.name = name ∧ e'.plugin = p)) ∧
    (r = none ↔ errmode = true ∧ ∀ p ∈ plugins, ∀ e ∈ st'.reg, ¬ (e.name = name ∧ e.plugin = p)) := by
  have hmand : plugins.filter (fun p => !isFallback p) = plugins := by
    rw [List.filter_eq_self]; intro p hp; simp [hm p hp]
  have hfb : plugins.filter isFallback = [] := by
    rw [List.filter_eq_nil_iff]; intro p hp; simp [hm p hp]
  have hemp : plugins.isEmpty = false := by cases plugins <;> simp_all
  unfold getSubcontractor at h
  simp only [hmand, hfb, List.map_nil, List.flatMap_nil, fillEmpty, List.isEmpty_nil, hemp, Bool.false_and,
    List.append_nil, tryIn, Option.bind_eq_some_iff, Bool.false_eq_true, if_false] at h
  obtain ⟨st1, h1, h2⟩ := h
  obtain ⟨e1, l1⟩ := requireAll_extends h1
  have fits : ∀ p ∈ plugins, ∀ e, Fits name p e ↔ e.name = name ∧ e.plugin = p := by
    intro p hpp e
    simp only [Fits, hp p hpp, false_or]
  split at h2
  · simp at h2
  · cases hf : findIn name st1.reg plugins with
    | some s =>
      simp only [hf, Option.some.injEq, Prod.mk.injEq] at h2
      obtain ⟨rfl, rfl, rfl⟩ := h2
      obtain ⟨b, p, a, hpl, hb, p', hfi⟩ := findIn_some hf
      have hpp : p ∈ plugins := by rw [hpl]; simp
      obtain ⟨newer, e, older, hr, hfit, hn, rfl, _⟩ := find_some.mp hfi
      refine ⟨e1, rfl, l1, ?_, ?_⟩
      · intro s hs
        simp only [Option.some.injEq] at hs
        subst hs
        refine ⟨b, p, a, hpl, fun q hq x hx hxx => ?_, newer, e, older, hr, ((fits p hpp e).mp hfit).1,
          ((fits p hpp e).mp hfit).2, rfl, fun e' he' hh => hn e' he' ((fits p hpp e').mpr hh)⟩
        have hqq : q ∈ plugins := by rw [hpl]; simp [hq]
        exact find_none.mp (hb q hq) x hx ((fits q hqq x).mpr hxx)
      · simp only [reduceCtorEq, false_iff, not_and]
        intro _ hall
        have hfe := (fits p hpp e).mp hfit
        exact hall p hpp e (by rw [hr]; simp) hfe.1 hfe.2
    | none =>
      simp only [hf] at h2
      cases errmode with
      | false => simp at h2
      | true =>
        simp only [if_true, Option.some.injEq, Prod.mk.injEq] at h2
        obtain ⟨rfl, rfl, rfl⟩ := h2
        refine ⟨e1, rfl, l1, by simp, ?_⟩
        simp only [true_and, true_iff]
        intro p hpp e he hh
        exact find_none.mp (findIn_none.mp hf p hpp) e he ((fits p hpp e).mpr hh)

theorem requireAll_none {w : World} {ps : List String} : ∀ {st : St}, requireAll w st ps = none ↔
    ∃ p ∈ ps, p ∉ st.loaded ∧ p ≠ "built-in" ∧ w.plugs p = none := by
  induction ps with
  | nil => intro st; simp [requireAll]
  | cons p ps ih =>
    intro st
    rw [requireAll]
    cases hr : requirePlugin w st p false with
    | none =>
      simp only [Option.bind_none, true_iff]
      refine ⟨p, by simp, ?_⟩
      unfold requirePlugin at hr
      split at hr
      · simp at hr
      · rename_i hc
        unfold loadPlugin at hr
        split at hr
        · simp at hr
        · rename_i hb
          split at hr
          · rename_i hp
            exact ⟨by simpa using hc, by simpa using hb, hp⟩
          · simp at hr
    | some st1 =>
      simp only [Option.bind_some, ih]
      -- what is loaded afterwards: what was loaded before and possibly `p`, which could then be loaded
      have hl : ∀ q, q ∈ st1.loaded → q ∈ st.loaded ∨ w.plugs q ≠ none := by
        intro q hq
        unfold requirePlugin at hr
        split at hr
        · simp only [Option.some.injEq] at hr; subst hr; exact Or.inl hq
        · unfold loadPlugin at hr
          split at hr
          · simp only [Option.some.injEq] at hr; subst hr; exact Or.inl hq
          · split at hr
            · simp at hr
            · rename_i ks hp
              simp only [Option.some.injEq] at hr
              subst hr
              rcases List.mem_cons.mp hq with rfl | hq
              · exact Or.inr (by simp [hp])
              · exact Or.inl hq
      have hsub : ∀ q, q ∈ st.loaded → q ∈ st1.loaded := by
        intro q hq
        obtain ⟨_, new, hn⟩ := (require_extends hr).1
        rw [hn]; simp [hq]
      constructor
      · rintro ⟨q, hq, h1, h2⟩
        exact ⟨q, by simp [hq], fun h => h1 (hsub q h), h2⟩
      · rintro ⟨q, hq, h1, h2, h3⟩
        rcases List.mem_cons.mp hq with rfl | hq
        · exfalso
          rcases hl q ((require_extends hr).2 rfl h2) with h | h
          · exact h1 h
          · exact h h3
        · refine ⟨q, hq, fun h => ?_, h2, h3⟩
          rcases hl q h with h | h
          · exact h1 h
          · exact h h3

/-- **C17, errors.** When all the plug-ins named are mandatory, the call is an error exactly when one of them cannot be loaded, or
nothing at all is registered, or none of them has the kind and failure is not tolerated. -/
theorem named_plugins_error (w : World) (st : St) (name : String) (plugins : List String) (errmode : Bool)
    (hne : plugins ≠ []) (hm : ∀ p ∈ plugins, isFallback p = false) (hp : ∀ p ∈ plugins, p ≠ "") :
    getSubcontractor w st name plugins errmode = none ↔
      (∃ p ∈ plugins, p ∉ st.loaded ∧ p ≠ "built-in" ∧ w.plugs p = none) ∨
      ∃ st', requireAll w st plugins = some st' ∧ (st'.reg = [] ∨
        errmode = false ∧ ∀ p ∈ plugins, ∀ e ∈ st'.reg, ¬ (e.name = name ∧ e.plugin = p)) := by
  have hmand : plugins.filter (fun p => !isFallback p) = plugins := by
    rw [List.filter_eq_self]; intro p hp; simp [hm p hp]
  have hfb : plugins.filter isFallback = [] := by
    rw [List.filter_eq_nil_iff]; intro p hp; simp [hm p hp]
  have hemp : plugins.isEmpty = false := by cases plugins <;> simp_all
  unfold getSubcontractor
  simp only [hmand, hfb, List.map_nil, List.flatMap_nil, fillEmpty, List.isEmpty_nil, hemp, Bool.false_and,
    List.append_nil, tryIn, Bool.false_eq_true, if_false]
  rw [← requireAll_none]
  have fits : ∀ p ∈ plugins, ∀ e, Fits name p e ↔ e.name = name ∧ e.plugin = p := by
    intro p hpp e
    simp only [Fits, hp p hpp, false_or]
  cases hr : requireAll w st plugins with
  | none => simp
  | some st1 =>
    simp only [Option.bind_some, reduceCtorEq, false_or, Option.some.injEq, exists_eq_left']
    by_cases h0 : st1.reg = []
    · simp [h0]
    · have h0' : st1.reg.isEmpty = false := by cases hh : st1.reg <;> simp_all
      simp only [h0', Bool.false_eq_true, if_false, h0, false_or]
      have hn : findIn name st1.reg plugins = none ↔ ∀ p ∈ plugins, ∀ e ∈ st1.reg, ¬ (e.name = name ∧ e.plugin = p) := by
        rw [findIn_none]
        constructor
        · intro h p hpp e he hh; exact find_none.mp (h p hpp) e he ((fits p hpp e).mpr hh)
        · intro h p hpp; exact find_none.mpr fun e he hh => h p hpp e he ((fits p hpp e).mp hh)
      rw [← hn]
      cases findIn name st1.reg plugins <;> cases errmode <;> simp

/-- **C17, any plug-in.** Without any plug-in requested: nothing is loaded; the most recent registration of this name is given, with its
plug-in put in front of the list; if there is none it is an error, or nothing if failure is tolerated. -/
theorem from_any_plugin (w : World) (st : St) (name : String) (errmode : Bool) (hreg : st.reg ≠ []) :
    (∀ newer e older, st.reg = newer ++ e :: older → e.name = name → (∀ e' ∈ newer, e'.name ≠ name) →
      getSubcontractor w st name [] errmode = some (some e.sub, [e.plugin], st)) ∧
    ((∀ e ∈ st.reg, e.name ≠ name) →
      getSubcontractor w st name [] errmode = if errmode then some (none, [], st) else none) := by
  constructor
  · intro newer e older h1 h2 h3
    have hf : find name "" st.reg = some (e.sub, e.plugin) := by
      rw [find_some]
      exact ⟨newer, e, older, h1, ⟨h2, Or.inl rfl⟩, fun e' he' hh => h3 e' he' hh.1, rfl, rfl⟩
    simp [getSubcontractor, requireAll, fillEmpty, findIn, hreg, hf]
  · intro h
    have hf : find name "" st.reg = none := find_none.mpr fun e he hh => h e he hh.1
    cases errmode <;> simp [getSubcontractor, requireAll, fillEmpty, findIn, hreg, hf, tryIn]

/-- **C17, in all cases.** Whatever the plug-ins requested, mandatory or fall-back: nothing registered before is lost, and a subcontractor which is
returned is registered under the name requested. -/
theorem found_is_registered (w : World) (st : St) (name : String) (plugins : List String) (errmode : Bool)
    (r : Option Nat) (ps : List String) (st' : St)
    (h : getSubcontractor w st name plugins errmode = some (r, ps, st')) :
    Extends st st' ∧ (∀ s, r = some s → ∃ e ∈ st'.reg, e.name = name ∧ e.sub = s) ∧ (r = none → errmode = true) := by
  unfold getSubcontractor at h
  simp only [Option.bind_eq_some_iff] at h
  obtain ⟨st1, h1, h2⟩ := h
  have e1 := (requireAll_extends h1).1
  revert h2
  generalize hfb : (plugins.filter isFallback).map fallbackName = fb
  generalize hmd : plugins.filter (fun p => !isFallback p) = md at h1
  intro h2
  have e2 := (e1.trans (fillEmpty_extends w fb st1)).trans (fillEmpty_extends w (fb.flatMap w.globs) _)
  revert h2 e2
  generalize fillEmpty w (fillEmpty w st1 fb) (fb.flatMap w.globs) = st2
  intro h2 e2
  have mem : ∀ {p reg s p'}, find name p reg = some (s, p') → ∃ e ∈ reg, e.name = name ∧ e.sub = s := by
    intro p reg s p' hf
    obtain ⟨newer, e, older, hr, hfit, _, hs, _⟩ := find_some.mp hf
    exact ⟨e, by rw [hr]; simp, hfit.1, hs.symm⟩
  split at h2
  · simp at h2
  · split at h2
    · rename_i s hf
      simp only [Option.some.injEq, Prod.mk.injEq] at h2
      obtain ⟨rfl, rfl, rfl⟩ := h2
      refine ⟨e2, fun s' hs => ?_, by simp⟩
      simp only [Option.some.injEq] at hs
      subst hs
      obtain ⟨_, p, _, _, _, p', hfi⟩ := findIn_some hf
      exact mem hfi
    · split at h2
      · rename_i s p hf
        simp only [Option.some.injEq, Prod.mk.injEq] at h2
        obtain ⟨rfl, rfl, rfl⟩ := h2
        refine ⟨e2, fun s' hs => ?_, by simp⟩
        simp only [Option.some.injEq] at hs
        subst hs
        split at hf
        · exact mem hf
        · simp at hf
      · split at h2
        · simp at h2
        · have et := tryIn_extends w name (fb ++ fb.flatMap w.globs) st2
          split at h2
          · rename_i s st3 ht
            simp only [Option.some.injEq, Prod.mk.injEq] at h2
            obtain ⟨rfl, rfl, rfl⟩ := h2
            rw [ht] at et
            refine ⟨e2.trans et, fun s' hs => ?_, by simp⟩
            simp only [Option.some.injEq] at hs
            subst hs
            obtain ⟨p, _, p', hfi⟩ := tryIn_some ht
            exact mem hfi
          · rename_i st3 ht
            rw [ht] at et
            split at h2
            · rename_i he
              simp only [Option.some.injEq, Prod.mk.injEq] at h2
              obtain ⟨rfl, rfl, rfl⟩ := h2
              exact ⟨e2.trans et, by simp, fun _ => he⟩
            · simp at h2

/-- A plug-in that redefines a kind, loaded on request. -/
def exWorld : World where
  plugs p := if p = "stdplug" then some [("KerrBL", 1), ("KerrKS", 2)] else if p = "mine" then some [("KerrBL", 3)] else none
  globs _ := []

example : getSubcontractor exWorld ⟨[⟨"KerrBL", 1, "stdplug"⟩], ["stdplug", "built-in"]⟩ "KerrBL" ["mine", "stdplug"] false =
      some (some 3, ["mine", "stdplug"], ⟨[⟨"KerrBL", 3, "mine"⟩, ⟨"KerrBL", 1, "stdplug"⟩], ["mine", "stdplug", "built-in"]⟩) ∧
    getSubcontractor exWorld ⟨[⟨"KerrBL", 1, "stdplug"⟩], ["stdplug", "built-in"]⟩ "KerrBL" ["fallback:mine"] false =
      some (some 1, ["stdplug", "fallback:mine"], ⟨[⟨"KerrBL", 1, "stdplug"⟩], ["stdplug", "built-in"]⟩) := by
  decide +kernel

end Gyoto.Register
