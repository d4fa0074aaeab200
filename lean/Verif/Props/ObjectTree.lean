import Verif.Model.ObjectTree
import Verif.Props.Property

/-!
# Objects nested through properties: thread safety (C43), parameters of nested objects (C44)
-/

namespace Gyoto.Property

variable {D : Type}

/-! ## C43: thread safety -/

/-- Entries reached from a pointer to the tables of an object. -/
def entries : Chain → List Entry
  | .null => []
  | .link p => entries p
  | .entry e rest => if e.truthy then e :: entries rest else []

/-- `child` is the object held by a property of `o`. -/
def ChildOf (heap : Heap D) (o child : Nat) : Prop :=
  ∃ e ∈ entries (heap o).chain, ∃ k, e.ty.isObj = true ∧ e.getter = some k ∧
    (heap o).members k = .obj e.ty (some child)

/-- Objects whose thread safety matters for that of `o`: itself and, unless its class has its own answer, the
objects which matter for its children. -/
inductive Matters (heap : Heap D) : Nat → Nat → Prop
  | refl (o) : Matters heap o o
  | step {o c o'} : (heap o).threadSafe = none → ChildOf heap o c → Matters heap c o' → Matters heap o o'

/-- Object properties hold an object of their type or nothing. -/
def WellTyped (heap : Heap D) : Prop :=
  ∀ o, ∀ e ∈ entries (heap o).chain, e.ty.isObj = true →
    ∃ k, e.getter = some k ∧ ∃ p, (heap o).members k = .obj e.ty p

/-- No class which relies on the default `isThreadSafe` has a property of type screen. -/
def NoScreen (heap : Heap D) : Prop :=
  ∀ o, (heap o).threadSafe = none → ∀ e ∈ entries (heap o).chain, e.ty ≠ .screen

theorem childOf_spec (heap : Heap D) (o : Nat) (hw : WellTyped heap) (e : Entry)
    (he : e ∈ entries (heap o).chain) (hs : e.ty ≠ .screen) :
    ∃ p, childOf (heap o).members e = some p ∧
      ∀ c, p = some c ↔ (∃ k, e.ty.isObj = true ∧ e.getter = some k ∧ (heap o).members k = .obj e.ty (some c)) := by
  by_cases ho : e.ty.isObj = true
  · obtain ⟨k, hk, p, hp⟩ := hw o e he ho
    have hc : childOf (heap o).members e = some p := by
      have hne : e.ty ≠ .empty := by intro h; rw [h] at ho; simp [Ty.isObj] at ho
      have : (getP (heap o).members e).bind (asObj e.ty) = some p := by
        simp [getP, hne, hk, hp, asObj]
      unfold childOf
      split
      · exact absurd ‹_› hs
      · exact this
      · exact this
      · exact this
      · exact this
      · revert ho; cases h : e.ty <;> simp_all [Ty.isObj]
    refine ⟨p, hc, fun c => ⟨fun h => ⟨k, ho, hk, by rw [hp, h]⟩, ?_⟩⟩
    rintro ⟨k', _, hk', hm⟩
    rw [hk] at hk'; cases hk'
    rw [hp] at hm
    simpa using hm
  · refine ⟨none, ?_, fun c => ⟨by simp, fun ⟨_, h, _⟩ => absurd h ho⟩⟩
    unfold childOf
    revert ho hs
    cases e.ty <;> simp [Ty.isObj]

theorem safeLoop_spec (ask : Nat → Option Bool) (m : Members D) (c : Chain)
    (h : ∀ e ∈ entries c, ∃ p, childOf m e = some p ∧ ∀ x, p = some x → ∃ b, ask x = some b) :
    ∀ safe, ∃ r, safeLoop ask m c safe = some r ∧
      (r = true ↔ safe = true ∧ ∀ e ∈ entries c, ∀ x, childOf m e = some (some x) → ask x = some true) := by
  induction c with
  | null => intro safe; exact ⟨safe, rfl, by simp [entries]⟩
  | link p ih => intro safe; exact ih h safe
  | entry e rest ih =>
    intro safe
    by_cases ht : e.truthy
    · have hent : entries (.entry e rest) = e :: entries rest := by simp [entries, ht]
      rw [hent] at h
      have ih := ih fun e' he' => h e' (by simp [he'])
      obtain ⟨p, hp, hx⟩ := h e (by simp)
      rw [safeLoop, if_pos ht, hp, hent]
      cases p with
      | none =>
        obtain ⟨r, h1, h2⟩ := ih safe
        refine ⟨r, h1, ?_⟩
        rw [h2]
        constructor
        · rintro ⟨a, b⟩
          refine ⟨a, fun e' he' x hc => ?_⟩
          rcases List.mem_cons.mp he' with rfl | he'
          · rw [hp] at hc; simp at hc
          · exact b e' he' x hc
        · rintro ⟨a, b⟩; exact ⟨a, fun e' he' => b e' (by simp [he'])⟩
      | some x =>
        obtain ⟨b, hb⟩ := hx x rfl
        simp only [hb]
        obtain ⟨r, h1, h2⟩ := ih (safe && b)
        refine ⟨r, h1, ?_⟩
        rw [h2]
        constructor
        · rintro ⟨a, c⟩
          simp only [Bool.and_eq_true] at a
          refine ⟨a.1, fun e' he' y hc => ?_⟩
          rcases List.mem_cons.mp he' with rfl | he'
          · rw [hp] at hc
            simp only [Option.some.injEq] at hc
            rw [← hc, hb, a.2]
          · exact c e' he' y hc
        · rintro ⟨a, c⟩
          have := c e (by simp) x hp
          rw [hb] at this
          simp only [Option.some.injEq] at this
          exact ⟨by simp [a, this], fun e' he' => c e' (by simp [he'])⟩
    · refine ⟨safe, by simp [safeLoop, ht], by simp [entries, ht]⟩

/-- **C43.** For every finite nesting of objects (`rank` decreases from an object to its children) in which
the properties hold objects of their type: the question always gets an answer, and the answer is yes
exactly when no object which matters has a class declared unsafe. -/
theorem threadSafe_iff (heap : Heap D) (rank : Nat → Nat) (hr : ∀ o c, ChildOf heap o c → rank c < rank o)
    (hw : WellTyped heap) (hs : NoScreen heap) :
    ∀ fuel o, rank o < fuel → ∃ b, isThreadSafe heap fuel o = some b ∧
      (b = true ↔ ∀ o', Matters heap o o' → (heap o').threadSafe ≠ some false) := by
  intro fuel
  induction fuel with
  | zero => intro o h; omega
  | succ fuel ih =>
    intro o ho
    unfold isThreadSafe
    cases hts : (heap o).threadSafe with
    | some b =>
      refine ⟨b, rfl, ?_⟩
      constructor
      · rintro rfl o' hm
        cases hm with
        | refl => simp [hts]
        | step h => rw [hts] at h; simp at h
      · intro h
        have := h o (.refl o)
        rw [hts] at this
        simpa using this
    | none =>
      have hspec := fun e he => childOf_spec heap o hw e he (hs o hts e he)
      have hask : ∀ e ∈ entries (heap o).chain, ∃ p, childOf (heap o).members e = some p ∧
          ∀ x, p = some x → ∃ b, isThreadSafe heap fuel x = some b := by
        intro e he
        obtain ⟨p, h1, h2⟩ := hspec e he
        refine ⟨p, h1, fun x hx => ?_⟩
        obtain ⟨k, h3⟩ := (h2 x).mp hx
        have hlt := hr o x ⟨e, he, k, h3⟩
        obtain ⟨b, hb, _⟩ := ih x (by omega)
        exact ⟨b, hb⟩
      obtain ⟨r, h1, h2⟩ := safeLoop_spec _ _ _ hask true
      refine ⟨r, h1, ?_⟩
      rw [h2]
      constructor
      · rintro ⟨_, h⟩ o' hm
        cases hm with
        | refl => simp [hts]
        | step _ hc hm =>
          rename_i c _
          obtain ⟨e, he, k, h3⟩ := hc
          obtain ⟨p, h4, h5⟩ := hspec e he
          have hpc : p = some c := (h5 c).mpr ⟨k, h3⟩
          have hask := h e he c (by rw [h4, hpc])
          have hlt := hr o c ⟨e, he, k, h3⟩
          obtain ⟨b, hb, hb'⟩ := ih c (by omega)
          rw [hask] at hb
          cases hb
          exact hb'.mp rfl o' hm
      · intro h
        refine ⟨rfl, fun e he x hx => ?_⟩
        obtain ⟨p, h4, h5⟩ := hspec e he
        rw [h4] at hx
        obtain ⟨k, h3⟩ := (h5 x).mp (by simpa using hx)
        have hlt := hr o x ⟨e, he, k, h3⟩
        obtain ⟨b, hb, hb'⟩ := ih x (by omega)
        rw [hb]
        have : b = true := hb'.mpr fun o' hm => h o' (.step hts ⟨e, he, k, h3⟩ hm)
        rw [this]

/-- A disk (object 0) in a metric (object 1, unsafe, as the Lorene-based metrics) with a spectrum which is not set. -/
def exHeap : Heap Int := fun o =>
  if o = 0 then
    { chain := chainOf [("Disk", [⟨"Metric", "", .metric, some 0, some 0, false⟩,
        ⟨"Spectrum", "", .spectrum, some 1, some 1, false⟩]), ("Object", [])]
      members := fun k => if k = 0 then .obj .metric (some 1) else .obj .spectrum none }
  else { chain := chainOf [("Object", [])], members := fun _ => .empty, threadSafe := some (o != 1) }

example : isThreadSafe exHeap 2 0 = some false ∧ isThreadSafe exHeap 2 2 = some true := by decide +kernel

example : WellTyped exHeap ∧ NoScreen exHeap ∧
    ∀ o c, ChildOf exHeap o c → (fun o => if o = 0 then 1 else 0) c < (fun o => if o = 0 then 1 else 0) o := by
  have h0 : ∀ o, o ≠ 0 → entries (exHeap o).chain = [⟨"Object", "", .empty, none, none, false⟩] := by
    intro o h
    simp only [exHeap, if_neg h]
    decide +kernel
  have h1 : entries (exHeap 0).chain = [⟨"Disk", "", .empty, none, none, false⟩,
      ⟨"Metric", "", .metric, some 0, some 0, false⟩, ⟨"Spectrum", "", .spectrum, some 1, some 1, false⟩,
      ⟨"Object", "", .empty, none, none, false⟩] := by decide +kernel
  refine ⟨?_, ?_, ?_⟩
  · intro o e he ho
    by_cases h : o = 0
    · subst h
      rw [h1] at he
      simp only [List.mem_cons, List.not_mem_nil, or_false] at he
      rcases he with rfl | rfl | rfl | rfl
      · simp [Ty.isObj] at ho
      · exact ⟨0, rfl, some 1, rfl⟩
      · exact ⟨1, rfl, none, rfl⟩
      · simp [Ty.isObj] at ho
    · rw [h0 o h] at he
      simp only [List.mem_cons, List.not_mem_nil, or_false] at he
      subst he
      simp [Ty.isObj] at ho
  · intro o hts e he
    by_cases h : o = 0
    · subst h
      rw [h1] at he
      simp only [List.mem_cons, List.not_mem_nil, or_false] at he
      rcases he with rfl | rfl | rfl | rfl <;> simp
    · simp [exHeap, h] at hts
  · rintro o c ⟨e, he, k, ho, hk, hm⟩
    by_cases h : o = 0
    · subst h
      rw [h1] at he
      simp only [List.mem_cons, List.not_mem_nil, or_false] at he
      rcases he with rfl | rfl | rfl | rfl
      · simp at hk
      · simp only [Option.some.injEq] at hk
        subst hk
        simp [exHeap] at hm
        simp [← hm]
      · simp only [Option.some.injEq] at hk
        subst hk
        simp [exHeap] at hm
      · simp at hk
    · rw [h0 o h] at he
      simp only [List.mem_cons, List.not_mem_nil, or_false] at he
      subst he
      simp at hk

/-- **Finding (C43).** An object with a property of type screen which relies on the default `isThreadSafe` raises an error
instead of answering, whatever the screen. -/
theorem screen_child_throws (heap : Heap D) (o k fuel : Nat) (cls : String) (rest : Chain)
    (hts : (heap o).threadSafe = none)
    (hc : (heap o).chain = .entry ⟨cls, "", .empty, none, none, false⟩
      (.entry ⟨"Screen", "", .screen, some k, some k, false⟩ rest)) (hn : cls ≠ "") :
    isThreadSafe heap fuel o = none := by
  cases fuel with
  | zero => rfl
  | succ fuel => simp [isThreadSafe, hts, hc, safeLoop, childOf, Entry.truthy, hn]

/-! ## C44: parameters of nested objects -/

/-- A path: names separated by `::`. -/
def joinPath : List (List Char) → List Char
  | [] => []
  | [s] => s
  | s :: rest => s ++ ':' :: ':' :: joinPath rest

/-- Following all the names of a path but the last from object to object.  The whole path must not itself be the
name of a property (or class) of the object where it starts. -/
inductive Walk (heap : Heap D) : Nat → List (List Char) → Nat → List Char → Prop
  | last (o s) : Walk heap o [s] o s
  | step {o c cs e k o' o2 s} : lookup (String.ofList (joinPath (c :: cs))) (heap o).chain = none →
      lookup (String.ofList c) (heap o).chain = some e → e.ty.isObj = true → e.getter = some k →
      (heap o).members k = .obj e.ty (some o') → Walk heap o' cs o2 s → Walk heap o (c :: cs) o2 s

theorem findSep_append (a b : List Char) (h : ':' ∉ a) : findSep (a ++ ':' :: ':' :: b) = some (a, b) := by
  induction a with
  | nil => simp [findSep]
  | cons c a ih =>
    have hc : c ≠ ':' := fun h' => h (by simp [h'])
    have ih := ih fun h' => h (by simp [h'])
    simp [findSep, hc, ih]

theorem findSep_none (a : List Char) (h : ':' ∉ a) : findSep a = none := by
  induction a with
  | nil => rfl
  | cons c a ih =>
    have hc : c ≠ ':' := fun h' => h (by simp [h'])
    have ih := ih fun h' => h (by simp [h'])
    simp [findSep, hc, ih]

theorem walk_ne_nil {heap : Heap D} {o o2 : Nat} {cs : List (List Char)} {s : List Char}
    (h : Walk heap o cs o2 s) : cs ≠ [] := by cases h <;> simp

/-- **C44.** For every chain of objects: setting a parameter through a path of names has exactly the effect of setting the
last name on the object where the path leads; if that object has no such property the call returns 1 and changes nothing, otherwise only
that object may change. -/
theorem path_set (env : Env D) (rd : Reader D) (heap : Heap D) (o o2 : Nat) (cs : List (List Char))
    (s : List Char) (content unit : String) (hw : Walk heap o cs o2 s) (hcs : ∀ c ∈ cs, ':' ∉ c) :
    (lookup (String.ofList s) (heap o2).chain = none →
      setParameter env rd heap o (joinPath cs) content unit = some (1, heap)) ∧
    (∀ e, lookup (String.ofList s) (heap o2).chain = some e →
      setParameter env rd heap o (joinPath cs) content unit =
        (setParamP env rd (heap o2).members e (String.ofList s) content unit).map
          fun m => (0, fun j => if j = o2 then { heap j with members := m } else heap j)) := by
  induction hw with
  | last o s =>
    constructor
    · intro h
      unfold setParameter
      have hf : findSep (joinPath [s]) = none := findSep_none s (hcs s (by simp))
      simp only [joinPath] at hf ⊢
      simp only [h]
      split
      · rfl
      · rename_i h'; rw [hf] at h'; simp at h'
    · intro e h
      unfold setParameter
      simp only [joinPath, h]
      rfl
  | @step o c cs e k o' o2 s h1 h2 h3 h4 h5 hw ih =>
    have ih := ih fun c hc => hcs c (by simp [hc])
    have hj : joinPath (c :: cs) = c ++ ':' :: ':' :: joinPath cs := by
      cases cs with
      | nil => exact absurd rfl (walk_ne_nil hw)
      | cons => rfl
    have hf : findSep (joinPath (c :: cs)) = some (c, joinPath cs) := by
      rw [hj]; exact findSep_append c _ (hcs c (by simp))
    have hne : e.ty ≠ .empty := by intro h; rw [h] at h3; simp [Ty.isObj] at h3
    have : setParameter env rd heap o (joinPath (c :: cs)) content unit =
        setParameter env rd heap o' (joinPath cs) content unit := by
      rw [setParameter]
      simp only [h1]
      split
      · rename_i h'; rw [hf] at h'; simp at h'
      · rename_i a b h'
        rw [hf] at h'
        simp only [Option.some.injEq, Prod.mk.injEq] at h'
        obtain ⟨rfl, rfl⟩ := h'
        simp [h2, getP, hne, h4, h5, h3, asObj]
    rw [this]
    exact ih

/-- **C44, errors.** A path whose first name is unknown returns 1 without effect; a first name which is a property but not
an object, or an object which is not set, is an error. -/
theorem path_errors (env : Env D) (rd : Reader D) (heap : Heap D) (o : Nat) (c rest : List Char)
    (content unit : String) (hc : ':' ∉ c)
    (h0 : lookup (String.ofList (c ++ ':' :: ':' :: rest)) (heap o).chain = none) :
    (lookup (String.ofList c) (heap o).chain = none →
      setParameter env rd heap o (c ++ ':' :: ':' :: rest) content unit = some (1, heap)) ∧
    (∀ e, lookup (String.ofList c) (heap o).chain = some e → e.ty.isObj = false →
      setParameter env rd heap o (c ++ ':' :: ':' :: rest) content unit = none) ∧
    (∀ e k, lookup (String.ofList c) (heap o).chain = some e → e.getter = some k →
      (heap o).members k = .obj e.ty none →
      setParameter env rd heap o (c ++ ':' :: ':' :: rest) content unit = none) := by
  have hf := findSep_append c rest hc
  refine ⟨fun h => ?_, fun e h hn => ?_, fun e k h hk hm => ?_⟩
  all_goals
    rw [setParameter]
    simp only [h0]
    split
    · rename_i h'; exact absurd (hf.symm.trans h') (by simp)
    · rename_i a b h'
      rw [hf] at h'
      simp only [Option.some.injEq, Prod.mk.injEq] at h'
      obtain ⟨rfl, rfl⟩ := h'
      simp only [h]
      try (cases getP (heap o).members e <;> simp [hn] <;> done)
      try (by_cases he : e.ty = .empty <;> by_cases ho : e.ty.isObj = true <;> simp [getP, he, hk, hm, asObj, ho])

/-- **C44, booleans.** The name used decides the value of a boolean, whatever the content. -/
theorem param_bool (env : Env D) (rd : Reader D) (heap : Heap D) (o k : Nat) (name : List Char)
    (content unit : String) (e : Entry) (hl : lookup (String.ofList name) (heap o).chain = some e)
    (ht : e.ty = .bool) (ha : Accessors e k) :
    ∃ heap', setParameter env rd heap o name content unit = some (0, heap') ∧
      (heap' o).members k = .bool (decide (String.ofList name = e.name)) := by
  refine ⟨_, by rw [setParameter, hl]; simp only [setParamP, ht, setP, ha.1, convert, asBool]; rfl, ?_⟩
  simp only [Heap.update, assign, if_true]
  congr 1

/-- A scenery (0) with an astrobj (1) whose spectrum (2) has an exponent. -/
def exScene : Heap Int := fun o =>
  if o = 0 then
    { chain := chainOf [("Scenery", [⟨"Astrobj", "", .astrobj, some 0, some 0, false⟩])]
      members := fun _ => .obj .astrobj (some 1) }
  else if o = 1 then
    { chain := chainOf [("Star", [⟨"Spectrum", "", .spectrum, some 0, some 0, false⟩])]
      members := fun _ => .obj .spectrum (some 2) }
  else
    { chain := chainOf [("PowerLaw", [⟨"Exponent", "", .double, some 0, some 0, false⟩])]
      members := fun _ => .double 0 }

example : Walk exScene 0 ["Astrobj".toList, "Spectrum".toList, "Exponent".toList] 2 "Exponent".toList := by
  refine .step (e := ⟨"Astrobj", "", .astrobj, some 0, some 0, false⟩) (k := 0) (o' := 1) (by decide +kernel)
    (by decide +kernel) rfl rfl rfl ?_
  refine .step (e := ⟨"Spectrum", "", .spectrum, some 0, some 0, false⟩) (k := 0) (o' := 2) (by decide +kernel)
    (by decide +kernel) rfl rfl rfl ?_
  exact .last 2 _

end Gyoto.Property
