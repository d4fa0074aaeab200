import Verif.Model.Property

/-!
# Properties of objects (C12, C13)
-/

namespace Gyoto.Property

/-! ## C12: look-up -/

/-- The entries declared by the classes, from the most derived to the most basic one, each preceded by the entry that bears the name of the class. -/
def declared (cs : List (String × List Entry)) : List Entry :=
  cs.flatMap fun (cls, es) => (⟨cls, "", .empty, none, none, false⟩ : Entry) :: es

/-- The name of a property: its name, or its negative name if it is a boolean. -/
def NamedBy (e : Entry) (pname : String) : Prop := e.name = pname ∨ (e.ty = .bool ∧ e.nameFalse = pname)

/-- Tables which can be written with the macros: names are not empty. -/
def WellFormed (cs : List (String × List Entry)) : Prop := ∀ c ∈ cs, c.1 ≠ "" ∧ ∀ e ∈ c.2, e.name ≠ ""

theorem answers_iff (e : Entry) (s : String) : e.answers s = true ↔ NamedBy e s := by
  simp [Entry.answers, NamedBy]

theorem lookup_chain (pname : String) (cs : List (String × List Entry)) (h : WellFormed cs) :
    lookup pname (chainOf cs) = (declared cs).find? fun e => e.answers pname := by
  induction cs with
  | nil => rfl
  | cons c cs ih =>
    obtain ⟨cls, es⟩ := c
    have ih := ih fun c hc => h c (by simp [hc])
    obtain ⟨h1, h2⟩ := h (cls, es) (by simp)
    have inner : ∀ l : List Entry, (∀ e ∈ l, e.name ≠ "") →
        lookup pname (l.foldr Chain.entry (.link (chainOf cs))) =
          (l ++ declared cs).find? fun e => e.answers pname := by
      intro l
      induction l with
      | nil => intro _; exact ih
      | cons e l ihl =>
        intro hl
        have ht : e.truthy = true := by
          have := hl e (by simp)
          simp [Entry.truthy, this]
        rw [List.foldr_cons, lookup, if_pos ht, List.cons_append, List.find?_cons]
        by_cases ha : e.answers pname
        · simp [ha]
        · simp only [ha]
          exact ihl fun x hx => hl x (by simp [hx])
    have ht : (⟨cls, "", .empty, none, none, false⟩ : Entry).truthy = true := by
      simp only at h1; simp [Entry.truthy, h1]
    rw [chainOf, lookup, if_pos ht, inner es h2]
    simp only [declared, List.flatMap_cons, List.cons_append, List.find?_cons]
    by_cases ha : (⟨cls, "", .empty, none, none, false⟩ : Entry).answers pname
    · simp [ha]
    · simp [ha]

/-- **C12.** For every chain of tables and every name: a look-up finds the entry `e` if and only if `e` answers to this
name and no entry declared before it (in the same class, or in a more derived one) does; it finds nothing if
and only if no declared entry answers to the name. -/
theorem lookup_first (pname : String) (cs : List (String × List Entry)) (h : WellFormed cs) :
    (∀ e, lookup pname (chainOf cs) = some e ↔
      ∃ before after, declared cs = before ++ e :: after ∧ NamedBy e pname ∧
        ∀ e' ∈ before, ¬ NamedBy e' pname) ∧
    (lookup pname (chainOf cs) = none ↔ ∀ e ∈ declared cs, ¬ NamedBy e pname) := by
  rw [lookup_chain pname cs h]
  constructor
  · intro e
    rw [List.find?_eq_some_iff_append]
    constructor
    · rintro ⟨h1, as, bs, h2, h3⟩
      exact ⟨as, bs, h2, (answers_iff _ _).mp h1, fun e' he' hn => by
        have := h3 e' he'
        rw [(answers_iff _ _).mpr hn] at this
        simp at this⟩
    · rintro ⟨as, bs, h2, h1, h3⟩
      exact ⟨(answers_iff _ _).mpr h1, as, bs, h2, fun e' he' => by
        have := h3 e' he'
        rw [← answers_iff] at this
        simpa using this⟩
  · rw [List.find?_eq_none]
    constructor
    · intro h e he hn; exact h e he ((answers_iff _ _).mpr hn)
    · intro h e he hn; exact h e he ((answers_iff _ _).mp hn)

/-- **C12 (partial).** For a name which is not that of a class of the chain: the look-up fails exactly when no class
declares a *property* of this name, and otherwise gives the first one.  Missing: names of classes
(`class_name_is_found`). -/
theorem lookup_property_partial (pname : String) (cs : List (String × List Entry)) (h : WellFormed cs)
    (hc : ∀ c ∈ cs, c.1 ≠ pname) :
    (lookup pname (chainOf cs) = none ↔ ∀ c ∈ cs, ∀ e ∈ c.2, ¬ NamedBy e pname) ∧
    (∀ e, lookup pname (chainOf cs) = some e → ∃ front c back esFront esBack, cs = front ++ c :: back ∧
      c.2 = esFront ++ e :: esBack ∧ NamedBy e pname ∧ (∀ e' ∈ esFront, ¬ NamedBy e' pname) ∧
      ∀ c' ∈ front, ∀ e' ∈ c'.2, ¬ NamedBy e' pname) := by
  obtain ⟨h1, h2⟩ := lookup_first pname cs h
  constructor
  · rw [h2]
    constructor
    · intro hn c hcs e he
      exact hn e (by
        simp only [declared, List.mem_flatMap]
        exact ⟨c, hcs, by simp [he]⟩)
    · intro hn e he
      simp only [declared, List.mem_flatMap, List.mem_cons] at he
      obtain ⟨c, hcs, rfl | he⟩ := he
      · rintro (hx | ⟨hx, _⟩)
        · exact hc c hcs hx
        · simp at hx
      · exact hn c hcs e he
  · clear h2
    intro e he
    clear h1
    induction cs with
    | nil => simp [chainOf, lookup] at he
    | cons c cs ih =>
      have hw : WellFormed cs := fun c hc => h c (by simp [hc])
      have heq := lookup_chain pname (c :: cs) h
      rw [he] at heq
      obtain ⟨cls, es⟩ := c
      have hcls : (⟨cls, "", .empty, none, none, false⟩ : Entry).answers pname = false := by
        have := hc (cls, es) (by simp)
        simp only [ne_eq] at this
        simp [Entry.answers, this]
      simp only [declared, List.flatMap_cons, List.cons_append, List.find?_cons, hcls,
        List.find?_append] at heq
      cases hf : es.find? (fun e => e.answers pname) with
      | some e' =>
        rw [hf] at heq
        simp only [Option.some_or, Option.some.injEq] at heq
        subst heq
        rw [List.find?_eq_some_iff_append] at hf
        obtain ⟨g1, as, bs, g2, g3⟩ := hf
        refine ⟨[], (cls, es), cs, as, bs, rfl, g2, (answers_iff _ _).mp g1, ?_, by simp⟩
        intro e' he' hn
        have := g3 e' he'
        rw [(answers_iff _ _).mpr hn] at this
        simp at this
      | none =>
        rw [hf] at heq
        simp only [Option.none_or] at heq
        obtain ⟨front, c, back, ef, eb, k1, k2, k3, k4, k5⟩ :=
          ih hw (fun c hc' => hc c (by simp [hc'])) (by rw [lookup_chain pname cs hw]; exact heq.symm)
        refine ⟨(cls, es) :: front, c, back, ef, eb, by rw [k1]; rfl, k2, k3, k4, ?_⟩
        intro c' hc' e' he'
        rcases List.mem_cons.mp hc' with rfl | hc'
        · rw [List.find?_eq_none] at hf
          intro hn
          exact hf e' he' ((answers_iff _ _).mpr hn)
        · exact k5 c' hc' e' he'

/-- Two classes; the derived one hides `Mass` and adds a boolean. -/
def exClasses : List (String × List Entry) :=
  [("Derived", [⟨"Spin", "", .double, some 0, some 0, false⟩, ⟨"Mass", "", .double, some 1, some 1, true⟩,
      ⟨"Adaptive", "NonAdaptive", .bool, some 2, some 2, false⟩]),
   ("Base", [⟨"Mass", "", .long, some 3, some 3, false⟩, ⟨"Name", "", .string, some 4, some 4, false⟩])]

example : WellFormed exClasses ∧ (lookup "Mass" (chainOf exClasses)).map (·.ty) = some .double ∧
    (lookup "NonAdaptive" (chainOf exClasses)).map (·.name) = some "Adaptive" ∧
    (lookup "Name" (chainOf exClasses)).map (·.setter) = some (some 4) ∧
    lookup "Colour" (chainOf exClasses) = none := by
  refine ⟨?_, by decide +kernel, by decide +kernel, by decide +kernel, by decide +kernel⟩
  unfold WellFormed exClasses
  decide +kernel

/-- **Finding (C12).** The name of a class is found as if it were a property (`knowsProperty` answers yes); setting it
does nothing and is not reported, although reading it is an error. -/
theorem class_name_is_found {D : Type} (env : Env D) (m : Members D) (v : Val D) :
    ∃ e, lookup "Base" (chainOf exClasses) = some e ∧ e.ty = .empty ∧
      set env (chainOf exClasses) m "Base" v = some m ∧ get env (chainOf exClasses) m "Base" = none ∧
      (∀ b, "Base" ∉ propertyNames b (chainOf exClasses)) := by
  refine ⟨⟨"Base", "", .empty, none, none, false⟩, by decide +kernel, rfl, ?_, ?_, by decide +kernel⟩
  · have : lookup "Base" (chainOf exClasses) = some ⟨"Base", "", .empty, none, none, false⟩ := by
      decide +kernel
    simp [set, this, negated, setP]
  · have : lookup "Base" (chainOf exClasses) = some ⟨"Base", "", .empty, none, none, false⟩ := by
      decide +kernel
    simp [get, this, getP]

/-- **C12, names.** The names listed for an object are exactly those which the look-up finds, class names excepted; with
the negative names if asked for. -/
theorem names_listed (cs : List (String × List Entry)) (h : WellFormed cs) (s : String) :
    (s ∈ propertyNames true (chainOf cs) ↔ ∃ e ∈ declared cs, e.ty ≠ .empty ∧ NamedBy e s) ∧
    (s ∈ propertyNames false (chainOf cs) ↔ ∃ e ∈ declared cs, e.ty ≠ .empty ∧ e.name = s) := by
  have key : ∀ b, propertyNames b (chainOf cs) = (declared cs).flatMap fun e =>
      (if e.ty != .empty then [e.name] else []) ++ (if b && e.ty == .bool then [e.nameFalse] else []) := by
    intro b
    induction cs with
    | nil => rfl
    | cons c cs ih =>
      obtain ⟨cls, es⟩ := c
      have ih := ih fun c hc => h c (by simp [hc])
      obtain ⟨h1, h2⟩ := h (cls, es) (by simp)
      have inner : ∀ l : List Entry, (∀ e ∈ l, e.name ≠ "") →
          propertyNames b (l.foldr Chain.entry (.link (chainOf cs))) = (l ++ declared cs).flatMap fun e =>
          (if e.ty != .empty then [e.name] else []) ++ (if b && e.ty == .bool then [e.nameFalse] else []) := by
        intro l
        induction l with
        | nil => intro _; exact ih
        | cons e l ihl =>
          intro hl
          have ht : e.truthy = true := by
            have := hl e (by simp)
            simp [Entry.truthy, this]
          rw [List.foldr_cons, propertyNames, if_pos ht, List.cons_append, List.flatMap_cons,
            ihl fun x hx => hl x (by simp [hx])]
      have ht : (⟨cls, "", .empty, none, none, false⟩ : Entry).truthy = true := by
        simp only at h1; simp [Entry.truthy, h1]
      rw [chainOf, propertyNames, if_pos ht, inner es h2]
      simp [declared]
  rw [key, key]
  simp only [List.mem_flatMap, List.mem_append, NamedBy]
  constructor
  · constructor
    · rintro ⟨e, he, h | h⟩
      · by_cases ht : e.ty = .empty <;> simp [ht] at h
        exact ⟨e, he, ht, Or.inl h.symm⟩
      · by_cases ht : e.ty = .bool <;> simp [ht] at h
        exact ⟨e, he, by simp [ht], Or.inr ⟨ht, h.symm⟩⟩
    · rintro ⟨e, he, ht, rfl | ⟨hb, rfl⟩⟩
      · exact ⟨e, he, Or.inl (by simp [ht])⟩
      · exact ⟨e, he, Or.inr (by simp [hb])⟩
  · constructor
    · rintro ⟨e, he, h | h⟩
      · by_cases ht : e.ty = .empty <;> simp [ht] at h
        exact ⟨e, he, ht, h.symm⟩
      · simp at h
    · rintro ⟨e, he, ht, rfl⟩
      exact ⟨e, he, Or.inl (by simp [ht])⟩

example : propertyNames true (chainOf exClasses) =
    ["Spin", "Mass", "Adaptive", "NonAdaptive", "Mass", "Name"] := by decide +kernel

/-! ## C13: setting and getting -/

variable {D : Type}

/-- The value has the type of the property. -/
def HasType : Ty → Val D → Prop
  | .double, .double _ => True
  | .long, .long _ => True
  | .ulong, .ulong _ => True
  | .sizeT, .ulong _ => True
  | .bool, .bool _ => True
  | .string, .string _ => True
  | .filename, .string _ => True
  | .vdouble, .vdouble _ => True
  | .vulong, .vulong _ => True
  | .metric, .obj .metric _ => True
  | .astrobj, .obj .astrobj _ => True
  | .spectrum, .obj .spectrum _ => True
  | .spectrometer, .obj .spectrometer _ => True
  | .screen, .obj .screen _ => True
  | _, _ => False

/-- An entry with a pair of accessors to member `k`. -/
def Accessors (e : Entry) (k : Nat) : Prop := e.setter = some k ∧ e.getter = some k

theorem convert_hasType (env : Env D) {t : Ty} {v : Val D} (h : HasType t v) : convert env t v = some v := by
  cases t <;> cases v <;> first
    | rfl
    | (exact h.elim)
    | (rename_i t p; cases t <;> first | rfl | exact h.elim)

theorem hasType_ne_empty {t : Ty} {v : Val D} (h : HasType t v) : t ≠ .empty := by
  rintro rfl; exact h

theorem hasType_bool {v : Val D} (h : HasType .bool v) : ∃ b, v = .bool b := by
  cases v <;> first | exact ⟨_, rfl⟩ | exact h.elim

/-- **C13, round trip.** For every chain of tables, every name which is found as a property with accessors, and
every value of its type: setting succeeds, reading through the same name gives the value, and every other member keeps its value. -/
theorem set_get (env : Env D) (c : Chain) (m : Members D) (pname : String) (e : Entry) (k : Nat) (v : Val D)
    (hl : lookup pname c = some e) (ha : Accessors e k) (ht : HasType e.ty v) :
    ∃ m', set env c m pname v = some m' ∧ get env c m' pname = some v ∧ ∀ j, j ≠ k → m' j = m j := by
  have hne := hasType_ne_empty ht
  by_cases hn : e.ty = .bool ∧ pname = e.nameFalse
  · obtain ⟨b, rfl⟩ := hasType_bool (hn.1 ▸ ht)
    refine ⟨assign m k (.bool (!b)), ?_, ?_, fun j hj => by simp [assign, hj]⟩
    · simp only [set, hl, negated, if_pos hn, asBool, Option.map_some, Option.bind_some, setP, if_neg hne, ha.1]
      rw [hn.1]; rfl
    · simp only [get, hl, getP, ha.2, negated, if_pos hn, if_neg hne, assign, asBool, Option.map_some,
        Option.bind_some, if_true, Bool.not_not]
  · refine ⟨assign m k v, ?_, ?_, fun j hj => by simp [assign, hj]⟩
    · simp only [set, hl, negated, if_neg hn, Option.bind_some, setP, if_neg hne, ha.1, convert_hasType env ht,
        Option.map_some]
    · simp [get, hl, getP, hne, ha.2, negated, hn, assign]

/-- The hypotheses, on `exClasses`. -/
example : ∃ e, lookup "NonAdaptive" (chainOf exClasses) = some e ∧ Accessors e 2 ∧
    HasType e.ty (Val.bool true : Val Int) :=
  ⟨⟨"Adaptive", "NonAdaptive", .bool, some 2, some 2, false⟩, by decide +kernel, ⟨rfl, rfl⟩, trivial⟩

/-- **C13, negative name.** Setting a boolean through its negative name and reading it through its positive name gives
the opposite value, and conversely. -/
theorem set_negative (env : Env D) (c : Chain) (m : Members D) (e : Entry) (k : Nat) (b : Bool)
    (hp : lookup e.name c = some e) (hn : lookup e.nameFalse c = some e) (hne : e.name ≠ e.nameFalse)
    (ht : e.ty = .bool) (ha : Accessors e k) :
    (∃ m', set env c m e.nameFalse (.bool b) = some m' ∧ get env c m' e.name = some (.bool (!b))) ∧
    (∃ m', set env c m e.name (.bool b) = some m' ∧ get env c m' e.nameFalse = some (.bool (!b))) := by
  constructor
  · refine ⟨assign m k (.bool (!b)), ?_, ?_⟩
    · simp [set, hn, negated, ht, asBool, setP, ha.1, convert]
    · simp [get, hp, getP, ht, ha.2, negated, hne, assign]
  · refine ⟨assign m k (.bool b), ?_, ?_⟩
    · simp [set, hp, negated, ht, hne, asBool, setP, ha.1, convert]
    · simp [get, hn, getP, ht, ha.2, negated, assign, asBool]

example : ∃ e, lookup e.name (chainOf exClasses) = some e ∧ lookup e.nameFalse (chainOf exClasses) = some e ∧
    e.name ≠ e.nameFalse ∧ e.ty = .bool ∧ Accessors e 2 :=
  ⟨⟨"Adaptive", "NonAdaptive", .bool, some 2, some 2, false⟩, by decide +kernel, by decide +kernel, by decide,
    rfl, rfl, rfl⟩

theorem mapUnit_inverse (f g : D → Option D) (h : ∀ x y, f x = some y → g y = some x) :
    ∀ l l', mapUnit f l = some l' → mapUnit g l' = some l := by
  intro l
  induction l with
  | nil => intro l' h'; simp [mapUnit] at h'; subst h'; rfl
  | cons x l ih =>
    intro l' h'
    simp only [mapUnit, Option.bind_eq_some_iff, Option.map_eq_some_iff] at h'
    obtain ⟨y, hy, ys, hys, rfl⟩ := h'
    simp [mapUnit, h x y hy, ih ys hys]

/-- **C13, units.** With a unit: a successful setting followed by a reading in the same unit gives the value set, provided
the two conversions of the member are inverse of each other; other members are unchanged. -/
theorem setU_getU (env : Env D) (c : Chain) (m m' : Members D) (pname : String) (e : Entry) (k : Nat) (v : Val D)
    (unit : String) (hl : lookup pname c = some e) (ha : Accessors e k) (ht : HasType e.ty v)
    (hinv : ∀ x y, env.toUnit k unit x = some y → env.fromUnit k unit y = some x)
    (hs : setU env c m pname v unit = some m') :
    getU env c m' pname unit = some v ∧ ∀ j, j ≠ k → m' j = m j := by
  have hne := hasType_ne_empty ht
  have plain : unit = "" → setPU env m e v unit = setP env m e v → getPU env m' e unit = getP m' e →
      getU env c m' pname unit = some v ∧ ∀ j, j ≠ k → m' j = m j := by
    intro hu h1 h2
    obtain ⟨m'', g1, g2, g3⟩ := set_get env c m pname e k v hl ha ht
    have : m'' = m' := by
      simp only [setU, set, hl, Option.bind_some] at hs g1
      cases hv : negated env e pname v with
      | none => rw [hv] at g1; simp at g1
      | some w =>
        rw [hv] at hs g1
        simp only [Option.bind_some] at hs g1
        by_cases hb : e.ty = .bool ∧ pname = e.nameFalse
        · have : setPU env m e w unit = setP env m e w := by
            simp [setPU, hb.1, hu]
          rw [this, g1] at hs
          exact Option.some.inj hs
        · simp only [negated, if_neg hb, Option.some.injEq] at hv
          subst hv
          rw [h1, g1] at hs
          exact Option.some.inj hs
    subst this
    refine ⟨?_, g3⟩
    simp only [getU, hl, Option.bind_some, h2]
    simpa [get, hl] using g2
  by_cases hd : e.ty = .double ∧ e.unit = true
  · obtain ⟨x, rfl⟩ : ∃ x, v = .double x := by
      rw [hd.1] at ht; cases v <;> first | exact ⟨_, rfl⟩ | exact ht.elim
    have hs' : ((env.toUnit k unit x).map fun x => assign m k (.double x)) = some m' := by
      rw [← hs]
      simp only [setU, hl, Option.bind_some, negated, setPU, hd.1, hd.2, if_true, ha.1]
      rfl
    obtain ⟨y, hy, rfl⟩ := Option.map_eq_some_iff.mp hs'
    refine ⟨?_, fun j hj => by simp [assign, hj]⟩
    simp [getU, hl, negated, getPU, hd.1, hd.2, ha.2, assign, asDouble, hinv x y hy]
  · by_cases hvd : e.ty = .vdouble ∧ e.unit = true
    · obtain ⟨x, rfl⟩ : ∃ x, v = .vdouble x := by
        rw [hvd.1] at ht; cases v <;> first | exact ⟨_, rfl⟩ | exact ht.elim
      have hs' : ((mapUnit (env.toUnit k unit) x).map fun x => assign m k (.vdouble x)) = some m' := by
        rw [← hs]
        simp only [setU, hl, Option.bind_some, negated, setPU, hvd.1, hvd.2, if_true, ha.1]
        rfl
      obtain ⟨y, hy, rfl⟩ := Option.map_eq_some_iff.mp hs'
      refine ⟨?_, fun j hj => by simp [assign, hj]⟩
      simp [getU, hl, negated, getPU, hvd.1, hvd.2, ha.2, assign, asVDouble,
        mapUnit_inverse _ _ hinv x y hy]
    · by_cases hu : unit = ""
      · apply plain hu
        · unfold setPU
          split <;> simp_all
        · unfold getPU
          split <;> simp_all
      · exfalso
        simp only [setU, hl, Option.bind_some, Option.bind_eq_some_iff] at hs
        obtain ⟨w, _, hs⟩ := hs
        unfold setPU at hs
        split at hs <;> simp_all

/-- A double with unit: metres to kilometres. -/
def exEnv : Env Int where
  ofInt := id
  stod _ := none
  stol _ := none
  stoul _ := none
  stoi _ := none
  toUnit _ u x := if u = "km" then some (1000 * x) else if u = "" then some x else none
  fromUnit _ u x := if u = "km" then (if x % 1000 = 0 then some (x / 1000) else none) else if u = "" then some x else none

example : (∀ x y, exEnv.toUnit 1 "km" x = some y → exEnv.fromUnit 1 "km" y = some x) ∧
    (setU exEnv (chainOf exClasses) (fun _ => .empty) "Mass" (.double 3) "km").map (fun m => m 1) =
      some (.double 3000) := by
  constructor
  · intro x y h
    simp only [exEnv, if_true, Option.some.injEq] at h ⊢
    subst h
    simp
  · decide +kernel

/-- **C13, refusals.** A unit on a property which does not support units, and an unknown name, are refused; nothing is
changed since no new state is produced. -/
theorem unit_refused (env : Env D) (c : Chain) (m : Members D) (pname unit : String) (v : Val D)
    (hu : unit ≠ "") (h : ∀ e, lookup pname c = some e → e.unit = false ∨ (e.ty ≠ .double ∧ e.ty ≠ .vdouble)) :
    setU env c m pname v unit = none ∧ getU env c m pname unit = none := by
  cases hl : lookup pname c with
  | none => simp [setU, getU, hl]
  | some e =>
    have he := h e hl
    constructor
    · simp only [setU, hl, Option.bind_some, Option.bind_eq_none_iff]
      intro w _
      unfold setPU
      split <;> simp_all
    · have : getPU env m e unit = none := by
        unfold getPU
        split <;> simp_all
      simp [getU, hl, this]

example : setU exEnv (chainOf exClasses) (fun _ => .empty) "Spin" (.double 3) "km" = none := by
  have := (unit_refused exEnv (chainOf exClasses) (fun _ => .empty) "Spin" "km" (.double 3) (by decide)
    (by
      intro e he
      have : lookup "Spin" (chainOf exClasses) = some ⟨"Spin", "", .double, some 0, some 0, false⟩ := by
        decide +kernel
      rw [this] at he; cases he; exact Or.inl rfl)).1
  exact this

/-- Values which no conversion accepts for a type of property. -/
def Incompatible : Ty → Val D → Prop
  | .double, .empty | .double, .vdouble _ | .double, .vulong _ | .double, .obj _ _ => True
  | .long, .empty | .long, .double _ | .long, .bool _ | .long, .vdouble _ | .long, .vulong _
  | .long, .obj _ _ => True
  | .ulong, .empty | .ulong, .double _ | .ulong, .bool _ | .ulong, .vdouble _ | .ulong, .vulong _
  | .ulong, .obj _ _ => True
  | .sizeT, .empty | .sizeT, .double _ | .sizeT, .bool _ | .sizeT, .vdouble _ | .sizeT, .vulong _
  | .sizeT, .obj _ _ => True
  | .bool, .empty | .bool, .double _ | .bool, .vdouble _ | .bool, .vulong _ | .bool, .obj _ _ => True
  | .string, .string _ => False
  | .string, _ => True
  | .filename, .string _ => False
  | .filename, _ => True
  | .vdouble, .vdouble _ => False
  | .vdouble, _ => True
  | .vulong, .vulong _ => False
  | .vulong, _ => True
  | .metric, .obj .metric _ | .astrobj, .obj .astrobj _ | .spectrum, .obj .spectrum _
  | .spectrometer, .obj .spectrometer _ | .screen, .obj .screen _ => False
  | .metric, .empty | .astrobj, .empty | .spectrum, .empty | .spectrometer, .empty | .screen, .empty => False
  | .metric, _ | .astrobj, _ | .spectrum, _ | .spectrometer, _ | .screen, _ => True
  | _, _ => False

/-- **C13, wrong type (partial).** A value of an incompatible type is refused, with or without unit.  Missing: numeric
types other than that of the property, which are converted, not always faithfully
(`wrong_type_is_converted`). -/
theorem wrong_type_refused_partial (env : Env D) (c : Chain) (m : Members D) (pname unit : String) (e : Entry)
    (v : Val D) (hl : lookup pname c = some e) (h : Incompatible e.ty v) :
    set env c m pname v = none ∧ setU env c m pname v unit = none := by
  have hne : e.ty ≠ .empty := by
    intro h0; rw [h0] at h; cases v <;> exact h
  have hc : convert env e.ty v = none := by
    revert h
    cases e.ty <;> cases v <;> intro h <;> first
      | rfl
      | (exact h.elim)
      | (rename_i t p; cases t <;> first | rfl | exact h.elim)
  have hs : setP env m e v = none := by
    unfold setP
    rw [if_neg hne, hc]
    split <;> rfl
  have hd : e.ty = .double → asDouble env v = none := by
    intro h0; rw [h0] at hc; simpa [convert] using hc
  have hvd : e.ty = .vdouble → asVDouble v = none := by
    intro h0; rw [h0] at hc; simpa [convert] using hc
  have hsu : setPU env m e v unit = none := by
    unfold setPU
    split
    · rfl
    · rw [hd ‹_›]
      simp only [hs, Option.bind_none, Option.map_none]
      repeat' split
      all_goals rfl
    · rw [hvd ‹_›]
      simp only [hs, Option.bind_none, Option.map_none]
      repeat' split
      all_goals rfl
    · rw [hs]; split <;> rfl
  by_cases hb : e.ty = .bool ∧ pname = e.nameFalse
  · have : asBool env v = none := by
      have := hc; rw [hb.1] at this; simpa [convert] using this
    simp only [set, setU, hl, negated, if_pos hb, this, Option.bind_some, Option.map_none, Option.bind_none, and_self]
  · simp [set, setU, hl, negated, hb, hs, hsu]

example : Incompatible .long (Val.double (5 : Int)) ∧ Incompatible .double (Val.obj .metric none : Val Int) :=
  ⟨trivial, trivial⟩

/-- **Finding (C13).** An unsigned value given to a signed property is accepted and reads back as a negative number; a boolean
given to a floating-point property is accepted. -/
theorem wrong_type_is_converted (env : Env D) (m : Members D) :
    ((set env (chainOf exClasses) m "Spin" (.bool true)).map fun m => m 0) = some (.double (env.ofInt 1)) ∧
    ((set env (chainOf [("Base", [⟨"Mass", "", .long, some 3, some 3, false⟩])]) m "Mass"
      (.ulong (2 ^ 63))).map fun m => m 3) = some (.long (-2 ^ 63)) := by
  have h1 : lookup "Spin" (chainOf exClasses) = some ⟨"Spin", "", .double, some 0, some 0, false⟩ := by
    decide +kernel
  have h2 : lookup "Mass" (chainOf [("Base", [⟨"Mass", "", .long, some 3, some 3, false⟩])]) =
      some ⟨"Mass", "", .long, some 3, some 3, false⟩ := by decide +kernel
  constructor
  · simp [set, h1, negated, setP, convert, asDouble, assign]
  · simp [set, h2, negated, setP, convert, asLong, assign, toLong]

end Gyoto.Property
