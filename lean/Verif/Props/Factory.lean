import Verif.Model.Factory
import Mathlib.Tactic.ByContra

/-!
# Shared components of a document (C15), file names (C16)
-/

namespace Gyoto.Factory

/-! ## C15 -/

/-- The objects of a kind named by requests. -/
def asked (k : Kind) (rs : List Request) : List (Nat × Nat) :=
  rs.filterMap fun r => if r.kind = k then r.obj.map fun x => (x, r.el) else none

/-- The elements of a kind in the document. -/
def written (k : Kind) (w : Writer) : List (Nat × Nat) :=
  w.doc.filterMap fun e => if e.1 = k then some e.2 else none

/-- State of a document for one kind: not yet written; written; or the root itself. -/
def SlotOk (w : Writer) (k : Kind) : Prop :=
  (written k w = [] ∧ (w.slot k).el = false ∧ (k = .screen → (w.slot k).obj = none)) ∨
  (∃ x p, written k w = [(x, p)] ∧ w.slot k = ⟨some x, true⟩) ∨
  (∃ x, written k w = [] ∧ w.slot k = ⟨some x, true⟩)

/-- Documents which have been started by one of the constructors. -/
def Started (w : Writer) : Prop := ∀ k, SlotOk w k

theorem slot_setSlot (w : Writer) (k k' : Kind) (s : Slot) (d : List (Kind × Nat × Nat)) :
    Writer.slot { w.setSlot k s with doc := d } k' = if k' = k then s else w.slot k' := by
  cases k <;> cases k' <;> simp [Writer.slot, Writer.setSlot]

/-- Effect of one request. -/
theorem write1_spec (w : Writer) (r : Request) (h : Started w) :
    match r.obj with
    | none => write1 w r = some w
    | some x =>
      if ∃ y, (w.slot r.kind).obj = some y ∧ y ≠ x then write1 w r = none
      else ∃ w', write1 w r = some w' ∧ Started w' ∧ (w'.slot r.kind).obj = some x ∧ (w'.slot r.kind).el = true ∧
        (∀ k, k ≠ r.kind → w'.slot k = w.slot k ∧ written k w' = written k w) ∧
        written r.kind w' = (if (w.slot r.kind).el then written r.kind w else [(x, r.el)]) := by
  obtain ⟨k, o, p⟩ := r
  cases o with
  | none => cases k <;> simp [write1, writeMA, writeScreen]
  | some x =>
    have hk := h k
    -- the writing case
    have new : ∀ w', w' = { w.setSlot k ⟨some x, true⟩ with doc := w.doc ++ [(k, x, p)] } →
        (w.slot k).el = false → written k w = [] →
        Started w' ∧ (w'.slot k).obj = some x ∧ (w'.slot k).el = true ∧
        (∀ k', k' ≠ k → w'.slot k' = w.slot k' ∧ written k' w' = written k' w) ∧
        written k w' = [(x, p)] := by
      rintro w' rfl he hw
      have hwr : ∀ k', written k' { w.setSlot k ⟨some x, true⟩ with doc := w.doc ++ [(k, x, p)] } =
          written k' w ++ if k = k' then [(x, p)] else [] := by
        intro k'
        simp only [written, List.filterMap_append]
        congr 1
        by_cases hkk : k = k' <;> simp [hkk]
      refine ⟨?_, by simp [slot_setSlot], by simp [slot_setSlot], fun k' hk' => ?_, by rw [hwr, hw]; simp⟩
      · intro k'
        by_cases hkk : k' = k
        · subst hkk
          exact Or.inr (Or.inl ⟨x, p, by rw [hwr, hw]; simp, by simp [slot_setSlot]⟩)
        · unfold SlotOk
          rw [hwr, if_neg (fun h => hkk h.symm), List.append_nil, slot_setSlot, if_neg hkk]
          exact h k'
      · rw [hwr, if_neg (fun h => hk' h.symm), List.append_nil, slot_setSlot, if_neg hk']
        exact ⟨rfl, rfl⟩
    have keep : (w.slot k) = ⟨some x, true⟩ → Started w ∧ (w.slot k).obj = some x ∧ (w.slot k).el = true ∧
        (∀ k', k' ≠ k → w.slot k' = w.slot k' ∧ written k' w = written k' w) ∧ written k w = written k w := by
      intro hs; exact ⟨h, by rw [hs], by rw [hs], fun _ _ => ⟨rfl, rfl⟩, rfl⟩
    have hw1 : k ≠ .screen → write1 w ⟨k, some x, p⟩ = writeMA w k (some x) p := by
      cases k <;> simp [write1]
    simp only
    split
    · rename_i hd
      obtain ⟨y, hy, hne⟩ := hd
      by_cases hs : k = .screen
      · subst hs
        have hy' : w.screen.obj = some y := hy
        simp [write1, writeScreen, hy', hne.symm]
      · rw [hw1 hs]
        simp [writeMA, hy, hne.symm]
    · rename_i hd
      rcases hk with ⟨hw, he, hscr⟩ | ⟨z, q, hw, hsl⟩ | ⟨z, hw, hsl⟩
      · have hel : (if (w.slot k).el = true then written k w else [(x, p)]) = [(x, p)] := by simp [he]
        rw [hel]
        refine ⟨_, ?_, new _ rfl he hw⟩
        by_cases hs : k = .screen
        · subst hs
          have hy' : w.screen.obj = none := hscr rfl
          simp [write1, writeScreen, hy']
        · rw [hw1 hs]
          cases ho : (w.slot k).obj with
          | none => simp [writeMA, ho, he]
          | some y =>
            have : y = x := by
              by_contra hne
              exact hd ⟨y, ho, hne⟩
            simp [writeMA, ho, this, he]
      all_goals
        have hzx : z = x := by
          by_contra hne
          exact hd ⟨z, by rw [hsl], hne⟩
        subst hzx
        have hel : (w.slot k).el = true := by rw [hsl]
        rw [if_pos hel]
        refine ⟨w, ?_, keep hsl⟩
        by_cases hs : k = .screen
        · subst hs
          have hy' : w.screen.obj = some z := by
            have : w.slot .screen = w.screen := rfl
            rw [← this, hsl]
          simp [write1, writeScreen, hy']
        · rw [hw1 hs]
          simp [writeMA, hsl]

/-- **C15, writing.** From any document just started, whatever components request, in whatever order: writing succeeds exactly
when, for each kind, all objects named are one and the same (and the one the document was started with, if any); and then the
element of each kind appears once, where it was first requested, if the kind was requested at all (and is not
the root of the document nor already written). -/
theorem written_once (w : Writer) (rs : List Request) (h : Started w) :
    (writeAll w rs = none ↔ ∃ k x y, x ∈ (w.slot k).obj.toList ++ (asked k rs).map (·.1) ∧
      y ∈ (w.slot k).obj.toList ++ (asked k rs).map (·.1) ∧ x ≠ y) ∧
    (∀ w', writeAll w rs = some w' → ∀ k, written k w' =
      if (w.slot k).el then written k w else (asked k rs).head?.toList) := by
  induction rs generalizing w with
  | nil =>
    constructor
    · simp only [writeAll, reduceCtorEq, false_iff]
      rintro ⟨k, x, y, hx, hy, hne⟩
      simp only [asked, List.filterMap_nil, List.map_nil, List.append_nil, Option.mem_toList] at hx hy
      rw [hx] at hy
      exact hne (Option.some.inj hy)
    · intro w' hw k
      simp only [writeAll, Option.some.injEq] at hw
      subst hw
      split
      · rfl
      · rename_i hf
        rcases h k with ⟨h1, _⟩ | ⟨x, p, _, h2⟩ | ⟨x, _, h2⟩
        · simp [h1, asked]
        · rw [h2] at hf; simp at hf
        · rw [h2] at hf; simp at hf
  | cons r rs ih =>
    have hspec := write1_spec w r h
    cases ho : r.obj with
    | none =>
      rw [ho] at hspec
      simp only at hspec
      have ha : ∀ k, asked k (r :: rs) = asked k rs := by
        intro k; simp [asked, ho]
      simp only [writeAll, hspec, Option.bind_some, ha]
      exact ih w h
    | some x =>
      rw [ho] at hspec
      simp only at hspec
      have ha : ∀ k, asked k (r :: rs) = (if r.kind = k then [(x, r.el)] else []) ++ asked k rs := by
        intro k
        by_cases hk : r.kind = k <;> simp [asked, ho, hk]
      split at hspec
      · rename_i hd
        obtain ⟨y, hy, hne⟩ := hd
        simp only [writeAll, hspec, Option.bind_none, reduceCtorEq, false_implies, implies_true, and_true]
        simp only [true_iff]
        exact ⟨r.kind, y, x, by simp [hy], by simp [ha], hne⟩
      · rename_i hd
        obtain ⟨w1, h1, h2, h3, h3', h4, h5⟩ := hspec
        obtain ⟨ih1, ih2⟩ := ih w1 h2
        have hset : ∀ k z, z ∈ (w1.slot k).obj.toList ++ (asked k rs).map (·.1) ↔
            z ∈ (w.slot k).obj.toList ++ (asked k (r :: rs)).map (·.1) := by
          intro k z
          rw [ha]
          by_cases hk : r.kind = k
          · subst hk
            rw [h3]
            simp only [Option.toList_some, List.cons_append, List.nil_append, List.mem_cons, if_true, List.map_cons,
              List.mem_append, Option.mem_toList]
            constructor
            · rintro (h | h)
              · exact Or.inr (Or.inl h)
              · exact Or.inr (Or.inr h)
            · rintro (h | h | h)
              · refine Or.inl ?_
                by_contra hne
                exact hd ⟨z, h, hne⟩
              · exact Or.inl h
              · exact Or.inr h
          · rw [if_neg hk, (h4 k (fun h => hk h.symm)).1, List.nil_append]
        simp only [writeAll, h1, Option.bind_some]
        refine ⟨?_, fun w' hw' k => ?_⟩
        · rw [ih1]; simp only [hset]
        · rw [ih2 w' hw' k]
          by_cases hk : r.kind = k
          · subst hk
            rw [if_pos h3', h5, ha]
            simp
          · have hk' := h4 k (fun h => hk h.symm)
            rw [hk'.1, hk'.2, ha, if_neg hk, List.nil_append]

/-- The documents started by the four constructors. -/
theorem constructors_started (gg ao : Option Nat) (m s a : Nat) :
    Started (sceneryWriter gg ao) ∧ Started (screenWriter gg s) ∧ Started (metricWriter m) ∧ Started (astrobjWriter a) := by
  refine ⟨?_, ?_, ?_, ?_⟩ <;> intro k <;> cases k <;>
    simp [SlotOk, written, sceneryWriter, screenWriter, metricWriter, astrobjWriter, Writer.slot]

/-- A scenery with metric 1 and object 2, whose screen 3 names the metric again. -/
example : writeAll (sceneryWriter (some 1) (some 2))
      [⟨.metric, some 1, 0⟩, ⟨.screen, some 3, 0⟩, ⟨.metric, some 1, 7⟩, ⟨.astrobj, some 2, 0⟩, ⟨.metric, some 1, 8⟩] =
    some ⟨⟨some 1, true⟩, ⟨some 2, true⟩, ⟨some 3, true⟩, [(.metric, 1, 0), (.screen, 3, 0), (.astrobj, 2, 0)]⟩ ∧
    writeAll (sceneryWriter (some 1) (some 2)) [⟨.metric, some 1, 0⟩, ⟨.metric, some 4, 7⟩] = none := by
  decide

/-- Members of a reader, by kind. -/
def Reader.slot (r : Reader) : Kind → Option Nat
  | .metric => r.metric
  | .astrobj => r.astrobj
  | .screen => r.screen

theorem read1_slot (present : Kind → Bool) (r : Reader) (k k' : Kind) :
    ((read1 present r k).1 = (read1 present r k).2.slot k) ∧
    (r.slot k' = (read1 present r k).2.slot k' ∨ (k' = k ∧ r.slot k = none ∧ present k = true)) ∧
    ((read1 present r k).1 = none ↔ r.slot k = none ∧ present k = false) := by
  cases k <;> cases k' <;> simp only [read1, Reader.slot] <;> split <;> rename_i h <;> simp [h] <;> split <;> simp_all

/-- **C15, reading.** Whatever the requests made while a document is being read, all the answers given for one kind are one
and the same object, or all are null (when the document has no such element). -/
theorem read_shared (present : Kind → Bool) (r : Reader) (ks : List Kind) (k : Kind) (a b : Option Nat)
    (ha : (k, a) ∈ readAll present r ks) (hb : (k, b) ∈ readAll present r ks) :
    a = b ∧ (a = none ↔ r.slot k = none ∧ present k = false) := by
  -- every answer is determined by the member if it is set, and sets it
  have key : ∀ (ks : List Kind) (r : Reader), (∀ o, r.slot k = some o → ∀ a, (k, a) ∈ readAll present r ks → a = some o) ∧
      (r.slot k = none → present k = false → ∀ a, (k, a) ∈ readAll present r ks → a = none) ∧
      (r.slot k = none → present k = true → ∀ a b, (k, a) ∈ readAll present r ks → (k, b) ∈ readAll present r ks →
        a = b ∧ a ≠ none) := by
    intro ks
    induction ks with
    | nil => intro r; simp [readAll]
    | cons k' ks ih =>
      intro r
      obtain ⟨s1, s2, s3⟩ := read1_slot present r k' k
      obtain ⟨i1, i2, i3⟩ := ih (read1 present r k').2
      simp only [readAll, List.mem_cons, Prod.mk.injEq]
      refine ⟨fun o ho a => ?_, fun hn hp a => ?_, fun hn hp a b => ?_⟩
      · have hs : (read1 present r k').2.slot k = some o := by
          rcases s2 with h | ⟨h1, h2, _⟩
          · rw [← h, ho]
          · rw [← h1, ho] at h2; simp at h2
        rintro (⟨rfl, rfl⟩ | h)
        · rw [s1, hs]
        · exact i1 o hs a h
      · have hs : (read1 present r k').2.slot k = none := by
          rcases s2 with h | ⟨h1, _, h2⟩
          · rw [← h, hn]
          · rw [← h1, hp] at h2; simp at h2
        rintro (⟨rfl, rfl⟩ | h)
        · rw [s1, hs]
        · exact i2 hs hp a h
      · by_cases hk : k = k'
        · subst hk
          have hne : (read1 present r k).1 ≠ none := by rw [ne_eq, s3]; simp [hp]
          obtain ⟨o, ho⟩ := Option.ne_none_iff_exists'.mp hne
          have hs : (read1 present r k).2.slot k = some o := by rw [← s1, ho]
          rintro (⟨_, rfl⟩ | h) (⟨_, rfl⟩ | h')
          · exact ⟨rfl, hne⟩
          · exact ⟨by rw [ho, i1 o hs b h'], hne⟩
          · rw [i1 o hs a h, ho]; simp
          · rw [i1 o hs a h, i1 o hs b h']; simp
        · have hs : (read1 present r k').2.slot k = none := by
            rcases s2 with h | ⟨h1, _⟩
            · rw [← h, hn]
            · exact absurd h1 hk
          rintro (⟨h, _⟩ | h) (⟨h', _⟩ | h')
          · exact absurd h hk
          · exact absurd h hk
          · exact absurd h' hk
          · exact i3 hs hp a b h h'
  obtain ⟨k1, k2, k3⟩ := key ks r
  cases hs : r.slot k with
  | some o => rw [k1 o hs a ha, k1 o hs b hb]; simp
  | none =>
    cases hp : present k with
    | false => rw [k2 hs hp a ha, k2 hs hp b hb]; simp
    | true =>
      obtain ⟨h1, h2⟩ := k3 hs hp a b ha hb
      exact ⟨h1, by simp [h2]⟩

example : readAll (fun k => k != .screen) ⟨none, none, none, 10⟩ [.metric, .screen, .astrobj, .metric, .metric] =
    [(.metric, some 10), (.screen, none), (.astrobj, some 11), (.metric, some 10), (.metric, some 10)] := by decide

/-! ## C16 -/

/-- Components of a path: the pieces between slashes, without the empty ones and `.`. -/
def components (cur : List Char) : List Char → List (List Char)
  | [] => if cur = [] ∨ cur = ['.'] then [] else [cur.reverse]
  | c :: cs =>
    if c = '/' then (if cur = [] ∨ cur = ['.'] then [] else [cur.reverse]) ++ components [] cs
    else components (c :: cur) cs

/-- Path names which start with a slash. -/
def Absolute (p : List Char) : Prop := p.head? = some '/'

/-- The place a path name designates for a process working in `base` (an absolute place). -/
def place (base : List (List Char)) (p : List Char) : List (List Char) :=
  if p.head? = some '/' then components [] p else base ++ components [] p

theorem components_slash (cur a b : List Char) : components cur (a ++ '/' :: b) = components cur a ++ components [] b := by
  induction a generalizing cur with
  | nil => simp [components]
  | cons c a ih =>
    rw [List.cons_append]
    by_cases h : c = '/'
    · simp [components, h, ih]
    · simp [components, h, ih]

theorem absolute_iff (p : List Char) : "/".toList.isPrefixOf p = true ↔ p.head? = some '/' := by
  have h : "/".toList = ['/'] := by decide
  rw [h]
  cases p with
  | nil => simp
  | cons c cs => simp [List.isPrefixOf]; exact ⟨fun h => h.symm, fun h => h.symm⟩

/-- **C16.** For every scene directory, working directory and file name: an absolute name is unchanged; a name which starts
with the marker designates the rest of the name in the working directory; any other name designates its place in
the directory of the scene, itself taken from the working directory if it is relative; the result is always
absolute, so that applying the function again changes nothing. -/
theorem fullPath_place (xmlpath curwd fname : List Char) (hcwd : Absolute curwd) :
    (Absolute fname → fullPath xmlpath curwd fname = fname) ∧
    (∀ rest, fname = "`pwd`/".toList ++ rest →
      components [] (fullPath xmlpath curwd fname) = components [] curwd ++ components [] rest) ∧
    (¬ Absolute fname → (∀ rest, fname ≠ "`pwd`/".toList ++ rest) →
      components [] (fullPath xmlpath curwd fname) = place (place (components [] curwd) xmlpath) fname) ∧
    Absolute (fullPath xmlpath curwd fname) ∧
    (∀ x c, fullPath x c (fullPath xmlpath curwd fname) = fullPath xmlpath curwd fname) := by
  have happ : ∀ a b : List Char, Absolute a → Absolute (a ++ b) := by
    intro a b h
    cases a with
    | nil => simp [Absolute] at h
    | cons => simpa [Absolute] using h
  have habs : Absolute (fullPath xmlpath curwd fname) := by
    unfold fullPath
    split
    · exact (absolute_iff _).mp ‹_›
    · split
      · by_cases hx : "/".toList.isPrefixOf xmlpath = true
        · simp only [hx, Bool.not_true, Bool.false_eq_true, if_false, List.nil_append]
          rw [List.append_assoc]
          exact happ _ _ ((absolute_iff _).mp hx)
        · simp only [hx, Bool.not_false, if_true]
          rw [List.append_assoc, List.append_assoc, List.append_assoc]
          exact happ _ _ hcwd
      · rw [List.append_assoc]
        exact happ _ _ hcwd
  refine ⟨?_, ?_, ?_, habs, fun x c => ?_⟩
  · intro h
    rw [fullPath, if_pos ((absolute_iff _).mpr h)]
  · rintro rest rfl
    have h1 : ¬ ("/".toList.isPrefixOf ("`pwd`/".toList ++ rest) = true) := by
      rw [absolute_iff]
      have : "`pwd`/".toList = '`' :: "pwd`/".toList := by decide
      rw [this]; simp
    have h2 : pwdPrefix.isPrefixOf ("`pwd`/".toList ++ rest) = true := by
      rw [List.isPrefixOf_iff_prefix]
      exact ⟨rest, rfl⟩
    rw [fullPath, if_neg h1, h2]
    simp only [Bool.not_true, Bool.false_eq_true, if_false]
    have h3 : ("`pwd`/".toList ++ rest).drop pwdPrefix.length = rest := by
      rw [pwdPrefix, List.drop_append_of_le_length (Nat.le_refl _), List.drop_length, List.nil_append]
    rw [h3, List.append_assoc, List.singleton_append, components_slash]
  · intro h1 h2
    have h1' : ¬ ("/".toList.isPrefixOf fname = true) := by rw [absolute_iff]; exact h1
    have h2' : pwdPrefix.isPrefixOf fname = false := by
      by_contra h
      simp only [Bool.not_eq_false] at h
      rw [List.isPrefixOf_iff_prefix] at h
      obtain ⟨rest, hr⟩ := h
      exact h2 rest hr.symm
    rw [fullPath, if_neg h1', h2']
    simp only [Bool.not_false, if_true]
    have hp : ∀ b, place b fname = b ++ components [] fname := fun b => if_neg h1
    rw [hp]
    unfold place
    by_cases hx : xmlpath.head? = some '/'
    · have hx' := (absolute_iff _).mpr hx
      simp only [hx', Bool.not_true, Bool.false_eq_true, if_false, List.nil_append, if_pos hx]
      rw [List.append_assoc, List.singleton_append, components_slash]
    · have hx' : "/".toList.isPrefixOf xmlpath = false := by
        rw [← Bool.not_eq_true, absolute_iff]; exact hx
      simp only [hx', Bool.not_false, if_true, if_neg hx]
      rw [List.append_assoc, List.append_assoc, List.append_assoc, List.singleton_append, components_slash,
        List.singleton_append, components_slash, List.append_assoc]
  · rw [fullPath, if_pos ((absolute_iff _).mpr habs)]

example : fullPath "scenes".toList "/home/me".toList "data/grid.fits".toList = "/home/me/scenes/data/grid.fits".toList ∧
    fullPath "scenes".toList "/home/me".toList "`pwd`/x.fits".toList = "/home/me/x.fits".toList ∧
    fullPath "/opt/s".toList "/home/me".toList "x.fits".toList = "/opt/s/x.fits".toList ∧
    components [] "/home/me/./scenes//data".toList = ["home".toList, "me".toList, "scenes".toList, "data".toList] := by
  decide +kernel

end Gyoto.Factory
