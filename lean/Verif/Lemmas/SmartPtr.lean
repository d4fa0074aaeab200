import Verif.Model.SmartPtr
import Mathlib.Tactic.Convert

/-! Helper lemmas for reference counting. -/

namespace Gyoto.SmartPtr

/-- Member handles of one heap cell which designate `o`. -/
def cellCount (o : ObjId) : Option Obj → Nat
  | none => 0
  | some obj => obj.fields.count (some o)

/-- Member handles of live objects which designate `o`. -/
def fieldOwners (heap : List (Option Obj)) (o : ObjId) : Nat := (heap.map (cellCount o)).sum

/-- Number of live handles designating `o`. -/
def ownersOf (heap : List (Option Obj)) (roots : List (Option Ptr)) (o : ObjId) : Nat :=
  roots.count (some (some o)) + fieldOwners heap o

theorem fieldOwners_set (heap : List (Option Obj)) (i o : Nat) (x : Option Obj) (h : i < heap.length) :
    fieldOwners (heap.set i x) o + cellCount o heap[i] = fieldOwners heap o + cellCount o x := by
  induction heap generalizing i with
  | nil => simp at h
  | cons a t ih =>
    cases i with
    | zero => simp [fieldOwners]; omega
    | succ i =>
      have := ih i (by simpa using h)
      simp [fieldOwners] at this ⊢
      omega

theorem count_set' {α} [DecidableEq α] [BEq α] [LawfulBEq α] (l : List α) (i : Nat) (a b : α) (h : i < l.length) :
    (l.set i a).count b + (if l[i] = b then 1 else 0) = l.count b + (if a = b then 1 else 0) := by
  induction l generalizing i with
  | nil => simp at h
  | cons x t ih =>
    cases i with
    | zero => simp [List.count_cons]; omega
    | succ i =>
      have := ih i (by simpa using h)
      simp [List.count_cons] at this ⊢
      omega

theorem fieldOwners_append (a b : List (Option Obj)) (o : Nat) :
    fieldOwners (a ++ b) o = fieldOwners a o + fieldOwners b o := by
  simp [fieldOwners]

theorem fieldOwners_pos {heap : List (Option Obj)} {c o k : Nat} {obj : Obj}
    (h : heap[c]? = some (some obj)) (hk : obj.fields[k]? = some (some o)) :
    0 < fieldOwners heap o := by
  induction heap generalizing c with
  | nil => simp at h
  | cons a t ih =>
    cases c with
    | zero =>
      simp at h
      subst h
      have : some o ∈ obj.fields := List.mem_of_getElem? hk
      have := List.count_pos_iff.2 this
      simp [fieldOwners, cellCount]; omega
    | succ c =>
      have := ih (by simpa using h)
      simp [fieldOwners] at this ⊢; omega

/-- The counting invariant: the count of a live object is its number of owners plus `d`
(references which are not held by a handle for the moment). -/
def CInv (heap : List (Option Obj)) (roots : List (Option Ptr)) (log : List ObjId)
    (d : ObjId → Int) : Prop :=
  ∀ o, (∀ obj, heap[o]? = some (some obj) →
          obj.refCount = (ownersOf heap roots o : Int) + d o ∧ 1 ≤ obj.refCount
          ∧ log.count o = 0) ∧
       (heap[o]? = some none → ownersOf heap roots o = 0 ∧ d o = 0 ∧ log.count o = 1) ∧
       (heap[o]? = none → ownersOf heap roots o = 0 ∧ d o = 0 ∧ log.count o = 0)

theorem count_filterMap_id (l : List Ptr) (o : ObjId) :
    (l.filterMap id).count o = l.count (some o) := by
  induction l with
  | nil => rfl
  | cons a t ih =>
    cases a with
    | none => simp [ih]
    | some b => simp [List.count_cons, ih]

/-- Heap `h'` is obtained from `h` by destroying some objects and changing counts only. -/
def Shrinks (h h' : List (Option Obj)) : Prop :=
  h'.length = h.length ∧ ∀ (o : Nat) (obj' : Obj), h'[o]? = some (some obj') →
    ∃ obj, h[o]? = some (some obj) ∧ obj.fields = obj'.fields

theorem Shrinks.refl (h) : Shrinks h h := ⟨rfl, fun _ o ho => ⟨o, ho, rfl⟩⟩

theorem Shrinks.trans {a b c} (h1 : Shrinks a b) (h2 : Shrinks b c) : Shrinks a c := by
  refine ⟨h2.1.trans h1.1, fun o obj' ho => ?_⟩
  obtain ⟨obj, h3, h4⟩ := h2.2 o obj' ho
  obtain ⟨obj2, h5, h6⟩ := h1.2 o obj h3
  exact ⟨obj2, h5, h6.trans h4⟩

theorem shrinks_set_none (h : List (Option Obj)) (o : Nat) : Shrinks h (h.set o none) := by
  refine ⟨by simp, fun i obj hi => ?_⟩
  rw [List.getElem?_set] at hi
  split at hi
  · split at hi <;> simp at hi
  · exact ⟨obj, hi, rfl⟩

theorem shrinks_set_count (h : List (Option Obj)) (o : Nat) (obj : Obj) (n : Int)
    (ho : h[o]? = some (some obj)) : Shrinks h (h.set o (some { obj with refCount := n })) := by
  refine ⟨by simp, fun i obj' hi => ?_⟩
  rw [List.getElem?_set] at hi
  split at hi
  · rename_i e; subst e
    split at hi
    · simp at hi; subst hi; exact ⟨obj, ho, rfl⟩
    · simp at hi
  · exact ⟨obj', hi, rfl⟩

theorem release_spec (heap : List (Option Obj)) (log pend : List ObjId) (roots : List (Option Ptr))
    (e : ObjId → Int) (he : ∀ o, 0 ≤ e o)
    (hinv : CInv heap roots log (fun o => (pend.count o : Int) + e o)) :
    ∃ heap' log', release heap log pend = some (heap', log') ∧ CInv heap' roots log' e ∧
      Shrinks heap heap' := by
  fun_induction release heap log pend with
  | case1 heap log => exact ⟨heap, log, rfl, by simpa [CInv] using hinv, Shrinks.refl _⟩
  | case2 heap log o rest h hx =>
    have := ((hinv o).2.1 (by simp [h, hx])).2.1
    have := he o
    simp at *; omega
  | case3 heap log o rest h obj hx hrc ih =>
    have hget : heap[o]? = some (some obj) := by simp [h, hx]
    have key : CInv (heap.set o none) roots (log ++ [o])
        (fun q => ((obj.fields.reverse.filterMap id ++ rest).count q : Int) + e q) := by
      intro q
      have heq := he q
      have hfo := fieldOwners_set heap o q none h
      rw [hx] at hfo
      simp only [cellCount] at hfo
      have hc : (obj.fields.reverse.filterMap id ++ rest).count q
          = obj.fields.count (some q) + rest.count q := by
        rw [List.count_append, count_filterMap_id, List.count_reverse]
      have hq := hinv q
      have hcount : (o :: rest).count q = rest.count q + (if o = q then 1 else 0) := by
        simp [List.count_cons]
      have hlog : (log ++ [o]).count q = log.count q + (if o = q then 1 else 0) := by
        simp [List.count_append, List.count_cons]
      simp only [hc, hlog]
      simp only [ownersOf, hcount] at hq ⊢
      by_cases e : o = q
      · subst e
        have h0 := hq.1 obj hget
        refine ⟨fun obj' ho => ?_, fun _ => ?_, fun ho => ?_⟩
        · simp [h] at ho
        · simp at h0 ⊢; omega
        · simp [h] at ho
      · simp only [if_neg e, Nat.add_zero] at hq ⊢
        have hg : (heap.set o none)[q]? = heap[q]? := by rw [List.getElem?_set_ne e]
        rw [hg]
        refine ⟨fun obj' ho => ?_, fun ho => ?_, fun ho => ?_⟩
        · have := hq.1 obj' ho
          omega
        · have := hq.2.1 ho
          omega
        · have := hq.2.2 ho
          omega
    obtain ⟨h', l', h1, h2, h3⟩ := ih key
    exact ⟨h', l', h1, h2, (shrinks_set_none heap o).trans h3⟩
  | case4 heap log o rest h obj hx hrc ih =>
    have hget : heap[o]? = some (some obj) := by simp [h, hx]
    have key : CInv (heap.set o (some { obj with refCount := obj.refCount - 1 })) roots log
        (fun q => (rest.count q : Int) + e q) := by
      intro q
      have hfo := fieldOwners_set heap o q (some { obj with refCount := obj.refCount - 1 }) h
      rw [hx] at hfo
      simp only [cellCount] at hfo
      have hq := hinv q
      have hcount : (o :: rest).count q = rest.count q + (if o = q then 1 else 0) := by
        simp [List.count_cons]
      simp only [ownersOf, hcount] at hq ⊢
      by_cases e : o = q
      · subst e
        have h0 := hq.1 obj hget
        refine ⟨fun obj' ho => ?_, fun ho => ?_, fun ho => ?_⟩
        · simp [h] at ho
          subst ho
          simp at h0 ⊢
          omega
        · simp [h] at ho
        · simp [h] at ho
      · simp only [if_neg e, Nat.add_zero] at hq
        rw [List.getElem?_set_ne e]
        refine ⟨fun obj' ho => ?_, fun ho => ?_, fun ho => ?_⟩
        · have := hq.1 obj' ho
          omega
        · have := hq.2.1 ho
          omega
        · have := hq.2.2 ho
          omega
    obtain ⟨h', l', h1, h2, h3⟩ := ih key
    exact ⟨h', l', h1, h2, (shrinks_set_count heap o obj _ hget).trans h3⟩
  | case5 heap log o rest h =>
    have := ((hinv o).2.2 (List.getElem?_eq_none (Nat.le_of_not_lt h))).2.1
    have := he o
    simp at *; omega

/-- 1 if the pointer designates `q`. -/
def ind (p : Ptr) (q : ObjId) : Int := if p = some q then 1 else 0

theorem ind_nonneg (p q) : 0 ≤ ind p q := by unfold ind; split <;> omega

theorem pendingOf_count (p : Ptr) (q : ObjId) : ((pendingOf p).count q : Int) = ind p q := by
  cases p with
  | none => simp [pendingOf, ind]
  | some o =>
    simp [pendingOf, ind, List.count_cons]
    split <;> rfl

theorem incRef_spec {heap roots log d} (p : Ptr) (hinv : CInv heap roots log d)
    (hp : ∀ o, p = some o → ∃ obj, heap[o]? = some (some obj)) (hd : ∀ o, p = some o → -1 ≤ d o) :
    ∃ heap', incRef heap p = some heap' ∧ CInv heap' roots log (fun q => d q + ind p q) ∧
      Shrinks heap heap' ∧ ∀ (o : Nat), (heap[o]?).join.isSome → (heap'[o]?).join.isSome := by
  cases p with
  | none =>
    refine ⟨heap, rfl, ?_, Shrinks.refl _, fun _ h => h⟩
    simpa [ind] using hinv
  | some o =>
    obtain ⟨obj, hget⟩ := hp o rfl
    obtain ⟨h, hx⟩ := List.getElem?_eq_some_iff.1 hget
    refine ⟨heap.set o (some { obj with refCount := obj.refCount + 1 }), by simp [incRef, hget], ?_,
      shrinks_set_count heap o obj _ hget, fun i hi => ?_⟩
    · intro q
      have hfo := fieldOwners_set heap o q (some { obj with refCount := obj.refCount + 1 }) h
      rw [hx] at hfo
      simp only [cellCount] at hfo
      have hq := hinv q
      simp only [ownersOf, ind] at hq ⊢
      by_cases e : o = q
      · subst e
        have h0 := hq.1 obj hget
        refine ⟨fun obj' ho => ?_, fun ho => ?_, fun ho => ?_⟩
        · simp [h] at ho
          subst ho
          simp at h0 ⊢
          omega
        · simp [h] at ho
        · simp [h] at ho
      · have e2 : ¬ (some o : Ptr) = some q := by simpa using e
        rw [List.getElem?_set_ne e]
        simp only [if_neg e2]
        refine ⟨fun obj' ho => ?_, fun ho => ?_, fun ho => ?_⟩
        · have := hq.1 obj' ho
          omega
        · have := hq.2.1 ho
          omega
        · have := hq.2.2 ho
          omega
    · rw [List.getElem?_set]
      split
      · subst_vars; simp
      · exact hi

/-- Writing a handle moves one unit from its old target to its new one. -/
theorem write_spec {s : St} {d} {l : Loc} {old : Ptr} (p : Ptr) (hinv : CInv s.heap s.roots s.log d)
    (hr : read s l = some old) (hp : ∀ o, p = some o → ∃ obj, s.heap[o]? = some (some obj))
    (hold : ∀ o, old = some o → ∃ obj, s.heap[o]? = some (some obj)) :
    CInv (write s l p).heap (write s l p).roots (write s l p).log
      (fun q => d q + ind old q - ind p q) := by
  have hnotdead : ∀ q, (s.heap[q]? = some none ∨ s.heap[q]? = none) → ind p q = 0 ∧ ind old q = 0 := by
    intro q hq
    constructor
    · unfold ind; split
      · rename_i e; obtain ⟨obj, ho⟩ := hp q e; rw [ho] at hq; simp at hq
      · rfl
    · unfold ind; split
      · rename_i e; obtain ⟨obj, ho⟩ := hold q e; rw [ho] at hq; simp at hq
      · rfl
  cases l with
  | root h =>
    simp only [read, Option.join_eq_some_iff] at hr
    obtain ⟨hl, hx⟩ := List.getElem?_eq_some_iff.1 hr
    intro q
    have hc := count_set' s.roots h (some p) (some (some q)) hl
    rw [hx] at hc
    have hq := hinv q
    have i1 : ((if some old = some (some q) then 1 else 0 : Nat) : Int) = ind old q := by
      simp [ind]; split <;> rfl
    have i2 : ((if some p = some (some q) then 1 else 0 : Nat) : Int) = ind p q := by
      simp [ind]; split <;> rfl
    simp only [write, ownersOf] at hq ⊢
    refine ⟨fun obj' ho => ?_, fun ho => ?_, fun ho => ?_⟩
    · have := hq.1 obj' ho
      omega
    · have := hq.2.1 ho
      have := hnotdead q (Or.inl ho)
      omega
    · have := hq.2.2 ho
      have := hnotdead q (Or.inr ho)
      omega
  | field c k =>
    simp only [read, Option.bind_eq_some_iff, Option.join_eq_some_iff] at hr
    obtain ⟨obj, hget, hk⟩ := hr
    obtain ⟨h, hx⟩ := List.getElem?_eq_some_iff.1 hget
    obtain ⟨hkl, hkx⟩ := List.getElem?_eq_some_iff.1 hk
    have hw : write s (.field c k) p =
        { s with heap := s.heap.set c (some { obj with fields := obj.fields.set k p }) } := by
      simp [write, hget]
    rw [hw]
    intro q
    have hfo := fieldOwners_set s.heap c q (some { obj with fields := obj.fields.set k p }) h
    rw [hx] at hfo
    simp only [cellCount] at hfo
    have hc := count_set' obj.fields k p (some q) hkl
    rw [hkx] at hc
    have i1 : ((if old = some q then 1 else 0 : Nat) : Int) = ind old q := by
      simp [ind]; split <;> rfl
    have i2 : ((if p = some q then 1 else 0 : Nat) : Int) = ind p q := by
      simp [ind]; split <;> rfl
    have hq := hinv q
    simp only [ownersOf] at hq ⊢
    by_cases e : c = q
    · subst e
      have h0 := hq.1 obj hget
      refine ⟨fun obj' ho => ?_, fun ho => ?_, fun ho => ?_⟩
      · simp [h] at ho
        subst ho
        simp at h0 ⊢
        omega
      · simp [h] at ho
      · simp [h] at ho
    · rw [List.getElem?_set_ne e]
      refine ⟨fun obj' ho => ?_, fun ho => ?_, fun ho => ?_⟩
      · have := hq.1 obj' ho
        omega
      · have := hq.2.1 ho
        have := hnotdead q (Or.inl ho)
        omega
      · have := hq.2.2 ho
        have := hnotdead q (Or.inr ho)
        omega

/-- The invariant of states between operations. -/
def Good (s : St) : Prop := CInv s.heap s.roots s.log (fun _ => 0)

theorem good_init : Good init := by
  intro o
  simp [init, ownersOf, fieldOwners]

theorem live_of_owned {heap roots log d o} (h : CInv heap roots log d) (ho : 0 < ownersOf heap roots o) :
    ∃ obj, heap[o]? = some (some obj) := by
  rcases hx : heap[o]? with _ | _ | obj
  · have := ((h o).2.2 hx).1; omega
  · have := ((h o).2.1 hx).1; omega
  · exact ⟨obj, rfl⟩

theorem owned_of_read {s : St} {l o} (h : read s l = some (some o)) : 0 < ownersOf s.heap s.roots o := by
  cases l with
  | root r =>
    simp only [read, Option.join_eq_some_iff] at h
    have : some (some o) ∈ s.roots := List.mem_of_getElem? h
    have := List.count_pos_iff.2 this
    simp only [ownersOf]; omega
  | field c k =>
    simp only [read, Option.bind_eq_some_iff, Option.join_eq_some_iff] at h
    obtain ⟨obj, h1, h2⟩ := h
    have := fieldOwners_pos h1 h2
    simp only [ownersOf]; omega

theorem live_of_read {s : St} {l o d} (hg : CInv s.heap s.roots s.log d)
    (h : read s l = some (some o)) : ∃ obj, s.heap[o]? = some (some obj) :=
  live_of_owned hg (owned_of_read h)

theorem read_shrinks {s : St} {heap' log'} (h : Shrinks s.heap heap') {l p}
    (hr : read { s with heap := heap', log := log' } l = some p) : read s l = some p := by
  cases l with
  | root r => exact hr
  | field c k =>
    simp only [read, Option.bind_eq_some_iff, Option.join_eq_some_iff] at hr ⊢
    obtain ⟨obj, h1, h2⟩ := hr
    obtain ⟨obj2, h3, h4⟩ := h.2 c obj h1
    exact ⟨obj2, h3, h4 ▸ h2⟩

theorem read_shrinks_live {s : St} {heap' log'} (h : Shrinks s.heap heap') {l p}
    (hlive : ∀ c k, l = .field c k → (heap'[c]?).join.isSome)
    (hr : read s l = some p) : read { s with heap := heap', log := log' } l = some p := by
  cases l with
  | root r => exact hr
  | field c k =>
    obtain ⟨obj', h5⟩ := Option.isSome_iff_exists.1 (hlive c k rfl)
    simp only [read, Option.bind_eq_some_iff, Option.join_eq_some_iff] at hr h5 ⊢
    obtain ⟨obj, h1, h2⟩ := hr
    obtain ⟨obj2, h3, h4⟩ := h.2 c obj' h5
    rw [h1] at h3
    simp only [Option.some.injEq] at h3
    subst h3
    exact ⟨obj', h5, h4 ▸ h2⟩

theorem read_write_ne {s : St} {l m : Loc} (p : Ptr) (hne : l ≠ m) : read (write s l p) m = read s m := by
  cases l with
  | root r =>
    cases m with
    | root q =>
      have : r ≠ q := by rintro rfl; exact hne rfl
      simp [read, write, List.getElem?_set_ne this]
    | field c k => simp [read, write]
  | field c k =>
    simp only [write]
    split
    · rename_i obj hobj
      cases m with
      | root q => simp [read]
      | field c' k' =>
        simp only [read]
        by_cases e : c = c'
        · subst e
          have hk : k ≠ k' := by rintro rfl; exact hne rfl
          rw [Option.join_eq_some_iff] at hobj
          obtain ⟨h, hx⟩ := List.getElem?_eq_some_iff.1 hobj
          simp [h, hx, List.getElem?_set_ne hk]
        · rw [List.getElem?_set_ne e]
    · rfl

theorem read_write_self {s : St} {l : Loc} {old : Ptr} (p : Ptr) (hr : read s l = some old) :
    read (write s l p) l = some p := by
  cases l with
  | root r =>
    simp only [read, Option.join_eq_some_iff] at hr
    obtain ⟨hl, hx⟩ := List.getElem?_eq_some_iff.1 hr
    simp [read, write, hl]
  | field c k =>
    simp only [read, Option.bind_eq_some_iff, Option.join_eq_some_iff] at hr
    obtain ⟨obj, hget, hk⟩ := hr
    obtain ⟨h, hx⟩ := List.getElem?_eq_some_iff.1 hget
    obtain ⟨hkl, hkx⟩ := List.getElem?_eq_some_iff.1 hk
    simp [read, write, h, hx, hkl]

/-- Writing keeps every object alive or dead as it was. -/
theorem write_live {s : St} {l : Loc} (p : Ptr) (c : ObjId) :
    ((write s l p).heap[c]?).join.isSome = (s.heap[c]?).join.isSome := by
  cases l with
  | root r => rfl
  | field o k =>
    simp only [write]
    split
    · rename_i obj hobj
      rw [Option.join_eq_some_iff] at hobj
      obtain ⟨h, hx⟩ := List.getElem?_eq_some_iff.1 hobj
      simp only [List.getElem?_set]
      split
      · subst_vars; simp [h, hx]
      · rfl
    · rfl

theorem isSome_join_iff {heap : List (Option Obj)} {c : Nat} :
    (heap[c]?).join.isSome ↔ ∃ obj, heap[c]? = some (some obj) := by
  rw [Option.isSome_iff_exists]
  simp only [Option.join_eq_some_iff]

/-- A location usable while `dst` is being reassigned: a variable, or a member of an object which a
variable other than `dst` owns. -/
def Pinned (s : St) (dst : Loc) : Loc → Prop
  | .root _ => True
  | .field c _ => ∃ r, Loc.root r ≠ dst ∧ s.roots[r]? = some (some (some c))

theorem pinned_live {s : St} {dst : Loc} {heap' log' d} {c r : Nat}
    (hinv : CInv heap' (write s dst none).roots log' d)
    (hr : Loc.root r ≠ dst) (hs : s.roots[r]? = some (some (some c))) :
    (heap'[c]?).join.isSome := by
  have h1 : read (write s dst none) (.root r) = some (some c) := by
    rw [read_write_ne none (Ne.symm hr)]
    simp [read, hs]
  have h2 : 0 < ownersOf heap' (write s dst none).roots c :=
    owned_of_read (s := { (write s dst none) with heap := heap' }) (l := .root r) h1
  exact isSome_join_iff.2 (live_of_owned hinv h2)

/-- Common part of the assignments: drop the old target of `dst`. -/
theorem drop_spec {s : St} {dst : Loc} {old : Ptr} {e : ObjId → Int} (he : ∀ o, 0 ≤ e o)
    (hinv : CInv s.heap s.roots s.log e) (hr : read s dst = some old) :
    ∃ heap' log', release (write s dst none).heap (write s dst none).log (pendingOf old)
        = some (heap', log') ∧
      CInv heap' (write s dst none).roots log' e ∧ Shrinks (write s dst none).heap heap' := by
  have hw := write_spec none hinv hr (by simp) (fun o ho => live_of_read hinv (ho ▸ hr))
  apply release_spec _ _ _ _ e he
  convert hw using 2
  rw [pendingOf_count]
  simp [ind]
  omega

theorem opAssign_ok {s : St} {dst src : Loc} (hg : Good s) :
    (∀ s', opAssign s dst src = .ok s' → Good s') ∧
    (Pinned s dst dst → Pinned s dst src → opAssign s dst src ≠ .ub) := by
  unfold opAssign
  split
  · rename_i old p hd hs
    split
    · simp [hg]
    · rename_i hne
      obtain ⟨heap1, hi1, hi2, hi3, hi4⟩ := incRef_spec p hg
        (fun o ho => live_of_read hg (ho ▸ hs)) (by simp)
      simp only [hi1]
      have hd1 : read { s with heap := heap1 } dst = some old := by
        apply read_shrinks_live (s := s) hi3 (log' := s.log) _ hd
        intro c k hl
        subst hl
        apply hi4
        simp only [read, Option.bind_eq_some_iff] at hd
        obtain ⟨obj, h1, _⟩ := hd
        simp [h1]
      have hs1 : read { s with heap := heap1 } src = some p := by
        apply read_shrinks_live (s := s) hi3 (log' := s.log) _ hs
        intro c k hl
        subst hl
        apply hi4
        simp only [read, Option.bind_eq_some_iff] at hs
        obtain ⟨obj, h1, _⟩ := hs
        simp [h1]
      have he : ∀ q, 0 ≤ (0 + ind p q) := fun q => by have := ind_nonneg p q; omega
      obtain ⟨heap2, log2, hr1, hr2, hr3⟩ := drop_spec (s := { s with heap := heap1 }) he hi2 hd1
      simp only [hr1]
      have hsw : read (write { s with heap := heap1 } dst none) src = some p := by
        rw [read_write_ne none hne, hs1]
      have hdw : read (write { s with heap := heap1 } dst none) dst = some none :=
        read_write_self none hd1
      constructor
      · intro s' hs'
        split at hs'
        · rename_i x p' hx hp'
          have e1 := read_shrinks hr3 hp'
          rw [hsw] at e1
          have e2 := read_shrinks hr3 hx
          rw [hdw] at e2
          simp only [Option.some.injEq] at e1 e2
          subst e1 e2
          have := write_spec (s := { write { s with heap := heap1 } dst none with
            heap := heap2, log := log2 }) p hr2 hx
            (fun o ho => live_of_read hr2 (ho ▸ hp')) (by simp)
          simp only [Res.ok.injEq] at hs'
          subst hs'
          unfold Good
          convert this using 2
          simp [ind]
        · simp at hs'
      · intro p1 p2
        have q1 : read { write { s with heap := heap1 } dst none with heap := heap2, log := log2 } dst
            = some none := by
          apply read_shrinks_live hr3 _ hdw
          intro c k hl
          subst hl
          obtain ⟨r, a, b⟩ := p1
          exact pinned_live (s := { s with heap := heap1 }) hr2 a b
        have q2 : read { write { s with heap := heap1 } dst none with heap := heap2, log := log2 } src
            = some p := by
          apply read_shrinks_live hr3 _ hsw
          intro c k hl
          subst hl
          obtain ⟨r, a, b⟩ := p2
          exact pinned_live (s := { s with heap := heap1 }) hr2 a b
        simp [q1, q2]
  · simp

theorem assignPtr_ok {s : St} {dst : Loc} {right : Ptr} (hg : Good s) :
    (∀ s', assignPtr s dst right = .ok s' → Good s') ∧
    (Pinned s dst dst →
      (∀ o, right = some o → ∃ r, Loc.root r ≠ dst ∧ s.roots[r]? = some (some (some o))) →
      assignPtr s dst right ≠ .ub) := by
  unfold assignPtr
  split
  · simp
  · rename_i old hd
    split
    · simp [hg]
    · rename_i hne
      obtain ⟨heap2, log2, hr1, hr2, hr3⟩ := drop_spec (e := fun _ => 0) (by simp) hg hd
      simp only [hr1]
      have hdw : read (write s dst none) dst = some none := read_write_self none hd
      constructor
      · intro s' hs'
        split at hs'
        · simp at hs'
        · rename_i x hx
          have e2 := read_shrinks hr3 hx
          rw [hdw] at e2
          simp only [Option.some.injEq] at e2
          subst e2
          split at hs'
          · simp at hs'
          · rename_i heap3 hi
            have hl : ∀ o, right = some o → ∃ obj, heap2[o]? = some (some obj) := by
              intro o ho
              subst ho
              rw [← isSome_join_iff]
              have := write_live (s := { write s dst none with heap := heap2, log := log2 })
                (l := dst) (some o) o
              simp only at this
              rw [← this, isSome_join_iff]
              unfold incRef at hi
              simp only at hi
              split at hi
              · rename_i obj hobj; exact ⟨obj, hobj⟩
              · simp at hi
            have w := write_spec (s := { write s dst none with heap := heap2, log := log2 }) right hr2 hx
              hl (by simp)
            have hl2 : ∀ o, right = some o → ∃ obj,
                (write { write s dst none with heap := heap2, log := log2 } dst right).heap[o]?
                  = some (some obj) := by
              intro o ho
              rw [← isSome_join_iff, write_live, isSome_join_iff]
              exact hl o ho
            obtain ⟨heap4, i1, i2, _, _⟩ := incRef_spec right w hl2
              (fun o ho => by simp [ind, ho])
            rw [hi] at i1
            simp only [Option.some.injEq] at i1
            subst i1
            simp only [Res.ok.injEq] at hs'
            subst hs'
            unfold Good
            convert i2 using 2
            simp [ind]
            omega
      · intro p1 p2
        have q1 : read { write s dst none with heap := heap2, log := log2 } dst = some none := by
          apply read_shrinks_live hr3 _ hdw
          intro c k hl
          subst hl
          obtain ⟨r, a, b⟩ := p1
          exact pinned_live hr2 a b
        simp only [q1]
        have hl2 : ∀ o, right = some o → ∃ obj,
            (write { write s dst none with heap := heap2, log := log2 } dst right).heap[o]?
              = some (some obj) := by
          intro o ho
          rw [← isSome_join_iff, write_live]
          obtain ⟨r, a, b⟩ := p2 o ho
          exact pinned_live hr2 a b
        cases right with
        | none => simp [incRef]
        | some o =>
          obtain ⟨obj, ho⟩ := hl2 o rfl
          simp [incRef, ho]

theorem opDestroy_ok {s : St} {h : Nat} (hg : Good s) :
    (∀ s', opDestroy s h = .ok s' → Good s') ∧ opDestroy s h ≠ .ub := by
  unfold opDestroy
  split
  · simp
  · rename_i old hd
    have hd' := hd
    simp only [read, Option.join_eq_some_iff] at hd'
    obtain ⟨hl, hx⟩ := List.getElem?_eq_some_iff.1 hd'
    -- the handle being destroyed no longer counts as an owner
    have key : CInv s.heap (s.roots.set h none) s.log
        (fun q => ((pendingOf old).count q : Int) + 0) := by
      intro q
      have hc := count_set' s.roots h none (some (some q)) hl
      rw [hx] at hc
      have i1 : ((if some old = some (some q) then 1 else 0 : Nat) : Int) = ind old q := by
        simp [ind]; split <;> rfl
      have i2 : ((if (none : Option Ptr) = some (some q) then 1 else 0 : Nat) : Int) = 0 := by simp
      simp only [pendingOf_count]
      have hq := hg q
      have hz : (s.heap[q]? = some none ∨ s.heap[q]? = none) → ind old q = 0 := by
        intro hdead
        unfold ind; split
        · rename_i e; obtain ⟨obj, ho⟩ := live_of_read hg (e ▸ hd); rw [ho] at hdead; simp at hdead
        · rfl
      simp only [ownersOf] at hq ⊢
      refine ⟨fun obj' ho => ?_, fun ho => ?_, fun ho => ?_⟩
      · have := hq.1 obj' ho
        omega
      · have := hq.2.1 ho
        have := hz (Or.inl ho)
        omega
      · have := hq.2.2 ho
        have := hz (Or.inr ho)
        omega
    obtain ⟨heap', log', h1, h2, h3⟩ := release_spec _ _ _ _ (fun _ => 0) (by simp) key
    simp only [h1]
    refine ⟨fun s' hs' => ?_, by simp⟩
    simp only [Res.ok.injEq] at hs'
    subst hs'
    exact h2

theorem opCopy_ok {s : St} {src : Loc} (hg : Good s) :
    (∀ s', opCopy s src = .ok s' → Good s') ∧ opCopy s src ≠ .ub := by
  unfold opCopy
  split
  · simp
  · rename_i p hs
    obtain ⟨heap1, h1, h2, _, _⟩ := incRef_spec p hg (fun o ho => live_of_read hg (ho ▸ hs)) (by simp)
    simp only [h1]
    refine ⟨fun s' hs' => ?_, by simp⟩
    simp only [Res.ok.injEq] at hs'
    subst hs'
    intro q
    have hq := h2 q
    have i2 : (([some p] : List (Option Ptr)).count (some (some q)) : Int) = ind p q := by
      simp [ind, List.count_cons]; split <;> rfl
    have hz : (heap1[q]? = some none ∨ heap1[q]? = none) → ind p q = 0 := by
      intro hdead
      unfold ind; split
      · rename_i e
        subst e
        obtain ⟨obj, ho⟩ := live_of_read hg hs
        have : heap1 = s.heap.set q (some { obj with refCount := obj.refCount + 1 }) := by
          simpa [incRef, ho] using h1.symm
        obtain ⟨hl, _⟩ := List.getElem?_eq_some_iff.1 ho
        subst this
        simp [hl] at hdead
      · rfl
    simp only [ownersOf, List.count_append] at hq ⊢
    refine ⟨fun obj' ho => ?_, fun ho => ?_, fun ho => ?_⟩
    · have := hq.1 obj' ho
      omega
    · have := hq.2.1 ho
      have := hz (Or.inl ho)
      refine ⟨?_, trivial, ?_⟩ <;> omega
    · have := hq.2.2 ho
      have := hz (Or.inr ho)
      refine ⟨?_, trivial, ?_⟩ <;> omega

theorem opNew_ok {s : St} {nf : Nat} (hg : Good s) : Good (opNew s nf) := by
  intro q
  have hq := hg q
  have hrep : (List.replicate nf (none : Ptr)).count (some q) = 0 := by
    simp [List.count_replicate]
  have hfo : fieldOwners (s.heap ++ [some ⟨0 + 1, List.replicate nf none⟩]) q = fieldOwners s.heap q := by
    rw [fieldOwners_append]; simp [fieldOwners, cellCount, hrep]
  have hr : (s.roots ++ [some (some s.heap.length)]).count (some (some q))
      = s.roots.count (some (some q)) + (if s.heap.length = q then 1 else 0) := by
    simp [List.count_append, List.count_cons]
  simp only [opNew, ownersOf, hfo, hr] at hq ⊢
  by_cases e : s.heap.length = q
  · subst e
    have h0 := hq.2.2 (by simp)
    simp at h0 ⊢
    omega
  · simp only [if_neg e]
    have hlen : (s.heap ++ [some ⟨0 + 1, List.replicate nf none⟩])[q]? = s.heap[q]? := by
      rw [List.getElem?_append]
      split
      · rfl
      · rw [List.getElem?_eq_none (by simp; omega), List.getElem?_eq_none (by omega)]
    rw [hlen]
    exact hq

theorem newNull_ok {s : St} (hg : Good s) : Good { s with roots := s.roots ++ [some none] } := by
  intro q
  have hq := hg q
  have hr : (s.roots ++ [some none]).count (some (some q)) = s.roots.count (some (some q)) := by
    simp [List.count_append]
  simp only [ownersOf, hr] at hq ⊢
  exact hq

theorem step_good {s : St} {op : Op} (hg : Good s) {s' : St} (h : step s op = .ok s') : Good s' := by
  cases op with
  | newObj nf => simp only [step, Res.ok.injEq] at h; subst h; exact opNew_ok hg
  | newNull => simp only [step, Res.ok.injEq] at h; subst h; exact newNull_ok hg
  | copy src => exact (opCopy_ok hg).1 s' h
  | assign d r => exact (opAssign_ok hg).1 s' h
  | assignRaw d r =>
    simp only [step, opAssignRaw] at h
    split at h
    · simp at h
    · exact (assignPtr_ok hg).1 s' h
  | assignNull d => exact (assignPtr_ok hg).1 s' h
  | destroy n => exact (opDestroy_ok hg).1 s' h

theorem run_good {s : St} {ops : List Op} (hg : Good s) {s' : St} (h : run s ops = .ok s') : Good s' := by
  induction ops generalizing s with
  | nil => simp only [run, Res.ok.injEq] at h; subst h; exact hg
  | cons op t ih =>
    simp only [run] at h
    split at h
    · rename_i s1 h1
      exact ih (step_good hg h1) h
    · rename_i r hr
      exact absurd h (hr s')

end Gyoto.SmartPtr
