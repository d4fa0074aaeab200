import Verif.Lemmas.SmartPtr

/-!
# C01 — reference counting

Specification vocabulary: a *handle* is a handle variable or a member handle of a live object; an object
is *owned* by the handles which designate it.
-/

namespace Gyoto.SmartPtr

/-- The object exists and has not been destroyed. -/
def Alive (s : St) (o : ObjId) : Prop := ∃ obj, s.heap[o]? = some (some obj)

/-- Number of handles which own `o`: handle variables, plus member handles of live objects. -/
def numOwners (s : St) (o : ObjId) : Nat :=
  s.roots.count (some (some o)) +
    (s.heap.map fun cell => match cell with
      | none => 0
      | some obj => obj.fields.count (some o)).sum

theorem numOwners_eq (s : St) (o : ObjId) : numOwners s o = ownersOf s.heap s.roots o := by
  have : (fun cell : Option Obj => match cell with
      | none => 0
      | some obj => obj.fields.count (some o)) = cellCount o := by
    funext c; cases c <;> rfl
  simp only [numOwners, ownersOf, fieldOwners, this]

/-- **C01 (counting part).** After every history of handle operations that has a defined outcome: an
object is alive exactly when at least one handle owns it; the count of a live object is its number of
owners; every object ever allocated that is no longer alive has been destroyed exactly once, and live
objects never. -/
theorem refcount_history (ops : List Op) (s : St) (h : run init ops = .ok s) (o : ObjId) :
    (Alive s o ↔ 0 < numOwners s o) ∧
    (∀ obj, s.heap[o]? = some (some obj) → obj.refCount = (numOwners s o : Int)) ∧
    (Alive s o → s.log.count o = 0) ∧
    (o < s.heap.length → ¬ Alive s o → s.log.count o = 1) := by
  have hg := run_good good_init h
  rw [numOwners_eq]
  have ho := hg o
  simp only [Int.add_zero] at ho
  refine ⟨⟨?_, fun hp => live_of_owned hg hp⟩, ?_, ?_, ?_⟩
  · rintro ⟨obj, hobj⟩
    have := ho.1 obj hobj
    omega
  · intro obj hobj
    have := (ho.1 obj hobj).1
    omega
  · rintro ⟨obj, hobj⟩
    exact (ho.1 obj hobj).2.2
  · intro hlt hna
    rcases hx : s.heap[o]? with _ | _ | obj
    · exact absurd hlt (Nat.not_lt.2 (List.getElem?_eq_none_iff.1 hx))
    · exact (ho.2.1 hx).2.2
    · exact absurd ⟨obj, hx⟩ hna

/-- Concrete case: an object shared by two variables and a member of a second object; two of the three
owners go away, the object survives with one owner; when the last goes, it is destroyed. -/
example :
    run init [.newObj 0, .newObj 1, .copy (.root 0), .assign (.field 1 0) (.root 0), .destroy 0,
      .destroy 2] =
      .ok ⟨[some ⟨1, []⟩, some ⟨1, [some 0]⟩], [none, some (some 1), none], []⟩ ∧
    run init [.newObj 0, .newObj 1, .copy (.root 0), .assign (.field 1 0) (.root 0), .destroy 0,
      .destroy 2, .destroy 1] = .ok ⟨[none, none], [none, none, none], [1, 0]⟩ := by
  simp [run, step, opNew, init, opCopy, read, incRef, opAssign, write, release, pendingOf, opDestroy]

/-- A condition on programs: whenever a handle is reassigned, each member handle involved belongs to an
object owned by some other handle variable, and a raw pointer being assigned is owned by some other
handle variable.  (Operations on handle variables always satisfy it, apart from raw pointers.) -/
def SafeOp (s : St) : Op → Prop
  | .assign d r => Pinned s d d ∧ Pinned s d r
  | .assignRaw d r => Pinned s d d ∧ ∀ o, read s r = some (some o) →
      ∃ h, Loc.root h ≠ d ∧ s.roots[h]? = some (some (some o))
  | .assignNull d => Pinned s d d
  | _ => True

/-- Every operation of the history is safe in the state where it is executed. -/
def SafeHistory (s : St) : List Op → Prop
  | [] => True
  | op :: ops => SafeOp s op ∧ ∀ s', step s op = .ok s' → SafeHistory s' ops

theorem step_no_ub {s : St} {op : Op} (hg : Good s) (hs : SafeOp s op) : step s op ≠ .ub := by
  cases op with
  | newObj nf => simp [step]
  | newNull => simp [step]
  | copy src => exact (opCopy_ok hg).2
  | assign d r => exact (opAssign_ok hg).2 hs.1 hs.2
  | assignRaw d r =>
    simp only [step, opAssignRaw]
    split
    · simp
    · rename_i p hp
      exact (assignPtr_ok hg).2 hs.1 (fun o ho => hs.2 o (ho ▸ hp))
  | assignNull d => exact (assignPtr_ok hg).2 hs (by simp)
  | destroy n => exact (opDestroy_ok hg).2

theorem run_no_ub {s : St} {ops : List Op} (hg : Good s) (hs : SafeHistory s ops) : run s ops ≠ .ub := by
  induction ops generalizing s with
  | nil => simp [run]
  | cons op t ih =>
    simp only [run]
    split
    · rename_i s1 h1
      exact ih (step_good hg h1) (hs.2 s1 h1)
    · rename_i r hr
      exact step_no_ub hg hs.1

/-- **C01 (safety part), partial.** No history whose reassignments are safe in the sense of `SafeHistory`
touches a destroyed object or handle.  Missing: the code does not guarantee this for reassignments through
a handle which is destroyed by the reassignment itself (see the two refutations below). -/
theorem no_use_after_free_partial (ops : List Op) (hs : SafeHistory init ops) :
    run init ops ≠ .ub := run_no_ub good_init hs

/-- The history above, followed by a reassignment of a member handle, satisfies the hypothesis. -/
example : SafeHistory init [.newObj 0, .newObj 1, .assign (.field 1 0) (.root 0), .destroy 0,
    .assignNull (.field 1 0)] := by
  simp [SafeHistory, SafeOp, step, opNew, init, read, incRef, opAssign, write, release, pendingOf,
    opDestroy, Pinned]
  exact ⟨⟨1, rfl⟩, ⟨1, rfl⟩⟩

/-- Histories that only reassign handle *variables* from handle variables. -/
def VarOnly : Op → Prop
  | .assign (.root _) (.root _) => True
  | .assign _ _ => False
  | .assignRaw _ _ => False
  | .assignNull (.root _) => True
  | .assignNull _ => False
  | _ => True

/-- **C01 (safety part) for handle variables.** Creating, copying (from variables or members), assigning
and destroying handle variables never touches a destroyed object. -/
theorem no_use_after_free_variables (ops : List Op) (hv : ∀ op ∈ ops, VarOnly op) :
    run init ops ≠ .ub := by
  apply no_use_after_free_partial
  suffices ∀ s, SafeHistory s ops from this init
  induction ops with
  | nil => intro s; trivial
  | cons op t ih =>
    intro s
    refine ⟨?_, fun s' _ => ih (fun o ho => hv o (by simp [ho])) s'⟩
    have := hv op (by simp)
    cases op with
    | assign d r => cases d <;> cases r <;> simp_all [VarOnly, SafeOp, Pinned]
    | assignNull d => cases d <;> simp_all [VarOnly, SafeOp, Pinned]
    | _ => simp_all [VarOnly, SafeOp]

example : ∀ op ∈ [Op.newObj 0, .newNull, .assign (.root 1) (.root 0), .assignNull (.root 0), .destroy 1],
    VarOnly op := by simp [VarOnly]

/-- **Finding (C01).** `head = head->next` between handles: the object owning `next` dies during the
assignment, and `operator=` then reads the destroyed handle `next`. -/
theorem assign_from_own_member_is_ub :
    run init [.newObj 1, .newObj 1, .assign (.field 0 0) (.root 1), .destroy 1,
      .assign (.root 0) (.field 0 0)] = .ub := by
  simp [run, step, opNew, init, read, incRef, opAssign, write, release, pendingOf, opDestroy]

/-- **Finding (C01).** `head = (T*) head->next`: the target is destroyed before it is counted. -/
theorem assign_raw_of_own_member_is_ub :
    run init [.newObj 1, .newObj 1, .assign (.field 0 0) (.root 1), .destroy 1,
      .assignRaw (.root 0) (.field 0 0)] = .ub := by
  simp [run, step, opNew, init, read, incRef, opAssign, write, release, pendingOf, opDestroy,
    opAssignRaw, assignPtr]

/-- **Finding (C01).** Assigning one object to another resets the target's counter although it has an
owner: the count is no longer the number of owners. -/
theorem pointee_assignment_breaks_counting :
    ∃ ops s s', run init ops = .ok s ∧ pointeeAssign s 0 1 = .ok s' ∧
      ∃ obj, s'.heap[0]? = some (some obj) ∧ obj.refCount ≠ (numOwners s' 0 : Int) := by
  refine ⟨[.newObj 0, .newObj 0], _, _, rfl, rfl, ⟨⟨0, []⟩, ?_⟩⟩
  simp [numOwners, opNew, init]

end Gyoto.SmartPtr
