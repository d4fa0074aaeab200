/-!
# Model of `Gyoto::Hook::Teller`

Source: `lib/Hooks.C` lines 31-94.  The linked list of `ListenerItem`s is modelled on an explicit memory so
that dangling pointers and leaks are visible.  Simplification: a listener is a number; what it does when
told is not modelled, except in `tellWith` where it may unhook itself.
-/

namespace Gyoto.Hooks

abbrev Addr := Nat
abbrev Listener := Nat

/-- `ListenerItem` (`lib/Hooks.C:31-42`). -/
structure Item where
  listener : Listener
  next : Option Addr
deriving DecidableEq, Repr

/-- A `Teller` and the memory of its items.  `mem a = none`: not allocated, or deleted. -/
structure Teller where
  mem : Addr → Option Item
  head : Option Addr
  fresh : Addr

/-- `Teller::Teller` (`lib/Hooks.C:68-69`), also the copy constructor: no listener. -/
def Teller.new : Teller := ⟨fun _ => none, none, 0⟩

/-- Update of the memory. -/
def setMem (mem : Addr → Option Item) (a : Addr) (v : Option Item) : Addr → Option Item :=
  fun b => if b = a then v else mem b

/-- `Teller::hook` (`lib/Hooks.C:71-75`). -/
def Teller.hook (t : Teller) (hear : Listener) : Teller :=
  { mem := setMem t.mem t.fresh (some ⟨hear, t.head⟩), head := some t.fresh, fresh := t.fresh + 1 }

/-- The variable `ListenerItem ** parent`: either `&listeners_` or `&(item->next)`. -/
inductive Parent where
  | head
  | nextOf (a : Addr)
deriving DecidableEq, Repr

/-- `*parent = v` (`lib/Hooks.C:83`).  `none`: writing through a dangling pointer. -/
def setParent (t : Teller) (p : Parent) (v : Option Addr) : Option Teller :=
  match p with
  | .head => some { t with head := v }
  | .nextOf a =>
    match t.mem a with
    | some it => some { t with mem := setMem t.mem a (some { it with next := v }) }
    | none => none

/-- The loop of `Teller::unhook` (`lib/Hooks.C:81-91`).  The fuel only bounds the number of
iterations; `none`: out of fuel or undefined behaviour. -/
def unhookLoop (hear : Listener) : Nat → Teller → Option Addr → Parent → Option Teller
  | 0, _, _, _ => none
  | _ + 1, t, none, _ => some t
  | fuel + 1, t, some a, parent =>
    match t.mem a with
    | none => none
    | some it =>
      if it.listener = hear then
        match setParent t parent it.next with
        | none => none
        | some t' => unhookLoop hear fuel { t' with mem := setMem t'.mem a none } it.next parent
      else unhookLoop hear fuel t it.next (.nextOf a)

/-- `Teller::unhook` (`lib/Hooks.C:77-92`). There are at most `fresh` items. -/
def Teller.unhook (t : Teller) (hear : Listener) : Option Teller :=
  unhookLoop hear (t.fresh + 1) t t.head .head

/-- `ListenerItem::tell` (`lib/Hooks.C:48-52`): listeners called, in order.  `none`: dangling pointer
(or out of fuel). -/
def tellFrom (mem : Addr → Option Item) : Nat → Option Addr → Option (List Listener)
  | 0, _ => none
  | _ + 1, none => some []
  | fuel + 1, some a =>
    match mem a with
    | none => none
    | some it => (tellFrom mem fuel it.next).map (it.listener :: ·)

/-- `Teller::tellListeners` (`lib/Hooks.C:94`). -/
def Teller.tell (t : Teller) : Option (List Listener) := tellFrom t.mem (t.fresh + 1) t.head

/-- `ListenerItem::tell` when listener `l` unhooks itself from the teller as it is told: the member
`next` is read after `listener->tell(teller)` returned (`lib/Hooks.C:50-51`). -/
def tellWith (selfRemoving : Listener → Bool) : Nat → Teller → Option Addr → Option (List Listener)
  | 0, _, _ => none
  | _ + 1, _, none => some []
  | fuel + 1, t, some a =>
    match t.mem a with
    | none => none
    | some it =>
      match (if selfRemoving it.listener then t.unhook it.listener else some t) with
      | none => none
      | some t' =>
        match t'.mem a with       -- reads `this->next`
        | none => none
        | some it' => (tellWith selfRemoving fuel t' it'.next).map (it.listener :: ·)

/-- `ListenerItem::~ListenerItem` (`lib/Hooks.C:46`), recursively: memory after deletion. -/
def deleteFrom : Nat → (Addr → Option Item) → Option Addr → Option (Addr → Option Item)
  | 0, _, _ => none
  | _ + 1, mem, none => some mem
  | fuel + 1, mem, some a =>
    match mem a with
    | none => none
    | some it => (deleteFrom fuel mem it.next).map (fun m => setMem m a none)

/-- `Teller::~Teller` (`lib/Hooks.C:70`). -/
def Teller.destroy (t : Teller) : Option (Addr → Option Item) := deleteFrom (t.fresh + 1) t.mem t.head

/-- Calls a program can make. -/
inductive Op where
  | hook (l : Listener)
  | unhook (l : Listener)
deriving DecidableEq, Repr

def step (t : Teller) : Op → Option Teller
  | .hook l => some (t.hook l)
  | .unhook l => t.unhook l

/-- A history. `none`: undefined behaviour. -/
def run (t : Teller) : List Op → Option Teller
  | [] => some t
  | op :: ops => (step t op).bind fun t' => run t' ops

end Gyoto.Hooks
