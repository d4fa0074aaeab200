/-!
# Model of the registers of kinds and of plug-in loading

Sources: `lib/Register.C` lines 57-66 (`havePlugin`, `requirePlugin`), 68-155 (`loadPlugin`), 253-333 (`Register::Entry`);
`include/GyotoRegister.h` lines 245-395 (`GYOTO_GETSUBCONTRACTOR`); `lib/Metric.C` `Metric::Register` (and the same for the
other registers).

Simplifications: only one register (a plug-in fills them all); subcontractors are numbers; a plug-in either cannot be loaded or registers
a list of kinds; the result of `glob` filtered by `std::filesystem::exists` is a parameter; plug-ins are designated by the name under which
they are registered.
-/

namespace Gyoto.Register

/-- `Register::Entry` (`include/GyotoRegister.h:131-142`); the list replaces the member `next_`. -/
structure Entry where
  name : String
  sub : Nat
  plugin : String
deriving DecidableEq, Repr

/-- Parameters: what each plug-in registers, files found for a pattern. -/
structure World where
  plugs : String → Option (List (String × Nat))
  globs : String → List String

/-- `Register_` and `GyotoRegisteredPlugins`. -/
structure St where
  reg : List Entry
  loaded : List String
deriving DecidableEq, Repr

/-- `Metric::Register(name, scp)` and its likes: a new entry in front of the list, with the name of the plug-in being
loaded (`lib/Register.C:253-257`). -/
def register (plugin : String) (reg : List Entry) (k : String × Nat) : List Entry := ⟨k.1, k.2, plugin⟩ :: reg

/-- `Register::Entry::getSubcontractor(name, plugin, errmode)` (`lib/Register.C:272-327`) with `errmode≠0`: the subcontractor and the
final value of `plugin`; `none` is `NULL`. -/
def find (name plugin : String) : List Entry → Option (Nat × String)
  | [] => none
  | e :: rest =>
    if e.name == name && (plugin == "" || e.plugin == plugin) then
      some (e.sub, if plugin == "" then e.plugin else plugin)
    else find name plugin rest

/-- `loadPlugin` (`lib/Register.C:68-155`); `none`: error. -/
def loadPlugin (w : World) (st : St) (name : String) (nofail : Bool) : Option St :=
  if name == "built-in" then some st
  else match w.plugs name with
    | none => if nofail then some st else none
    | some ks => some ⟨ks.foldl (register name) st.reg, name :: st.loaded⟩

/-- `requirePlugin` (`lib/Register.C:57-66`). -/
def requirePlugin (w : World) (st : St) (name : String) (nofail : Bool) : Option St :=
  if st.loaded.contains name then some st else loadPlugin w st name nofail

/-- `requirePlugin(plg, 2)` never fails. -/
def tryPlugin (w : World) (st : St) (name : String) : St := (requirePlugin w st name true).getD st

/-- `plg.rfind("fallback:", 0) != 0` (`include/GyotoRegister.h:258`). -/
def isFallback (plg : String) : Bool := "fallback:".toList.isPrefixOf plg.toList

/-- `plg.substr(9)`. -/
def fallbackName (plg : String) : String := String.ofList (plg.toList.drop 9)

/-- Loading of the mandatory plug-ins (`include/GyotoRegister.h:256-263`). -/
def requireAll (w : World) (st : St) : List String → Option St
  | [] => some st
  | p :: ps => (requirePlugin w st p false).bind fun st => requireAll w st ps

/-- Loading of fall-back plug-ins until the register is not empty (`include/GyotoRegister.h:270-289`). -/
def fillEmpty (w : World) (st : St) : List String → St
  | [] => st
  | p :: ps => if !st.reg.isEmpty then st else fillEmpty w (tryPlugin w st p) ps

/-- Search in a list of plug-ins which are already loaded (`include/GyotoRegister.h:294-304`). -/
def findIn (name : String) (reg : List Entry) : List String → Option Nat
  | [] => none
  | p :: ps => match find name p reg with
    | some (s, _) => some s
    | none => findIn name reg ps

/-- Search in a list of plug-ins, loading each of them first (`include/GyotoRegister.h:327-337,345-377`). -/
def tryIn (w : World) (name : String) (st : St) : List String → Option Nat × St
  | [] => (none, st)
  | p :: ps =>
    let st := tryPlugin w st p
    match find name p st.reg with
    | some (s, _) => (some s, st)
    | none => tryIn w name st ps

/-- The function defined by `GYOTO_GETSUBCONTRACTOR` (`include/GyotoRegister.h:245-383`): the subcontractor (`none`: `NULL`), the
list of plug-ins afterwards, the state afterwards.  The outer `none` is an error. -/
def getSubcontractor (w : World) (st : St) (name : String) (plugin : List String) (errmode : Bool) :
    Option (Option Nat × List String × St) :=
  let mandatory := plugin.filter fun p => !isFallback p
  let fallback := (plugin.filter isFallback).map fallbackName
  (requireAll w st mandatory).bind fun st =>
    let st := fillEmpty w (fillEmpty w st fallback) (fallback.flatMap w.globs)
    if st.reg.isEmpty then none
    else match findIn name st.reg mandatory with
      | some s => some (some s, plugin, st)
      | none =>
        match (if mandatory.isEmpty then find name "" st.reg else none) with
        | some (s, p) => some (some s, p :: plugin, st)
        | none =>
          if mandatory.isEmpty && fallback.isEmpty && !errmode then none
          else
            match tryIn w name st (fallback ++ fallback.flatMap w.globs) with
            | (some s, st) => some (some s, plugin, st)
            | (none, st) => if errmode then some (none, plugin, st) else none

end Gyoto.Register
