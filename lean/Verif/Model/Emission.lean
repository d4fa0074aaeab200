import Mathlib.Data.Matrix.Basic
import Mathlib.LinearAlgebra.Matrix.Notation
import Mathlib.Analysis.SpecialFunctions.Log.Basic

/-!
# Default emission methods of `Astrobj::Generic` that call one another (`lib/Astrobj.C:450-670`)

An object class provides any subset of five virtual methods (`Impl`). The default methods record that they were reached in
`__defaultfeatures` (`Flags`, `lib/Astrobj.C:476-478`) and use these flags to choose what to call. Every call made by a
default method is virtual. The fuel bounds the depth of the calls; `none` means that the depth was exceeded.

`Site` stands for the photon and object coordinates, which are passed along unchanged. Arrays of `nbnu` values are functions
on `Fin nbnu`. The user's methods are functions of their arguments: they do not call the default methods back. -/

namespace Gyoto.Emission

abbrev Mueller := Matrix (Fin 4) (Fin 4) ℝ

/-- The output of the polarised `radiativeQ`. -/
structure Polar (n : Nat) where
  I : Fin n → ℝ
  Q : Fin n → ℝ
  U : Fin n → ℝ
  V : Fin n → ℝ
  O : Fin n → Mueller

/-- What the class implements. Arguments: frequencies, `dsem`, site. -/
structure Impl (Site : Type) where
  thin : Bool
  unitLength : ℝ
  transmission : Option (ℝ → ℝ → Site → ℝ)
  emission : Option (ℝ → ℝ → Site → ℝ)
  emissionVec : Option ((n : Nat) → (Fin n → ℝ) → ℝ → Site → Fin n → ℝ)
  radiativeQ : Option ((n : Nat) → (Fin n → ℝ) → ℝ → Site → (Fin n → ℝ) × (Fin n → ℝ))
  radiativeQPolar : Option ((n : Nat) → (Fin n → ℝ) → ℝ → Site → Polar n)

/-- `__defaultfeatures` (`lib/Astrobj.C:476-478`). -/
structure Flags where
  polar : Bool := false
  radQ : Bool := false
  vec : Bool := false
deriving DecidableEq, Repr

/-- Fill an array by calling a scalar method for each frequency, in order: `for (i=0; i<nbnu; ++i) …`
(`lib/Astrobj.C:575` and `lib/Astrobj.C:605-607`, `lib/Astrobj.C:627-628`). -/
def fill (call : Flags → ℝ → Option (ℝ × Flags)) : (n : Nat) → (Fin n → ℝ) → Flags → Option ((Fin n → ℝ) × Flags)
  | 0, _, fl => some (Fin.elim0, fl)
  | n + 1, nu, fl =>
    match call fl (nu 0) with
    | none => none
    | some (v, fl) =>
      match fill call n (fun i => nu i.succ) fl with
      | none => none
      | some (r, fl) => some (Fin.cons v r, fl)

/-- The absorption coefficient of the polarised default (`lib/Astrobj.C:660-664`). -/
noncomputable def alphaOf (unitLength dsem tau : ℝ) : ℝ :=
  if tau < 1e-6 then 1e300 else -Real.log tau / (dsem * unitLength)

variable {Site : Type} (m : Impl Site)

mutual
/-- `transmission(nuem, dsem, …)`: virtual call; default at `lib/Astrobj.C:479-499`. -/
noncomputable def transmission : Nat → Flags → ℝ → ℝ → Site → Option (ℝ × Flags)
  | 0, _, _, _, _ => none
  | k + 1, fl, nu, ds, s =>
    match m.transmission with
    | some f => some (f nu ds s, fl)
    | none =>
      if !fl.radQ || !fl.polar then
        match radiativeQ k fl 1 (fun _ => nu) ds s with
        | none => none
        | some ((_, tau), fl) => some (tau 0, fl)
      else some (if m.thin then 1 else 0, fl)

/-- `emission(nuem, dsem, …)`: virtual call; default at `lib/Astrobj.C:501-531`. -/
noncomputable def emission : Nat → Flags → ℝ → ℝ → Site → Option (ℝ × Flags)
  | 0, _, _, _, _ => none
  | k + 1, fl, nu, ds, s =>
    match m.emission with
    | some f => some (f nu ds s, fl)
    | none =>
      if !fl.vec then
        match emissionVec k fl 1 (fun _ => nu) ds s with
        | none => none
        | some (i, fl) => some (i 0, fl)
      else if !fl.radQ || !fl.polar then
        match radiativeQ k fl 1 (fun _ => nu) ds s with
        | none => none
        | some ((i, _), fl) => some (i 0, fl)
      else some (if m.thin then ds else 1, fl)

/-- `emission(Inu, nuem, nbnu, dsem, …)`: virtual call; default at `lib/Astrobj.C:533-576`. -/
noncomputable def emissionVec : Nat → Flags → (n : Nat) → (Fin n → ℝ) → ℝ → Site → Option ((Fin n → ℝ) × Flags)
  | 0, _, _, _, _, _ => none
  | k + 1, fl, n, nu, ds, s =>
    match m.emissionVec with
    | some f => some (f n nu ds s, fl)
    | none =>
      let fl := { fl with vec := true }
      if !fl.radQ then
        match radiativeQ k fl n nu ds s with
        | none => none
        | some ((i, _), fl) => some (i, fl)
      else if !fl.polar then
        match radiativeQPolar k fl n nu ds s with
        | none => none
        | some (p, fl) => some (p.I, fl)
      else fill (fun fl nu => emission k fl nu ds s) n nu fl

/-- `radiativeQ(Inu, Taunu, …)`: virtual call; default at `lib/Astrobj.C:578-629`. -/
noncomputable def radiativeQ : Nat → Flags → (n : Nat) → (Fin n → ℝ) → ℝ → Site →
    Option (((Fin n → ℝ) × (Fin n → ℝ)) × Flags)
  | 0, _, _, _, _, _ => none
  | k + 1, fl, n, nu, ds, s =>
    match m.radiativeQ with
    | some f => some (f n nu ds s, fl)
    | none =>
      let fl := { fl with radQ := true }
      if !fl.polar then
        match radiativeQPolar k fl n nu ds s with
        | none => none
        | some (p, fl) =>
          if !fl.polar then some ((p.I, fun i => p.O i 0 0), fl)
          else
            match fill (fun fl nu => transmission k fl nu ds s) n nu fl with
            | none => none
            | some (tau, fl) => some ((p.I, tau), fl)
      else
        match emissionVec k fl n nu ds s with
        | none => none
        | some (i, fl) =>
          match fill (fun fl nu => transmission k fl nu ds s) n nu fl with
          | none => none
          | some (tau, fl) => some ((i, tau), fl)

/-- `radiativeQ(Inu, Qnu, Unu, Vnu, Onu, …)`: virtual call; default at `lib/Astrobj.C:631-670`. -/
noncomputable def radiativeQPolar : Nat → Flags → (n : Nat) → (Fin n → ℝ) → ℝ → Site → Option (Polar n × Flags)
  | 0, _, _, _, _, _ => none
  | k + 1, fl, n, nu, ds, s =>
    match m.radiativeQPolar with
    | some f => some (f n nu ds s, fl)
    | none =>
      let fl := { fl with polar := true }
      match radiativeQ k fl n nu ds s with
      | none => none
      | some ((i, tau), fl) =>
        some (⟨i, fun _ => 0, fun _ => 0, fun _ => 0,
          fun c => alphaOf m.unitLength ds (tau c) • (1 : Mueller)⟩, fl)
end

end Gyoto.Emission
