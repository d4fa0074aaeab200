import Verif.Model.Disk3D
import Verif.Model.DynDisk
import Mathlib.Analysis.SpecialFunctions.Pow.Real

/-!
# Thick disks read from a series of grids (`lib/DynamicalDisk3D.C`)

The arrays of the series are lists of rows; a row that was never filled, or that was freed, is `none`.  The members of the base are those of
`Verif.Model.Disk3D`; the base points to the arrays of the series once `copyQuantities` was called, which `own` remembers.  Reading the files
(`:480-602`) is not modelled, nor the state that is left by an exception.  The metric enters by the radius of the last stable orbit, `none` for a metric that
the methods refuse (`:164-180`), and by the unit of length.
-/

namespace Gyoto.DynDisk3D

open Gyoto.GridRead

/-- The rows of one of the series. -/
abbrev Rows := Option (List (Option (List ℝ)))

/-- The members that are used (`include/GyotoDynamicalDisk3D.h:60-93`). -/
structure Disk where
  base : Disk3D.Disk
  dirname : Option String
  nb : ℕ
  em : Rows
  ab : Rows
  ve : Rows
  /-- the row to which the members of the base point -/
  own : Option ℕ
  tinit : ℝ
  dt : ℝ
  plindex : ℝ
  floor : ℝ
  temperature : Bool
  novel : Bool

/-- The constructor (`lib/DynamicalDisk3D.C:54-71`). -/
noncomputable def init (big : ℝ) : Disk := ⟨Disk3D.init big, none, 1, none, none, none, none, 0, 1, 3, 0, true, false⟩

/-- `file()` (`lib/DynamicalDisk3D.C:603`): the conversion of a null pointer is not defined. -/
def fileName (d : Disk) : M String :=
  match d.dirname with
  | none => .error .ub
  | some s => .ok s

/-- A row of a series. -/
def row (a : Rows) (i : ℕ) : M (List ℝ) :=
  match a with
  | none => .error .ub
  | some l =>
    match l[i]? with
    | some (some r) => .ok r
    | _ => .error .ub

/-- `copyQuantities(iq)` (`lib/DynamicalDisk3D.C:148-154`). -/
def copyQuantities (iq : ℕ) (d : Disk) : M Disk :=
  if iq < 1 ∨ d.nb < iq then .error .error
  else do
    let e ← row d.em (iq - 1)
    let o ← match d.ab with
      | none => .ok d.base.opacity
      | some _ => (row d.ab (iq - 1)).map some
    let v ← row d.ve (iq - 1)
    .ok { d with base := { d.base with emissquant := some e, opacity := o, velocity := some v }, own := some (iq - 1) }

/-- `while(time>tcomp && ifits<nb_times_)` (`lib/DynamicalDisk3D.C:188-193`, `:337-342`, `:447-452`). -/
noncomputable def found (d : Disk) (time : ℝ) : ℕ := DynDisk.search time d.dt (d.nb - 1) d.tinit 1

/-- `emission` (`lib/DynamicalDisk3D.C:333-358`), `transmission` (`:444-468`) and each component in `getVelocity` (`:188-208`), `eval` being the method for one date. -/
noncomputable def dated (eval : Disk → M ℝ) (time : ℝ) (d : Disk) : M (ℝ × Disk) :=
  let ifits := found d time
  if ifits = 1 ∨ ifits = d.nb then do
    let d ← copyQuantities ifits d
    let x ← eval d
    .ok (x, d)
  else do
    let d ← copyQuantities (ifits - 1) d
    let x1 ← eval d
    let d ← copyQuantities ifits d
    let x2 ← eval d
    let t1 := d.tinit + ((ifits : ℝ) - 2) * d.dt
    .ok (x1 + (x2 - x1) / d.dt * (time - t1), d)

/-- The place in the arrays (`lib/DynamicalDisk3D.C:243-248`, `:389-397`). -/
noncomputable def place (d : Disk) (co : ℕ → ℝ) (nu : ℝ) : M ℤ := do
  let (i0, i1, i2, i3) ← Disk3D.getIndices d.base .spherical co nu
  .ok ((i3 : ℤ) * d.base.nphi * d.base.nz * d.base.nnu + (i2 : ℤ) * d.base.nphi * d.base.nnu + (i1 : ℤ) * d.base.nnu + i0)

/-- `emission1date` (`lib/DynamicalDisk3D.C:213-331`): `bb T nu` is the law of the black body. -/
noncomputable def emission1date (bb : ℝ → ℝ → ℝ) (unit : ℝ) (risco : Option ℝ) (nu dsem : ℝ) (co : ℕ → ℝ) (d : Disk) : M ℝ :=
  match risco with
  | none => .error .error
  | some ri =>
    if co 1 * |Real.sin (co 2)| > d.base.rout ∨ co 1 < ri then .ok 0
    else do
      let q ← read d.base.emissquant (← place d co nu)
      if d.base.radtransf = false then .ok (if d.temperature then bb q nu else q)
      else if d.temperature then .ok (if q < d.floor then 0 else bb q nu)
      else .ok (q * nu ^ (-(d.plindex - 1) / 2) * dsem * (unit * 100))

/-- `transmission1date` (`lib/DynamicalDisk3D.C:360-442`). -/
noncomputable def transmission1date (unit : ℝ) (risco : Option ℝ) (nu dsem : ℝ) (co : ℕ → ℝ) (d : Disk) : M ℝ :=
  if d.base.radtransf = false then .ok 0
  else
    match risco with
    | none => .error .error
    | some ri =>
      if co 1 * |Real.sin (co 2)| > d.base.rout ∨ co 1 < ri then .ok 0
      else do
        let k ← place d co nu
        if d.temperature then do
          let q ← read d.base.emissquant k
          .ok (if q < d.floor then 1 else 0)
        else
          match d.ab with
          | none => .error .error
          | some _ => do
            let a ← read d.base.opacity k
            .ok (Real.exp (-(a * nu ^ (-(d.plindex + 4) / 2)) * dsem * (unit * 100)))

/-- `emission` (`lib/DynamicalDisk3D.C:333-358`). -/
noncomputable def emission (bb : ℝ → ℝ → ℝ) (unit : ℝ) (risco : Option ℝ) (nu dsem : ℝ) (co : ℕ → ℝ) (d : Disk) : M (ℝ × Disk) :=
  dated (emission1date bb unit risco nu dsem co) (co 0) d

/-- `transmission` (`lib/DynamicalDisk3D.C:444-468`). -/
noncomputable def transmission (unit : ℝ) (risco : Option ℝ) (nu dsem : ℝ) (co : ℕ → ℝ) (d : Disk) : M (ℝ × Disk) :=
  dated (transmission1date unit risco nu dsem co) (co 0) d

/-- One component of `getVelocity` (`lib/DynamicalDisk3D.C:156-211`); `eval i` is that of `Disk3D::getVelocity`. -/
noncomputable def getVelocity (eval : Fin 4 → Disk → M ℝ) (risco : Option ℝ) (pos : ℕ → ℝ) (i : Fin 4) (d : Disk) : M (ℝ × Disk) :=
  if d.novel then .ok (if i = 0 then 1 else 0, d)
  else
    match risco with
    | none => .error .error
    | some ri => if pos 1 < ri then .ok (if i = 0 then 1 else 0, d) else dated (eval i) (pos 0) d

/-- A row is freed. -/
def free (a : Rows) (i : ℕ) : Rows := a.map fun l => l.set i none

/-- `copyEmissquant` (`lib/Disk3D.C:142-177`): what the base points to is freed, be it a row of the series. -/
noncomputable def copyEmissquant (pattern : Option (List ℝ)) (n0 n1 n2 n3 : ℕ) (d : Disk) : Disk × Option Fail :=
  let r := Disk3D.copyEmissquant pattern n0 n1 n2 n3 d.base
  match d.own with
  | none => ({ d with base := r.1 }, r.2)
  | some k =>
    ({ d with base := r.1, em := free d.em k, ve := if r.1.velocity = none then free d.ve k else d.ve, own := none }, r.2)

end Gyoto.DynDisk3D
