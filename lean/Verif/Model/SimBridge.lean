import Verif.Model.Interp
import Verif.Model.MetricAlg
import Mathlib.Analysis.SpecialFunctions.Trigonometric.Basic

/-!
# Objects read from simulations (`lib/SimBridge.C`, `lib/SimThickDisk.C`)

A FITS file is the names of its tables and whether it has the key for the number of frequencies. The functions of CFITSIO do nothing when the status they are
given is already an error, as its documentation has it. Doubles are reals.
-/

namespace Gyoto.SimBridge

open Gyoto.MetricAlg

/-! ## Settings -/

/-- `emissionType(kind)` (`lib/SimBridge.C:370-381`): the new value of the member, `none` for an exception. -/
def setEmission (kind : String) : Option String :=
  if kind = "Thermal" then some "Thermal"
  else if kind = "Kappa" then some "Kappa"
  else if kind = "PL" then some "PL"
  else if kind = "BB" then some "BlackBody"
  else none

/-- `emissionType()` (`lib/SimBridge.C:383-385`). -/
def getEmission (emission : String) : String := emission

/-- Cut at the spaces and at the commas; the two loops on `getline` (`lib/SimBridge.C:347-349`) give the same words, the order of the two separators has no effect. -/
def cut : List Char → List Char → List (List Char)
  | acc, [] => [acc]
  | acc, c :: l => if c = ' ' ∨ c = ',' then acc :: cut [] l else cut (acc ++ [c]) l

/-- The words that are kept (`lib/SimBridge.C:347-361`): at most five, none empty. -/
def words (l : List Char) : List (List Char) := ((cut [] l).filter fun w => !w.isEmpty).take 5

/-- `boundaryConditions(sbc)` (`lib/SimBridge.C:342-362`): the first members are replaced. -/
def setBoundary (sbc : List Char) (cur : List (List Char)) : List (List Char) := words sbc ++ cur.drop (words sbc).length

/-- `boundaryConditions()` (`lib/SimBridge.C:363-368`). -/
def getBoundary (cur : List (List Char)) : List Char := cur.flatMap fun w => w ++ [' ']

/-! ## The files -/

/-- `while (tcur > time_array_[ii] and ii<ntime_-1) ii+=1` (`lib/SimBridge.C:985-988`), `n` being `ntime_ - 1 - ii`; out of the array, `none`. -/
noncomputable def walk (t : List ℝ) (tcur : ℝ) : ℕ → ℕ → Option ℕ
  | n, i =>
    match t[i]? with
    | none => none
    | some x =>
      if tcur > x then
        match n with
        | 0 => some i
        | n + 1 => walk t tcur n (i + 1)
      else some i

/-- `getIndex(tcur)` (`lib/SimBridge.C:976-992`); `none` is a read out of the array. -/
noncomputable def getIndex (t : List ℝ) (tcur : ℝ) : Option ℤ :=
  if t.length = 1 then some 0
  else
    match t[0]?, t[t.length - 1]? with
    | some a, some b =>
      if tcur < a then some 0
      else if tcur > b then some ((t.length : ℤ) - 2)
      else (walk t tcur (t.length - 1) 0).map fun i : ℕ => (i : ℤ) - 1
    | _, _ => none

/-- The tables that are looked for, in order (`lib/SimBridge.C:246-283`). -/
def tables : List String := ["J_I", "J_Q", "J_U", "J_V", "ALPHA_I", "ALPHA_Q", "ALPHA_U", "ALPHA_V", "R_Q", "R_U", "R_V"]

/-- `fits_movnam_hdu` with a status, which is an error or not. -/
def move (hdus : List String) (name : String) (status : Bool) : Bool := status || !hdus.contains name

/-- The flags, one for each name (`lib/SimBridge.C:246-283`): the status is never reset. -/
def scan (hdus : List String) : Bool → List String → List Bool
  | _, [] => []
  | status, n :: ns =>
    let status := move hdus n status
    (!status) :: scan hdus status ns

/-- What `filename` sets (`lib/SimBridge.C:229-283`): `freq` is whether the file has the key `NB_FREQ`. -/
structure Flags where
  temperature : Bool
  inFile : List Bool

/-- `filename` (`lib/SimBridge.C:229-283`). -/
def readFlags (hdus : List String) (freq : Bool) (temperature : Bool) : Flags :=
  let fl := scan hdus (!freq) tables
  ⟨if fl.head? = some true then false else temperature, fl⟩

/-- A coefficient (`lib/SimBridge.C:404`, `:427`, `:495-498`, `:698-714`): the tables of the files, of which `fitsReadHDUData` checks the size (`lib/FitsRW.C:162-164`), one after
the other, interpolated in five dimensions. -/
noncomputable def coefficient (ncells : ℕ) (files : List (List ℝ)) (Xq : List ℝ) (axes : List Interp.Axis) (cond : List Interp.Cond) : Interp.Out ℝ :=
  if files.all (fun f => f.length == ncells) then (Interp.interpolate 5 files.flatten Xq axes cond).map Prod.fst else .error .thrown

/-! ## The motion and the shape -/

/-- Below the last stable orbit, but for the prescription of Cunningham (`lib/SimBridge.C:858-867`): `gup` is the inverse metric; `none` is not a number. -/
noncomputable def fall (g gup : Tensor) : Option Vec :=
  if g 1 1 = 0 ∨ (-1 - gup 0 0) / g 1 1 < 0 then none
  else some ![-gup 0 0, -√((-1 - gup 0 0) / g 1 1), 0, -gup 0 3]

/-- `SimThickDisk::operator()` in spherical coordinates (`lib/SimThickDisk.C:73-92`). -/
noncomputable def height (hoverR r th : ℝ) : ℝ := |r * Real.cos th| - hoverR * (r * Real.sin th)

/-- `SimThickDisk::filename` in spherical coordinates (`lib/SimThickDisk.C:102-104`): the new `HoverR_`, for the colatitudes of the grid. -/
noncomputable def hoverOf (x2 : List ℝ) : Option ℝ := x2.head?.map fun x => |x|

end Gyoto.SimBridge
