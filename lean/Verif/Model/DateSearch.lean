import Verif.Model.Worldline
import Mathlib.Order.Defs.LinearOrder
import Mathlib.Algebra.Field.Defs

/-!
# Model of `Worldline::getCoord(dates, …)`: finding the stored points around each date

Source: `lib/Worldline.C` lines 827-940 (search) and 1083-1107, 1163-1164, 1196 (choice of the best bracket
and linear interpolation for photons).

Simplifications: a stored point is reduced to its date (`time_[i]`, i.e. `x0_` or `tau_`), of any linearly
ordered type (no NaN).  The integrator is abstracted: each request comes with the dates of the points the
integrator would produce if the worldline had to be extended to reach it.
-/

namespace Gyoto.Wline

variable {T : Type} [LinearOrder T]

/-- How a search may fail: `ub`: out-of-bounds or uninitialised read; `cannotReach`: the error "can't get
coordinates for date" (`lib/Worldline.C:891-894,922-925`). -/
inductive SearchErr where
  | ub
  | cannotReach
deriving DecidableEq, Repr

/-- What is used to answer for one date: a stored point, or two stored points. -/
inductive Found where
  | exact (i : Nat)
  | between (l h : Nat)
deriving DecidableEq, Repr

/-- `time_[i]` -/
def rd (s : Store T) (i : Nat) : Except SearchErr T :=
  match s.get i with
  | some t => .ok t
  | none => .error .ub

/-- The binary search (`lib/Worldline.C:934-938`). -/
def bisect (s : Store T) (date : T) (curl curh : Nat) : Except SearchErr (Nat × Nat) :=
  if curh - curl > 1 then
    let curm := curl + (curh - curl) / 2
    match rd s curm with
    | .error e => .error e
    | .ok t => if t ≤ date then bisect s date curm curh else bisect s date curl curm
  else .ok (curl, curh)
termination_by curh - curl

/-- State of the search: the worldline and the two persistent indices. -/
structure SState (T : Type) where
  s : Store T
  curl : Nat
  curh : Nat

/-- `xFill`, or undefined behaviour. -/
def fillE (s : Store T) (d : Dir) (pts : List T) : Except SearchErr (Store T) :=
  match s.fill d pts with
  | some s' => .ok s'
  | none => .error .ub

/-- End of the treatment of one date (`lib/Worldline.C:934-940`). -/
def finish (s : Store T) (date : T) (curl curh : Nat) : Except SearchErr (SState T × Found) :=
  match bisect s date curl curh with
  | .error e => .error e
  | .ok (l, h) =>
    match rd s l with
    | .error e => .error e
    | .ok t => .ok (⟨s, l, h⟩, if date = t then .exact l else .between l h)

/-- One date (`lib/Worldline.C:860-940`).  `pts`: what the integrator would deliver. -/
def lookup1 (st : SState T) (date : T) (pts : List T) : Except SearchErr (SState T × Found) :=
  match rd st.s st.s.imax with
  | .error e => .error e
  | .ok tmax =>
  if date = tmax then .ok (st, .exact st.s.imax)
  else if tmax < date then
    -- extend towards the future
    let curl := st.s.imax
    match fillE st.s .fwd pts with
    | .error e => .error e
    | .ok s' =>
      let curh := s'.imax
      match rd s' s'.imax with
      | .error e => .error e
      | .ok tmax' =>
        if curl = curh ∨ tmax' < date then .error .cannotReach
        else finish s' date curl curh
  else
  match rd st.s st.s.imin with
  | .error e => .error e
  | .ok tmin =>
  if date < tmin then
    -- extend towards the past; the distance to the end of the arrays survives enlargements
    let dist := st.s.size - st.s.imin
    match fillE st.s .bwd pts with
    | .error e => .error e
    | .ok s' =>
      let curh := s'.size - dist
      let curl := s'.imin
      match rd s' s'.imin with
      | .error e => .error e
      | .ok tmin' =>
        if curl = curh ∨ date < tmin' then .error .cannotReach
        else finish s' date curl curh
  else
  match rd st.s st.curh with
  | .error e => .error e
  | .ok th =>
  if th ≤ date then finish st.s date st.curh st.s.imax
  else
  match rd st.s st.curl with
  | .error e => .error e
  | .ok tl =>
  if date < tl then finish st.s date st.s.imin st.curl
  else finish st.s date st.curl st.curh

/-- All the dates (`lib/Worldline.C:859`).  The answers are paired with the worldline as it was when they
were given. -/
def lookupAll (st : SState T) : List (T × List T) → Except SearchErr (List (Store T × Found) × Store T)
  | [] => .ok ([], st.s)
  | (date, pts) :: rest =>
    match lookup1 st date pts with
    | .error e => .error e
    | .ok (st', f) =>
      match lookupAll st' rest with
      | .error e => .error e
      | .ok (fs, s) => .ok ((st'.s, f) :: fs, s)

/-- `Worldline::getCoord(dates, n_dates, …)` (`lib/Worldline.C:827-940`). -/
def lookup (s : Store T) (dates : List (T × List T)) :
    Except SearchErr (List (Store T × Found) × Store T) :=
  lookupAll ⟨s, s.imin, s.imax⟩ dates

section interpolation
variable {K : Type} [Field K] [LinearOrder K]

/-- Choice of the two best estimates (`lib/Worldline.C:1083-1107`), on dates: `bl`, `bh` the dates of the
stored points, `rl`, `rh` the dates reached by the integrator from below and from above. -/
def bestBracket (date bl bh rl rh : K) : K × K :=
  let (bl, bh) := if rl ≤ date then (if bl < rl then (rl, bh) else (bl, bh))
    else (if rl < bh then (bl, rl) else (bl, bh))
  if rh ≤ date then (if bl < rh then (rh, bh) else (bl, bh))
    else (if rh < bh then (bl, rh) else (bl, bh))

/-- Linear interpolation used for photons (`lib/Worldline.C:1163-1164,1196`). -/
def lerpAt (date bl bh xl xh : K) : K :=
  let facth := (date - bl) * (1 / (bh - bl))
  xl * (1 - facth) + xh * facth

end interpolation

end Gyoto.Wline
