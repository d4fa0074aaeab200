import Mathlib.Data.Real.Basic

/-!
# Searching a date along a photon (`lib/Photon.C:1095-1151`)

The object is a function of the position, so that along a given photon it is a function `f` of the date: `getCoord` followed by
`(*object)(pcur)`. Dates are reals; the computed ones are rounded by `rnd` (the identity for exact arithmetic), other operations are
exact. Loops take a number of steps as fuel, `none` is "still running". The dates at which the position is asked are returned
because `getCoord` extends the worldline when asked a date beyond its ends. -/

namespace Gyoto.Bisect

/-- `GYOTO_T_TOL` (`include/GyotoDefs.h:457`). -/
noncomputable def tTol : ℝ := 1e-4

/-- `DBL_MAX`. -/
noncomputable def dblMax : ℝ := (2 - 1 / 2 ^ 52) * 2 ^ 1023

/-- `Photon::findValue` (`lib/Photon.C:1140-1151`): the date returned in `toutside` and the dates asked. -/
noncomputable def findValue (rnd f : ℝ → ℝ) (value : ℝ) : Nat → ℝ → ℝ → Option (ℝ × List ℝ)
  | 0, _, _ => none
  | k + 1, tinside, toutside =>
    if |toutside - tinside| > tTol then
      let t := rnd (0.5 * (tinside + toutside))
      (if f t < value then findValue rnd f value k t toutside else findValue rnd f value k tinside t).map
        fun r => (r.1, t :: r.2)
    else some (tinside, [])

/-- What `findMin` finds. -/
structure Min where
  /-- value returned -/
  val : ℝ
  /-- `tmin` -/
  tmin : ℝ
  /-- dates asked -/
  asked : List ℝ

/-- The loop of `findMin` and what follows it (`lib/Photon.C:1113-1138`). -/
noncomputable def minLoop (rnd f : ℝ → ℝ) (threshold : ℝ) : Nat → (t1 t2 val1 val2 curval : ℝ) → Option Min
  | 0, _, _, _, _, _ => none
  | k + 1, t1, t2, val1, val2, curval =>
    let stop : Min := if val1 < val2 then ⟨val1, t1, []⟩ else ⟨val2, t2, []⟩
    if |t2 - t1| > tTol ∧ curval > threshold then
      let t := rnd (0.5 * (t1 + t2))
      if t = t1 ∨ t = t2 then some stop
      else
        let curval := f t
        (if val1 < val2 then minLoop rnd f threshold k t1 t val1 curval curval
          else minLoop rnd f threshold k t t2 curval val2 curval).map fun r => { r with asked := t :: r.asked }
    else some stop

/-- `Photon::findMin` (`lib/Photon.C:1095-1138`). -/
noncomputable def findMin (rnd f : ℝ → ℝ) (threshold : ℝ) (k : Nat) (t1 t2 : ℝ) : Option Min :=
  (minLoop rnd f threshold k t1 t2 (f t1) (f t2) dblMax).map fun r => { r with asked := t1 :: t2 :: r.asked }

end Gyoto.Bisect
