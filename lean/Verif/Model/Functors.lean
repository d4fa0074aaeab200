import Mathlib.Analysis.Real.Sqrt

/-!
# Root finding (`lib/Functors.C`)

Doubles are reals; a division by zero or the square root of a negative number, which give infinities or NaNs, is the outcome `nan`.  The
`do … while` loop of `ridders` is given a number of turns: a computation that needs more is `running`.
-/

namespace Gyoto.Functors

/-- `dr_tol` (`lib/Functors.C:26`). -/
noncomputable def drTol : ℝ := 1 / 100000

/-- `f_tol` (`lib/Functors.C:27`). -/
noncomputable def fTol : ℝ := 1 / 1000000000

/-- `sign` (`lib/Functors.C:28`). -/
noncomputable def sign (a : ℝ) : ℝ := if a ≥ 0 then 1 else -1

/-- The outcome of `ridders` after some turns. -/
inductive Res where
  | nan
  | running
  | done (r : ℝ)

/-- The variables `r1`, `r2`, `val1`, `val2`. -/
structure Pair where
  r1 : ℝ
  r2 : ℝ
  v1 : ℝ
  v2 : ℝ

/-- What the turn of the loop keeps (`lib/Functors.C:48-58`). -/
noncomputable def choose (s : Pair) (r3 v3 r4 v4 : ℝ) : Pair :=
  if sign v3 ≠ sign v4 then { r1 := r3, v1 := v3, r2 := r4, v2 := v4 }
  else if sign s.v1 ≠ sign v4 then { s with r2 := r4, v2 := v4 }
  else { s with r1 := r4, v1 := v4 }

/-- The loop of `ridders` (`lib/Functors.C:41-62`). -/
noncomputable def riddersLoop (f : ℝ → ℝ) : ℕ → Pair → Res
  | 0, _ => .running
  | n + 1, s =>
    let r3 := 1 / 2 * (s.r1 + s.r2)
    let v3 := f r3
    if v3 * v3 - s.v1 * s.v2 ≤ 0 then .nan
    else
      let r4 := r3 + (r3 - s.r1) * sign (s.v1 - s.v2) * v3 / Real.sqrt (v3 * v3 - s.v1 * s.v2)
      let v4 := f r4
      let s' := choose s r3 v3 r4 v4
      if |s'.r1 - s'.r2| ≥ drTol ∧ |v4| > fTol then riddersLoop f n s' else .done r4

/-- `ridders(r1, r2)` (`lib/Functors.C:34-63`). -/
noncomputable def ridders (f : ℝ → ℝ) (r1 r2 : ℝ) (n : ℕ) : Res := riddersLoop f n ⟨r1, r2, f r1, f r2⟩

/-- What `secant` returns: the value and `status`, or an infinity or a NaN. -/
inductive Sec where
  | nan
  | ret (r : ℝ) (status : ℕ)

/-- What the turn of the loop keeps (`lib/Functors.C:77-81`). -/
noncomputable def chooseSec (s : Pair) (r3 v3 : ℝ) : Pair :=
  if |s.r2 - r3| ≤ |s.r1 - r3| then { s with r1 := r3, v1 := v3 } else { s with r2 := r3, v2 := v3 }

/-- The loop of `secant` (`lib/Functors.C:73-96`), with the turns that remain; `last` is `r3`. -/
noncomputable def secantLoop (f : ℝ → ℝ) : ℕ → Pair → ℝ → Sec
  | 0, _, last => .ret last 2
  | n + 1, s, _ =>
    if s.v2 - s.v1 = 0 then .nan
    else
      let r3 := s.r1 - s.v1 * (s.r2 - s.r1) / (s.v2 - s.v1)
      let v3 := f r3
      let s' := chooseSec s r3 v3
      if |s'.r1 - s'.r2| < drTol ∨ |v3| < fTol then .ret r3 0
      else if s'.v2 = s'.v1 then .ret r3 1
      else secantLoop f n s' r3

/-- `secant(r1, r2)` (`lib/Functors.C:65-97`): at most 20 turns. -/
noncomputable def secant (f : ℝ → ℝ) (r1 r2 : ℝ) : Sec := secantLoop f 20 ⟨r1, r2, f r1, f r2⟩ 0

end Gyoto.Functors
