import Mathlib.Analysis.SpecialFunctions.Exp
import Mathlib.Algebra.Order.Floor.Ring
import Mathlib.Tactic.FieldSimp

/-!
# Integrating a spectrum over a band (`lib/Spectrum.C`)

Doubles are reals.  The `do … while` loops are given a number of turns: a computation that needs more is `running`.  The messages of the debug
mode are left out.
-/

namespace Gyoto.Spectra

/-- The outcome of `integrate` after some turns. -/
inductive Res where
  | running
  | done (x : ℝ)

theorem for_dec {d nu nu2 : ℝ} (hd : 0 < d) (h : nu < nu2) : ⌈(nu2 - (nu + d)) / d⌉₊ < ⌈(nu2 - nu) / d⌉₊ := by
  have h1 : (nu2 - (nu + d)) / d = (nu2 - nu) / d - 1 := by field_simp; ring
  have h2 : 0 < (nu2 - nu) / d := div_pos (by linarith) hd
  rw [h1, Nat.ceil_sub_one]
  have h3 : 0 < ⌈(nu2 - nu) / d⌉₊ := Nat.ceil_pos.mpr h2
  omega

/-- The `for` loop (`lib/Spectrum.C:76-78`); it does not end when the step is not positive. -/
noncomputable def forLoop (f : ℝ → ℝ) (nu2 dnux2 nu Icur : ℝ) : Option ℝ :=
  if _h : nu < nu2 then
    if _hd : 0 < dnux2 then forLoop f nu2 dnux2 (nu + dnux2) (Icur + f nu * dnux2)
    else none
  else some Icur
termination_by ⌈(nu2 - nu) / dnux2⌉₊
decreasing_by exact for_dec _hd _h

/-- The `do … while` loop (`lib/Spectrum.C:73-83`). -/
noncomputable def doLoop (f : ℝ → ℝ) (nu1 nu2 : ℝ) : ℕ → ℝ → ℝ → Res
  | 0, _, _ => .running
  | n + 1, Icur, dnux2 =>
    let Iprev := Icur
    let dnux2 := dnux2 * (1 / 2)
    match forLoop f nu2 dnux2 (nu1 + 1 / 2 * dnux2) Icur with
    | none => .running
    | some I =>
      let Icur := I * (1 / 2)
      if |Icur - Iprev| > 1 / 100 * Icur then doLoop f nu1 nu2 n Icur dnux2 else .done Icur

/-- `integrate(nu1, nu2)` of the spectrum `f` (`lib/Spectrum.C:59-91`). -/
noncomputable def integrate (f : ℝ → ℝ) (nu1 nu2 : ℝ) (n : ℕ) : Res :=
  let lo := if nu1 > nu2 then nu2 else nu1
  let hi := if nu1 > nu2 then nu1 else nu2
  let dnux2 := (hi - lo) * 2
  doLoop f lo hi n ((f hi + f lo) * dnux2 * (1 / 4)) dnux2

open Classical in
/-- `operator()(nu, opacity, ds)` (`lib/Spectrum.C:131-137`). -/
noncomputable def slab (I opacity ds : ℝ) : ℝ := if opacity * ds ≠ 0 then I * (1 - Real.exp (-(opacity * ds))) else 0

/-- `integrate(nu1, nu2, opacity, dsem)` (`lib/Spectrum.C:94-129`): the same lines with the values of the slab. -/
noncomputable def integrateThin (f opacity : ℝ → ℝ) (dsem nu1 nu2 : ℝ) (n : ℕ) : Res :=
  integrate (fun nu => slab (f nu) (opacity nu) dsem) nu1 nu2 n

end Gyoto.Spectra
