import Mathlib.Data.Real.Basic

/-!
# Integrating an emission over a spectral channel (`lib/Astrobj.C:1834-1882`)

Doubles are reals. `emission(nu, …)` is a function of the frequency, the other arguments being fixed during a call. Loops take a
number of steps as fuel; `none` is "still running". -/

namespace Gyoto.ChannelInt

/-- `for (nu = …; nu < nu2; nu += dnux2) Icur += emission(nu)*dnux2;` (`lib/Astrobj.C:1864-1866`) -/
noncomputable def sumLoop (f : ℝ → ℝ) (nu2 dnux2 : ℝ) : Nat → ℝ → ℝ → Option ℝ
  | 0, _, _ => none
  | k + 1, nu, Icur => if nu < nu2 then sumLoop f nu2 dnux2 k (nu + dnux2) (Icur + f nu * dnux2) else some Icur

/-- The `do … while` loop (`lib/Astrobj.C:1861-1871`). `k` bounds the number of steps of each loop, `n` the number of turns of this
one. -/
noncomputable def outer (f : ℝ → ℝ) (nu1 nu2 : ℝ) (k : Nat) : Nat → ℝ → ℝ → Option ℝ
  | 0, _, _ => none
  | n + 1, dnux2, Icur =>
    let Iprev := Icur
    let dnux2 := dnux2 * 0.5
    match sumLoop f nu2 dnux2 k (nu1 + 0.5 * dnux2) Icur with
    | none => none
    | some I =>
      let Icur := I * 0.5
      if |Icur - Iprev| > 1e-2 * Icur then outer f nu1 nu2 k n dnux2 Icur else some Icur

/-- `Generic::integrateEmission(nu1, nu2, …)` (`lib/Astrobj.C:1845-1882`). -/
noncomputable def integrate (f : ℝ → ℝ) (nu1 nu2 : ℝ) (k : Nat) : Option ℝ :=
  let a := if nu1 > nu2 then nu2 else nu1
  let b := if nu1 > nu2 then nu1 else nu2
  let dnux2 := (b - a) * 2
  outer f a b k k dnux2 ((f b + f a) * dnux2 * 0.25)

/-- `Generic::integrateEmission(I, boundaries, chaninds, nbnu, …)` (`lib/Astrobj.C:1834-1843`): the outer `none` is reading outside
of an array. -/
noncomputable def integrateAll (f : ℝ → ℝ) (boundaries : List ℝ) (chaninds : List Nat) (k nbnu : Nat) : Option (List (Option ℝ)) :=
  (List.range nbnu).mapM fun i => do
    let i1 ← chaninds[2 * i]?
    let i2 ← chaninds[2 * i + 1]?
    let nu1 ← boundaries[i1]?
    let nu2 ← boundaries[i2]?
    some (integrate f nu1 nu2 k)

end Gyoto.ChannelInt
