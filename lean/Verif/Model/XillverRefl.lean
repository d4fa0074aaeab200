import Verif.Model.DirectionalDisk

/-!
# The reflected spectrum of `XillverReflection`

Same conventions as for the illumination: `.error` is an exception, `.ub` a read outside of an array or a quotient by zero.
-/

namespace Gyoto.XillverRefl

open Gyoto.GridRead
open Gyoto.DirectionalDisk (upIndex mix2 ratio)

/-- The arrays of the reflection (`include/GyotoXillverReflection.h:61-68`). -/
structure Table where
  reflection : Option (List ℝ)
  logxi : Option (List ℝ)
  incl : Option (List ℝ)
  freq : Option (List ℝ)
  nnu : ℕ
  ni : ℕ
  nxi : ℕ

/-- `reflection_[inu*ni_*nxi_+ii*nxi_+ixi]` (`lib/XillverReflection.C:960-963`, `:976-983`). -/
def Table.cell (s : Table) (inu ii ixi : ℕ) : M ℝ := read s.reflection ((inu * s.ni * s.nxi + ii * s.nxi + ixi : ℕ) : ℤ)

/-- `getIndicesRefl` (`lib/XillverReflection.C:743-782`): the indices of the frequency, of the angle and of the ionization. -/
noncomputable def Table.indices (s : Table) (logxi incl freq : ℝ) : M (ℕ × ℕ × ℕ) :=
  if s.logxi = none then .error .error
  else do
    let i2 ← searchUp s.logxi logxi s.nxi 0
    let i1 ← upIndex s.incl s.ni incl
    if s.freq = none then .error .error
    else
      let i0 ← searchUp s.freq freq s.nnu 0
      pure (i0, i1, i2)

/-- `rationu` and `ratioxi` (`lib/XillverReflection.C:964-965`, `:984-986`). -/
noncomputable def quotient (p : Option (List ℝ)) (i : ℕ) (x : ℝ) : M ℝ := do
  let l ← read p ((i - 1 : ℕ) : ℤ)
  let u ← read p i
  ratio x l u

/-- One angle (`lib/XillverReflection.C:956-970`). -/
noncomputable def Table.bilinear (s : Table) (inuu ii ixiu : ℕ) (nu logxi : ℝ) : M ℝ := do
  let I00 ← s.cell (inuu - 1) ii (ixiu - 1)
  let I01 ← s.cell (inuu - 1) ii ixiu
  let I10 ← s.cell inuu ii (ixiu - 1)
  let I11 ← s.cell inuu ii ixiu
  let x ← quotient s.freq inuu nu
  let z ← quotient s.logxi ixiu logxi
  pure (mix2 I00 I10 I01 I11 x z)

/-- Between two angles (`lib/XillverReflection.C:971-996`). -/
noncomputable def Table.trilinear (s : Table) (inuu iiu ixiu : ℕ) (nu incl logxi : ℝ) : M ℝ :=
  if iiu = 0 then .error .error
  else do
    let I000 ← s.cell (inuu - 1) (iiu - 1) (ixiu - 1)
    let I100 ← s.cell inuu (iiu - 1) (ixiu - 1)
    let I110 ← s.cell inuu iiu (ixiu - 1)
    let I010 ← s.cell (inuu - 1) iiu (ixiu - 1)
    let I001 ← s.cell (inuu - 1) (iiu - 1) ixiu
    let I101 ← s.cell inuu (iiu - 1) ixiu
    let I111 ← s.cell inuu iiu ixiu
    let I011 ← s.cell (inuu - 1) iiu ixiu
    let x ← quotient s.freq inuu nu
    let y ← quotient s.incl iiu incl
    let z ← quotient s.logxi ixiu logxi
    pure (I000 + (I100 - I000) * x + (I010 - I000) * y + (I001 - I000) * z + (I110 - I010 - I100 + I000) * x * y +
      (I011 - I010 - I001 + I000) * y * z + (I101 - I001 - I100 + I000) * x * z +
      (I111 - I011 - I101 - I110 + I100 + I001 + I010 - I000) * x * y * z)

/-- From the ionization and the angle to the intensity (`lib/XillverReflection.C:908-998`); the angle is in degrees as in the table. -/
noncomputable def Table.intensity (s : Table) (logxi incl nu : ℝ) : M ℝ := do
  let x0 ← read s.logxi 0
  let xn ← read s.logxi ((s.nxi : ℤ) - 1)
  if logxi < x0 ∨ logxi > xn then .error .error
  else
    let f0 ← read s.freq 0
    let fn ← read s.freq ((s.nnu : ℤ) - 1)
    if nu ≤ f0 ∨ nu ≥ fn then .error .error
    else
      let (inuu, iiu, ixiu) ← s.indices logxi incl nu
      if inuu = 0 ∨ ixiu = 0 then .error .error
      else
        let a0 ← read s.incl 0
        let an ← read s.incl ((s.ni : ℤ) - 1)
        let I ← if incl < a0 ∨ incl > an then s.bilinear inuu iiu ixiu nu logxi else s.trilinear inuu iiu ixiu nu incl logxi
        pure (I / 1e3)

end Gyoto.XillverRefl
