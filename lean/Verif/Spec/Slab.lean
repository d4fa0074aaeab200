import Mathlib.Analysis.Calculus.Deriv.Basic

/-! # Radiative transfer in uniform matter -/

namespace Gyoto.Plasma

/-- `I` and `T` are the intensity and the transmission of uniform matter as functions of its depth: without matter there is no light and all
passes; each further layer adds what it emits and takes the fraction `a` per unit of length of what enters it. -/
structure IsTransfer (j a : ℝ) (I T : ℝ → ℝ) : Prop where
  dark : I 0 = 0
  clear : T 0 = 1
  intensity : ∀ s, HasDerivAt I (j - a * I s) s
  transmission : ∀ s, HasDerivAt T (-a * T s) s

end Gyoto.Plasma
