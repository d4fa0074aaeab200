import Mathlib.Analysis.SpecialFunctions.Exp
import Mathlib.Analysis.SpecialFunctions.Pow.Real

/-!
# Power laws and black bodies (`lib/PowerLawSpectrum.C`, `lib/BlackBodySpectrum.C`)

Doubles are reals; `DBL_MAX` is a parameter; a division by zero is `none`.  The conversion to hertz is a parameter.
-/

namespace Gyoto.SpectrumKinds

/-! ## Power law -/

/-- The outcome of a setter. -/
inductive Out (α : Type) where
  | ok (a : α)
  | throw
  | ub

/-- The members of `Spectrum::PowerLaw` (`include/GyotoPowerLawSpectrum.h:56-59`). -/
structure PowerLaw where
  constant : ℝ
  exponent : ℝ
  minfreq : ℝ
  maxfreq : ℝ

/-- The constructor (`lib/PowerLawSpectrum.C:44-46`). -/
def PowerLaw.new (dblMax : ℝ) : PowerLaw := ⟨1, 0, 0, dblMax⟩

/-- `cutoff(v)` (`lib/PowerLawSpectrum.C:60-70`). -/
noncomputable def PowerLaw.setCutoff (s : PowerLaw) (v : List ℝ) : Out PowerLaw :=
  match v with
  | [a, b] => if a > b then .ok { s with minfreq := b, maxfreq := a } else .ok { s with minfreq := a, maxfreq := b }
  | _ => .throw

/-- `cutoff(v, unit)` (`lib/PowerLawSpectrum.C:57-59`): `v[0]` and `v[1]` are read whatever the length of the vector. -/
noncomputable def PowerLaw.setCutoffUnit (s : PowerLaw) (toHerz : ℝ → ℝ) (v : List ℝ) : Out PowerLaw :=
  match v with
  | a :: b :: _ => s.setCutoff [toHerz a, toHerz b]
  | _ => .ub

/-- `operator()(nu)` (`lib/PowerLawSpectrum.C:79-82`). -/
noncomputable def PowerLaw.eval (s : PowerLaw) (nu : ℝ) : ℝ :=
  if nu < s.minfreq ∨ nu > s.maxfreq then 0 else s.constant * nu ^ s.exponent

/-- The setters of a power law. -/
inductive PLCall where
  | constant (c : ℝ)
  | exponent (p : ℝ)
  | cutoff (v : List ℝ)
  | cutoffUnit (toHerz : ℝ → ℝ) (v : List ℝ)

/-- One call (`lib/PowerLawSpectrum.C:53-70`). -/
noncomputable def PowerLaw.call (s : PowerLaw) : PLCall → Out PowerLaw
  | .constant c => .ok { s with constant := c }
  | .exponent p => .ok { s with exponent := p }
  | .cutoff v => s.setCutoff v
  | .cutoffUnit u v => s.setCutoffUnit u v

/-- Calls one after the other; a call that throws changes nothing. -/
noncomputable def PowerLaw.run (s : PowerLaw) : List PLCall → Option PowerLaw
  | [] => some s
  | c :: cs =>
    match s.call c with
    | .ok s' => s'.run cs
    | .throw => s.run cs
    | .ub => none

/-! ## Black body -/

/-- The members of `Spectrum::BlackBody` (`include/GyotoBlackBodySpectrum.h:58-62`). -/
structure BlackBody where
  T : ℝ
  cst : ℝ
  Tm1 : ℝ
  colorcor : ℝ
  colorcorm4 : ℝ

/-- The constructor (`lib/BlackBodySpectrum.C:40-44`); `k` is `2.*GYOTO_PLANCK_OVER_C_SQUARE`. -/
noncomputable def BlackBody.new (k : ℝ) : BlackBody := ⟨10000, k, 1 / 10000, 1, 1⟩

/-- The setters of a black body. -/
inductive BBCall where
  | temperature (T : ℝ)
  | scaling (c : ℝ)
  | colorCorrection (c : ℝ)

/-- One call (`lib/BlackBodySpectrum.C:52-57`). -/
noncomputable def BlackBody.call (s : BlackBody) : BBCall → BlackBody
  | .temperature c => { s with T := c, Tm1 := 1 / c }
  | .scaling c => { s with cst := c }
  | .colorCorrection c => { s with colorcor := c, colorcorm4 := 1 / (c * c * c * c), T := s.T * c, Tm1 := s.Tm1 / c }

/-- Calls one after the other. -/
noncomputable def BlackBody.run (s : BlackBody) (l : List BBCall) : BlackBody := l.foldl BlackBody.call s

/-- `operator()(nu)` (`lib/BlackBodySpectrum.C:59-62`); `hk` is `GYOTO_PLANCK_OVER_BOLTZMANN`. -/
noncomputable def BlackBody.eval (s : BlackBody) (hk nu : ℝ) : Option ℝ :=
  if Real.exp (hk * nu * s.Tm1) - 1 = 0 then none
  else some (s.colorcorm4 * s.cst * nu * nu * nu / (Real.exp (hk * nu * s.Tm1) - 1))

/-- What is written in a file, in the order of the properties (`lib/BlackBodySpectrum.C:32-36`), then read in a new object. -/
noncomputable def BlackBody.reload (s : BlackBody) (k : ℝ) : BlackBody :=
  (BlackBody.new k).run [.temperature s.T, .scaling s.cst, .colorCorrection s.colorcor]

end Gyoto.SpectrumKinds
