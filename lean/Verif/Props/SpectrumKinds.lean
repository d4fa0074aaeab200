import Verif.Model.SpectrumKinds
import Mathlib.Tactic.Linarith
import Mathlib.Tactic.Ring
import Mathlib.Tactic.FieldSimp
import Mathlib.Tactic.Positivity
import Mathlib.Tactic.NormNum

/-! # Power laws and black bodies have the values last set -/

namespace Gyoto.SpectrumKinds

/-- The last value that the calls give, `d` if none gives one. -/
def lastOf {α β : Type} (f : α → Option β) : List α → β → β
  | [], d => d
  | c :: cs, d => lastOf f cs ((f c).getD d)

/-! ## Power law -/

/-- The constant that a call gives. -/
def constantOf : PLCall → Option ℝ
  | .constant c => some c
  | _ => none

/-- The exponent that a call gives. -/
def exponentOf : PLCall → Option ℝ
  | .exponent p => some p
  | _ => none

/-- The pair of cut-offs that a call gives, in increasing order. -/
noncomputable def cutoffOf : PLCall → Option (ℝ × ℝ)
  | .cutoff [a, b] => some (min a b, max a b)
  | .cutoffUnit u [a, b] => some (min (u a) (u b), max (u a) (u b))
  | _ => none

theorem setCutoff_pair (s : PowerLaw) (a b : ℝ) : s.setCutoff [a, b] = .ok { s with minfreq := min a b, maxfreq := max a b } := by
  simp only [PowerLaw.setCutoff]
  split_ifs with h
  · rw [min_eq_right h.le, max_eq_left h.le]
  · rw [min_eq_left (not_lt.mp h), max_eq_right (not_lt.mp h)]

/-- A vector of three values or more is not given with a unit (see `cutoff_unit_long_wrong`). -/
def NotLong : PLCall → Prop
  | .cutoffUnit _ v => v.length ≤ 2
  | _ => True

/-- After any calls, the constant, the exponent and the cut-offs are those last set, the cut-offs being in increasing order. -/
theorem power_law_partial (s s' : PowerLaw) (cs : List PLCall) (hl : ∀ c ∈ cs, NotLong c) (h : s.run cs = some s') :
    s'.constant = lastOf constantOf cs s.constant ∧ s'.exponent = lastOf exponentOf cs s.exponent ∧
      (s'.minfreq, s'.maxfreq) = lastOf cutoffOf cs (s.minfreq, s.maxfreq) := by
  induction cs generalizing s with
  | nil => obtain rfl : s = s' := by simpa [PowerLaw.run] using h
           exact ⟨rfl, rfl, rfl⟩
  | cons c cs ih =>
    have hl' : ∀ c ∈ cs, NotLong c := fun x hx => hl x (List.mem_cons_of_mem _ hx)
    have hc : NotLong c := hl c List.mem_cons_self
    rw [PowerLaw.run] at h
    cases c with
    | constant c => exact ih _ hl' h
    | exponent p => exact ih _ hl' h
    | cutoff v =>
      match v, h with
      | [], h => exact ih _ hl' h
      | [a], h => exact ih _ hl' h
      | [a, b], h =>
        simp only [PowerLaw.call, setCutoff_pair] at h
        exact ih _ hl' h
      | a :: b :: c :: rest, h => exact ih _ hl' h
    | cutoffUnit u v =>
      match v, h, hc with
      | [], h, _ => cases h
      | [a], h, _ => cases h
      | [a, b], h, _ =>
        simp only [PowerLaw.call, PowerLaw.setCutoffUnit, setCutoff_pair] at h
        exact ih _ hl' h
      | a :: b :: c :: rest, h, hc => simp [NotLong] at hc

/-- The value: a power between the cut-offs, nothing elsewhere. -/
theorem power_law_value (s : PowerLaw) (nu : ℝ) :
    (s.minfreq ≤ nu → nu ≤ s.maxfreq → s.eval nu = s.constant * nu ^ s.exponent) ∧ (¬ (s.minfreq ≤ nu ∧ nu ≤ s.maxfreq) → s.eval nu = 0) := by
  constructor
  · intro h1 h2
    exact if_neg (by rintro (h | h) <;> linarith)
  · intro h
    refine if_pos ?_
    by_contra hc
    push Not at hc
    exact h hc

/-- The cut-offs are in order after any calls. -/
theorem cutoff_ordered (dblMax : ℝ) (h0 : 0 ≤ dblMax) (s' : PowerLaw) (cs : List PLCall) (h : (PowerLaw.new dblMax).run cs = some s') :
    s'.minfreq ≤ s'.maxfreq := by
  suffices H : ∀ s : PowerLaw, s.minfreq ≤ s.maxfreq → s.run cs = some s' → s'.minfreq ≤ s'.maxfreq from H _ h0 h
  clear h
  induction cs with
  | nil => intro s hs h
           obtain rfl : s = s' := by simpa [PowerLaw.run] using h
           exact hs
  | cons c cs ih =>
    intro s hs h
    rw [PowerLaw.run] at h
    cases c with
    | constant c => exact ih { s with constant := c } hs h
    | exponent p => exact ih { s with exponent := p } hs h
    | cutoff v =>
      match v, h with
      | [], h => exact ih _ hs h
      | [a], h => exact ih _ hs h
      | [a, b], h =>
        simp only [PowerLaw.call, setCutoff_pair] at h
        exact ih _ min_le_max h
      | a :: b :: c :: rest, h => exact ih _ hs h
    | cutoffUnit u v =>
      match v, h with
      | [], h => cases h
      | [a], h => cases h
      | a :: b :: rest, h =>
        simp only [PowerLaw.call, PowerLaw.setCutoffUnit, setCutoff_pair] at h
        exact ih _ min_le_max h

/-- With a unit, a vector that is too short is read past its end, where without a unit an error is thrown. -/
theorem cutoff_unit_short_wrong (s : PowerLaw) (u : ℝ → ℝ) (a : ℝ) :
    s.setCutoffUnit u [] = .ub ∧ s.setCutoffUnit u [a] = .ub ∧ s.setCutoff [] = .throw ∧ s.setCutoff [a] = .throw := ⟨rfl, rfl, rfl, rfl⟩

/-- With a unit, a vector that is too long is accepted, where without a unit an error is thrown. -/
theorem cutoff_unit_long_wrong (s : PowerLaw) (u : ℝ → ℝ) (a b c : ℝ) :
    (∃ s', s.setCutoffUnit u [a, b, c] = .ok s') ∧ s.setCutoff [a, b, c] = .throw := by
  exact ⟨⟨_, setCutoff_pair s (u a) (u b)⟩, rfl⟩

/-! ## Black body -/

/-- Planck's law for the temperature `T`, times `c`. -/
noncomputable def planck (hk c T nu : ℝ) : ℝ := c * nu ^ 3 / (Real.exp (hk * nu / T) - 1)

/-- The temperature that a call gives. -/
def temperatureOf : BBCall → Option ℝ
  | .temperature T => some T
  | _ => none

/-- The scaling that a call gives. -/
def scalingOf : BBCall → Option ℝ
  | .scaling c => some c
  | _ => none

/-- The call is not that of the colour correction. -/
def NotColor : BBCall → Prop
  | .colorCorrection _ => False
  | _ => True

/-- The call is not that of the temperature. -/
def NotTemperature : BBCall → Prop
  | .temperature _ => False
  | _ => True

theorem run_plain (s : BlackBody) (cs : List BBCall) (hs : s.Tm1 = 1 / s.T) (h : ∀ c ∈ cs, NotColor c) :
    (s.run cs).T = lastOf temperatureOf cs s.T ∧ (s.run cs).cst = lastOf scalingOf cs s.cst ∧ (s.run cs).Tm1 = 1 / (s.run cs).T ∧
      (s.run cs).colorcor = s.colorcor ∧ (s.run cs).colorcorm4 = s.colorcorm4 := by
  induction cs generalizing s with
  | nil => exact ⟨rfl, rfl, hs, rfl, rfl⟩
  | cons c cs ih =>
    have h' : ∀ c ∈ cs, NotColor c := fun x hx => h x (List.mem_cons_of_mem _ hx)
    cases c with
    | temperature T => exact ih { s with T := T, Tm1 := 1 / T } rfl h'
    | scaling c => exact ih { s with cst := c } hs h'
    | colorCorrection c => exact absurd (h (.colorCorrection c) List.mem_cons_self) (by simp [NotColor])

/-- Without colour correction: Planck's law for the temperature and the scaling last set, whatever the calls. -/
theorem black_body_plain_partial (k hk nu : ℝ) (cs : List BBCall) (h : ∀ c ∈ cs, NotColor c)
    (hne : hk * nu / ((BlackBody.new k).run cs).T ≠ 0) :
    ((BlackBody.new k).run cs).eval hk nu = some (planck hk (lastOf scalingOf cs k) (lastOf temperatureOf cs 10000) nu) := by
  obtain ⟨e1, e2, e3, -, e5⟩ := run_plain (BlackBody.new k) cs rfl h
  have hx : hk * nu * ((BlackBody.new k).run cs).Tm1 = hk * nu / ((BlackBody.new k).run cs).T := by rw [e3]; ring
  unfold BlackBody.eval
  rw [hx, if_neg (by rw [sub_eq_zero, Real.exp_eq_one_iff]; exact hne), e5]
  have e1' : ((BlackBody.new k).run cs).T = lastOf temperatureOf cs 10000 := e1
  have e2' : ((BlackBody.new k).run cs).cst = lastOf scalingOf cs k := e2
  rw [e1', e2', planck, show (BlackBody.new k).colorcorm4 = 1 from rfl]
  congr 1
  ring

/-- With the colour correction set once, after the temperature: Planck's law for the corrected temperature, divided by the fourth power of the
correction. -/
theorem black_body_color_partial (k hk nu c : ℝ) (cs : List BBCall) (h : ∀ c ∈ cs, NotColor c) (hc : c ≠ 0)
    (hne : hk * nu / (lastOf temperatureOf cs 10000 * c) ≠ 0) :
    ((BlackBody.new k).run (cs ++ [.colorCorrection c])).eval hk nu =
      some (planck hk (lastOf scalingOf cs k) (c * lastOf temperatureOf cs 10000) nu / c ^ 4) := by
  obtain ⟨e1, e2, e3, -, e5⟩ := run_plain (BlackBody.new k) cs rfl h
  have e1' : ((BlackBody.new k).run cs).T = lastOf temperatureOf cs 10000 := e1
  have e2' : ((BlackBody.new k).run cs).cst = lastOf scalingOf cs k := e2
  have hr : (BlackBody.new k).run (cs ++ [.colorCorrection c]) = ((BlackBody.new k).run cs).call (.colorCorrection c) := by
    simp [BlackBody.run, List.foldl_append]
  rw [hr]
  have hx : hk * nu * (((BlackBody.new k).run cs).call (.colorCorrection c)).Tm1 = hk * nu / (c * lastOf temperatureOf cs 10000) := by
    show hk * nu * (((BlackBody.new k).run cs).Tm1 / c) = _
    rw [e3, e1']
    field_simp
  unfold BlackBody.eval
  rw [hx, if_neg (by rw [sub_eq_zero, Real.exp_eq_one_iff, mul_comm c]; exact hne)]
  have h4 : (((BlackBody.new k).run cs).call (.colorCorrection c)).colorcorm4 = 1 / (c * c * c * c) := rfl
  have h5 : (((BlackBody.new k).run cs).call (.colorCorrection c)).cst = lastOf scalingOf cs k := e2'
  rw [h4, h5, planck]
  congr 1
  generalize Real.exp (hk * nu / (c * lastOf temperatureOf cs 10000)) - 1 = E
  field_simp

/-- Setting the colour correction twice multiplies the temperature by both values. -/
theorem color_twice_wrong (k : ℝ) : ((BlackBody.new k).run [.colorCorrection 2, .colorCorrection 2]).T = 40000 ∧
    ((BlackBody.new k).run [.colorCorrection 2]).T = 20000 := by
  constructor <;> norm_num [BlackBody.run, BlackBody.call, BlackBody.new]

/-- The temperature read back after a colour correction is not the one that was set. -/
theorem color_readback_wrong (k : ℝ) : ((BlackBody.new k).run [.temperature 6000, .colorCorrection 2]).T = 12000 := by
  norm_num [BlackBody.run, BlackBody.call, BlackBody.new]

/-- The order of the calls matters: a temperature set after the colour correction is not corrected, but the flux is divided. -/
theorem color_order_wrong : ∃ hk nu x y, ((BlackBody.new 1).run [.temperature 1, .colorCorrection 2]).eval hk nu = some x ∧
    ((BlackBody.new 1).run [.colorCorrection 2, .temperature 1]).eval hk nu = some y ∧ y < x := by
  have h1 : Real.exp (1 / 2) - 1 > 0 := by linarith [Real.add_one_lt_exp (show (1 / 2 : ℝ) ≠ 0 by norm_num)]
  have h2 : Real.exp (1 / 2) < Real.exp 1 := Real.exp_lt_exp.mpr (by norm_num)
  have e1 : (1 : ℝ) * 1 * (1 / 1 / 2) = 1 / 2 := by norm_num
  have e2 : (1 : ℝ) * 1 * (1 / 1) = 1 := by norm_num
  refine ⟨1, 1, 1 / 16 / (Real.exp (1 / 2) - 1), 1 / 16 / (Real.exp 1 - 1), ?_, ?_, ?_⟩
  · simp only [BlackBody.run, BlackBody.call, BlackBody.new, List.foldl, BlackBody.eval, e1]
    rw [if_neg h1.ne']
    norm_num
  · simp only [BlackBody.run, BlackBody.call, BlackBody.new, List.foldl, BlackBody.eval, e2]
    rw [if_neg (by linarith)]
    norm_num
  · exact div_lt_div_of_pos_left (by norm_num) h1 (by linarith)

/-- Writing a black body with a colour correction in a file and reading it gives another one. -/
theorem reload_wrong (k : ℝ) : (((BlackBody.new k).run [.temperature 6000, .colorCorrection 2]).reload k).T = 24000 := by
  norm_num [BlackBody.reload, BlackBody.run, BlackBody.call, BlackBody.new]

/-- Without colour correction, what is read is what was written. -/
theorem reload_plain_partial (k : ℝ) (cs : List BBCall) (h : ∀ c ∈ cs, NotColor c) :
    ((BlackBody.new k).run cs).reload k = (BlackBody.new k).run cs := by
  obtain ⟨e1, e2, e3, e4, e5⟩ := run_plain (BlackBody.new k) cs rfl h
  have e4' : ((BlackBody.new k).run cs).colorcor = 1 := e4
  have e5' : ((BlackBody.new k).run cs).colorcorm4 = 1 := e5
  clear e1 e2 e4 e5
  generalize (BlackBody.new k).run cs = s at *
  obtain ⟨T, c, Tm1, cc, cc4⟩ := s
  simp only at e3 e4' e5'
  subst e3 e4' e5'
  norm_num [BlackBody.reload, BlackBody.run, BlackBody.call, BlackBody.new]

/-! ## Examples -/

example : ∃ s', (PowerLaw.new 100).run [.exponent 2, .constant 3, .cutoff [9, 4], .cutoff [1], .exponent 3] = some s' ∧ s'.eval 5 = 375 ∧ s'.eval 3 = 0 := by
  refine ⟨⟨3, 3, 4, 9⟩, ?_, ?_, ?_⟩
  · simp only [PowerLaw.run, PowerLaw.call, PowerLaw.new, setCutoff_pair]
    norm_num [PowerLaw.setCutoff]
  · norm_num [PowerLaw.eval]
  · norm_num [PowerLaw.eval]

example : ((BlackBody.new 2).run [.temperature 5, .scaling 7, .temperature 6]).eval 1 1 = some (planck 1 7 6 1) :=
  black_body_plain_partial 2 1 1 _ (by intro c hc; simp at hc; rcases hc with rfl | rfl | rfl <;> trivial)
    (by norm_num [BlackBody.run, BlackBody.call, BlackBody.new])

end Gyoto.SpectrumKinds
