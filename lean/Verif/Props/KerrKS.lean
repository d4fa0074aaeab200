import Verif.Lemmas.KerrKS
import Verif.Props.GenericMotion

/-!
# The Kerr metric in Kerr-Schild coordinates
-/

namespace Gyoto.KerrKS

open Gyoto.MetricAlg Gyoto.Spacetime

/-- Where the metric is defined: off the disk spanned by the ring. -/
theorem regular_iff {a : ℝ} {pos : Vec} : 0 < r2Of a pos ↔ pos 3 ≠ 0 ∨ a ^ 2 < pos 1 ^ 2 + pos 2 ^ 2 := by
  have hu : r2Of a pos = 0.5 * (tauOf a pos + √(tauOf a pos * tauOf a pos + 4 * (a * a) * (pos 3 * pos 3))) := rfl
  by_cases hz : pos 3 = 0
  · have hs : √(tauOf a pos * tauOf a pos + 4 * (a * a) * (pos 3 * pos 3)) = |tauOf a pos| := by
      rw [hz, show tauOf a pos * tauOf a pos + 4 * (a * a) * (0 * 0) = tauOf a pos ^ 2 by ring, Real.sqrt_sq_eq_abs]
    have ht : tauOf a pos = pos 1 ^ 2 + pos 2 ^ 2 - a ^ 2 := by unfold tauOf; rw [hz]; ring
    rw [hu, hs]
    constructor
    · intro h
      right
      by_contra hc
      have : tauOf a pos ≤ 0 := by rw [ht]; linarith
      rw [abs_of_nonpos this] at h
      linarith
    · rintro (h | h)
      · exact absurd hz h
      · have : 0 < tauOf a pos := by rw [ht]; linarith
        rw [abs_of_pos this]
        linarith
  · refine ⟨fun _ => Or.inl hz, fun _ => ?_⟩
    have hz2 : 0 < pos 3 * pos 3 := mul_self_pos.2 hz
    rw [hu]
    rcases eq_or_ne a 0 with ha | ha
    · have ht : 0 < tauOf a pos := by
        unfold tauOf; rw [ha]
        nlinarith [mul_self_nonneg (pos 1), mul_self_nonneg (pos 2)]
      have := Real.sqrt_nonneg (tauOf a pos * tauOf a pos + 4 * (a * a) * (pos 3 * pos 3))
      linarith
    · have h1 : |tauOf a pos| < √(tauOf a pos * tauOf a pos + 4 * (a * a) * (pos 3 * pos 3)) := by
        rw [← Real.sqrt_sq_eq_abs]
        refine Real.sqrt_lt_sqrt (sq_nonneg _) ?_
        have := mul_pos (mul_self_pos.2 ha) hz2
        nlinarith
      have := neg_abs_le (tauOf a pos)
      linarith

/-- C79. `r` is the radius of the spheroid with the focal ring of radius `a` that passes through the point. -/
theorem radius_spec {a : ℝ} {pos : Vec} (h : 0 < r2Of a pos) {R : ℝ} (hR : 0 < R) :
    R = rOf a pos ↔ (pos 1 ^ 2 + pos 2 ^ 2) / (R ^ 2 + a ^ 2) + pos 3 ^ 2 / R ^ 2 = 1 := by
  obtain ⟨hr, -, hrho, e1, e2, e3⟩ := facts h
  have hA : R ^ 2 + a ^ 2 ≠ 0 := by positivity
  have key : (pos 1 ^ 2 + pos 2 ^ 2) / (R ^ 2 + a ^ 2) + pos 3 ^ 2 / R ^ 2 = 1 ↔
      (pos 1 ^ 2 + pos 2 ^ 2 + pos 3 ^ 2) * R ^ 2 = R ^ 4 + a ^ 2 * R ^ 2 - a ^ 2 * pos 3 ^ 2 := by
    rw [div_add_div _ _ hA (pow_ne_zero 2 hR.ne'), div_eq_one_iff_eq (mul_ne_zero hA (pow_ne_zero 2 hR.ne'))]
    constructor <;> intro h <;> linear_combination h
  rw [key]
  constructor
  · rintro rfl; exact e3
  · intro hE
    -- both squares are roots of `u² - τ u - a² z²`, whose roots have opposite signs
    have hp : (R ^ 2 - rOf a pos ^ 2) * (R ^ 2 * rOf a pos ^ 2 + a ^ 2 * pos 3 ^ 2) = 0 := by
      linear_combination R ^ 2 * e3 - rOf a pos ^ 2 * hE
    have hq : 0 < R ^ 2 * rOf a pos ^ 2 + a ^ 2 * pos 3 ^ 2 := by positivity
    have h2 : R ^ 2 = rOf a pos ^ 2 := by
      rcases mul_eq_zero.1 hp with h | h
      · linarith
      · exact absurd h hq.ne'
    exact (pow_left_inj₀ hR.le hr.le two_ne_zero).1 h2

/-- The radius is below `R` exactly inside of the spheroid of radius `R`. -/
theorem radius_lt {a : ℝ} {pos : Vec} {R : ℝ} (hR : 0 < R) :
    rOf a pos < R ↔ (pos 1 ^ 2 + pos 2 ^ 2) / (R ^ 2 + a ^ 2) + pos 3 ^ 2 / R ^ 2 < 1 := by
  have hA : 0 < R ^ 2 + a ^ 2 := by positivity
  have key : (pos 1 ^ 2 + pos 2 ^ 2) / (R ^ 2 + a ^ 2) + pos 3 ^ 2 / R ^ 2 < 1 ↔
      0 < R ^ 4 + a ^ 2 * R ^ 2 - a ^ 2 * pos 3 ^ 2 - (pos 1 ^ 2 + pos 2 ^ 2 + pos 3 ^ 2) * R ^ 2 := by
    rw [div_add_div _ _ hA.ne' (pow_ne_zero 2 hR.ne'), div_lt_one (mul_pos hA (pow_pos hR 2))]
    constructor <;> intro h <;> nlinarith
  rw [key]
  have hq : 0 ≤ tauOf a pos * tauOf a pos + 4 * (a * a) * (pos 3 * pos 3) := by
    have h1 := mul_self_nonneg (tauOf a pos)
    have h2 := mul_nonneg (mul_self_nonneg a) (mul_self_nonneg (pos 3))
    nlinarith
  have hrho2 : rhoOf a pos ^ 2 = tauOf a pos * tauOf a pos + 4 * (a * a) * (pos 3 * pos 3) := Real.sq_sqrt hq
  have hrho0 : 0 ≤ rhoOf a pos := Real.sqrt_nonneg _
  have hle : tauOf a pos ≤ rhoOf a pos := by
    refine (le_abs_self _).trans (abs_le_of_sq_le_sq ?_ hrho0)
    rw [hrho2]
    have h2 := mul_nonneg (mul_self_nonneg a) (mul_self_nonneg (pos 3))
    nlinarith
  have hu : r2Of a pos = 0.5 * (tauOf a pos + rhoOf a pos) := rfl
  have fac : R ^ 4 + a ^ 2 * R ^ 2 - a ^ 2 * pos 3 ^ 2 - (pos 1 ^ 2 + pos 2 ^ 2 + pos 3 ^ 2) * R ^ 2 =
      (R ^ 2 - r2Of a pos) * (R ^ 2 + (rhoOf a pos - tauOf a pos) / 2) := by
    have ht : pos 1 ^ 2 + pos 2 ^ 2 + pos 3 ^ 2 = tauOf a pos + a ^ 2 := by unfold tauOf; ring
    rw [ht, hu]
    linear_combination hrho2 / 4
  have hpos : 0 < R ^ 2 + (rhoOf a pos - tauOf a pos) / 2 := by
    have := pow_pos hR 2
    linarith
  rw [fac, mul_pos_iff_of_pos_right hpos, sub_pos]
  exact Real.sqrt_lt' hR

/-- C79. The integration is stopped exactly inside of the spheroid of the sink radius; never for a spin above 1. -/
theorem stop_iff {a drhor : ℝ} {pos : Vec} (h : 0 ≤ drhor) : isStopCondition a drhor pos = true ↔ a ^ 2 ≤ 1 ∧
    (pos 1 ^ 2 + pos 2 ^ 2) / ((1 + √(1 - a ^ 2) + drhor) ^ 2 + a ^ 2) + pos 3 ^ 2 / (1 + √(1 - a ^ 2) + drhor) ^ 2 < 1 := by
  unfold isStopCondition
  have hs := Real.sqrt_nonneg (1 - a ^ 2)
  rw [← radius_lt (a := a) (pos := pos) (show 0 < 1 + √(1 - a ^ 2) + drhor by linarith)]
  rw [show a * a = a ^ 2 by ring]
  by_cases h1 : 1 - a ^ 2 < 0
  · rw [if_pos h1]
    simp only [Bool.false_eq_true, false_iff, not_and]
    intro h2; linarith
  · rw [if_neg h1, decide_eq_true_iff]
    exact ⟨fun h => ⟨by linarith, h⟩, fun h => h.2⟩

theorem gmunu_symm (a : ℝ) (pos : Vec) : (gmunu a pos).IsSymm := by
  ext mu nu
  rw [Matrix.transpose_apply]
  unfold gmunu plusFlat both
  fin_cases mu <;> fin_cases nu <;> simp

/-- The flat metric. -/
def eta (mu nu : Fin 4) : ℝ := if mu = nu then (if mu = 0 then -1 else 1) else 0

theorem gmunu_eq (a : ℝ) (pos : Vec) (mu nu : Fin 4) : gmunu a pos mu nu = fOf a pos * kOf a pos mu * kOf a pos nu + eta mu nu := by
  unfold gmunu plusFlat both eta
  dsimp only
  split_ifs <;> ring

/-- C79. The components asked one by one are those of the matrix. -/
theorem coef_eq {a : ℝ} {pos : Vec} (h : 0 < r2Of a pos) (mu nu : Fin 4) : gmunuCoef a pos mu nu = gmunu a pos mu nu := by
  obtain ⟨hr, hr2, -⟩ := facts h
  have hrr : √(0.5 * (pos 1 * pos 1 + pos 2 * pos 2 + pos 3 * pos 3 - a * a + √((pos 1 * pos 1 + pos 2 * pos 2 + pos 3 * pos 3 - a * a) *
      (pos 1 * pos 1 + pos 2 * pos 2 + pos 3 * pos 3 - a * a) + 4 * (a * a) * (pos 3 * pos 3)))) = rOf a pos := rfl
  rw [gmunu_eq]
  unfold gmunuCoef fOf kOf eta
  dsimp only
  rw [hrr, hr2]
  generalize rOf a pos = r at *
  have hA : r * r + a * a ≠ 0 := by rw [← sq, ← sq]; positivity
  have hA2 : r ^ 2 + a * a ≠ 0 := by rw [← sq a]; positivity
  have hW : r * (r * (r * r)) + a * a * (pos 3 * pos 3) ≠ 0 := by rw [← sq a, ← sq (pos 3)]; positivity
  have hW2 : r ^ 2 * r ^ 2 + a * a * (pos 3 * pos 3) ≠ 0 := by rw [← sq a, ← sq (pos 3)]; positivity
  fin_cases mu <;> fin_cases nu <;> simp <;> field_simp <;> ring

/-- `k` is null. -/
theorem k_null {a : ℝ} {pos : Vec} (h : 0 < r2Of a pos) : kOf a pos 0 = 1 ∧ kOf a pos 1 ^ 2 + kOf a pos 2 ^ 2 + kOf a pos 3 ^ 2 = 1 := by
  obtain ⟨hr, hr2, -, -, -, e3⟩ := facts h
  refine ⟨rfl, ?_⟩
  show ((rOf a pos * pos 1 + a * pos 2) / (r2Of a pos + a * a)) ^ 2 + ((rOf a pos * pos 2 - a * pos 1) / (r2Of a pos + a * a)) ^ 2 +
    (pos 3 / rOf a pos) ^ 2 = 1
  rw [hr2]
  generalize rOf a pos = r at *
  have hA : r ^ 2 + a * a ≠ 0 := by rw [← sq a]; positivity
  field_simp
  linear_combination (r ^ 2 + a ^ 2) * e3

theorem up_eq {a : ℝ} {pos : Vec} (h : 0 < r2Of a pos) (mu nu : Fin 4) :
    gmunuUp a pos mu nu = eta mu nu - fOf a pos * (eta mu mu * kOf a pos mu) * (eta nu nu * kOf a pos nu) := by
  obtain ⟨hr, hr2, -, -, -, e3⟩ := facts h
  have hA : r2Of a pos + a * a ≠ 0 := by rw [hr2, ← sq a]; positivity
  have hden : -(fOf a pos * r2Of a pos) * ((rOf a pos * pos 1 + a * pos 2) * (rOf a pos * pos 1 + a * pos 2) +
      (rOf a pos * pos 2 - a * pos 1) * (rOf a pos * pos 2 - a * pos 1)) + (r2Of a pos + a * a) * (r2Of a pos + a * a) *
      (-r2Of a pos + fOf a pos * r2Of a pos - fOf a pos * (pos 3 * pos 3)) = -(r2Of a pos * (r2Of a pos + a * a) ^ 2) := by
    rw [hr2]
    linear_combination (-fOf a pos * (rOf a pos ^ 2 + a ^ 2)) * e3
  unfold gmunuUp plusFlat both
  dsimp only
  rw [hden]
  unfold kOf eta
  generalize fOf a pos = f
  rw [hr2] at *
  generalize rOf a pos = r at *
  fin_cases mu <;> fin_cases nu <;> simp <;> field_simp <;> ring

/-- C79. `gmunu_up` is the inverse of the metric. -/
theorem up_inverse {a : ℝ} {pos : Vec} (h : 0 < r2Of a pos) : gmunuUp a pos * gmunu a pos = 1 := by
  obtain ⟨h0, hk⟩ := k_null h
  ext mu nu
  rw [Matrix.mul_apply, Fin.sum_univ_four]
  simp only [up_eq h, gmunu_eq]
  generalize fOf a pos = f
  generalize kOf a pos = k at *
  have e : ∀ i j : Fin 4, (1 : Tensor) i j = if i = j then 1 else 0 := fun i j => Matrix.one_apply
  rw [e]
  unfold eta
  fin_cases mu <;> fin_cases nu <;> simp [h0] <;> grind

theorem df_ok {a : ℝ} {pos : Vec} (h : 0 < r2Of a pos) (m : Fin 4) {r r' : ℝ} (hr : r = rOf a pos)
    (hr' : r' = (r * (pos 1 * (if m = 1 then 1 else 0) + pos 2 * (if m = 2 then 1 else 0) + pos 3 * (if m = 3 then 1 else 0)) +
      a ^ 2 * pos 3 * (if m = 3 then 1 else 0) / r) / rhoOf a pos) :
    (6 * r ^ 2 * r' * (r ^ 4 + a ^ 2 * pos 3 ^ 2) - 2 * r ^ 3 * (4 * r ^ 3 * r' + 2 * a ^ 2 * pos 3 * (if m = 3 then 1 else 0))) /
      (r ^ 4 + a ^ 2 * pos 3 ^ 2) ^ 2 = dfOf a pos m := by
  obtain ⟨hr0, hr2, hrho, e1, e2, e3⟩ := facts h
  unfold dfOf
  rw [← hr] at *
  rw [hr2]
  generalize rhoOf a pos = ρ at *
  have hW : 0 < r ^ 4 + a ^ 2 * pos 3 ^ 2 := by positivity
  have hW2 : r ^ 2 * r ^ 2 + a * a * (pos 3 * pos 3) ≠ 0 := by rw [← sq a, ← sq (pos 3)]; positivity
  fin_cases m
  · simp at *; rw [hr']; simp
  · simp at *; rw [hr']; field_simp; ring
  · simp at *; rw [hr']; field_simp; ring
  · have ht : a * a * (a * a) + 2 * r ^ 2 * (pos 1 * pos 1 + pos 2 * pos 2 + pos 3 * pos 3) -
        a * a * (pos 1 * pos 1 + pos 2 * pos 2 + pos 3 * pos 3 - 4 * (pos 3 * pos 3) + ρ) = 2 * (r ^ 4 + a ^ 2 * pos 3 ^ 2) := by
      rw [e1]; linear_combination 2 * e3
    have hB : 2 * (a * a * (a * a) * (a * a)) + (a * a + 2 * r ^ 2) * (pos 1 * pos 1 + pos 2 * pos 2 + pos 3 * pos 3) *
        (pos 1 * pos 1 + pos 2 * pos 2 + pos 3 * pos 3) +
        a * a * (a * a) * (-3 * (pos 1 * pos 1) - 3 * (pos 2 * pos 2) + pos 3 * pos 3 - 2 * ρ) +
        a * a * (pos 1 * pos 1 + pos 2 * pos 2 - pos 3 * pos 3) * ρ =
        2 * r ^ 6 + 6 * a ^ 2 * r ^ 4 - 6 * a ^ 2 * pos 3 ^ 2 * r ^ 2 - 2 * a ^ 4 * pos 3 ^ 2 := by
      rw [e1]
      linear_combination (2 * (pos 1 ^ 2 + pos 2 ^ 2 + pos 3 ^ 2) + 2 * a ^ 2 + 2 * (r ^ 2 + a ^ 2)) * e3
    show _ = -((4 * r * pos 3 * _) / (ρ * _ * _))
    rw [ht, hB]
    have hρ : ρ = (r ^ 4 + a ^ 2 * pos 3 ^ 2) / r ^ 2 := by rw [eq_div_iff (pow_ne_zero 2 hr0.ne'), e2]
    have h3 : ∀ i : Fin 4, (if ((⟨3, by omega⟩ : Fin 4) = i) then (1 : ℝ) else 0) = if (3 : Fin 4) = i then 1 else 0 := fun _ => rfl
    simp only [h3, show ((3 : Fin 4) = 1) = False by decide, show ((3 : Fin 4) = 2) = False by decide, if_false, if_true, mul_zero,
      zero_add, mul_one] at hr' ⊢
    rw [hr', hρ]
    clear hr' hρ e1 e2 hrho ht hB e3 h3 hW2
    obtain ⟨W, hWW⟩ : ∃ W, W = r ^ 4 + a ^ 2 * pos 3 ^ 2 := ⟨_, rfl⟩
    rw [← hWW] at hW ⊢
    have hn := hW.ne'
    field_simp
    rw [hWW]
    ring

/-- The components of `k` along a coordinate line. -/
theorem dk_ok {a : ℝ} {pos : Vec} (h : 0 < r2Of a pos) (m : Fin 4) {r r' : ℝ} (hr : r = rOf a pos)
    (hr' : r' = (r * (pos 1 * (if m = 1 then 1 else 0) + pos 2 * (if m = 2 then 1 else 0) + pos 3 * (if m = 3 then 1 else 0)) +
      a ^ 2 * pos 3 * (if m = 3 then 1 else 0) / r) / rhoOf a pos) :
    ((r' * pos 1 + r * (if m = 1 then 1 else 0) + a * (if m = 2 then 1 else 0)) * (r ^ 2 + a ^ 2) -
      (r * pos 1 + a * pos 2) * (2 * r * r')) / (r ^ 2 + a ^ 2) ^ 2 = dkOf a pos m 1 ∧
    ((r' * pos 2 + r * (if m = 2 then 1 else 0) - a * (if m = 1 then 1 else 0)) * (r ^ 2 + a ^ 2) -
      (r * pos 2 - a * pos 1) * (2 * r * r')) / (r ^ 2 + a ^ 2) ^ 2 = dkOf a pos m 2 ∧
    ((if m = 3 then 1 else 0) * r - pos 3 * r') / r ^ 2 = dkOf a pos m 3 := by
  obtain ⟨hr0, hr2, hrho, e1, e2, e3⟩ := facts h
  unfold dkOf
  rw [← hr] at *
  rw [hr2]
  generalize rhoOf a pos = ρ at *
  have hA : 0 < r ^ 2 + a ^ 2 := by positivity
  have hA2 : r ^ 2 + a * a ≠ 0 := by rw [← sq a]; positivity
  have hS : pos 1 * pos 1 + pos 2 * pos 2 + pos 3 * pos 3 = 2 * r ^ 2 - ρ + a ^ 2 := by linear_combination e1
  fin_cases m
  · simp at *; rw [hr']; simp
  · simp at *
    rw [hS, hr']
    refine ⟨?_, ?_, ?_⟩
    · field_simp; ring
    · field_simp; ring
    · field_simp
  · simp at *
    rw [hS, hr']
    refine ⟨?_, ?_, ?_⟩
    · field_simp; ring
    · field_simp; ring
    · field_simp
  · simp at *
    rw [hr']
    refine ⟨?_, ?_, ?_⟩
    · field_simp; ring
    · field_simp; ring
    · rw [show a * a + pos 1 * pos 1 + pos 2 * pos 2 + pos 3 * pos 3 + ρ = 2 * (r ^ 2 + a ^ 2) by linear_combination hS]
      field_simp

/-- C79. `jacobian` gives the derivatives of the metric. -/
theorem jacobian_ok {a : ℝ} {pos : Vec} (h : 0 < r2Of a pos) : IsPartial (gmunu a) pos (jacobian a pos) := by
  intro m mu nu
  have hP : ∀ i, HasDerivAt (fun t => Function.update pos m t i) (if m = i then 1 else 0) (pos m) := by
    intro i
    by_cases hi : m = i
    · subst hi
      simp only [Function.update_self, if_true]
      exact hasDerivAt_id _
    · rw [if_neg hi]
      simp only [Function.update_of_ne (Ne.symm hi)]
      exact hasDerivAt_const _ _
  have hup : Function.update pos m (pos m) = pos := Function.update_eq_self _ _
  have hs : 0 < r2Of a (Function.update pos m (pos m)) := by rw [hup]; exact h
  have hr := r_deriv hP hs
  obtain ⟨f1, k1, k2, k3⟩ := fk_deriv hP hs rfl hr
  rw [hup] at f1 k1 k2 k3
  rw [df_ok h m rfl rfl] at f1
  obtain ⟨d1, d2, d3⟩ := dk_ok h m (r := rOf a pos) rfl rfl
  rw [d1] at k1
  rw [d2] at k2
  rw [d3] at k3
  have k0 : HasDerivAt (fun t => kOf a (Function.update pos m t) 0) (dkOf a pos m 0) (pos m) := by
    have : dkOf a pos m 0 = 0 := by
      unfold dkOf
      fin_cases m <;> rfl
    rw [this]
    exact hasDerivAt_const _ (1 : ℝ)
  have hk : ∀ i, HasDerivAt (fun t => kOf a (Function.update pos m t) i) (dkOf a pos m i) (pos m) := by
    intro i
    match i with
    | 0 => exact k0
    | 1 => exact k1
    | 2 => exact k2
    | 3 => exact k3
  have := ((f1.mul (hk mu)).mul (hk nu)).add_const (eta mu nu)
  simp only [gmunu_eq]
  refine this.congr_deriv ?_
  simp only [Pi.mul_apply, hup]
  unfold jacobian both
  dsimp only
  split_ifs <;> ring

/-- C79. The symbols that the generic code computes from these are the Christoffel symbols of the metric. -/
theorem christoffel_ok {a : ℝ} {pos : Vec} (h : 0 < r2Of a pos) :
    IsChristoffel (gmunu a) pos (GenericMotion.connection (gmunuUp a pos) (jacobian a pos)) :=
  GenericMotion.connection_ok (gmunu_symm a) (up_inverse h) (jacobian_ok h)

end Gyoto.KerrKS
