import Verif.Props.KerrKS
import Verif.Props.MetricAlg
import Verif.Spec.Orbits
import Mathlib.Analysis.SpecialFunctions.Trigonometric.Deriv
import Mathlib.Analysis.Calculus.Deriv.Pi
import Mathlib.Tactic.NormNum
import Mathlib.Tactic.Linarith

/-!
# Circular velocities in Kerr-Schild coordinates
-/

namespace Gyoto.KerrKS

open Gyoto.MetricAlg Gyoto.Spacetime

/-- On the equatorial plane. -/
theorem equator {a R : ℝ} {pos : Vec} (hR : 0 < R) (hz : pos 3 = 0) (h : pos 1 ^ 2 + pos 2 ^ 2 = R ^ 2 + a ^ 2) :
    0 < r2Of a pos ∧ rOf a pos = R ∧ r2Of a pos = R ^ 2 ∧ rhoOf a pos = R ^ 2 := by
  have h0 : 0 < r2Of a pos := regular_iff.2 (Or.inr (by rw [h]; nlinarith [pow_pos hR 2]))
  obtain ⟨hr, hr2, -, e1, -⟩ := facts h0
  have e : R = rOf a pos := by
    refine (radius_spec h0 hR).2 ?_
    rw [hz, h, div_self (by positivity)]
    simp
  refine ⟨h0, e.symm, by rw [hr2, ← e], ?_⟩
  rw [e1, ← e, h, hz]
  ring

/-- The equation of motion of a circle, with the index lowered. -/
theorem circle_lowered {a R ω u : ℝ} {pos : Vec} (hR : 0 < R) (hz : pos 3 = 0) (h : pos 1 ^ 2 + pos 2 ^ 2 = R ^ 2 + a ^ 2)
    {v A : Vec} (hv : v = ![u, -pos 2 * ω * u, pos 1 * ω * u, 0]) (hA : A = ![0, -pos 1 * ω ^ 2 * u ^ 2, -pos 2 * ω ^ 2 * u ^ 2, 0])
    (α : Fin 4) :
    ∑ β, gmunu a pos α β * A β + ∑ μ, ∑ ν, (jacobian a pos μ α ν + jacobian a pos ν α μ - jacobian a pos α μ ν) / 2 * v μ * v ν =
      u ^ 2 * (((1 - a * ω) ^ 2 - R ^ 3 * ω ^ 2) / R ^ 3) * ![0, pos 1, pos 2, 0] α := by
  obtain ⟨h0, hr, hr2, hrho⟩ := equator hR hz h
  have hj : ∀ i mu nu, jacobian a pos i mu nu = dfOf a pos i * kOf a pos mu * kOf a pos nu + fOf a pos * dkOf a pos i mu * kOf a pos nu +
      fOf a pos * kOf a pos mu * dkOf a pos i nu := by
    intro i mu nu
    unfold jacobian both
    dsimp only
    split_ifs <;> ring
  simp only [hj, gmunu_eq]
  unfold dfOf dkOf fOf kOf eta
  rw [hv, hA]
  simp only [hr, hr2, hrho, hz]
  generalize pos 1 = x at *
  generalize pos 2 = y at *
  have hA1 : R ^ 2 + a * a ≠ 0 := by rw [← sq a]; positivity
  simp only [Fin.sum_univ_four]
  fin_cases α
  · simp
    field_simp
    grind
  · simp
    field_simp
    grind
  · simp
    field_simp
    grind
  · simp

/-- The circle of radius `√(R²+a²)` around the axis, followed with the angular velocity `ω`. -/
noncomputable def circle (a R ω u t₀ φ : ℝ) (τ : ℝ) : Vec :=
  ![t₀ + u * τ, √(R ^ 2 + a ^ 2) * Real.cos (φ + ω * u * τ), √(R ^ 2 + a ^ 2) * Real.sin (φ + ω * u * τ), 0]

/-- The velocity along the circle. -/
noncomputable def circleVel (a R ω u t₀ φ : ℝ) (τ : ℝ) : Vec :=
  ![u, -circle a R ω u t₀ φ τ 2 * ω * u, circle a R ω u t₀ φ τ 1 * ω * u, 0]

theorem circle_deriv (a R ω u t₀ φ τ : ℝ) (α : Fin 4) :
    HasDerivAt (fun s => circle a R ω u t₀ φ s α) (circleVel a R ω u t₀ φ τ α) τ := by
  have hl : ∀ b c : ℝ, HasDerivAt (fun s : ℝ => b + c * s) c τ := by
    intro b c
    have := ((hasDerivAt_id τ).const_mul c).const_add b
    simpa using this
  match α with
  | 0 => exact hl t₀ u
  | 1 =>
    have := ((hl φ (ω * u)).cos).const_mul √(R ^ 2 + a ^ 2)
    refine this.congr_deriv ?_
    show _ = -(√(R ^ 2 + a ^ 2) * Real.sin (φ + ω * u * τ)) * ω * u
    ring
  | 2 =>
    have := ((hl φ (ω * u)).sin).const_mul √(R ^ 2 + a ^ 2)
    refine this.congr_deriv ?_
    show _ = √(R ^ 2 + a ^ 2) * Real.cos (φ + ω * u * τ) * ω * u
    ring
  | 3 => exact hasDerivAt_const _ _

theorem circle_deriv2 (a R ω u t₀ φ τ : ℝ) (α : Fin 4) :
    HasDerivAt (fun s => circleVel a R ω u t₀ φ s α)
      (![0, -circle a R ω u t₀ φ τ 1 * ω ^ 2 * u ^ 2, -circle a R ω u t₀ φ τ 2 * ω ^ 2 * u ^ 2, 0] α) τ := by
  match α with
  | 0 => exact hasDerivAt_const _ _
  | 1 =>
    have := ((circle_deriv a R ω u t₀ φ τ 2).neg.mul_const ω).mul_const u
    refine this.congr_deriv ?_
    show -(circle a R ω u t₀ φ τ 1 * ω * u) * ω * u = -circle a R ω u t₀ φ τ 1 * ω ^ 2 * u ^ 2
    ring
  | 2 =>
    have := ((circle_deriv a R ω u t₀ φ τ 1).mul_const ω).mul_const u
    refine this.congr_deriv ?_
    show -circle a R ω u t₀ φ τ 2 * ω * u * ω * u = -circle a R ω u t₀ φ τ 2 * ω ^ 2 * u ^ 2
    ring
  | 3 => exact hasDerivAt_const _ _

theorem circle_on (a R ω u t₀ φ τ : ℝ) : circle a R ω u t₀ φ τ 3 = 0 ∧
    circle a R ω u t₀ φ τ 1 ^ 2 + circle a R ω u t₀ φ τ 2 ^ 2 = R ^ 2 + a ^ 2 := by
  refine ⟨rfl, ?_⟩
  show (√(R ^ 2 + a ^ 2) * Real.cos (φ + ω * u * τ)) ^ 2 + (√(R ^ 2 + a ^ 2) * Real.sin (φ + ω * u * τ)) ^ 2 = _
  rw [mul_pow, mul_pow, ← mul_add, Real.cos_sq_add_sin_sq, mul_one, Real.sq_sqrt (by positivity)]

/-- The acceleration that the connection gives, lowered. -/
theorem lower_acc {g : Vec → Tensor} {pos v A : Vec} {Γ D : Fin 4 → Tensor}
    (hΓ : ∀ α μ ν, ∑ β, g pos α β * Γ β μ ν = (D μ α ν + D ν α μ - D α μ ν) / 2) (α : Fin 4) :
    ∑ β, g pos α β * (A β + ∑ μ, ∑ ν, Γ β μ ν * v μ * v ν) =
      ∑ β, g pos α β * A β + ∑ μ, ∑ ν, (D μ α ν + D ν α μ - D α μ ν) / 2 * v μ * v ν := by
  simp only [← hΓ, mul_add, Finset.sum_add_distrib, add_right_inj, Fin.sum_univ_four]
  ring

/-- C79. A circle of the equatorial plane is a geodesic exactly for Kepler's law with the term of the spin. -/
theorem circle_geodesic_iff {a R ω u t₀ φ : ℝ} (hR : 0 < R) (hu : u ≠ 0) :
    IsGeodesic (gmunu a) (circle a R ω u t₀ φ) ↔ R ^ 3 * ω ^ 2 = (1 - a * ω) ^ 2 := by
  have hR3 : R ^ 3 ≠ 0 := by positivity
  constructor
  · rintro ⟨v, hv, hacc⟩
    have hvv : v = circleVel a R ω u t₀ φ := by
      funext τ α
      exact (hv τ α).unique (circle_deriv a R ω u t₀ φ τ α)
    subst hvv
    obtain ⟨A, Γ, hA, ⟨D, hD, hΓ⟩, hz⟩ := hacc 0
    obtain ⟨h3, h12⟩ := circle_on a R ω u t₀ φ 0
    have hreg := (equator hR h3 h12).1
    have hDD : D = jacobian a (circle a R ω u t₀ φ 0) := by
      funext i mu nu
      exact (hD i mu nu).unique (jacobian_ok hreg i mu nu)
    have hAA : A = ![0, -circle a R ω u t₀ φ 0 1 * ω ^ 2 * u ^ 2, -circle a R ω u t₀ φ 0 2 * ω ^ 2 * u ^ 2, 0] := by
      funext α
      exact (hA α).unique (circle_deriv2 a R ω u t₀ φ 0 α)
    have key : ∀ α : Fin 4, u ^ 2 * (((1 - a * ω) ^ 2 - R ^ 3 * ω ^ 2) / R ^ 3) *
        ![0, circle a R ω u t₀ φ 0 1, circle a R ω u t₀ φ 0 2, 0] α = 0 := by
      intro α
      rw [← circle_lowered hR h3 h12 (v := circleVel a R ω u t₀ φ 0) rfl hAA α, ← hDD, ← lower_acc hΓ α]
      simp only [hz, mul_zero, Finset.sum_const_zero]
    have k1 := key 1
    have k2 := key 2
    simp only [Matrix.cons_val] at k1 k2
    have hsum : u ^ 2 * (((1 - a * ω) ^ 2 - R ^ 3 * ω ^ 2) / R ^ 3) * (R ^ 2 + a ^ 2) = 0 := by
      rw [← h12]
      linear_combination circle a R ω u t₀ φ 0 1 * k1 + circle a R ω u t₀ φ 0 2 * k2
    have hpos : R ^ 2 + a ^ 2 ≠ 0 := by positivity
    simp only [mul_eq_zero, div_eq_zero_iff, hpos, hR3, hu, pow_eq_zero_iff, ne_eq, OfNat.ofNat_ne_zero, not_false_eq_true, or_false,
      false_or] at hsum
    linarith
  · intro h
    refine ⟨circleVel a R ω u t₀ φ, circle_deriv a R ω u t₀ φ, fun τ => ?_⟩
    obtain ⟨h3, h12⟩ := circle_on a R ω u t₀ φ τ
    have hreg := (equator hR h3 h12).1
    obtain ⟨D, hD, hΓ⟩ := christoffel_ok hreg
    have hDD : D = jacobian a (circle a R ω u t₀ φ τ) := by
      funext i mu nu
      exact (hD i mu nu).unique (jacobian_ok hreg i mu nu)
    refine ⟨_, _, circle_deriv2 a R ω u t₀ φ τ, christoffel_ok hreg, fun α => ?_⟩
    -- the lowered vector is zero, and the metric has an inverse
    have key : ∀ β, ∑ γ, gmunu a (circle a R ω u t₀ φ τ) β γ *
        (![0, -circle a R ω u t₀ φ τ 1 * ω ^ 2 * u ^ 2, -circle a R ω u t₀ φ τ 2 * ω ^ 2 * u ^ 2, 0] γ + ∑ μ, ∑ ν,
          GenericMotion.connection (gmunuUp a (circle a R ω u t₀ φ τ)) (jacobian a (circle a R ω u t₀ φ τ)) γ μ ν *
            circleVel a R ω u t₀ φ τ μ * circleVel a R ω u t₀ φ τ ν) = 0 := by
      intro β
      rw [lower_acc hΓ β, hDD, circle_lowered hR h3 h12 (v := circleVel a R ω u t₀ φ τ) rfl rfl β, h]
      simp
    have hz : (gmunu a (circle a R ω u t₀ φ τ)).mulVec (fun γ =>
        ![0, -circle a R ω u t₀ φ τ 1 * ω ^ 2 * u ^ 2, -circle a R ω u t₀ φ τ 2 * ω ^ 2 * u ^ 2, 0] γ + ∑ μ, ∑ ν,
          GenericMotion.connection (gmunuUp a (circle a R ω u t₀ φ τ)) (jacobian a (circle a R ω u t₀ φ τ)) γ μ ν *
            circleVel a R ω u t₀ φ τ μ * circleVel a R ω u t₀ φ τ ν) = 0 := by
      funext β
      exact key β
    have := congrArg (fun w => (gmunuUp a (circle a R ω u t₀ φ τ)).mulVec w α) hz
    rw [Matrix.mulVec_mulVec, up_inverse hreg, Matrix.one_mulVec, Matrix.mulVec_zero] at this
    exact this

/-- The square of the velocity of a circle. -/
theorem circle_square {a R ω : ℝ} {pos : Vec} (hR : 0 < R) (hz : pos 3 = 0) (h : pos 1 ^ 2 + pos 2 ^ 2 = R ^ 2 + a ^ 2) :
    sp (gmunu a pos) (Fin.cons 1 ![-pos 2 * ω, pos 1 * ω, 0]) (Fin.cons 1 ![-pos 2 * ω, pos 1 * ω, 0]) =
      -1 + ω ^ 2 * (R ^ 2 + a ^ 2) + 2 / R * (1 - a * ω) ^ 2 := by
  obtain ⟨h0, hr, hr2, hrho⟩ := equator hR hz h
  rw [show (Fin.cons 1 ![-pos 2 * ω, pos 1 * ω, 0] : Vec) = ![1, -pos 2 * ω, pos 1 * ω, 0] from rfl, ← scalarProd_eq, scalarProd]
  simp only [gmunu_eq, Fin.sum_univ_four]
  unfold fOf kOf eta
  simp only [hr, hr2, hrho, hz]
  generalize pos 1 = x at *
  generalize pos 2 = y at *
  have hA1 : R ^ 2 + a * a ≠ 0 := by rw [← sq a]; positivity
  simp
  field_simp
  grind

/-- C79. Where the circle is timelike, `circularVelocity` gives the unit velocity of the circle with `ω² R³ = 1`; the circle is a
geodesic only without spin (or for a special retrograde radius). -/
theorem circular_velocity {a R dir t₀ φ : ℝ} (hR : 0 < R) (hdir : dir ^ 2 = 1) :
    ∃ ω, ω ^ 2 * R ^ 3 = 1 ∧ 0 < dir * ω ∧ (ω ^ 2 * (R ^ 2 + a ^ 2) + 2 / R * (1 - a * ω) ^ 2 < 1 → ∃ u, 0 < u ∧
      (∀ τ, ∃ v, circularVelocity a (circle a R ω u t₀ φ τ) dir = some v ∧
        (∀ α, HasDerivAt (fun s => circle a R ω u t₀ φ s α) (v α) τ) ∧ sp (gmunu a (circle a R ω u t₀ φ τ)) v v = -1) ∧
      (IsGeodesic (gmunu a) (circle a R ω u t₀ φ) ↔ a = 0 ∨ a * ω = 2)) := by
  have hR3 : 0 < R * R * R := by positivity
  obtain ⟨p, hp⟩ : ∃ p : ℝ, p = (R * R * R) ^ (-0.5 : ℝ) := ⟨_, rfl⟩
  have hp0 : 0 < p := by rw [hp]; exact Real.rpow_pos_of_pos hR3 _
  have hp2 : p ^ 2 * R ^ 3 = 1 := by
    have : p ^ 2 = (R * R * R)⁻¹ := by
      rw [hp, ← Real.rpow_natCast, ← Real.rpow_mul hR3.le, ← Real.rpow_neg_one]
      norm_num
    rw [this, show R ^ 3 = R * R * R by ring, inv_mul_cancel₀ hR3.ne']
  have hω2 : (dir * p) ^ 2 * R ^ 3 = 1 := by rw [mul_pow, hdir, one_mul, hp2]
  refine ⟨dir * p, hω2, by rw [← mul_assoc, ← sq, hdir, one_mul]; exact hp0, fun htl => ?_⟩
  obtain ⟨ω, hω⟩ : ∃ ω, ω = dir * p := ⟨_, rfl⟩
  rw [← hω] at hω2 htl ⊢
  obtain ⟨u, hu⟩ : ∃ u, u = (√(1 - ω ^ 2 * (R ^ 2 + a ^ 2) - 2 / R * (1 - a * ω) ^ 2))⁻¹ := ⟨_, rfl⟩
  have hu0 : 0 < u := by rw [hu]; exact inv_pos.2 (Real.sqrt_pos.2 (by linarith))
  refine ⟨u, hu0, fun τ => ?_, ?_⟩
  · obtain ⟨h3, h12⟩ := circle_on a R ω u t₀ φ τ
    have hsq := circle_square (ω := ω) hR h3 h12
    have hneg : sp (gmunu a (circle a R ω u t₀ φ τ)) (Fin.cons 1 ![-circle a R ω u t₀ φ τ 2 * ω, circle a R ω u t₀ φ τ 1 * ω, 0])
        (Fin.cons 1 ![-circle a R ω u t₀ φ τ 2 * ω, circle a R ω u t₀ φ τ 1 * ω, 0]) < 0 := by rw [hsq]; linarith
    have htd : sysPrimeToTdot (gmunu a (circle a R ω u t₀ φ τ)) ![-circle a R ω u t₀ φ τ 2 * ω, circle a R ω u t₀ φ τ 1 * ω, 0] = u := by
      unfold sysPrimeToTdot
      dsimp only
      have e := scalarProd_eq (gmunu a (circle a R ω u t₀ φ τ)) (Fin.cons 1 ![-circle a R ω u t₀ φ τ 2 * ω, circle a R ω u t₀ φ τ 1 * ω, 0])
        (Fin.cons 1 ![-circle a R ω u t₀ φ τ 2 * ω, circle a R ω u t₀ φ τ 1 * ω, 0])
      unfold scalarProd at e
      rw [e, if_neg (not_le.2 hneg), hsq, hu]
      congr 2
      ring
    refine ⟨circleVel a R ω u t₀ φ τ, ?_, circle_deriv a R ω u t₀ φ τ, ?_⟩
    · have hq : circle a R ω u t₀ φ τ 1 * circle a R ω u t₀ φ τ 1 + circle a R ω u t₀ φ τ 2 * circle a R ω u t₀ φ τ 2 - a * a = R ^ 2 := by
        linear_combination h12
      unfold circularVelocity
      dsimp only
      rw [hq, if_neg (not_le.2 (by positivity)), Real.sqrt_sq hR.le, ← hp, ← hω, htd]
      rfl
    · have := (sysPrime_unit hneg).2
      rw [htd] at this
      convert this using 2 <;>
      · funext i
        fin_cases i <;> simp [circleVel, Fin.cons] <;> ring
  · rw [circle_geodesic_iff hR hu0.ne', mul_comm (R ^ 3), hω2]
    constructor
    · intro h
      have h2 : (a * ω) * (a * ω - 2) = 0 := by linear_combination -h
      rcases mul_eq_zero.1 h2 with h | h
      · rcases mul_eq_zero.1 h with h | h
        · exact Or.inl h
        · rw [h] at hω2; norm_num at hω2
      · exact Or.inr (by linarith)
    · rintro (h | h)
      · rw [h]; ring
      · rw [h]; norm_num

/-- C79 (partial: without spin). Outside of the light ring, `circularVelocity` gives the velocity of a circular geodesic. The full
statement has any spin: `circular_wrong` refutes it. -/
theorem circular_partial {R dir t₀ φ : ℝ} (hR : 3 < R) (hdir : dir ^ 2 = 1) :
    ∃ ω u, 0 < dir * ω ∧ 0 < u ∧ IsGeodesic (gmunu 0) (circle 0 R ω u t₀ φ) ∧
      ∀ τ, ∃ v, circularVelocity 0 (circle 0 R ω u t₀ φ τ) dir = some v ∧
        (∀ α, HasDerivAt (fun s => circle 0 R ω u t₀ φ s α) (v α) τ) ∧ sp (gmunu 0 (circle 0 R ω u t₀ φ τ)) v v = -1 := by
  obtain ⟨ω, h1, h2, h3⟩ := circular_velocity (a := 0) (t₀ := t₀) (φ := φ) (show 0 < R by linarith) hdir
  have hR0 : 0 < R := by linarith
  have e : ω ^ 2 * (R ^ 2 + 0 ^ 2) + 2 / R * (1 - 0 * ω) ^ 2 = 3 / R := by
    field_simp
    linear_combination h1
  obtain ⟨u, hu, hv, hg⟩ := h3 (by rw [e, div_lt_one hR0]; exact hR)
  exact ⟨ω, u, h2, hu, hg.2 (Or.inl rfl), hv⟩

/-- C79. With a spin it does not: at radius 4 and spin 1/2, the prograde circle that is followed is not a geodesic. -/
theorem circular_wrong : ∃ ω u : ℝ, 0 < u ∧ ¬ IsGeodesic (gmunu (1 / 2)) (circle (1 / 2) 4 ω u 0 0) ∧
    ∀ τ, ∃ v, circularVelocity (1 / 2) (circle (1 / 2) 4 ω u 0 0 τ) 1 = some v ∧
      (∀ α, HasDerivAt (fun s => circle (1 / 2) 4 ω u 0 0 s α) (v α) τ) := by
  obtain ⟨ω, h1, h2, h3⟩ := circular_velocity (a := 1 / 2) (R := 4) (dir := 1) (t₀ := 0) (φ := 0) (by norm_num) (by norm_num)
  have hω : ω = 1 / 8 := by
    have : (ω - 1 / 8) * (ω + 1 / 8) = 0 := by linear_combination h1 / 64
    rcases mul_eq_zero.1 this with h | h <;> linarith
  subst hω
  obtain ⟨u, hu, hv, hg⟩ := h3 (by norm_num)
  refine ⟨1 / 8, u, hu, fun h => ?_, fun τ => ?_⟩
  · have := hg.1 h
    norm_num at this
  · obtain ⟨v, h1, h2, -⟩ := hv τ
    exact ⟨v, h1, h2⟩

/-! ### Examples -/

/-- Spin 1/2, at the point (4, 1/2, 0): the radius is 4. -/
example : rOf (1 / 2) ![0, 4, 1 / 2, 0] = 4 := (equator (by norm_num) rfl (by simp)).2.1

/-- The metric there. -/
example : gmunu (1 / 2) ![0, 4, 1 / 2, 0] 0 0 = -1 / 2 ∧ gmunu (1 / 2) ![0, 4, 1 / 2, 0] 0 1 = 1 / 2 ∧
    gmunu (1 / 2) ![0, 4, 1 / 2, 0] 1 1 = 3 / 2 ∧ gmunu (1 / 2) ![0, 4, 1 / 2, 0] 2 2 = 1 := by
  obtain ⟨-, hr, hr2, -⟩ := equator (a := 1 / 2) (R := 4) (pos := ![0, 4, 1 / 2, 0]) (by norm_num) rfl (by simp)
  simp only [gmunu_eq, fOf, kOf, hr, hr2, eta, Matrix.cons_val]
  norm_num
  decide

/-- On the axis, at height 3 with spin 1, the integration goes on; at height 1/2 it stops; with spin 2 it never does. -/
example : isStopCondition 1 0 ![0, 0, 0, 3] = false ∧ isStopCondition 1 0 ![0, 0, 0, 1 / 2] = true ∧
    isStopCondition 2 0 ![0, 0, 0, 1 / 2] = false := by
  refine ⟨?_, ?_, ?_⟩
  · rw [← Bool.not_eq_true, stop_iff le_rfl]; simp only [Matrix.cons_val]; norm_num
  · rw [stop_iff le_rfl]; simp only [Matrix.cons_val]; norm_num
  · rw [← Bool.not_eq_true, stop_iff le_rfl]; norm_num

end Gyoto.KerrKS
