import Verif.Lemmas.Static
import Mathlib.Analysis.Calculus.Deriv.Inv
import Mathlib.LinearAlgebra.Matrix.Symmetric
import Mathlib.Tactic.FieldSimp
import Mathlib.Tactic.FinCases
import Mathlib.Tactic.Positivity

/-!
# Metrics without rotation: their forms, their inverse, their connection

Properties C61 and C62 for `Minkowski`, `SchwarzschildHarmonic`, `ReissnerNordstrom` and `RezzollaZhidenko`.
-/

namespace Gyoto.Static

open Gyoto.MetricAlg Gyoto.KerrBL Gyoto.Spacetime

/-! ## Minkowski -/

/-- C61. -/
theorem mk_coef (k : CoordKind) (pos : Vec) (mu nu : Fin 4) : mkCoef k pos mu nu = mkGmunu k pos mu nu := by
  cases k <;> fin_cases mu <;> fin_cases nu <;> rfl

/-- C62. The two forms of the symbols agree. -/
theorem mk_christoffel_coef (k : CoordKind) (pos : Vec) (α mu nu : Fin 4) :
    mkChristoffelCoef k pos α mu nu = mkChristoffel k pos α mu nu := by
  cases k <;> fin_cases α <;> fin_cases mu <;> fin_cases nu <;> rfl

/-- C62. -/
theorem mk_christoffel_ok {k : CoordKind} {pos : Vec} (h : k = .spherical → pos 1 ≠ 0 ∧ Real.sin (pos 2) ≠ 0) :
    IsChristoffel (mkGmunu k) pos (mkChristoffel k pos) := by
  cases k with
  | cartesian =>
    refine ⟨fun _ => 0, fun μ α β => hasDerivAt_const _ _, fun α μ ν => ?_⟩
    rw [Fin.sum_univ_four]
    have h0 : ∀ a b c, mkChristoffel .cartesian pos a b c = 0 := by
      intro a b c
      fin_cases a <;> fin_cases b <;> fin_cases c <;> rfl
    simp [h0]
  | spherical =>
    obtain ⟨hr, hs⟩ := h rfl
    have e : mkGmunu .spherical =
        fun p => circ (-1) 1 (p 1 * p 1) (p 1 * p 1 * (Real.sin (p 2) * Real.sin (p 2))) 0 := by
      funext p
      simp only [mkGmunu]
      congr 1
      ring
    rw [e]
    refine isChristoffel_sph (f := fun _ => -1) (k := fun _ => 1) (h := fun x => x * x) (hasDerivAt_const _ _) (hasDerivAt_const _ _)
      ((hasDerivAt_id (pos 1)).mul (hasDerivAt_id (pos 1))) ?_ ?_ ?_ ?_ ?_ ?_ ?_ ?_ ?_
    all_goals try simp only [id]
    · ring
    · ring
    · ring
    · ring
    · ring
    · field_simp; ring
    · ring
    · field_simp; ring
    · rw [Real.tan_pi_div_two_sub, Real.tan_eq_sin_div_cos, inv_div]
      field_simp

example : IsChristoffel (mkGmunu .spherical) ![0, 4, Real.pi / 3, 0] (mkChristoffel .spherical ![0, 4, Real.pi / 3, 0]) :=
  mk_christoffel_ok fun _ => by simp

/-! ## SchwarzschildHarmonic -/

theorem fill_diag {coef : Fin 4 → Fin 4 → ℝ} (h : ∀ i j, i ≠ j → coef i j = 0) :
    fill coef = circ (coef 0 0) (coef 1 1) (coef 2 2) (coef 3 3) 0 := by
  funext i j
  fin_cases i <;> fin_cases j <;> simp [fill, h]

theorem sh_fill (p : Vec) : fill (shForm p) = circ (-(p 1 - 1) / (p 1 + 1)) ((p 1 + 1) / (p 1 - 1)) ((p 1 + 1) * (p 1 + 1))
    ((p 1 + 1) * (p 1 + 1) * (Real.sin (p 2) * Real.sin (p 2))) 0 := by
  rw [fill_diag]
  · simp [shForm]
  · intro i j hij
    fin_cases i <;> fin_cases j <;> simp [shForm] at hij ⊢

/-- C62. -/
theorem sh_christoffel_ok {pos : Vec} {Γ : Fin 4 → Tensor} (hr : 0 < pos 1) (h1 : pos 1 ≠ 1) (h : shChristoffel pos = some Γ) :
    IsChristoffel (fun p => fill (shForm p)) pos Γ := by
  unfold shChristoffel at h
  dsimp only at h
  by_cases hc : pos 1 = 0 ∨ Real.sin (pos 2) = 0
  · rw [if_pos hc] at h
    cases h
  · rw [if_neg hc, Option.some.injEq] at h
    subst h
    push Not at hc
    have e : (fun p => fill (shForm p)) = _ := funext sh_fill
    rw [e]
    have hm : pos 1 - 1 ≠ 0 := sub_ne_zero.mpr h1
    have hp : pos 1 + 1 ≠ 0 := by linarith
    have h2 : pos 1 * pos 1 - 1 = (pos 1 - 1) * (pos 1 + 1) := by ring
    have h3 : pos 1 * pos 1 * pos 1 + 3 * (pos 1 * pos 1) + 3 * pos 1 + 1 = (pos 1 + 1) ^ 3 := by ring
    rw [h2, h3]
    have d1 := (hasDerivAt_id (pos 1)).sub_const 1
    have d2 := (hasDerivAt_id (pos 1)).add_const 1
    refine isChristoffel_sph (f := fun x => -(x - 1) / (x + 1)) (k := fun x => (x + 1) / (x - 1)) (h := fun x => (x + 1) * (x + 1))
      (d1.neg.div d2 hp) (d2.div d1 hm) (d2.mul d2) ?_ ?_ ?_ ?_ ?_ ?_ ?_ ?_ ?_
    all_goals
      clear d1 d2
      try simp only [id, Pi.neg_apply]
      generalize pos 1 = r at *
      obtain ⟨hc1, hc2⟩ := hc
      generalize Real.sin (pos 2) = s at *
      generalize Real.cos (pos 2) = c at *
      field_simp
      try grind

example : ∃ Γ, shChristoffel ![0, 4, Real.pi / 3, 0] = some Γ ∧ Γ 0 0 1 = 1 / 15 ∧
    IsChristoffel (fun p => fill (shForm p)) ![0, 4, Real.pi / 3, 0] Γ := by
  have hs : ¬((![0, 4, Real.pi / 3, 0] : Vec) 1 = 0 ∨ Real.sin ((![0, 4, Real.pi / 3, 0] : Vec) 2) = 0) := by simp
  have h : ∃ Γ, shChristoffel ![0, 4, Real.pi / 3, 0] = some Γ ∧ Γ 0 0 1 = 1 / 15 := by
    unfold shChristoffel
    dsimp only
    rw [if_neg hs]
    refine ⟨_, rfl, ?_⟩
    show 1 / ((4 : ℝ) * 4 - 1) = _
    norm_num
  obtain ⟨Γ, h1, h2⟩ := h
  exact ⟨Γ, h1, h2, sh_christoffel_ok (by simp) (by simp) h1⟩

/-! ## ReissnerNordstrom -/

theorem rn_fill (q : ℝ) (p : Vec) : fill (rnForm q p) = circ (-(1 - 2 / p 1 + q * q / (p 1 * p 1))) (1 / (1 - 2 / p 1 + q * q / (p 1 * p 1)))
    (p 1 * p 1) (p 1 * p 1 * (Real.sin (p 2) * Real.sin (p 2))) 0 := by
  rw [fill_diag]
  · simp [rnForm]
  · intro i j hij
    fin_cases i <;> fin_cases j <;> simp [rnForm] at hij ⊢

theorem rn_fill_up (q : ℝ) (p : Vec) : fill (rnUpForm q p) = circ (-1 / (1 - 2 / p 1 + q * q / (p 1 * p 1))) (1 - 2 / p 1 + q * q / (p 1 * p 1))
    (1 / (p 1 * p 1)) (1 / (p 1 * p 1 * (Real.sin (p 2) * Real.sin (p 2)))) 0 := by
  rw [fill_diag]
  · simp [rnUpForm]
  · intro i j hij
    fin_cases i <;> fin_cases j <;> simp [rnUpForm] at hij ⊢

/-- C61. -/
theorem rn_up_inverse {q : ℝ} {pos : Vec} (hr : 0 < pos 1) (hs : Real.sin (pos 2) ≠ 0)
    (hh : pos 1 * pos 1 - 2 * pos 1 + q * q ≠ 0) : fill (rnUpForm q pos) * fill (rnForm q pos) = 1 := by
  rw [rn_fill, rn_fill_up]
  generalize pos 1 = r at *
  generalize Real.sin (pos 2) = s at *
  have hr' := hr.ne'
  have e : 1 - 2 / r + q * q / (r * r) = (r * r - 2 * r + q * q) / (r * r) := by field_simp
  rw [e]
  generalize r * r - 2 * r + q * q = D at *
  ext i j
  fin_cases i <;> fin_cases j <;> simp [Matrix.mul_apply, Fin.sum_univ_four] <;> field_simp

/-- C62. -/
theorem rn_christoffel_ok {q : ℝ} {pos : Vec} {Γ : Fin 4 → Tensor} (hr : 0 < pos 1) (hh : pos 1 * pos 1 - 2 * pos 1 + q * q ≠ 0)
    (h : rnChristoffel q pos = some Γ) : IsChristoffel (fun p => fill (rnForm q p)) pos Γ := by
  unfold rnChristoffel at h
  dsimp only at h
  by_cases hc : pos 1 = 0 ∨ Real.sin (pos 2) = 0
  · rw [if_pos hc] at h
    cases h
  · rw [if_neg hc, Option.some.injEq] at h
    subst h
    push Not at hc
    have e : (fun p => fill (rnForm q p)) = _ := funext (rn_fill q)
    rw [e]
    have hr' := hr.ne'
    have e1 : 1 - 2 / pos 1 + q * q / (pos 1 * pos 1) = (pos 1 * pos 1 - 2 * pos 1 + q * q) / (pos 1 * pos 1) := by field_simp
    have hk : 1 - 2 / pos 1 + q * q / (pos 1 * pos 1) ≠ 0 := by
      rw [e1]
      exact div_ne_zero hh (mul_ne_zero hr' hr')
    have h3 : pos 1 * (pos 1 * pos 1) - 2 * (pos 1 * pos 1) + q * q * pos 1 ≠ 0 := by
      have : pos 1 * (pos 1 * pos 1) - 2 * (pos 1 * pos 1) + q * q * pos 1 = pos 1 * (pos 1 * pos 1 - 2 * pos 1 + q * q) := by ring
      rw [this]
      exact mul_ne_zero hr' hh
    have d0 := hasDerivAt_id (pos 1)
    have d1 : HasDerivAt (fun x : ℝ => 1 - 2 / x + q * q / (x * x)) (2 / pos 1 ^ 2 - 2 * q * q / pos 1 ^ 3) (pos 1) := by
      have := ((((hasDerivAt_const (pos 1) (2 : ℝ)).div d0 hr').const_sub 1).add
        ((hasDerivAt_const (pos 1) (q * q)).div (d0.mul d0) (mul_ne_zero hr' hr')))
      refine this.congr_deriv ?_
      simp only [id]
      field_simp
      simp only [Pi.mul_apply, id]
      field_simp
      ring
    refine isChristoffel_sph (f := fun x => -(1 - 2 / x + q * q / (x * x))) (k := fun x => 1 / (1 - 2 / x + q * q / (x * x)))
      (h := fun x => x * x) d1.neg ((hasDerivAt_const (pos 1) (1 : ℝ)).div d1 hk) (d0.mul d0) ?_ ?_ ?_ ?_ ?_ ?_ ?_ ?_ ?_
    all_goals
      clear d0 d1
      try simp only [id]
      generalize pos 1 = r at *
      obtain ⟨hc1, hc2⟩ := hc
      generalize Real.sin (pos 2) = s at *
      generalize Real.cos (pos 2) = c at *
      try rw [e1]
      obtain ⟨D, hD⟩ : ∃ D, D = r * r - 2 * r + q * q := ⟨_, rfl⟩
      have e3 : r * (r * r) - 2 * (r * r) + q * q * r = r * D := by rw [hD]; ring
      try rw [e3]
      try rw [← hD]
      rw [← hD] at hh
      field_simp
      try grind

/-- The case of a charged black hole, outside its horizon and outside the equatorial plane. -/
example : ∃ Γ, rnChristoffel (1 / 2) ![0, 4, Real.pi / 3, 0] = some Γ ∧ Γ 1 2 2 = -(33 / 16) ∧
    IsChristoffel (fun p => fill (rnForm (1 / 2) p)) ![0, 4, Real.pi / 3, 0] Γ := by
  have hs : ¬((![0, 4, Real.pi / 3, 0] : Vec) 1 = 0 ∨ Real.sin ((![0, 4, Real.pi / 3, 0] : Vec) 2) = 0) := by simp
  have h : ∃ Γ, rnChristoffel (1 / 2) ![0, 4, Real.pi / 3, 0] = some Γ ∧ Γ 1 2 2 = -(33 / 16) := by
    unfold rnChristoffel
    dsimp only
    rw [if_neg hs]
    refine ⟨_, rfl, ?_⟩
    show -(1 / 2 * (1 / 2) - 2 * (4 : ℝ) + 4 * 4) / 4 = _
    norm_num
  obtain ⟨Γ, h1, h2⟩ := h
  exact ⟨Γ, h1, h2, rn_christoffel_ok (by simp) (by simp; norm_num) h1⟩

/-! ### When to stop -/

/-- C64. With a charge in `[-1, 1)` a geodesic that is not stopped is outside the horizon, by the margin asked for: `Δ ≥ 0` and
`r` at least `1 + √(1 - q²) + sec`. -/
theorem rn_stop_partial {sec q : ℝ} {pos : Vec} (hsec : 0 ≤ sec) (hq : |q| ≤ 1) (h1 : q ≠ 1) :
    (rnStop sec q pos = true ↔ pos 1 < 1 + √(1 - q * q) + sec) ∧
      (rnStop sec q pos = false → 0 ≤ pos 1 * pos 1 - 2 * pos 1 + q * q) := by
  have hq1 : q < 1 := lt_of_le_of_ne (le_trans (le_abs_self q) hq) h1
  have hqq : q * q ≤ 1 := by
    have := mul_le_mul hq hq (abs_nonneg q) (by norm_num)
    rwa [abs_mul_abs_self, one_mul] at this
  have hn : ¬(1 - q * q < 0) := by linarith
  have e : rnStop sec q pos = decide (pos 1 < 1 + √(1 - q * q) + sec) := by
    unfold rnStop
    simp only [if_pos hq1, if_neg hn]
  rw [e]
  refine ⟨by simp, fun h => ?_⟩
  have h' : 1 + √(1 - q * q) + sec ≤ pos 1 := by simpa using h
  have h2 := Real.mul_self_sqrt (by linarith : (0 : ℝ) ≤ 1 - q * q)
  have h3 := Real.sqrt_nonneg (1 - q * q)
  generalize √(1 - q * q) = w at *
  nlinarith [mul_self_nonneg (pos 1 - 1 - w)]

example : rnStop 0 0 ![0, 1, 0, 0] = true := by
  rw [(rn_stop_partial (le_refl 0) (by simp) (by norm_num)).1]
  simp

/-- C64 does not hold for every charge.  The metric depends on the square of the charge only, but the condition depends on its sign:
with the charge `-1` a geodesic at `r = 1/2` is stopped (the horizon is at `r = 1`), with the charge `1` it is not; with the charge
`2` one at `r = -1` is stopped, with the charge `-2` no geodesic ever is. -/
theorem rn_stop_wrong {sec : ℝ} (hsec : 0 ≤ sec) : (∀ pos, rnForm (-1) pos = rnForm 1 pos) ∧
    rnStop sec (-1) ![0, 1 / 2, 0, 0] = true ∧ rnStop sec 1 ![0, 1 / 2, 0, 0] = false ∧
    rnStop sec 2 ![0, -1, 0, 0] = true ∧ ∀ pos, rnStop sec (-2) pos = false := by
  refine ⟨fun pos => ?_, ?_, ?_, ?_, fun pos => ?_⟩
  · unfold rnForm
    simp
  · rw [(rn_stop_partial hsec (by simp) (by norm_num)).1]
    simp
    linarith
  · simp [rnStop]
  · simp [rnStop]
  · have h1 : (-2 : ℝ) < 1 := by norm_num
    have h2 : 1 - (-2 : ℝ) * (-2) < 0 := by norm_num
    simp only [rnStop, if_pos h1, if_pos h2]

/-! ## RezzollaZhidenko -/

namespace RZ

variable {m : RZ} {r : ℝ}

/-- What `aparam` and `bparam` accept: at most four numbers, none of them negative; missing ones are zero. -/
theorem setParam_spec {v : List ℝ} {p : Fin 4 → ℝ} (h : setParam v = some p) :
    v.length ≤ 4 ∧ (∀ x ∈ v, 0 ≤ x) ∧ (∀ i : Fin 4, p i = v.getD i 0) ∧ ∀ i, 0 ≤ p i := by
  unfold setParam at h
  by_cases h1 : v.length > 4
  · simp [h1] at h
  · by_cases h2 : v.any (fun x => decide (x < 0))
    · simp [h1, h2] at h
    · rw [if_neg h1, if_neg h2, Option.some.injEq] at h
      have h3 : ∀ x ∈ v, 0 ≤ x := by simpa using h2
      refine ⟨by omega, h3, fun i => by rw [← h], fun i => ?_⟩
      rw [← h]
      by_cases hi : i.val < v.length
      · have : v.getD i.val 0 = v[i.val] := by simp [List.getD, List.getElem?_eq_getElem hi]
        show 0 ≤ v.getD i.val 0
        rw [this]
        exact h3 _ (List.getElem_mem hi)
      · have : v.getD i.val 0 = 0 := by simp [List.getD, List.getElem?_eq_none (by omega : v.length ≤ i.val)]
        show 0 ≤ v.getD i.val 0
        rw [this]

/-- `x = 1 - r0 / r`. -/
noncomputable def x (m : RZ) (r : ℝ) : ℝ := 1 - 2 / (1 + m.epsilon) / r

theorem x_deriv (hr : r ≠ 0) : HasDerivAt m.x (2 / (1 + m.epsilon) / (r * r)) r := by
  have := ((hasDerivAt_const r (2 / (1 + m.epsilon))).div (hasDerivAt_id r) hr).const_sub 1
  refine this.congr_deriv ?_
  simp only [id]
  field_simp
  ring

theorem frac_deriv {a b c t : ℝ} (h1 : 1 + c * t ≠ 0) (h2 : 1 + (b + c) * t ≠ 0) :
    HasDerivAt (fun t => a / (1 + b * t / (1 + c * t))) (-a * b / ((1 + (b + c) * t) * (1 + (b + c) * t))) t := by
  have d0 := hasDerivAt_id t
  have d1 := (d0.const_mul b).div ((d0.const_mul c).const_add 1) h1
  have e : 1 + b * t / (1 + c * t) = (1 + (b + c) * t) / (1 + c * t) := by
    rw [eq_div_iff h1, add_mul, div_mul_cancel₀ _ h1]
    ring
  have hne : 1 + b * t / (1 + c * t) ≠ 0 := by
    rw [e]
    exact div_ne_zero h2 h1
  have d2 := (hasDerivAt_const t a).div (d1.const_add 1) hne
  refine d2.congr_deriv ?_
  simp only [id, Pi.div_apply]
  rw [e]
  have e2 : b * 1 * (1 + c * t) - b * t * (c * 1) = b := by ring
  rw [e2]
  clear d2 d1 hne e e2 d0
  generalize 1 + c * t = u at *
  generalize 1 + (b + c) * t = w at *
  field_simp
  ring

theorem B_deriv (hr : r ≠ 0) (h1 : 1 + m.b 3 * m.x r ≠ 0) (h2 : 1 + (m.b 2 + m.b 3) * m.x r ≠ 0) :
    HasDerivAt m.B (m.Bprime r) r := by
  have dx := x_deriv (m := m) hr
  have df := (frac_deriv (a := m.b 1) h1 h2).comp r dx
  have d1 := dx.const_sub 1
  have := (((d1.const_mul (m.b 0)).const_add 1).add (df.mul (d1.mul d1)))
  refine this.congr_deriv ?_
  simp only [Bprime, Function.comp_apply, Pi.mul_apply]
  change _ = 2 / (1 + m.epsilon) / (r * r) * (-m.b 0 - 2 * (m.b 1 / (1 + m.b 2 * m.x r / (1 + m.b 3 * m.x r))) * (1 - m.x r) +
    -m.b 1 * m.b 2 / ((1 + (m.b 2 + m.b 3) * m.x r) * (1 + (m.b 2 + m.b 3) * m.x r)) * ((1 - m.x r) * (1 - m.x r)))
  ring

theorem N2_deriv (hr : r ≠ 0) (h1 : 1 + m.a 3 * m.x r ≠ 0) (h2 : 1 + (m.a 2 + m.a 3) * m.x r ≠ 0) (hN : 0 < m.N2 r) :
    HasDerivAt m.N2 (2 * √(m.N2 r) * m.Nprime r) r := by
  have dx := x_deriv (m := m) hr
  have df := (frac_deriv (a := m.a 1) h1 h2).comp r dx
  have d1 := dx.const_sub 1
  have := dx.mul ((((d1.const_mul m.epsilon).const_sub 1).add ((d1.mul d1).const_mul (m.a 0 - m.epsilon))).add
    (df.mul ((d1.mul d1).mul d1)))
  refine this.congr_deriv ?_
  have hs : √(m.N2 r) ≠ 0 := (Real.sqrt_pos.mpr hN).ne'
  have e : 2 * √(m.N2 r) * m.Nprime r = 2 / (1 + m.epsilon) / (r * r) * ((1 - m.epsilon * (1 - m.x r) + (m.a 0 - m.epsilon) *
      ((1 - m.x r) * (1 - m.x r)) + m.a 1 / (1 + m.a 2 * m.x r / (1 + m.a 3 * m.x r)) * ((1 - m.x r) * (1 - m.x r) * (1 - m.x r))) +
      m.x r * (m.epsilon - 2 * (m.a 0 - m.epsilon) * (1 - m.x r) - 3 * (m.a 1 / (1 + m.a 2 * m.x r / (1 + m.a 3 * m.x r))) *
      ((1 - m.x r) * (1 - m.x r)) + -m.a 1 * m.a 2 / ((1 + (m.a 2 + m.a 3) * m.x r) * (1 + (m.a 2 + m.a 3) * m.x r)) *
      ((1 - m.x r) * (1 - m.x r) * (1 - m.x r)))) := by
    unfold Nprime
    dsimp only
    change 2 * √(m.N2 r) * (2 / (1 + m.epsilon) / (r * r) * (1 / (2 * √(m.N2 r)) * ((1 - m.epsilon * (1 - m.x r) + (m.a 0 - m.epsilon) *
      ((1 - m.x r) * (1 - m.x r)) + m.a 1 / (1 + m.a 2 * m.x r / (1 + m.a 3 * m.x r)) * ((1 - m.x r) * (1 - m.x r) * (1 - m.x r))) +
      m.x r * (m.epsilon - 2 * (m.a 0 - m.epsilon) * (1 - m.x r) - 3 * (m.a 1 / (1 + m.a 2 * m.x r / (1 + m.a 3 * m.x r))) *
      ((1 - m.x r) * (1 - m.x r)) + -m.a 1 * m.a 2 / ((1 + (m.a 2 + m.a 3) * m.x r) * (1 + (m.a 2 + m.a 3) * m.x r)) *
      ((1 - m.x r) * (1 - m.x r) * (1 - m.x r)))))) = _
    generalize √(m.N2 r) = N at *
    field_simp
  rw [e]
  simp only [Function.comp_apply, Pi.mul_apply, Pi.add_apply]
  ring

theorem form_fill (m : RZ) (p : Vec) : fill (m.form p) =
    circ (-m.N2 (p 1)) (m.B2 (p 1) / m.N2 (p 1)) (p 1 * p 1) (p 1 * p 1 * (Real.sin (p 2) * Real.sin (p 2))) 0 := by
  rw [fill_diag]
  · simp [form]
  · intro i j hij
    fin_cases i <;> fin_cases j <;> simp [form] at hij ⊢

/-- C62. With parameters that the setters accept, outside the horizon `r0 = 2 / (1 + ε)`, where `N² > 0`. -/
theorem christoffel_ok {va vb : List ℝ} {pos : Vec} {Γ : Fin 4 → Tensor} (ha : setParam va = some m.a) (hb : setParam vb = some m.b)
    (hε : 0 < 1 + m.epsilon) (hr : 2 / (1 + m.epsilon) ≤ pos 1) (hN : 0 < m.N2 (pos 1)) (h : m.christoffel pos = some Γ) :
    IsChristoffel (fun p => fill (m.form p)) pos Γ := by
  obtain ⟨-, -, -, ha⟩ := setParam_spec ha
  obtain ⟨-, -, -, hb⟩ := setParam_spec hb
  have hr0 : 0 < pos 1 := lt_of_lt_of_le (by positivity) hr
  have hr' := hr0.ne'
  have hx : 0 ≤ m.x (pos 1) := by
    unfold x
    rw [sub_nonneg, div_le_one hr0]
    exact hr
  have hx1 : m.x (pos 1) ≤ 1 := by
    unfold x
    have : 0 ≤ 2 / (1 + m.epsilon) / pos 1 := by positivity
    linarith
  have pa : ∀ i, 0 ≤ m.a i * m.x (pos 1) := fun i => mul_nonneg (ha i) hx
  have pb : ∀ i, 0 ≤ m.b i * m.x (pos 1) := fun i => mul_nonneg (hb i) hx
  have dB := B_deriv (m := m) hr' (by nlinarith [pb 3]) (by nlinarith [pb 2, pb 3])
  have dN := N2_deriv (m := m) hr' (by nlinarith [pa 3]) (by nlinarith [pa 2, pa 3]) hN
  have hB : 0 < m.B (pos 1) := by
    have h0 : m.B (pos 1) = 1 + m.b 0 * (1 - m.x (pos 1)) + m.b 1 / (1 + m.b 2 * m.x (pos 1) / (1 + m.b 3 * m.x (pos 1))) *
      ((1 - m.x (pos 1)) * (1 - m.x (pos 1))) := rfl
    rw [h0]
    have := mul_nonneg (hb 0) (sub_nonneg.mpr hx1)
    have h2 : 0 ≤ m.b 2 * m.x (pos 1) / (1 + m.b 3 * m.x (pos 1)) := div_nonneg (pb 2) (by linarith [pb 3])
    have h3 : 0 ≤ m.b 1 / (1 + m.b 2 * m.x (pos 1) / (1 + m.b 3 * m.x (pos 1))) := div_nonneg (hb 1) (by linarith)
    have := mul_nonneg h3 (mul_self_nonneg (1 - m.x (pos 1)))
    linarith
  unfold christoffel at h
  dsimp only at h
  by_cases hc : pos 1 = 0 ∨ Real.sin (pos 2) = 0
  · rw [if_pos hc] at h
    cases h
  · rw [if_neg hc, Option.some.injEq] at h
    subst h
    push Not at hc
    have e : (fun p => fill (m.form p)) = _ := funext (form_fill m)
    rw [e]
    have hs2 : √(m.N2 (pos 1)) * √(m.N2 (pos 1)) = m.N2 (pos 1) := Real.mul_self_sqrt hN.le
    have hs : √(m.N2 (pos 1)) ≠ 0 := (Real.sqrt_pos.mpr hN).ne'
    have hb : √(m.B2 (pos 1)) = m.B (pos 1) := Real.sqrt_mul_self hB.le
    rw [hb]
    have d0 := hasDerivAt_id (pos 1)
    have hB' := hB.ne'
    have hN' := hN.ne'
    refine isChristoffel_sph (f := fun x => -m.N2 x) (k := fun x => m.B2 x / m.N2 x)
      (h := fun x => x * x) dN.neg ((dB.mul dB).div dN hN') (d0.mul d0) ?_ ?_ ?_ ?_ ?_ ?_ ?_ ?_ ?_
    all_goals
      clear d0 dB dN
      try simp only [id, B2, Pi.mul_apply]
      generalize m.Nprime (pos 1) = N' at *
      generalize m.Bprime (pos 1) = B' at *
      generalize m.B (pos 1) = B at *
      generalize √(m.N2 (pos 1)) = N at *
      try rw [← hs2]
      obtain ⟨-, hc2⟩ := hc
      field_simp
      try ring

/-- With every parameter zero it is the Schwarzschild metric, and the hypotheses hold at `r = 4`. -/
example : ∃ Γ, ({ epsilon := 0, rms := 6, rmb := 4, a := 0, b := 0 } : RZ).christoffel ![0, 4, Real.pi / 3, 0] = some Γ ∧ Γ 1 2 2 = -2 ∧
    IsChristoffel (fun p => fill (({ epsilon := 0, rms := 6, rmb := 4, a := 0, b := 0 } : RZ).form p)) ![0, 4, Real.pi / 3, 0] Γ := by
  have hp : setParam [] = some 0 := by
    simp only [setParam]
    norm_num
    rfl
  have hN : ({ epsilon := 0, rms := 6, rmb := 4, a := 0, b := 0 } : RZ).N2 4 = 1 / 2 := by
    simp [N2]
    norm_num
  have hs : ¬((![0, 4, Real.pi / 3, 0] : Vec) 1 = 0 ∨ Real.sin ((![0, 4, Real.pi / 3, 0] : Vec) 2) = 0) := by simp
  have h : ∃ Γ, ({ epsilon := 0, rms := 6, rmb := 4, a := 0, b := 0 } : RZ).christoffel ![0, 4, Real.pi / 3, 0] = some Γ ∧
      Γ 1 2 2 = -2 := by
    unfold christoffel
    dsimp only
    rw [if_neg hs]
    refine ⟨_, rfl, ?_⟩
    show -(4 : ℝ) * ({ epsilon := 0, rms := 6, rmb := 4, a := 0, b := 0 } : RZ).N2 4 /
      ({ epsilon := 0, rms := 6, rmb := 4, a := 0, b := 0 } : RZ).B2 4 = _
    rw [hN]
    simp [B2, B]
    norm_num
  obtain ⟨Γ, h1, h2⟩ := h
  refine ⟨Γ, h1, h2, christoffel_ok (va := []) (vb := []) hp hp (by norm_num) ?_ ?_ h1⟩
  · simp; norm_num
  · show 0 < ({ epsilon := 0, rms := 6, rmb := 4, a := 0, b := 0 } : RZ).N2 4
    rw [hN]
    norm_num

/-- C65. A copy is not a copy: the marginally bound radius of the copy is the marginally stable radius of the original. -/
theorem copy_wrong : (∀ m : RZ, m.copy.rmb = m.rms) ∧ ∃ m : RZ, m.copy ≠ m := by
  refine ⟨fun m => rfl, { epsilon := 0, rms := 6, rmb := 4, a := 0, b := 0 }, ?_⟩
  simp [copy]

/-- C65. Everything else that the metric can be asked for is the same; and so is the bound radius when it was the stable one. -/
theorem copy_partial (m : RZ) (pos : Vec) : m.copy.coef pos = m.coef pos ∧ m.copy.christoffel pos = m.christoffel pos ∧
    m.copy.rms = m.rms ∧ (m.copy.rmb = m.rmb ↔ m.rmb = m.rms) := ⟨rfl, rfl, rfl, eq_comm⟩

end RZ

end Gyoto.Static
