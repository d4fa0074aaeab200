import Verif.Spec.StokesStep
import Verif.Lemmas.Transfer
import Mathlib.LinearAlgebra.Matrix.ToLinearEquiv
import Mathlib.Topology.Order.IntermediateValue
import Mathlib.Analysis.SpecificLimits.Basic
import Mathlib.Analysis.Calculus.Deriv.MeanValue

/-!
# The flow of the equation of polarised transfer keeps the cone of beams
-/

namespace Gyoto.StokesStep

open Gyoto.Emission (Mueller)
open Gyoto.Transfer
open Matrix

/-! ### The flow -/

/-- Solution of `dx/ds = -K x` with the value `v` at 0. -/
noncomputable def flow (K : Mueller) (v : Fin 4 → ℝ) (s : ℝ) : Fin 4 → ℝ := NormedSpace.exp (-s • K) *ᵥ v

theorem flow_zero (K : Mueller) (v : Fin 4 → ℝ) : flow K v 0 = v := by simp [flow]

open scoped Matrix.Norms.Operator in
/-- A linear function of the exponential. -/
theorem exp_deriv (K : Mueller) (l : Mueller →ₗ[ℝ] ℝ) (s : ℝ) :
    HasDerivAt (fun t : ℝ => l (NormedSpace.exp (-t • K))) (l (-(K * NormedSpace.exp (-s • K)))) s := by
  have d := hasDerivAt_exp_smul_const' (𝕂 := ℝ) (-K) s
  simp only [smul_neg, ← neg_smul, neg_mul] at d
  exact (l.toContinuousLinearMap.hasFDerivAt.comp_hasDerivAt s d)

/-- A coefficient of a matrix applied to a vector. -/
def coeff (A : Mueller) (v : Fin 4 → ℝ) (i : Fin 4) : Mueller →ₗ[ℝ] ℝ where
  toFun M := (A *ᵥ (M *ᵥ v)) i
  map_add' M N := by simp [add_mulVec, mulVec_add]
  map_smul' k M := by simp [smul_mulVec, mulVec_smul]

theorem flow_deriv (K : Mueller) (v : Fin 4 → ℝ) (s : ℝ) (i : Fin 4) :
    HasDerivAt (fun t => flow K v t i) (-(K *ᵥ flow K v s) i) s := by
  have h := exp_deriv K (coeff 1 v i) s
  simpa [coeff, flow, neg_mulVec, mulVec_mulVec] using h

theorem flow_add (K : Mueller) (v w : Fin 4 → ℝ) (s : ℝ) : flow K (v + w) s = flow K v s + flow K w s := by
  simp [flow, mulVec_add]

theorem flow_smul (K : Mueller) (k : ℝ) (v : Fin 4 → ℝ) (s : ℝ) : flow K (k • v) s = k • flow K v s := by
  simp [flow, mulVec_smul]

theorem exp_split (K : Mueller) (s t : ℝ) :
    NormedSpace.exp (-(s + t) • K) = NormedSpace.exp (-s • K) * NormedSpace.exp (-t • K) := by
  rw [neg_add, add_smul, Matrix.exp_add_of_commute]
  exact ((Commute.refl K).smul_left _).smul_right _

theorem exp_comm (K : Mueller) (s : ℝ) : NormedSpace.exp (-s • K) * K = K * NormedSpace.exp (-s • K) :=
  open scoped Matrix.Norms.Operator in (((Commute.refl K).smul_left (-s)).exp_left).eq

/-! ### Invariants for the absorption matrix -/

/-- `I² - Q² - U² - V²`. -/
def q (v : Fin 4 → ℝ) : ℝ := v 0 ^ 2 - v 1 ^ 2 - v 2 ^ 2 - v 3 ^ 2

/-- `I² + Q² + U² + V²`. -/
def n2 (v : Fin 4 → ℝ) : ℝ := v 0 ^ 2 + v 1 ^ 2 + v 2 ^ 2 + v 3 ^ 2

theorem k0 (a : Rotated) (x : Fin 4 → ℝ) : (Kmat a *ᵥ x) 0 = a.aI * x 0 + a.aQ * x 1 + a.aU * x 2 + a.aV * x 3 := by
  simp [Kmat, mulVec, dotProduct, Fin.sum_univ_four]

theorem k1 (a : Rotated) (x : Fin 4 → ℝ) : (Kmat a *ᵥ x) 1 = a.aQ * x 0 + a.aI * x 1 + a.rV * x 2 - a.rU * x 3 := by
  simp [Kmat, mulVec, dotProduct, Fin.sum_univ_four]; ring

theorem k2 (a : Rotated) (x : Fin 4 → ℝ) : (Kmat a *ᵥ x) 2 = a.aU * x 0 - a.rV * x 1 + a.aI * x 2 + a.rQ * x 3 := by
  simp [Kmat, mulVec, dotProduct, Fin.sum_univ_four]; ring

theorem k3 (a : Rotated) (x : Fin 4 → ℝ) : (Kmat a *ᵥ x) 3 = a.aV * x 0 + a.rU * x 1 - a.rQ * x 2 + a.aI * x 3 := by
  simp [Kmat, mulVec, dotProduct, Fin.sum_univ_four]; ring

theorem q_flow (a : Rotated) (v : Fin 4 → ℝ) (s : ℝ) : q (flow (Kmat a) v s) = Real.exp (-(2 * a.aI * s)) * q v := by
  have d : ∀ t, HasDerivAt (fun t => Real.exp (2 * a.aI * t) * q (flow (Kmat a) v t)) 0 t := by
    intro t
    have f0 := (flow_deriv (Kmat a) v t 0).pow 2
    have f1 := (flow_deriv (Kmat a) v t 1).pow 2
    have f2 := (flow_deriv (Kmat a) v t 2).pow 2
    have f3 := (flow_deriv (Kmat a) v t 3).pow 2
    have e : HasDerivAt (fun t => Real.exp (2 * a.aI * t)) (Real.exp (2 * a.aI * t) * (2 * a.aI)) t := by
      simpa using ((hasDerivAt_id t).const_mul (2 * a.aI)).exp
    refine (e.mul (((f0.sub f1).sub f2).sub f3)).congr_deriv ?_
    rw [k0, k1, k2, k3]
    simp only [Pi.sub_apply, Pi.pow_apply]
    generalize flow (Kmat a) v t = x
    push_cast
    ring
  have c := is_const_of_deriv_eq_zero (fun t => (d t).differentiableAt) (fun t => (d t).deriv) s 0
  simp only [mul_zero, Real.exp_zero, one_mul, flow_zero] at c
  rw [← c, ← mul_assoc, ← Real.exp_add]
  simp

/-! ### The cone -/

theorem beam_iff_q (v : Fin 4 → ℝ) : Beam v ↔ 0 ≤ v 0 ∧ 0 ≤ q v := by
  unfold Beam Plasma.IsBeam q
  constructor <;> rintro ⟨h, h'⟩ <;> exact ⟨h, by linarith⟩

/-- The cone is the set of vectors on which some linear functions are not negative. -/
theorem beam_iff (v : Fin 4 → ℝ) :
    Beam v ↔ ∀ b c d : ℝ, b ^ 2 + c ^ 2 + d ^ 2 ≤ 1 → 0 ≤ v 0 + b * v 1 + c * v 2 + d * v 3 := by
  constructor
  · rintro ⟨h0, h⟩ b c d hn
    have cs : (b * v 1 + c * v 2 + d * v 3) ^ 2 ≤ v 0 ^ 2 := by
      have e1 := sq_nonneg (b * v 2 - c * v 1)
      have e2 := sq_nonneg (b * v 3 - d * v 1)
      have e3 := sq_nonneg (c * v 3 - d * v 2)
      have e4 := mul_nonneg (sub_nonneg.2 hn) (by positivity : 0 ≤ v 1 ^ 2 + v 2 ^ 2 + v 3 ^ 2)
      nlinarith
    have := (abs_le_of_sq_le_sq' cs h0).1
    linarith
  · intro h
    have h0 : 0 ≤ v 0 := by simpa using h 0 0 0 (by norm_num)
    refine ⟨h0, ?_⟩
    by_contra hlt
    push Not at hlt
    obtain ⟨N, hN⟩ : ∃ N, N = √(v 1 ^ 2 + v 2 ^ 2 + v 3 ^ 2) := ⟨_, rfl⟩
    have hS : 0 ≤ v 1 ^ 2 + v 2 ^ 2 + v 3 ^ 2 := by positivity
    have hN2 : N ^ 2 = v 1 ^ 2 + v 2 ^ 2 + v 3 ^ 2 := by rw [hN, Real.sq_sqrt hS]
    have hNn : 0 ≤ N := hN ▸ Real.sqrt_nonneg _
    have hNv : v 0 < N := by nlinarith
    have hNp : 0 < N := lt_of_le_of_lt h0 hNv
    have key := h (-(v 1 / N)) (-(v 2 / N)) (-(v 3 / N)) (by
      have : (-(v 1 / N)) ^ 2 + (-(v 2 / N)) ^ 2 + (-(v 3 / N)) ^ 2 = (v 1 ^ 2 + v 2 ^ 2 + v 3 ^ 2) / N ^ 2 := by
        field_simp
      rw [this, hN2, div_self (by rw [← hN2]; positivity)])
    have e : v 0 + -(v 1 / N) * v 1 + -(v 2 / N) * v 2 + -(v 3 / N) * v 3 = v 0 - N := by
      have : v 0 + -(v 1 / N) * v 1 + -(v 2 / N) * v 2 + -(v 3 / N) * v 3 = v 0 - (v 1 ^ 2 + v 2 ^ 2 + v 3 ^ 2) / N := by
        field_simp
        ring
      rw [this, ← hN2]
      field_simp
    rw [e] at key
    linarith

theorem beam_zero : Beam 0 := by simp [Beam, Plasma.IsBeam]

theorem beam_add {v w : Fin 4 → ℝ} (hv : Beam v) (hw : Beam w) : Beam (v + w) := by
  rw [beam_iff] at *
  intro b c d h
  have h1 := hv b c d h
  have h2 := hw b c d h
  simp only [Pi.add_apply]
  linarith

theorem beam_smul {k : ℝ} (hk : 0 ≤ k) {v : Fin 4 → ℝ} (hv : Beam v) : Beam (k • v) := by
  rw [beam_iff] at *
  intro b c d h
  have h1 := mul_nonneg hk (hv b c d h)
  simp only [Pi.smul_apply, smul_eq_mul]
  linarith

/-- Unpolarised light. -/
def e0 : Fin 4 → ℝ := ![1, 0, 0, 0]

theorem beam_e0 : Beam e0 := by simp [Beam, Plasma.IsBeam, e0]

theorem flow_pos (a : Rotated) {v : Fin 4 → ℝ} (h0 : 0 < v 0) (hq : 0 < q v) (s : ℝ) : 0 < flow (Kmat a) v s 0 := by
  by_contra h
  push Not at h
  have hc : Continuous fun t => flow (Kmat a) v t 0 :=
    continuous_iff_continuousAt.2 fun t => (flow_deriv (Kmat a) v t 0).continuousAt
  obtain ⟨z, hz⟩ := mem_range_of_exists_le_of_exists_ge hc ⟨s, h⟩ ⟨0, by rw [flow_zero]; exact h0.le⟩
  have hz' : flow (Kmat a) v z 0 = 0 := hz
  have hqz := q_flow a v z
  have : q (flow (Kmat a) v z) ≤ 0 := by
    unfold q
    rw [hz']
    nlinarith [sq_nonneg (flow (Kmat a) v z 1), sq_nonneg (flow (Kmat a) v z 2), sq_nonneg (flow (Kmat a) v z 3)]
  rw [hqz] at this
  exact absurd (mul_pos (Real.exp_pos _) hq) (not_lt.2 this)

/-- The flow keeps beams. -/
theorem flow_beam (a : Rotated) {v : Fin 4 → ℝ} (hv : Beam v) (s : ℝ) : Beam (flow (Kmat a) v s) := by
  obtain ⟨h0, hq⟩ := (beam_iff_q v).1 hv
  rw [beam_iff_q, q_flow]
  refine ⟨?_, mul_nonneg (Real.exp_pos _).le hq⟩
  have key : ∀ ε : ℝ, 0 < ε → 0 < flow (Kmat a) v s 0 + ε * flow (Kmat a) e0 s 0 := by
    intro ε hε
    have := flow_pos a (v := v + ε • e0) (by simp [e0]; linarith) (by
      have : q (v + ε • e0) = q v + 2 * ε * v 0 + ε ^ 2 := by simp [q, e0]; ring
      rw [this]
      positivity) s
    simpa [flow_add, flow_smul] using this
  by_contra hneg
  push Not at hneg
  have hz : 0 < flow (Kmat a) e0 s 0 := flow_pos a (by simp [e0]) (by simp [q, e0]) s
  have := key (-(flow (Kmat a) v s 0) / flow (Kmat a) e0 s 0) (div_pos (by linarith) hz)
  rw [div_mul_cancel₀ _ hz.ne'] at this
  linarith

/-- A bright beam stays bright. -/
theorem flow_bright (a : Rotated) {v : Fin 4 → ℝ} (hv : Beam v) (hp : 0 < v 0) (s : ℝ) : 0 < flow (Kmat a) v s 0 := by
  obtain ⟨h0, hq⟩ := hv
  obtain ⟨h1, h2⟩ := flow_beam a (v := v) ⟨h0, hq⟩ s
  rcases h1.lt_or_eq with h | h
  · exact h
  exfalso
  -- then the whole vector vanishes at `s`, and the flow backwards gives `v = 0`
  have hz : flow (Kmat a) v s = 0 := by
    rw [← h] at h2
    funext i
    have q1 := sq_nonneg (flow (Kmat a) v s 1)
    have q2 := sq_nonneg (flow (Kmat a) v s 2)
    have q3 := sq_nonneg (flow (Kmat a) v s 3)
    fin_cases i
    · exact h.symm
    · show flow (Kmat a) v s 1 = 0
      exact pow_eq_zero_iff (n := 2) two_ne_zero |>.1 (by nlinarith)
    · show flow (Kmat a) v s 2 = 0
      exact pow_eq_zero_iff (n := 2) two_ne_zero |>.1 (by nlinarith)
    · show flow (Kmat a) v s 3 = 0
      exact pow_eq_zero_iff (n := 2) two_ne_zero |>.1 (by nlinarith)
  have back : flow (Kmat a) (flow (Kmat a) v s) (-s) = v := by
    unfold flow
    rw [mulVec_mulVec, ← exp_split]
    simp
  rw [hz] at back
  have : v 0 = 0 := by rw [← back]; simp [flow]
  linarith

/-! ### Decrease -/

/-- Rate of the decrease. -/
noncomputable def rate (a : Rotated) : ℝ := a.aI - √a.alpha2

theorem alpha2_nonneg (a : Rotated) : 0 ≤ a.alpha2 := by
  unfold Rotated.alpha2
  nlinarith [mul_self_nonneg a.aQ, mul_self_nonneg a.aU, mul_self_nonneg a.aV]

theorem quad_ge (a : Rotated) (x : Fin 4 → ℝ) :
    rate a * n2 x ≤ x 0 * (Kmat a *ᵥ x) 0 + x 1 * (Kmat a *ᵥ x) 1 + x 2 * (Kmat a *ᵥ x) 2 + x 3 * (Kmat a *ᵥ x) 3 := by
  rw [k0, k1, k2, k3]
  obtain ⟨N, hN⟩ : ∃ N, N = √a.alpha2 := ⟨_, rfl⟩
  have hN0 : 0 ≤ N := hN ▸ Real.sqrt_nonneg _
  have hN2 : N ^ 2 = a.aQ ^ 2 + a.aU ^ 2 + a.aV ^ 2 := by
    rw [hN, Real.sq_sqrt (alpha2_nonneg a)]
    unfold Rotated.alpha2
    ring
  unfold rate n2
  rw [← hN]
  -- `2 x0 (a·x) ≥ -N |x|²`
  have key : 0 ≤ N * (x 0 ^ 2 + x 1 ^ 2 + x 2 ^ 2 + x 3 ^ 2) + 2 * x 0 * (a.aQ * x 1 + a.aU * x 2 + a.aV * x 3) := by
    rcases hN0.lt_or_eq with hp | hz
    · have e1 := sq_nonneg (a.aQ * x 2 - a.aU * x 1)
      have e2 := sq_nonneg (a.aQ * x 3 - a.aV * x 1)
      have e3 := sq_nonneg (a.aU * x 3 - a.aV * x 2)
      have e4 := sq_nonneg (N * x 0 + (a.aQ * x 1 + a.aU * x 2 + a.aV * x 3))
      have e5 : 0 ≤ N * (N * (x 0 ^ 2 + x 1 ^ 2 + x 2 ^ 2 + x 3 ^ 2) + 2 * x 0 * (a.aQ * x 1 + a.aU * x 2 + a.aV * x 3)) := by
        have : N ^ 2 * (x 1 ^ 2 + x 2 ^ 2 + x 3 ^ 2) = (a.aQ ^ 2 + a.aU ^ 2 + a.aV ^ 2) * (x 1 ^ 2 + x 2 ^ 2 + x 3 ^ 2) := by rw [hN2]
        nlinarith
      exact nonneg_of_mul_nonneg_right e5 hp
    · rw [← hz] at hN2
      have q1 := sq_nonneg a.aQ
      have q2 := sq_nonneg a.aU
      have q3 := sq_nonneg a.aV
      have z1 : a.aQ = 0 := pow_eq_zero_iff (n := 2) two_ne_zero |>.1 (by nlinarith)
      have z2 : a.aU = 0 := pow_eq_zero_iff (n := 2) two_ne_zero |>.1 (by nlinarith)
      have z3 : a.aV = 0 := pow_eq_zero_iff (n := 2) two_ne_zero |>.1 (by nlinarith)
      rw [z1, z2, z3, ← hz]
      simp
  nlinarith

/-- Any solution of the equation decreases. -/
theorem n2_decay (a : Rotated) {x : ℝ → Fin 4 → ℝ} (hx : ∀ s i, HasDerivAt (fun t => x t i) (-(Kmat a *ᵥ x s) i) s) {s : ℝ}
    (hs : 0 ≤ s) : n2 (x s) ≤ Real.exp (-(2 * rate a * s)) * n2 (x 0) := by
  have d : ∀ t, HasDerivAt (fun t => Real.exp (2 * rate a * t) * n2 (x t))
      (2 * Real.exp (2 * rate a * t) * (rate a * n2 (x t) -
        (x t 0 * (Kmat a *ᵥ x t) 0 + x t 1 * (Kmat a *ᵥ x t) 1 + x t 2 * (Kmat a *ᵥ x t) 2 + x t 3 * (Kmat a *ᵥ x t) 3))) t := by
    intro t
    have f0 := (hx t 0).pow 2
    have f1 := (hx t 1).pow 2
    have f2 := (hx t 2).pow 2
    have f3 := (hx t 3).pow 2
    have e : HasDerivAt (fun t => Real.exp (2 * rate a * t)) (Real.exp (2 * rate a * t) * (2 * rate a)) t := by
      simpa using ((hasDerivAt_id t).const_mul (2 * rate a)).exp
    refine (e.mul (((f0.add f1).add f2).add f3)).congr_deriv ?_
    simp only [Pi.add_apply, Pi.pow_apply, n2]
    push_cast
    ring
  have anti : Antitone fun t => Real.exp (2 * rate a * t) * n2 (x t) := by
    refine antitone_of_deriv_nonpos (fun t => (d t).differentiableAt) fun t => ?_
    rw [(d t).deriv]
    have := quad_ge a (x t)
    have e := Real.exp_pos (2 * rate a * t)
    exact mul_nonpos_of_nonneg_of_nonpos (by positivity) (by linarith)
  have c : Real.exp (2 * rate a * s) * n2 (x s) ≤ Real.exp (2 * rate a * 0) * n2 (x 0) := anti hs
  rw [mul_zero, Real.exp_zero, one_mul] at c
  have e : Real.exp (-(2 * rate a * s)) * (Real.exp (2 * rate a * s) * n2 (x s)) = n2 (x s) := by
    rw [← mul_assoc, ← Real.exp_add]
    simp
  rw [← e]
  exact mul_le_mul_of_nonneg_left c (Real.exp_pos _).le

theorem n2_flow (a : Rotated) (v : Fin 4 → ℝ) {s : ℝ} (hs : 0 ≤ s) :
    n2 (flow (Kmat a) v s) ≤ Real.exp (-(2 * rate a * s)) * n2 v := by
  simpa [flow_zero] using n2_decay a (x := flow (Kmat a) v) (fun s i => flow_deriv (Kmat a) v s i) hs

/-- The intensity of a beam does not increase. -/
theorem flow_fainter {a : Rotated} (h : 0 ≤ rate a) {v : Fin 4 → ℝ} (hv : Beam v) {s : ℝ} (hs : 0 ≤ s) :
    flow (Kmat a) v s 0 ≤ v 0 := by
  have anti : Antitone fun t => flow (Kmat a) v t 0 := by
    refine antitone_of_deriv_nonpos (fun t => (flow_deriv (Kmat a) v t 0).differentiableAt) fun t => ?_
    rw [(flow_deriv (Kmat a) v t 0).deriv, k0]
    obtain ⟨h0, hb⟩ := flow_beam a hv t
    generalize flow (Kmat a) v t = x at h0 hb
    obtain ⟨N, hN⟩ : ∃ N, N = √a.alpha2 := ⟨_, rfl⟩
    have hN0 : 0 ≤ N := hN ▸ Real.sqrt_nonneg _
    have hN2 : N ^ 2 = a.aQ ^ 2 + a.aU ^ 2 + a.aV ^ 2 := by
      rw [hN, Real.sq_sqrt (alpha2_nonneg a)]
      unfold Rotated.alpha2
      ring
    have hr : N ≤ a.aI := by
      unfold rate at h
      rw [← hN] at h
      linarith
    have cs : (a.aQ * x 1 + a.aU * x 2 + a.aV * x 3) ^ 2 ≤ (N * x 0) ^ 2 := by
      have e1 := sq_nonneg (a.aQ * x 2 - a.aU * x 1)
      have e2 := sq_nonneg (a.aQ * x 3 - a.aV * x 1)
      have e3 := sq_nonneg (a.aU * x 3 - a.aV * x 2)
      have e4 := mul_le_mul_of_nonneg_left hb (sq_nonneg N)
      have : N ^ 2 * (x 1 ^ 2 + x 2 ^ 2 + x 3 ^ 2) = (a.aQ ^ 2 + a.aU ^ 2 + a.aV ^ 2) * (x 1 ^ 2 + x 2 ^ 2 + x 3 ^ 2) := by rw [hN2]
      nlinarith
    have := (abs_le_of_sq_le_sq' cs (mul_nonneg hN0 h0)).1
    have := mul_le_mul_of_nonneg_right hr h0
    linarith
  have := anti hs
  simpa [flow_zero] using this

theorem comp_le (v : Fin 4 → ℝ) (i : Fin 4) : v i ^ 2 ≤ n2 v := by
  unfold n2
  have q0 := sq_nonneg (v 0)
  have q1 := sq_nonneg (v 1)
  have q2 := sq_nonneg (v 2)
  have q3 := sq_nonneg (v 3)
  fin_cases i
  · show v 0 ^ 2 ≤ _
    linarith
  · show v 1 ^ 2 ≤ _
    linarith
  · show v 2 ^ 2 ≤ _
    linarith
  · show v 3 ^ 2 ≤ _
    linarith

/-- With absorption the matrix is regular. -/
theorem regular {a : Rotated} (h : 0 < rate a) : IsUnit (Kmat a).det := by
  rw [isUnit_iff_ne_zero]
  intro hd
  obtain ⟨v, hv, hz⟩ := exists_mulVec_eq_zero_iff.2 hd
  have := quad_ge a v
  rw [hz] at this
  simp only [Pi.zero_apply, mul_zero, add_zero] at this
  apply hv
  have hn : n2 v ≤ 0 := by
    by_contra hp
    push Not at hp
    have := mul_pos h hp
    linarith
  funext i
  have := comp_le v i
  exact pow_eq_zero_iff (n := 2) two_ne_zero |>.1 (le_antisymm (by linarith) (sq_nonneg _))

/-- The coefficients of the exponential are between -1 and 1. -/
theorem exp_entry {a : Rotated} (h : 0 ≤ rate a) {s : ℝ} (hs : 0 ≤ s) (i j : Fin 4) : |NormedSpace.exp (-s • Kmat a) i j| ≤ 1 := by
  have e : NormedSpace.exp (-s • Kmat a) i j = flow (Kmat a) (Pi.single j 1) s i := by
    simp [flow]
  have h1 := comp_le (flow (Kmat a) (Pi.single j 1) s) i
  have h2 := n2_flow a (Pi.single j 1) hs
  have h3 : n2 (Pi.single j 1) = 1 := by
    unfold n2
    fin_cases j <;> simp
  have h4 : Real.exp (-(2 * rate a * s)) ≤ 1 := Real.exp_le_one_iff.2 (by have := mul_nonneg h hs; linarith)
  rw [h3, mul_one] at h2
  rw [e]
  exact abs_le_of_sq_le_sq (by linarith) zero_le_one

/-! ### What a length emits -/

/-- `K⁻¹ (1 - exp(-sK)) j`. -/
noncomputable def emitted (K : Mueller) (j : Fin 4 → ℝ) (s : ℝ) : Fin 4 → ℝ := (K⁻¹ * (1 - NormedSpace.exp (-s • K))) *ᵥ j

theorem emitted_eq (K : Mueller) (j : Fin 4 → ℝ) (s : ℝ) : emitted K j s = K⁻¹ *ᵥ (j - flow K j s) := by
  simp [emitted, flow, ← mulVec_mulVec, sub_mulVec]

theorem emitted_zero (K : Mueller) (j : Fin 4 → ℝ) : emitted K j 0 = 0 := by simp [emitted]

theorem emitted_deriv {K : Mueller} (hK : IsUnit K.det) (j : Fin 4 → ℝ) (s : ℝ) (i : Fin 4) :
    HasDerivAt (fun t => emitted K j t i) (flow K j s i) s := by
  have h := (exp_deriv K (coeff K⁻¹ j i) s).const_sub ((K⁻¹ *ᵥ j) i)
  have e1 : (fun t => emitted K j t i) = fun t => (K⁻¹ *ᵥ j) i - coeff K⁻¹ j i (NormedSpace.exp (-t • K)) := by
    funext t
    rw [emitted_eq, mulVec_sub]
    rfl
  rw [e1]
  refine h.congr_deriv ?_
  simp [coeff, neg_mulVec, mulVec_mulVec, ← mul_assoc, Matrix.nonsing_inv_mul _ hK, flow]

theorem emitted_beam {a : Rotated} (hK : IsUnit (Kmat a).det) {j : Fin 4 → ℝ} (hj : Beam j) {s : ℝ} (hs : 0 ≤ s) :
    Beam (emitted (Kmat a) j s) := by
  rw [beam_iff]
  intro b c d hn
  have dv : ∀ t, HasDerivAt (fun t => emitted (Kmat a) j t 0 + b * emitted (Kmat a) j t 1 + c * emitted (Kmat a) j t 2 +
      d * emitted (Kmat a) j t 3) (flow (Kmat a) j t 0 + b * flow (Kmat a) j t 1 + c * flow (Kmat a) j t 2 + d * flow (Kmat a) j t 3) t :=
    fun t => (((emitted_deriv hK j t 0).add ((emitted_deriv hK j t 1).const_mul b)).add ((emitted_deriv hK j t 2).const_mul c)).add
      ((emitted_deriv hK j t 3).const_mul d)
  have mono := monotone_of_deriv_nonneg (fun t => (dv t).differentiableAt) fun t => by
    rw [(dv t).deriv]
    exact (beam_iff _).1 (flow_beam a hj t) b c d hn
  have := mono hs
  simpa [emitted_zero] using this

theorem emitted_bright {a : Rotated} (hK : IsUnit (Kmat a).det) {j : Fin 4 → ℝ} (hj : Beam j) (hp : 0 < j 0) {s : ℝ} (hs : 0 < s) :
    0 < emitted (Kmat a) j s 0 := by
  have mono : StrictMono fun t => emitted (Kmat a) j t 0 :=
    strictMono_of_deriv_pos fun t => by
      rw [(emitted_deriv hK j t 0).deriv]
      exact flow_bright a hj hp t
  have := mono hs
  simpa [emitted_zero] using this

/-- The limit of a thick layer. -/
theorem source_beam {a : Rotated} (h : 0 < rate a) {j : Fin 4 → ℝ} (hj : Beam j) : Beam ((Kmat a)⁻¹ *ᵥ j) := by
  have hK := regular h
  obtain ⟨S, hS⟩ : ∃ S, S = (Kmat a)⁻¹ *ᵥ j := ⟨_, rfl⟩
  have he : ∀ s, emitted (Kmat a) j s = S - flow (Kmat a) S s := by
    intro s
    have c : (Kmat a)⁻¹ * NormedSpace.exp (-s • Kmat a) = NormedSpace.exp (-s • Kmat a) * (Kmat a)⁻¹ := by
      have := exp_comm (Kmat a) s
      calc (Kmat a)⁻¹ * NormedSpace.exp (-s • Kmat a)
          = (Kmat a)⁻¹ * (NormedSpace.exp (-s • Kmat a) * Kmat a) * (Kmat a)⁻¹ := by
            rw [mul_assoc, mul_assoc, Matrix.mul_nonsing_inv _ hK, mul_one]
        _ = NormedSpace.exp (-s • Kmat a) * (Kmat a)⁻¹ := by
            rw [this, ← mul_assoc, Matrix.nonsing_inv_mul _ hK, one_mul]
    rw [emitted, mul_sub, mul_one, sub_mulVec, ← hS, c, ← mulVec_mulVec, ← hS]
    rfl
  rw [← hS, beam_iff]
  intro b c d hn
  -- what is left of `S` is small
  have small : ∀ s, 0 ≤ s → ∀ i, |flow (Kmat a) S s i| ≤ Real.exp (-(rate a * s)) * √(n2 S) := by
    intro s hs i
    refine abs_le_of_sq_le_sq ?_ (by positivity)
    refine (comp_le _ i).trans ((n2_flow a S hs).trans (le_of_eq ?_))
    rw [mul_pow, Real.sq_sqrt (by unfold n2; positivity), ← Real.exp_nat_mul]
    congr 2
    push_cast
    ring
  have lim : Filter.Tendsto (fun s : ℝ => -((1 + |b| + |c| + |d|) * (Real.exp (-(rate a * s)) * √(n2 S)))) Filter.atTop (nhds 0) := by
    have t : Filter.Tendsto (fun s : ℝ => Real.exp (-(rate a * s))) Filter.atTop (nhds 0) :=
      Real.tendsto_exp_neg_atTop_nhds_zero.comp (Filter.tendsto_id.const_mul_atTop h)
    simpa using ((t.mul_const (√(n2 S))).const_mul (1 + |b| + |c| + |d|)).neg
  refine le_of_tendsto lim (Filter.eventually_atTop.2 ⟨0, fun s hs => ?_⟩)
  have hb := (beam_iff _).1 (emitted_beam hK hj hs) b c d hn
  rw [he] at hb
  simp only [Pi.sub_apply] at hb
  have a0 := small s hs 0
  have a1 := small s hs 1
  have a2 := small s hs 2
  have a3 := small s hs 3
  generalize Real.exp (-(rate a * s)) * √(n2 S) = E at *
  generalize flow (Kmat a) S s = x at *
  have m1 : |b * x 1| ≤ |b| * E := by rw [abs_mul]; exact mul_le_mul_of_nonneg_left a1 (abs_nonneg _)
  have m2 : |c * x 2| ≤ |c| * E := by rw [abs_mul]; exact mul_le_mul_of_nonneg_left a2 (abs_nonneg _)
  have m3 : |d * x 3| ≤ |d| * E := by rw [abs_mul]; exact mul_le_mul_of_nonneg_left a3 (abs_nonneg _)
  have n0 := (abs_le.1 a0).1
  have n1 := (abs_le.1 m1).1
  have n2 := (abs_le.1 m2).1
  have n3 := (abs_le.1 m3).1
  nlinarith

/-! ### The coefficients in the basis of the screen -/

theorem sc (m : Cell) (chi : ℝ) : (m.coefs chi).sin2Chi ^ 2 + (m.coefs chi).cos2Chi ^ 2 = 1 := by
  simp [Cell.coefs, Real.sin_sq_add_cos_sq]

theorem alpha2_coefs (m : Cell) (chi : ℝ) : (rotate (m.coefs chi)).alpha2 = m.a 1 ^ 2 + m.a 2 ^ 2 + m.a 3 ^ 2 := by
  have h := Real.sin_sq_add_cos_sq (2 * chi)
  simp only [Rotated.alpha2, rotate, Cell.coefs]
  linear_combination (m.a 1 ^ 2 + m.a 2 ^ 2) * h

theorem r2_coefs (m : Cell) (chi : ℝ) : (rotate (m.coefs chi)).r2 = m.r 0 ^ 2 + m.r 1 ^ 2 + m.r 2 ^ 2 := by
  have h := Real.sin_sq_add_cos_sq (2 * chi)
  simp only [Rotated.r2, rotate, Cell.coefs]
  linear_combination (m.r 0 ^ 2 + m.r 1 ^ 2) * h

theorem dot_coefs (m : Cell) (chi : ℝ) : (rotate (m.coefs chi)).dot = m.a 1 * m.r 0 + m.a 2 * m.r 1 + m.a 3 * m.r 2 := by
  have h := Real.sin_sq_add_cos_sq (2 * chi)
  simp only [Rotated.dot, rotate, Cell.coefs]
  linear_combination (m.a 1 * m.r 0 + m.a 2 * m.r 1) * h

theorem rate_pos {m : Cell} (h : Absorbs m.a) (chi : ℝ) : 0 < rate (rotate (m.coefs chi)) := by
  unfold rate
  rw [alpha2_coefs]
  have : √(m.a 1 ^ 2 + m.a 2 ^ 2 + m.a 3 ^ 2) < m.a 0 := by
    rw [Real.sqrt_lt (by positivity) h.1.le]
    exact h.2
  have e : (rotate (m.coefs chi)).aI = m.a 0 := rfl
  rw [e]
  linarith

/-- The emission in the basis of the screen. -/
noncomputable def turned (m : Cell) (chi : ℝ) : Fin 4 → ℝ := Evpa.rotateJsChi (m.j 0) (m.j 1) (m.j 2) (m.j 3) chi

theorem turned_zero (m : Cell) (chi : ℝ) : turned m chi 0 = m.j 0 := by
  simp [turned, Evpa.rotateJsChi, Evpa.rotateJs]

theorem q_turned (m : Cell) (chi : ℝ) : q (turned m chi) = q m.j := by
  have h := Real.sin_sq_add_cos_sq (2 * chi)
  simp [q, turned, Evpa.rotateJsChi, Evpa.rotateJs]
  linear_combination (-(m.j 1 ^ 2 + m.j 2 ^ 2)) * h

theorem turned_beam {m : Cell} (h : Beam m.j) (chi : ℝ) : Beam (turned m chi) := by
  rw [beam_iff_q] at *
  rw [turned_zero, q_turned]
  exact h

theorem frob (m : Cell) (chi L : ℝ) : ∑ i, ∑ j, (L • Kmat (rotate (m.coefs chi))) i j ^ 2 = depth2 m L := by
  have e : ∑ i, ∑ j, (L • Kmat (rotate (m.coefs chi))) i j ^ 2 = L ^ 2 * (4 * (rotate (m.coefs chi)).aI ^ 2 +
      2 * (rotate (m.coefs chi)).alpha2 + 2 * (rotate (m.coefs chi)).r2) := by
    simp [Fin.sum_univ_four, Kmat, Rotated.alpha2, Rotated.r2]
    ring
  rw [e, alpha2_coefs, r2_coefs]
  rfl

theorem kmat_absorption (a : Rotated) : Kmat a = absorption a.aI a.aQ a.aU a.aV a.rQ a.rU a.rV := rfl

theorem theta_coefs (m : Cell) (chi : ℝ) : (rotate (m.coefs chi)).Theta = 0 ↔
    m.a 1 ^ 2 + m.a 2 ^ 2 + m.a 3 ^ 2 = m.r 0 ^ 2 + m.r 1 ^ 2 + m.r 2 ^ 2 ∧ m.a 1 * m.r 0 + m.a 2 * m.r 1 + m.a 3 * m.r 2 = 0 := by
  have h1 := lambda1_sq (rotate (m.coefs chi))
  have h2 := lambda2_sq (rotate (m.coefs chi))
  have e : (rotate (m.coefs chi)).Theta = 2 * √(((rotate (m.coefs chi)).alpha2 - (rotate (m.coefs chi)).r2) ^ 2 / 4 +
      (rotate (m.coefs chi)).dot ^ 2) := by rw [Rotated.Theta, h1, h2]; ring
  rw [e, alpha2_coefs, r2_coefs, dot_coefs]
  generalize m.a 1 ^ 2 + m.a 2 ^ 2 + m.a 3 ^ 2 = x
  generalize m.r 0 ^ 2 + m.r 1 ^ 2 + m.r 2 ^ 2 = y
  generalize m.a 1 * m.r 0 + m.a 2 * m.r 1 + m.a 3 * m.r 2 = z
  constructor
  · intro h
    have h0 : √((x - y) ^ 2 / 4 + z ^ 2) = 0 := by linarith
    rw [Real.sqrt_eq_zero (by positivity)] at h0
    have q1 := sq_nonneg (x - y)
    have q2 := sq_nonneg z
    have z1 : x - y = 0 := pow_eq_zero_iff (n := 2) two_ne_zero |>.1 (by nlinarith)
    exact ⟨by linarith, pow_eq_zero_iff (n := 2) two_ne_zero |>.1 (by nlinarith)⟩
  · rintro ⟨h, h'⟩
    simp [h, h']

/-! ### The two matrices -/

theorem omatrix_eq {m : Cell} (h : Absorbs m.a) (chi : ℝ) {L : ℝ} (hL : 0 ≤ L) : Omatrix (m.coefs chi) L =
    .ok (if (rotate (m.coefs chi)).Theta = 0 then 1 else NormedSpace.exp (-L • Kmat (rotate (m.coefs chi)))) := by
  by_cases hT : (rotate (m.coefs chi)).Theta = 0
  · simp only [Omatrix, hT, if_true]
  have hb : Real.exp (-(rotate (m.coefs chi)).aI * L) • bracket (rotate (m.coefs chi)) L =
      NormedSpace.exp (-L • Kmat (rotate (m.coefs chi))) := by rw [kmat_absorption]; exact omatrix_bracket _ hT L
  rw [if_neg hT]
  simp only [Omatrix, hT, if_false]
  unfold bracket at hb
  rw [hb, if_neg]
  rintro ⟨i, j, hij⟩
  have := exp_entry (rate_pos h chi).le hL i j
  linarith

/-- What `Pmatrix` is before the test of the end. -/
noncomputable def pmat (m : Cell) (chi L : ℝ) : Mueller :=
  open Classical in
  if m.a 0 * L > 100 then (Kmat (rotate (m.coefs chi)))⁻¹
  else if √(depth2 m L) < 1e-3 then L • ((1 : Mueller) - (0.5 : ℝ) • (L • Kmat (rotate (m.coefs chi))))
  else (Kmat (rotate (m.coefs chi)))⁻¹ * (1 - NormedSpace.exp (-L • Kmat (rotate (m.coefs chi))))

theorem depth_small {m : Cell} {L : ℝ} (h : √(depth2 m L) < 1e-3) : depth2 m L < 1e-6 := by
  have h0 : 0 ≤ depth2 m L := by unfold depth2; positivity
  rw [Real.sqrt_lt h0 (by norm_num)] at h
  norm_num at h ⊢
  exact h

theorem depth_aI {m : Cell} {L : ℝ} (h : depth2 m L < 1e-6) : |L * m.a 0| ≤ 5e-4 := by
  refine abs_le_of_sq_le_sq ?_ (by norm_num)
  unfold depth2 at h
  have := mul_nonneg (sq_nonneg L) (by positivity : 0 ≤ m.a 1 ^ 2 + m.a 2 ^ 2 + m.a 3 ^ 2)
  have := mul_nonneg (sq_nonneg L) (by positivity : 0 ≤ m.r 0 ^ 2 + m.r 1 ^ 2 + m.r 2 ^ 2)
  nlinarith

theorem pmatrix_eq {m : Cell} (h : Absorbs m.a) (chi : ℝ) {L : ℝ} (hL : 0 ≤ L) :
    Pmatrix (m.coefs chi) L = some (pmat m chi L) := by
  have hr := rate_pos h chi
  have hK := regular hr
  have aI : (rotate (m.coefs chi)).aI = m.a 0 := rfl
  have h00 : ∀ M : Mueller, M 0 0 = (M *ᵥ e0) 0 := by
    intro M
    simp [e0, mulVec, dotProduct, Fin.sum_univ_four]
  have hp : 0 ≤ pmat m chi L 0 0 := by
    unfold pmat
    split_ifs with h1 h2
    · refine le_of_le_of_eq (source_beam hr beam_e0).1 (h00 _).symm
    · have h3 := abs_le.1 (depth_aI (depth_small h2))
      have : (L • ((1 : Mueller) - (0.5 : ℝ) • (L • Kmat (rotate (m.coefs chi))))) 0 0 = L * (1 - 0.5 * (L * m.a 0)) := by
        simp [Kmat, aI]
      rw [this]
      exact mul_nonneg hL (by linarith [h3.2])
    · exact le_of_le_of_eq (emitted_beam hK beam_e0 hL).1 (h00 _).symm
  have e : Pmatrix (m.coefs chi) L = if pmat m chi L 0 0 < 0 then some 0 else some (pmat m chi L) := by
    unfold Pmatrix pmat
    simp only [aI, frob, hK, if_true]
    split_ifs <;> simp_all
  rw [e, if_neg (not_lt.2 hp)]

theorem step_eq {m : Cell} (h : Absorbs m.a) (chi : ℝ) {L : ℝ} (hL : 0 ≤ L) : step m chi L =
    open Classical in
    if (pmat m chi L *ᵥ turned m chi) 0 ≤ 0 then .ok (0, 1)
    else .ok (pmat m chi L *ᵥ turned m chi,
      if (rotate (m.coefs chi)).Theta = 0 then 1 else NormedSpace.exp (-L • Kmat (rotate (m.coefs chi)))) := by
  unfold step
  simp only [omatrix_eq h chi hL, pmatrix_eq h chi hL]
  rfl

/-- What a thin layer emits, if the emission is not completely polarised. -/
theorem thin_beam {m : Cell} (chi : ℝ) {L : ℝ} (hL : 0 ≤ L) (hd : depth2 m L < 1e-6) (hj : Beam m.j)
    (hq : 1e-6 * m.j 0 ^ 2 ≤ q m.j) :
    Beam ((L • ((1 : Mueller) - (0.5 : ℝ) • (L • Kmat (rotate (m.coefs chi))))) *ᵥ turned m chi) := by
  obtain ⟨a, ha⟩ : ∃ a, a = rotate (m.coefs chi) := ⟨_, rfl⟩
  obtain ⟨J, hJ⟩ : ∃ J, J = turned m chi := ⟨_, rfl⟩
  have hJb : Beam J := hJ ▸ turned_beam hj chi
  have hJq : q J = q m.j := by rw [hJ, q_turned]
  have hJ0 : J 0 = m.j 0 := by rw [hJ, turned_zero]
  rw [← ha, ← hJ]
  have aI : a.aI = m.a 0 := by rw [ha]; rfl
  have e : (L • ((1 : Mueller) - (0.5 : ℝ) • (L • Kmat a))) *ᵥ J = L • (J - (0.5 * L) • (Kmat a *ᵥ J)) := by
    rw [smul_mulVec, sub_mulVec, one_mulVec, smul_smul, smul_mulVec]
  rw [e]
  refine beam_smul hL ?_
  have hlin := abs_le.1 (depth_aI hd)
  -- the product is small
  have cs : ∀ w x y z : ℝ, (w * J 0 + x * J 1 + y * J 2 + z * J 3) ^ 2 ≤ (w ^ 2 + x ^ 2 + y ^ 2 + z ^ 2) * n2 J := by
    intro w x y z
    unfold n2
    nlinarith [sq_nonneg (w * J 1 - x * J 0), sq_nonneg (w * J 2 - y * J 0), sq_nonneg (w * J 3 - z * J 0),
      sq_nonneg (x * J 2 - y * J 1), sq_nonneg (x * J 3 - z * J 1), sq_nonneg (y * J 3 - z * J 2)]
  have hK : n2 (Kmat a *ᵥ J) * L ^ 2 ≤ 1e-6 * n2 J := by
    have e0 := cs a.aI a.aQ a.aU a.aV
    have e1 := cs a.aQ a.aI a.rV (-a.rU)
    have e2 := cs a.aU (-a.rV) a.aI a.rQ
    have e3 := cs a.aV a.rU (-a.rQ) a.aI
    have hn : 0 ≤ n2 J := by unfold n2; positivity
    have hf : depth2 m L = L ^ 2 * (4 * a.aI ^ 2 + 2 * a.alpha2 + 2 * a.r2) := by
      rw [ha, alpha2_coefs, r2_coefs]; rfl
    have hle : n2 (Kmat a *ᵥ J) ≤ (4 * a.aI ^ 2 + 2 * a.alpha2 + 2 * a.r2) * n2 J := by
      have e : n2 (Kmat a *ᵥ J) = (a.aI * J 0 + a.aQ * J 1 + a.aU * J 2 + a.aV * J 3) ^ 2 +
          (a.aQ * J 0 + a.aI * J 1 + a.rV * J 2 + -a.rU * J 3) ^ 2 + (a.aU * J 0 + -a.rV * J 1 + a.aI * J 2 + a.rQ * J 3) ^ 2 +
          (a.aV * J 0 + a.rU * J 1 + -a.rQ * J 2 + a.aI * J 3) ^ 2 := by
        unfold n2
        rw [k0, k1, k2, k3]
        ring
      rw [e]
      unfold Rotated.alpha2 Rotated.r2
      nlinarith
    calc n2 (Kmat a *ᵥ J) * L ^ 2 ≤ (4 * a.aI ^ 2 + 2 * a.alpha2 + 2 * a.r2) * n2 J * L ^ 2 :=
          mul_le_mul_of_nonneg_right hle (sq_nonneg L)
      _ = depth2 m L * n2 J := by rw [hf]; ring
      _ ≤ 1e-6 * n2 J := mul_le_mul_of_nonneg_right hd.le hn
  have hn2 : n2 J ≤ 2 * J 0 ^ 2 := by
    have := hJb.2
    unfold n2
    linarith
  rw [beam_iff_q]
  constructor
  · have h1 : ((0.5 * L) * (Kmat a *ᵥ J) 0) ^ 2 ≤ J 0 ^ 2 := by
      have := comp_le (Kmat a *ᵥ J) 0
      have := mul_le_mul_of_nonneg_right this (sq_nonneg L)
      nlinarith
    have := (abs_le_of_sq_le_sq' h1 hJb.1).2
    simp only [Pi.sub_apply, Pi.smul_apply, smul_eq_mul]
    linarith
  · have hq' : q (J - (0.5 * L) • (Kmat a *ᵥ J)) = (1 - L * a.aI) * q J + 0.25 * L ^ 2 * q (Kmat a *ᵥ J) := by
      simp only [q, Pi.sub_apply, Pi.smul_apply, smul_eq_mul]
      rw [k0, k1, k2, k3]
      ring
    have hqK : -n2 (Kmat a *ᵥ J) ≤ q (Kmat a *ᵥ J) := by
      unfold q n2
      nlinarith [sq_nonneg ((Kmat a *ᵥ J) 0)]
    have h2 := mul_le_mul_of_nonneg_right hqK (sq_nonneg L)
    rw [hq', hJq, aI]
    have h3 : 0 ≤ q m.j := le_trans (by positivity) hq
    have h4 : 0.9995 * q m.j ≤ (1 - L * m.a 0) * q m.j := mul_le_mul_of_nonneg_right (by linarith [hlin.2]) h3
    rw [hJ0] at hn2
    nlinarith

end Gyoto.StokesStep
