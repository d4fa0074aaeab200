import Verif.Model.GenericMotion
import Verif.Lemmas.Rk4
import Mathlib.Analysis.Analytic.Constructions
import Mathlib.Analysis.Analytic.Linear
import Mathlib.Analysis.Calculus.Deriv.Prod
import Mathlib.Analysis.SpecialFunctions.ExpDeriv

/-!
# The fixed-step integrator `Metric::Generic::myrk4`
-/

namespace Gyoto.GenericMotion

open Gyoto.MetricAlg Topology Asymptotics Filter

/-- Position and tangent vector: the first eight elements of a state. -/
def first (x : Nat → ℝ) : Fin 8 → ℝ := fun i => x i

/-- For states near `x0`, `f` succeeds and the first eight elements of what it returns are `F` of the first eight of the state. -/
def Provides (f : Nat → Nat → (Nat → ℝ) → (Nat → ℝ) → DiffOut) (n : Nat) (F : (Fin 8 → ℝ) → Fin 8 → ℝ) (x : Fin 8 → ℝ) : Prop :=
  ∀ s : Nat → ℝ, first s = x → ∃ d, f n n s (fun _ => 0) = .ok d ∧ first d = F x

/-- When the four stages succeed, so does the step. -/
theorem rk4_ok {f : Nat → Nat → (Nat → ℝ) → (Nat → ℝ) → DiffOut} {n : Nat} {F : (Fin 8 → ℝ) → Fin 8 → ℝ} {coord res : Nat → ℝ} {h : ℝ}
    (h1 : Provides f n F (first coord)) (h2 : Provides f n F (first coord + (h / 2) • F (first coord)))
    (h3 : Provides f n F (first coord + (h / 2) • Rk4.stage2 F (first coord) h))
    (h4 : Provides f n F (first coord + h • Rk4.stage3 F (first coord) h)) :
    ∃ r, myrk4 f n coord h res = .ok r ∧ (∀ i, 8 ≤ i → r i = res i) ∧
      first r = first coord + (h / 6) • F (first coord) + (h / 3) • Rk4.stage2 F (first coord) h +
        (h / 3) • Rk4.stage3 F (first coord) h + (h / 6) • Rk4.stage4 F (first coord) h := by
  obtain ⟨d1, e1, g1⟩ := h1 _ rfl
  obtain ⟨d2, e2, g2⟩ := h2 (fun i => if i < 8 then coord i + 0.5 * (if i < 8 then h * d1 i else d1 i) else 0) (by
    rw [← g1]; funext i
    simp only [first, if_pos i.2, Pi.add_apply, Pi.smul_apply, smul_eq_mul]; ring)
  obtain ⟨d3, e3, g3⟩ := h3 (fun i => if i < 8 then coord i + 0.5 * (if i < 8 then h * d2 i else d2 i) else 0) (by
    unfold Rk4.stage2; rw [← g2]; funext i
    simp only [first, if_pos i.2, Pi.add_apply, Pi.smul_apply, smul_eq_mul]; ring)
  obtain ⟨d4, e4, g4⟩ := h4 (fun i => if i < 8 then coord i + (if i < 8 then h * d3 i else d3 i) else 0) (by
    unfold Rk4.stage3; rw [← g3]; funext i
    simp only [first, if_pos i.2, Pi.add_apply, Pi.smul_apply, smul_eq_mul])
  unfold myrk4
  simp only [e1, e2, e3, e4]
  refine ⟨_, rfl, fun i hi => if_neg (by omega), ?_⟩
  unfold Rk4.stage4
  rw [← g4]
  unfold Rk4.stage3
  rw [← g3]
  unfold Rk4.stage2
  rw [← g2, ← g1]
  funext i
  simp only [first, if_pos i.2, Pi.add_apply, Pi.smul_apply, smul_eq_mul]
  ring

/-- C75. One step of size `h` from a point of an exact solution lands within a multiple of `h^5` of the solution, wherever the vector
field is analytic; elements from the ninth on are not updated. -/
theorem rk4_local_error {f : Nat → Nat → (Nat → ℝ) → (Nat → ℝ) → DiffOut} {n : Nat} {F : (Fin 8 → ℝ) → Fin 8 → ℝ}
    {coord res : Nat → ℝ} (hf : ∀ᶠ x in 𝓝 (first coord), Provides f n F x) (hF : AnalyticAt ℝ F (first coord))
    {y : ℝ → Fin 8 → ℝ} (hy0 : y 0 = first coord) (hy : ∀ᶠ h in 𝓝 0, HasDerivAt y (F (y h)) h) :
    ∃ R : ℝ → Nat → ℝ, (∀ᶠ h in 𝓝 0, myrk4 f n coord h res = .ok (R h) ∧ ∀ i, 8 ≤ i → R h i = res i) ∧
      (fun h => first (R h) - y h) =O[𝓝 0] fun h : ℝ => h ^ 5 := by
  classical
  set x0 := first coord with hx0
  obtain ⟨A, B, C, hE⟩ := Rk4.expands_of_analytic hF
  have hle := Rk4.local_error hE hy0 hy
  have cF : Tendsto F (𝓝 x0) (𝓝 (F x0)) := hF.continuousAt
  have tid : Tendsto (fun h : ℝ => h) (𝓝 0) (𝓝 0) := tendsto_id
  have thalf : Tendsto (fun h : ℝ => h / 2) (𝓝 0) (𝓝 0) := by
    have := tid.div_const 2
    rwa [zero_div] at this
  have to0 : ∀ {c : ℝ → ℝ} {k : ℝ → Fin 8 → ℝ} {k0 : Fin 8 → ℝ}, Tendsto c (𝓝 0) (𝓝 0) → Tendsto k (𝓝 0) (𝓝 k0) →
      Tendsto (fun h => x0 + c h • k h) (𝓝 0) (𝓝 x0) := by
    intro c k k0 hc hk
    have := (hc.smul hk).const_add x0
    rwa [zero_smul, add_zero] at this
  have t2 := to0 thalf (tendsto_const_nhds (x := F x0))
  have s2 : Tendsto (Rk4.stage2 F x0) (𝓝 0) (𝓝 (F x0)) := cF.comp t2
  have t3 := to0 thalf s2
  have s3 : Tendsto (Rk4.stage3 F x0) (𝓝 0) (𝓝 (F x0)) := cF.comp t3
  have t4 := to0 tid s3
  have hall : ∀ᶠ h in 𝓝 0, ∃ r, myrk4 f n coord h res = .ok r ∧ (∀ i, 8 ≤ i → r i = res i) ∧
      first r = x0 + (h / 6) • F x0 + (h / 3) • Rk4.stage2 F x0 h + (h / 3) • Rk4.stage3 F x0 h + (h / 6) • Rk4.stage4 F x0 h := by
    filter_upwards [t2.eventually hf, t3.eventually hf, t4.eventually hf] with h p2 p3 p4
    exact rk4_ok hf.self_of_nhds p2 p3 p4
  let R : ℝ → Nat → ℝ := fun h => if hh : ∃ r, myrk4 f n coord h res = .ok r ∧ (∀ i, 8 ≤ i → r i = res i) ∧
      first r = x0 + (h / 6) • F x0 + (h / 3) • Rk4.stage2 F x0 h + (h / 3) • Rk4.stage3 F x0 h + (h / 6) • Rk4.stage4 F x0 h
      then hh.choose else fun _ => 0
  refine ⟨R, ?_, ?_⟩
  · filter_upwards [hall] with h hh
    simp only [R, dif_pos hh]
    exact ⟨hh.choose_spec.1, hh.choose_spec.2.1⟩
  · refine IsBigO.congr' hle ?_ (EventuallyEq.refl _ _)
    filter_upwards [hall] with h hh
    simp only [R, dif_pos hh, hh.choose_spec.2.2]

/-- C75. A linear combination of the first eight elements that the vector field keeps constant is kept by each step. -/
theorem rk4_invariant {f : Nat → Nat → (Nat → ℝ) → (Nat → ℝ) → DiffOut} {n : Nat} {c : Fin 8 → ℝ} {coord res r : Nat → ℝ} {h : ℝ}
    (hf : ∀ s d, f n n s (fun _ => 0) = .ok d → ∑ i, c i * first d i = 0) (hr : myrk4 f n coord h res = .ok r) :
    ∑ i, c i * first r i = ∑ i, c i * first coord i := by
  unfold myrk4 at hr
  split at hr
  · cases hr
  · cases hr
  rename_i d1 e1
  dsimp only at hr
  split at hr
  · cases hr
  · cases hr
  rename_i d2 e2
  split at hr
  · cases hr
  · cases hr
  rename_i d3 e3
  split at hr
  · cases hr
  · cases hr
  rename_i d4 e4
  rw [RkOut.ok.injEq] at hr
  subst hr
  have z1 := hf _ _ e1
  have z2 := hf _ _ e2
  have z3 := hf _ _ e3
  have z4 := hf _ _ e4
  simp only [first] at z1 z2 z3 z4 ⊢
  have e : ∀ i : Fin 8, c i * (if (i : Nat) < 8 then coord i + (if (i : Nat) < 8 then 1 / 6 * (if (i : Nat) < 8 then h * d1 i else d1 i) else 0) +
      (if (i : Nat) < 8 then 1 / 3 * (if (i : Nat) < 8 then h * d2 i else d2 i) else 0) +
      (if (i : Nat) < 8 then 1 / 3 * (if (i : Nat) < 8 then h * d3 i else d3 i) else 0) +
      (if (i : Nat) < 8 then 1 / 6 * (if (i : Nat) < 8 then h * d4 i else d4 i) else 0) else res i) =
      c i * coord i + h / 6 * (c i * d1 i) + h / 3 * (c i * d2 i) + h / 3 * (c i * d3 i) + h / 6 * (c i * d4 i) := by
    intro i
    simp only [if_pos i.2]
    ring
  rw [Finset.sum_congr rfl fun i _ => e i]
  simp only [Finset.sum_add_distrib, ← Finset.mul_sum, z1, z2, z3, z4, mul_zero, add_zero]

/-- C75. The step throws only if the vector field does, succeeds if the vector field is available everywhere, and reports a failure
if it is not available at the start. -/
theorem rk4_outcome (f : Nat → Nat → (Nat → ℝ) → (Nat → ℝ) → DiffOut) (n : Nat) (coord res : Nat → ℝ) (h : ℝ) :
    ((∀ s, f n n s (fun _ => 0) ≠ .error) → myrk4 f n coord h res ≠ .error) ∧
    ((∀ s, ∃ d, f n n s (fun _ => 0) = .ok d) → ∃ r, myrk4 f n coord h res = .ok r) ∧
    ((∃ k, f n n coord (fun _ => 0) = .code k) → myrk4 f n coord h res = .failed) := by
  refine ⟨?_, ?_, ?_⟩
  · intro hf hr
    unfold myrk4 at hr
    split at hr
    · rename_i e; exact hf _ e
    · cases hr
    dsimp only at hr
    split at hr
    · rename_i e; exact hf _ e
    · cases hr
    split at hr
    · rename_i e; exact hf _ e
    · cases hr
    split at hr
    · rename_i e; exact hf _ e
    · cases hr
    · cases hr
  · intro hf
    unfold myrk4
    obtain ⟨d1, e1⟩ := hf coord
    rw [e1]
    dsimp only
    obtain ⟨d2, e2⟩ := hf (fun i => if i < 8 then coord i + 0.5 * (if i < 8 then h * d1 i else d1 i) else 0)
    rw [e2]
    dsimp only
    obtain ⟨d3, e3⟩ := hf (fun i => if i < 8 then coord i + 0.5 * (if i < 8 then h * d2 i else d2 i) else 0)
    rw [e3]
    dsimp only
    obtain ⟨d4, e4⟩ := hf (fun i => if i < 8 then coord i + (if i < 8 then h * d3 i else d3 i) else 0)
    rw [e4]
    exact ⟨_, rfl⟩
  · rintro ⟨k, hk⟩
    unfold myrk4
    rw [hk]

/-- The vector field of the geodesic equation. -/
noncomputable def geodesicField (Γ : Vec → Fin 4 → Tensor) (x : Fin 8 → ℝ) : Fin 8 → ℝ :=
  ![x 4, x 5, x 6, x 7,
    -∑ i, ∑ j, Γ ![x 0, x 1, x 2, x 3] 0 i j * (![x 4, x 5, x 6, x 7] i * ![x 4, x 5, x 6, x 7] j),
    -∑ i, ∑ j, Γ ![x 0, x 1, x 2, x 3] 1 i j * (![x 4, x 5, x 6, x 7] i * ![x 4, x 5, x 6, x 7] j),
    -∑ i, ∑ j, Γ ![x 0, x 1, x 2, x 3] 2 i j * (![x 4, x 5, x 6, x 7] i * ![x 4, x 5, x 6, x 7] j),
    -∑ i, ∑ j, Γ ![x 0, x 1, x 2, x 3] 3 i j * (![x 4, x 5, x 6, x 7] i * ![x 4, x 5, x 6, x 7] j)]

theorem provides_geodesic {Γ : Vec → Fin 4 → Tensor} {n : Nat} (hn : 8 ≤ n) {x : Fin 8 → ℝ} (h4 : 1e-6 ≤ x 4) :
    Provides (diff fun s => (0, Γ fun i => s i)) n (geodesicField Γ) x := by
  intro s hs
  have hx : ∀ i : Fin 8, x i = s i := fun i => by rw [← hs]; rfl
  unfold diff
  rw [if_neg (by omega), if_neg (by simp), if_neg (by rw [not_lt]; have := hx 4; rw [this] at h4; exact h4)]
  dsimp only
  rw [if_neg (by simp)]
  refine ⟨_, rfl, ?_⟩
  have e0 : (fun i : Fin 4 => s i) = ![x 0, x 1, x 2, x 3] := by
    funext i; fin_cases i <;> simp [hx]
  have e1 : ∀ i : Fin 4, s (4 + i) = ![x 4, x 5, x 6, x 7] i := by
    intro i; fin_cases i <;> simp [hx]
  have e2 : ∀ i : Fin 4, s (1 * 4 + i) = ![x 4, x 5, x 6, x 7] i := by
    intro i; fin_cases i <;> simp [hx]
  have key : ∀ k : Nat, 4 ≤ k → k < 8 → ∀ α : Fin 4, Fin.ofNat 4 k = α →
      (if k < 4 then s (k + 4) else if k / 4 ≤ (n - 4) / 4 then
        0 - ∑ i : Fin 4, ∑ j : Fin 4, Γ (fun i => s i) (Fin.ofNat 4 k) i j * s (4 + i) * s (k / 4 * 4 + j) else 0) =
      -∑ i, ∑ j, Γ ![x 0, x 1, x 2, x 3] α i j * (![x 4, x 5, x 6, x 7] i * ![x 4, x 5, x 6, x 7] j) := by
    intro k h1 h2 α hα
    have : k / 4 = 1 := by omega
    rw [if_neg (by omega), this, if_pos (by omega), zero_sub, hα, e0]
    simp only [e1, e2, mul_assoc]
  funext i
  match i with
  | 0 => exact (hx 4).symm
  | 1 => exact (hx 5).symm
  | 2 => exact (hx 6).symm
  | 3 => exact (hx 7).symm
  | 4 => exact key 4 (by norm_num) (by norm_num) 0 rfl
  | 5 => exact key 5 (by norm_num) (by norm_num) 1 rfl
  | 6 => exact key 6 (by norm_num) (by norm_num) 2 rfl
  | 7 => exact key 7 (by norm_num) (by norm_num) 3 rfl

theorem analytic_geodesic {Γ : Vec → Fin 4 → Tensor} {x : Fin 8 → ℝ}
    (hΓ : ∀ α i j, AnalyticAt ℝ (fun p => Γ p α i j) ![x 0, x 1, x 2, x 3]) : AnalyticAt ℝ (geodesicField Γ) x := by
  have pr : ∀ k : Fin 8, AnalyticAt ℝ (fun z : Fin 8 → ℝ => z k) x := fun k => (ContinuousLinearMap.proj (R := ℝ) k).analyticAt x
  have pos : AnalyticAt ℝ (fun z : Fin 8 → ℝ => (![z 0, z 1, z 2, z 3] : Vec)) x := by
    rw [analyticAt_pi_iff]
    intro i
    fin_cases i
    · exact pr 0
    · exact pr 1
    · exact pr 2
    · exact pr 3
  have vel : ∀ i : Fin 4, AnalyticAt ℝ (fun z : Fin 8 → ℝ => (![z 4, z 5, z 6, z 7] : Vec) i) x := by
    intro i
    fin_cases i
    · exact pr 4
    · exact pr 5
    · exact pr 6
    · exact pr 7
  have row : ∀ α : Fin 4, AnalyticAt ℝ (fun z : Fin 8 → ℝ => -∑ i, ∑ j, Γ ![z 0, z 1, z 2, z 3] α i j *
      ((![z 4, z 5, z 6, z 7] : Vec) i * (![z 4, z 5, z 6, z 7] : Vec) j)) x := by
    intro α
    refine AnalyticAt.neg (Finset.analyticAt_fun_sum _ fun i _ => Finset.analyticAt_fun_sum _ fun j _ => ?_)
    exact (AnalyticAt.comp (g := fun p => Γ p α i j) (f := fun z : Fin 8 → ℝ => (![z 0, z 1, z 2, z 3] : Vec)) (x := x) (hΓ α i j) pos).mul ((vel i).mul (vel j))
  rw [analyticAt_pi_iff]
  intro i
  match i with
  | 0 => exact pr 4
  | 1 => exact pr 5
  | 2 => exact pr 6
  | 3 => exact pr 7
  | 4 => exact row 0
  | 5 => exact row 1
  | 6 => exact row 2
  | 7 => exact row 3

/-- C75 for the generic equations of motion: a step follows the geodesic from its starting point up to the fifth power of the step. -/
theorem rk4_geodesic {Γ : Vec → Fin 4 → Tensor} {n : Nat} (hn : 8 ≤ n) {coord res : Nat → ℝ} (h4 : 1e-6 < coord 4)
    (hΓ : ∀ α i j, AnalyticAt ℝ (fun p => Γ p α i j) fun i => coord i) {y : ℝ → Fin 8 → ℝ} (hy0 : y 0 = first coord)
    (hy : ∀ᶠ h in 𝓝 0, HasDerivAt y (geodesicField Γ (y h)) h) :
    ∃ R : ℝ → Nat → ℝ, (∀ᶠ h in 𝓝 0, myrk4 (diff fun s => (0, Γ fun i => s i)) n coord h res = .ok (R h) ∧
      ∀ i, 8 ≤ i → R h i = res i) ∧ (fun h => first (R h) - y h) =O[𝓝 0] fun h : ℝ => h ^ 5 := by
  refine rk4_local_error (F := geodesicField Γ) ?_ ?_ hy0 hy
  · have hc : Tendsto (fun x : Fin 8 → ℝ => x 4) (𝓝 (first coord)) (𝓝 (coord 4)) := (continuous_apply (4 : Fin 8)).tendsto _
    filter_upwards [hc.eventually (lt_mem_nhds h4)] with x hx
    exact provides_geodesic hn hx.le
  · refine analytic_geodesic fun α i j => ?_
    have : (![first coord 0, first coord 1, first coord 2, first coord 3] : Vec) = fun i : Fin 4 => coord i := by
      funext i; fin_cases i <;> rfl
    rw [this]
    exact hΓ α i j

/-- A field that does not vanish to any order along its solution: growth at its own rate in all components but the time, where the
solution is the exponential, is followed with an error of order five. -/
example : ∃ R : ℝ → Nat → ℝ, (∀ᶠ h in 𝓝 (0 : ℝ), myrk4 (fun _ _ s _ => .ok s) 8 (fun _ => 1) h (fun _ => 7) = .ok (R h) ∧
    ∀ i, 8 ≤ i → R h i = 7) ∧ (fun h => first (R h) - fun _ => Real.exp h) =O[𝓝 0] fun h : ℝ => h ^ 5 := by
  refine rk4_local_error (F := fun x => x) (y := fun h _ => Real.exp h) ?_ ?_ ?_ ?_
  · exact Eventually.of_forall fun x s hs => ⟨s, rfl, hs⟩
  · exact analyticAt_id
  · funext i; simp [first]
  · exact Eventually.of_forall fun h => hasDerivAt_pi.2 fun i => Real.hasDerivAt_exp h

end Gyoto.GenericMotion
