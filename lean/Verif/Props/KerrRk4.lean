import Verif.Lemmas.KerrRk4
import Mathlib.Analysis.Calculus.Deriv.Pi
import Mathlib.Analysis.Calculus.Deriv.Prod

/-!
# The fixed-step integrators of the Kerr metric
-/

namespace Gyoto.KerrBL

open Gyoto.MetricAlg Topology Asymptotics Filter

theorem step_error {stage : Vec → Vec → StepRes} {F : Vec × Vec → Vec × Vec} {q0 : Vec × Vec}
    (hs : ∀ᶠ q in 𝓝 q0, stage q.1 q.2 = .ok (F q).1 (F q).2) (hF : AnalyticAt ℝ F q0) {y : ℝ → Vec × Vec} (hy0 : y 0 = q0)
    (hy : ∀ᶠ h in 𝓝 0, HasDerivAt y (F (y h)) h) :
    ∃ R : ℝ → Vec × Vec, (∀ᶠ h in 𝓝 0, rk4 stage h q0.1 q0.2 = .ok (R h).1 (R h).2) ∧ (fun h => R h - y h) =O[𝓝 0] fun h : ℝ => h ^ 5 := by
  obtain ⟨A, B, C, hE⟩ := Rk4.expands_of_analytic hF
  have hle := Rk4.local_error hE hy0 hy
  have cF : Tendsto F (𝓝 q0) (𝓝 (F q0)) := hF.continuousAt
  have tid : Tendsto (fun h : ℝ => h) (𝓝 0) (𝓝 0) := tendsto_id
  have thalf : Tendsto (fun h : ℝ => h / 2) (𝓝 0) (𝓝 0) := by
    have := tid.div_const 2
    rwa [zero_div] at this
  have to0 : ∀ {c : ℝ → ℝ} {k : ℝ → Vec × Vec} {k0 : Vec × Vec}, Tendsto c (𝓝 0) (𝓝 0) → Tendsto k (𝓝 0) (𝓝 k0) →
      Tendsto (fun h => q0 + c h • k h) (𝓝 0) (𝓝 q0) := by
    intro c k k0 hc hk
    have := (hc.smul hk).const_add q0
    rwa [zero_smul, add_zero] at this
  have t2 := to0 thalf (tendsto_const_nhds (x := F q0))
  have s2 : Tendsto (Rk4.stage2 F q0) (𝓝 0) (𝓝 (F q0)) := cF.comp t2
  have t3 := to0 thalf s2
  have s3 : Tendsto (Rk4.stage3 F q0) (𝓝 0) (𝓝 (F q0)) := cF.comp t3
  have t4 := to0 tid s3
  refine ⟨fun h => q0 + (h / 6) • F q0 + (h / 3) • Rk4.stage2 F q0 h + (h / 3) • Rk4.stage3 F q0 h + (h / 6) • Rk4.stage4 F q0 h, ?_,
    hle⟩
  filter_upwards [t2.eventually hs, t3.eventually hs, t4.eventually hs] with h p2 p3 p4
  obtain ⟨r, hr, rfl⟩ := rk4_ok (h := h) hs.self_of_nhds (fun q2 e => by rw [e]; exact p2) (fun q3 e => by rw [e]; exact p3)
    (fun q4 e => by rw [e]; exact p4)
  exact hr

theorem analytic_lipschitz {G : Vec × Vec → Vec × Vec} {q0 : Vec × Vec} (hG : AnalyticAt ℝ G q0) {R y : ℝ → Vec × Vec}
    (hR : Tendsto R (𝓝 0) (𝓝 q0)) (hy : Tendsto y (𝓝 0) (𝓝 q0)) :
    (fun h => G (R h) - G (y h)) =O[𝓝 0] fun h => R h - y h :=
  (hG.hasStrictFDerivAt).isBigO_sub.comp_tendsto (hR.prodMk_nhds hy)

/-- An exact solution, near the start, of the equations of motion. -/
def Solves (a rsink : ℝ) (cst : Cst) (X P : ℝ → Vec) : Prop :=
  ∀ᶠ h in 𝓝 0, ∃ dx dp, diff a rsink cst (X h) (P h) = .ok dx dp ∧ HasDerivAt X dx h ∧ HasDerivAt P dp h

theorem solves_field {a rsink : ℝ} {cst : Cst} {X P : ℝ → Vec} (h : Solves a rsink cst X P) (hin : Inside a rsink (X 0, P 0)) :
    (∀ᶠ h in 𝓝 0, Inside a rsink (X h, P h)) ∧ ∀ᶠ h in 𝓝 0, HasDerivAt (fun h => (X h, P h)) (kerrField a cst (X h, P h)) h := by
  obtain ⟨dx, dp, -, hX, hP⟩ := h.self_of_nhds
  have hc : Tendsto (fun h => (X h, P h)) (𝓝 0) (𝓝 (X 0, P 0)) := (hX.continuousAt.prodMk hP.continuousAt).tendsto
  have hi : ∀ᶠ h in 𝓝 0, Inside a rsink (X h, P h) := hc.eventually ((inside_open a rsink).mem_nhds hin)
  refine ⟨hi, ?_⟩
  filter_upwards [h, hi] with t ⟨dx, dp, hd, hX, hP⟩ ht
  have := diff_inside (cst := cst) ht
  rw [hd, DiffRes.ok.injEq] at this
  rw [← Prod.mk.eta (p := kerrField a cst (X t, P t)), ← this.1, ← this.2]
  exact hX.prodMk hP

/-- C77. A stage leaves energy and angular momentum alone, and so does a step, exactly. -/
theorem rk4_constants {stage : Vec → Vec → StepRes} (hst : ∀ x p dx dp, stage x p = .ok dx dp → dp 0 = 0 ∧ dp 3 = 0) {h : ℝ}
    {x p x' p' : Vec} (hr : rk4 stage h x p = .ok x' p') : p' 0 = p 0 ∧ p' 3 = p 3 := by
  unfold rk4 at hr
  split at hr
  · cases hr
  · cases hr
  rename_i dx1 dp1 e1
  dsimp only at hr
  split at hr
  · cases hr
  · cases hr
  rename_i dx2 dp2 e2
  split at hr
  · cases hr
  · cases hr
  rename_i dx3 dp3 e3
  split at hr
  · cases hr
  · cases hr
  rename_i dx4 dp4 e4
  rw [StepRes.ok.injEq] at hr
  rw [← hr.2]
  dsimp only
  rw [(hst _ _ _ _ e1).1, (hst _ _ _ _ e2).1, (hst _ _ _ _ e3).1, (hst _ _ _ _ e4).1, (hst _ _ _ _ e1).2, (hst _ _ _ _ e2).2,
    (hst _ _ _ _ e3).2, (hst _ _ _ _ e4).2]
  simp

theorem stagePublic_ok {a rsink : ℝ} {cst : Cst} {x p dx dp : Vec} (h : stagePublic a rsink cst x p = .ok dx dp) :
    diff a rsink cst x p = .ok dx dp ∧ 1e-10 ≤ thetaCompare (x 2) := by
  unfold stagePublic at h
  by_cases h1 : thetaCompare (x 2) < 1e-10
  · rw [if_pos h1] at h; cases h
  rw [if_neg h1] at h
  refine ⟨?_, not_lt.1 h1⟩
  split at h
  · cases h
  · cases h
  · rename_i e
    rw [StepRes.ok.injEq] at h
    rw [e, h.1, h.2]

theorem stageInternal_ok {a rsink derlim : ℝ} {axis : Bool} {cst : Cst} {x p dx dp : Vec}
    (h : stageInternal a rsink cst axis derlim x p = .ok dx dp) : diff a rsink cst x p = .ok dx dp := by
  unfold stageInternal at h
  split at h
  · cases h
  · cases h
  · rename_i e
    split_ifs at h
    rw [StepRes.ok.injEq] at h
    rw [e, h.1, h.2]

/-- C77. A step on positions and momenta, away from the axis: it follows the exact solution to within the fifth power of the step. -/
theorem internal_error {a rsink : ℝ} {cst : Cst} {X P : ℝ → Vec} (hsol : Solves a rsink cst X P) (hin : Inside a rsink (X 0, P 0))
    (hax : 1e-1 ≤ thetaCompare (X 0 2)) :
    ∃ R : ℝ → Vec × Vec, (∀ᶠ h in 𝓝 0, myrk4Internal a rsink cst h (X 0) (P 0) = .ok (R h).1 (R h).2) ∧
      (fun h => R h - (X h, P h)) =O[𝓝 0] fun h : ℝ => h ^ 5 := by
  unfold myrk4Internal
  dsimp only
  generalize (if 1 - a * a < 0 then false else decide (X 0 1 < 5 * (1 + √(1 - a * a)))) = near
  have hfar : decide (thetaCompare (X 0 2) < if near = true then 1e-1 else 2e-3) = false := by
    rw [decide_eq_false_iff_not, not_lt]
    split_ifs
    · exact hax
    · exact le_trans (by norm_num) hax
  rw [hfar]
  refine step_error (q0 := (X 0, P 0)) (F := kerrField a cst) ?_ (kerrField_analytic hin) rfl (solves_field hsol hin).2
  filter_upwards [(inside_open a rsink).mem_nhds hin] with q hq
  unfold stageInternal
  rw [diff_inside hq]
  simp

/-- C77. A step on positions and velocities: both follow the exact solution to within the fifth power of the step. -/
theorem public_error {a rsink : ℝ} {cst : Cst} {v : Vec} {X P V : ℝ → Vec} (hsol : Solves a rsink cst X P)
    (hin : Inside a rsink (X 0, P 0)) (hP : P 0 = makeMomentum a cst (X 0) v) (hV : ∀ᶠ h in 𝓝 0, HasDerivAt X (V h) h)
    (hneg : -(Real.pi / 2) < X 0 2) (hax : 1e-10 < thetaCompare (X 0 2)) :
    ∃ Y W : ℝ → Vec, (∀ᶠ h in 𝓝 0, myrk4Public a rsink cst h (X 0) v = .ok (Y h) (W h)) ∧
      (fun h => Y h - X h) =O[𝓝 0] (fun h : ℝ => h ^ 5) ∧ (fun h => W h - V h) =O[𝓝 0] fun h : ℝ => h ^ 5 := by
  obtain ⟨hyin, hyd⟩ := solves_field hsol hin
  have hst : ∀ᶠ q in 𝓝 (X 0, P 0), stagePublic a rsink cst q.1 q.2 = .ok (kerrField a cst q).1 (kerrField a cst q).2 := by
    have hc : Tendsto (fun q : Vec × Vec => q.1 2) (𝓝 (X 0, P 0)) (𝓝 (X 0 2)) := by
      have : Continuous fun q : Vec × Vec => q.1 2 := by fun_prop
      exact this.tendsto _
    filter_upwards [(inside_open a rsink).mem_nhds hin, hc.eventually (thetaCompare_near hneg hax)] with q hq hq2
    unfold stagePublic
    rw [if_neg (not_lt.2 hq2.le), diff_inside hq]
  have hFa := kerrField_analytic (cst := cst) hin
  obtain ⟨R, hR, hO⟩ := step_error (y := fun h => (X h, P h)) hst hFa rfl hyd
  dsimp only at hR
  have hyc : Tendsto (fun h => (X h, P h)) (𝓝 0) (𝓝 (X 0, P 0)) := hyd.self_of_nhds.continuousAt.tendsto
  have h5 : Tendsto (fun h : ℝ => h ^ 5) (𝓝 0) (𝓝 0) := by
    have := (continuous_pow (M := ℝ) 5).tendsto 0
    simpa using this
  have hRc : Tendsto R (𝓝 0) (𝓝 (X 0, P 0)) := by
    have h0 := hO.trans_tendsto h5
    have := h0.add hyc
    simpa using this
  have hRin : ∀ᶠ h in 𝓝 0, Inside a rsink (R h) := hRc.eventually ((inside_open a rsink).mem_nhds hin)
  refine ⟨fun h => (R h).1, fun h => makeCoord a cst (R h).1 (R h).2, ?_, ?_, ?_⟩
  · filter_upwards [hR] with h hh
    unfold myrk4Public
    rw [← hP, hh]
  · refine IsBigO.trans ?_ hO
    exact IsBigO.of_bound 1 (Eventually.of_forall fun h => by rw [one_mul]; exact norm_fst_le (R h - (X h, P h)))
  · have h2 := analytic_lipschitz hFa hRc hyc
    have h3 : (fun h => (kerrField a cst (R h)).1 - (kerrField a cst (X h, P h)).1) =O[𝓝 0] fun h : ℝ => h ^ 5 := by
      refine IsBigO.trans ?_ (h2.trans hO)
      exact IsBigO.of_bound 1 (Eventually.of_forall fun h => by
        rw [one_mul]; exact norm_fst_le (kerrField a cst (R h) - kerrField a cst (X h, P h)))
    refine h3.congr' ?_ (EventuallyEq.refl _ _)
    filter_upwards [hR, hRin, hV, hyd] with h e1 e2 e3 e4
    have c := rk4_constants (fun x p dx dp e => diff_energy (stagePublic_ok e).1) e1
    rw [hP] at c
    have e5 : (kerrField a cst (R h)).1 = makeCoord a cst (R h).1 (R h).2 := diff_coord (diff_inside e2) c.1 c.2
    have e6 : HasDerivAt X (kerrField a cst (X h, P h)).1 h := (ContinuousLinearMap.fst ℝ Vec Vec).hasFDerivAt.comp_hasDerivAt h e4
    rw [e5, e3.unique e6]

/-- C77. Whatever the step, energy and angular momentum of the result are exactly those in `cst`. -/
theorem public_constants {a rsink h : ℝ} {cst : Cst} {x v x' v' : Vec} (hr : myrk4Public a rsink cst h x v = .ok x' v')
    (hreg : Regular a x') : (computeCst a x' v').E = cst.E ∧ (computeCst a x' v').L = cst.L := by
  unfold myrk4Public at hr
  split at hr
  · cases hr
  · cases hr
  rename_i x1 p1 e
  rw [StepRes.ok.injEq] at hr
  obtain ⟨rfl, rfl⟩ := hr
  have c := rk4_constants (fun x p dx dp e => diff_energy (stagePublic_ok e).1) e
  have := cst_coord hreg c.1 c.2
  exact ⟨this.1, this.2.1⟩

/-- C77. The step is refused at the start exactly on the axis, within 1e-10, for polar angles from `-π/2` on, with code 1, and below the
sink radius, with code 2. -/
theorem public_refuses {a rsink h : ℝ} {cst : Cst} {x v : Vec} :
    (-(Real.pi / 2) ≤ x 2 → (∃ k : ℤ, |x 2 - k * Real.pi| < 1e-10) → myrk4Public a rsink cst h x v = .code 1) ∧
    ((∀ k : ℤ, 1e-10 ≤ |x 2 - k * Real.pi|) → -(Real.pi / 2) ≤ x 2 → 0 ≤ x 1 → x 1 < rsink →
      myrk4Public a rsink cst h x v = .code 2) := by
  constructor
  · rintro h0 ⟨k, hk⟩
    unfold myrk4Public rk4 stagePublic
    rw [if_pos (lt_of_le_of_lt ((thetaCompare_eq h0).2 k) hk)]
  · intro hk h0 h1 h2
    obtain ⟨k, e⟩ := (thetaCompare_eq h0).1
    have hd : diff a rsink cst x (makeMomentum a cst x v) = .stop := by
      unfold diff
      dsimp only
      rw [if_neg (not_lt.2 h1), if_pos h2]
    unfold myrk4Public rk4 stagePublic
    rw [if_neg (not_lt.2 (by rw [e]; exact hk k)), hd]

/-- C77. A step on positions and momenta is refused at the start, with code 1, near the axis if one of the derivatives of the momenta is too
large: near the black hole within 0.1 of the axis and beyond 1e4, far from it within 2e-3 and beyond 1e6. -/
theorem internal_refuses {a rsink h : ℝ} {cst : Cst} {x p dx dp : Vec} (ha : a * a ≤ 1) (hd : diff a rsink cst x p = .ok dx dp) (i : Fin 4)
    (hi : i = 1 ∨ i = 2) :
    (x 1 < 5 * (1 + √(1 - a * a)) → thetaCompare (x 2) < 1e-1 → 1e4 < |dp i| → myrk4Internal a rsink cst h x p = .code 1) ∧
    (5 * (1 + √(1 - a * a)) ≤ x 1 → thetaCompare (x 2) < 2e-3 → 1e6 < |dp i| → myrk4Internal a rsink cst h x p = .code 1) := by
  have hor : ∀ l : ℝ, l < |dp i| → |dp 1| > l ∨ |dp 2| > l := by
    intro l hl
    rcases hi with rfl | rfl
    · exact Or.inl hl
    · exact Or.inr hl
  constructor
  · intro h1 h2 h3
    unfold myrk4Internal rk4 stageInternal
    simp only [not_lt.2 (by linarith : (0 : ℝ) ≤ 1 - a * a), h1, if_false, decide_true, if_true, hd, h2, hor _ h3, and_self]
  · intro h1 h2 h3
    unfold myrk4Internal rk4 stageInternal
    simp only [not_lt.2 (by linarith : (0 : ℝ) ≤ 1 - a * a), not_lt.2 h1, if_false, decide_false, Bool.false_eq_true, hd, h2, decide_true,
      hor _ h3, and_self, if_true]

/-- C77. Within the limits it is not refused for the axis: code 1 needs an angle near the axis and, at one of the four places where the
derivatives are computed, one beyond the limit. -/
theorem internal_code {a rsink h : ℝ} {cst : Cst} {x p : Vec} (ha : a * a ≤ 1) (hc : myrk4Internal a rsink cst h x p = .code 1) :
    ∃ x' p' dx dp, diff a rsink cst x' p' = .ok dx dp ∧
      ((x 1 < 5 * (1 + √(1 - a * a)) ∧ thetaCompare (x 2) < 1e-1 ∧ (1e4 < |dp 1| ∨ 1e4 < |dp 2|)) ∨
       (5 * (1 + √(1 - a * a)) ≤ x 1 ∧ thetaCompare (x 2) < 2e-3 ∧ (1e6 < |dp 1| ∨ 1e6 < |dp 2|))) := by
  have key : ∀ (axis : Bool) (lim : ℝ) (x' p' : Vec), stageInternal a rsink cst axis lim x' p' = .code 1 →
      ∃ dx dp, diff a rsink cst x' p' = .ok dx dp ∧ axis = true ∧ (lim < |dp 1| ∨ lim < |dp 2|) := by
    intro axis lim x' p' e
    unfold stageInternal at e
    rcases e2 : diff a rsink cst x' p' with _ | _ | ⟨dx, dp⟩ <;> rw [e2] at e
    · cases e
    · simp at e
    · simp only at e
      by_cases hif : axis = true ∧ (|dp 1| > lim ∨ |dp 2| > lim)
      · exact ⟨dx, dp, rfl, hif.1, hif.2⟩
      · rw [if_neg hif] at e; cases e
  have four : ∀ (st : Vec → Vec → StepRes), rk4 st h x p = .code 1 → ∃ x' p', st x' p' = .code 1 := by
    intro st e
    unfold rk4 at e
    rcases e1 : st x p with _ | k | ⟨dx1, dp1⟩ <;> simp only [e1] at e
    · cases e
    · exact ⟨_, _, by rw [e1, e]⟩
    · rcases e2 : st (fun i => x i + 0.5 * (h * dx1 i)) (fun i => p i + 0.5 * (h * dp1 i)) with _ | k | ⟨dx2, dp2⟩ <;> simp only [e2] at e
      · cases e
      · exact ⟨_, _, by rw [e2, e]⟩
      · rcases e3 : st (fun i => x i + 0.5 * (h * dx2 i)) (fun i => p i + 0.5 * (h * dp2 i)) with _ | k | ⟨dx3, dp3⟩ <;> simp only [e3] at e
        · cases e
        · exact ⟨_, _, by rw [e3, e]⟩
        · rcases e4 : st (fun i => x i + h * dx3 i) (fun i => p i + h * dp3 i) with _ | k | ⟨dx4, dp4⟩ <;> simp only [e4] at e
          · cases e
          · exact ⟨_, _, by rw [e4, e]⟩
          · cases e
  unfold myrk4Internal at hc
  simp only [not_lt.2 (by linarith : (0 : ℝ) ≤ 1 - a * a), if_false] at hc
  obtain ⟨x', p', e⟩ := four _ hc
  obtain ⟨dx, dp, e1, e2, e3⟩ := key _ _ _ _ e
  refine ⟨x', p', dx, dp, e1, ?_⟩
  rw [decide_eq_true_iff] at e2
  by_cases hn : x 1 < 5 * (1 + √(1 - a * a))
  · simp only [hn, decide_true, if_true] at e2 e3
    exact Or.inl ⟨hn, e2, e3⟩
  · simp only [hn, decide_false, Bool.false_eq_true, if_false] at e2 e3
    exact Or.inr ⟨not_lt.1 hn, e2, e3⟩

/-- C77. The test is not made for an angle below `-π/2`: at `-π`, on the axis, it does not see the axis. -/
theorem axis_missed : ¬thetaCompare (-Real.pi) < 1e-10 ∧ Real.sin (-Real.pi) = 0 := by
  have hpi := Real.pi_pos
  constructor
  · unfold thetaCompare Interp.fmod
    have e : (-Real.pi + Real.pi / 2) / Real.pi = -(1 / 2) := by field_simp; ring
    rw [e, if_neg (by norm_num)]
    have : (⌈(-(1 / 2) : ℝ)⌉ : ℝ) = 0 := by norm_num
    rw [this, mul_zero, sub_zero, show -Real.pi + Real.pi / 2 - Real.pi / 2 = -Real.pi by ring, abs_neg, abs_of_pos hpi]
    have := Real.two_le_pi
    rw [not_lt]
    linarith [show (1e-10 : ℝ) < 1 by norm_num]
  · rw [Real.sin_neg, Real.sin_pi, neg_zero]

/-- A circular orbit without spin, at radius 4: an exact solution which the step follows. -/
example : ∃ Y W : ℝ → Vec, (∀ᶠ h in 𝓝 (0 : ℝ), myrk4Public 0 2 ⟨1, 1, 4, 0, 1⟩ h ![0, 4, Real.pi / 2, 0] ![2, 0, 0, 1 / 4] =
      .ok (Y h) (W h)) ∧ (fun h => Y h - ![2 * h, 4, Real.pi / 2, h / 4]) =O[𝓝 0] (fun h : ℝ => h ^ 5) ∧
      (fun h => W h - ![2, 0, 0, 1 / 4]) =O[𝓝 0] fun h : ℝ => h ^ 5 := by
  have hX : ∀ t : ℝ, HasDerivAt (fun t : ℝ => (![2 * t, 4, Real.pi / 2, t / 4] : Vec)) ![2, 0, 0, 1 / 4] t := by
    intro t
    rw [hasDerivAt_pi]
    intro i
    match i with
    | 0 => exact ((hasDerivAt_id t).const_mul 2).congr_deriv (by simp)
    | 1 => exact hasDerivAt_const _ _
    | 2 => exact hasDerivAt_const _ _
    | 3 => exact (hasDerivAt_id t).div_const 4
  have h0 : (![2 * (0 : ℝ), 4, Real.pi / 2, 0 / 4] : Vec) = ![0, 4, Real.pi / 2, 0] := by simp
  have key := public_error (a := 0) (rsink := 2) (cst := ⟨1, 1, 4, 0, 1⟩) (v := ![2, 0, 0, 1 / 4])
    (X := fun t => ![2 * t, 4, Real.pi / 2, t / 4]) (P := fun _ => ![-1, 0, 0, 4]) (V := fun _ => ![2, 0, 0, 1 / 4])
    (Eventually.of_forall fun t => ⟨_, _, orbit_diff t, hX t, by
      rw [hasDerivAt_pi]; intro i
      have : (![0, 0, 0, 0] : Vec) i = 0 := by fin_cases i <;> rfl
      rw [this]; exact hasDerivAt_const _ _⟩)
    ?_ ?_ (Eventually.of_forall hX) ?_ ?_
  · rw [h0] at key
    exact key
  · refine ⟨by norm_num, by norm_num, ?_, by norm_num⟩
    show Real.sin (Real.pi / 2) ≠ 0
    rw [Real.sin_pi_div_two]; exact one_ne_zero
  · funext i
    match i with
    | 0 => rfl
    | 1 => show (0 : ℝ) = gmunu 0 _ 1 1 * 0; ring
    | 2 => show (0 : ℝ) = gmunu 0 _ 2 2 * 0; ring
    | 3 => rfl
  · show -(Real.pi / 2) < Real.pi / 2
    linarith [Real.pi_pos]
  · show 1e-10 < thetaCompare (Real.pi / 2)
    obtain ⟨k, hk⟩ := (thetaCompare_eq (θ := Real.pi / 2) (by linarith [Real.pi_pos])).1
    rw [hk]
    have hpi := Real.two_le_pi
    have : Real.pi / 2 - k * Real.pi = (1 / 2 - k) * Real.pi := by ring
    rw [this, abs_mul, abs_of_pos Real.pi_pos]
    have h12 : (1 / 2 : ℝ) ≤ |1 / 2 - (k : ℝ)| := by
      rcases le_or_gt k 0 with hk0 | hk0
      · have : (k : ℝ) ≤ 0 := by exact_mod_cast hk0
        exact le_trans (by linarith) (le_abs_self _)
      · have : (1 : ℝ) ≤ k := by exact_mod_cast hk0
        exact le_trans (by linarith) (neg_le_abs _)
    nlinarith [show (1e-10 : ℝ) < 1 by norm_num]

end Gyoto.KerrBL
