import Verif.Model.KerrRk4
import Verif.Lemmas.Rk4
import Verif.Props.KerrConst
import Mathlib.Analysis.Analytic.Constructions
import Mathlib.Analysis.Analytic.Linear
import Mathlib.Analysis.Calculus.FDeriv.Analytic
import Mathlib.Analysis.SpecialFunctions.Trigonometric.Deriv
import Mathlib.Analysis.SpecialFunctions.Trigonometric.DerivHyp

/-!
# The Kerr equations of motion as an analytic vector field
-/

namespace Gyoto.KerrBL

open Gyoto.MetricAlg Topology Asymptotics Filter

/-- The equations of motion where `diff` succeeds. -/
noncomputable def kerrField (a : ℝ) (cst : Cst) (q : Vec × Vec) : Vec × Vec :=
  let a2 := a * a
  let a3 := a2 * a
  let a4 := a2 * a2
  let r := q.1 1
  let r2 := r * r
  let r3 := r2 * r
  let costheta := Real.cos (q.1 2)
  let sintheta := Real.sin (q.1 2)
  let costheta2 := costheta * costheta
  let cotantheta := costheta / sintheta
  let cotantheta2 := cotantheta * cotantheta
  let cotantheta3 := cotantheta2 * cotantheta
  let sin2theta := 2 * sintheta * costheta
  let cos2theta := 2 * costheta2 - 1
  let pr := q.2 1
  let ptheta := q.2 2
  let Sigma := r2 + a2 * costheta2
  let Sigmam1 := 1 / Sigma
  let Sigmam2 := Sigmam1 * Sigmam1
  let Delta := r2 - 2 * r + a2
  let E := cst.E
  let E2 := E * E
  let L := cst.L
  let L2 := L * L
  let tmp1m1 := 1 / (2 * Delta * Sigma)
  let tmp2m2 := 1 / (Sigma * Sigma)
  let tmp3 := a2 + r * (-2 + r)
  let tmp3_2 := tmp3 * tmp3
  (![tmp1m1 * (2 * (r * (-2 * a * L + E * r3 + a2 * E * (2 + r)) + a2 * E * (a2 + r * (-2 + r)) * costheta2)),
      Delta * Sigmam1 * pr,
      Sigmam1 * ptheta,
      -tmp1m1 * (-2 * (r * (2 * a * E + L * (-2 + r)) + L * (a2 + r * (-2 + r)) * cotantheta2))],
    ![0,
      -0.5 * (2 * (r * (r - a2) - a2 * (1 - r) * costheta2) * tmp2m2) * pr * pr
        - 0.5 * (-2 * r * tmp2m2) * ptheta * ptheta
        + (tmp2m2 / tmp3_2
          * (a2 * (a4 * E2 - 2 * a3 * E * L + 2 * a * E * L * r2 + E2 * r3 * (-4 + r)
              + a2 * (L2 * (1 - r) + 2 * E2 * r2)) * costheta2
            + r * (-r * (a4 * E2 - 2 * a3 * E * L + 2 * a * E * L * (4 - 3 * r) * r
                + a2 * (L2 + 2 * E2 * r * (-2 + r)) + r * (E2 * r3 - L2 * (-2 + r) * (-2 + r)))
              + L2 * tmp3_2 * cotantheta2))),
      -0.5 * (a2 * Delta * sin2theta * Sigmam2) * pr * pr
        - 0.5 * (a2 * sin2theta * Sigmam2) * ptheta * ptheta
        + (Sigmam2
          * (L2 * r2 * cotantheta
            + 0.5 * L2 * (a2 + 2 * r2 + a2 * cos2theta) * cotantheta3
            + a2 * r * (2 * a2 * E2 - 4 * a * E * L + L2 * (2 - r) + 2 * E2 * r2) * costheta * sintheta / Delta)),
      0])

/-- Where `diff` succeeds, with some room. -/
def Inside (a rsink : ℝ) (q : Vec × Vec) : Prop :=
  0 < q.1 1 ∧ rsink < q.1 1 ∧ Real.sin (q.1 2) ≠ 0 ∧ q.1 1 * q.1 1 - 2 * q.1 1 + a * a ≠ 0

theorem sigma_ne {a rsink : ℝ} {q : Vec × Vec} (h : Inside a rsink q) :
    q.1 1 * q.1 1 + a * a * (Real.cos (q.1 2) * Real.cos (q.1 2)) ≠ 0 := by
  have h1 : 0 < q.1 1 * q.1 1 := mul_pos h.1 h.1
  have h2 : 0 ≤ a * a * (Real.cos (q.1 2) * Real.cos (q.1 2)) := mul_nonneg (mul_self_nonneg _) (mul_self_nonneg _)
  linarith

theorem diff_inside {a rsink : ℝ} {cst : Cst} {q : Vec × Vec} (h : Inside a rsink q) :
    diff a rsink cst q.1 q.2 = .ok (kerrField a cst q).1 (kerrField a cst q).2 := by
  have hs := sigma_ne h
  obtain ⟨h1, h2, h3, h4⟩ := h
  have h6 : 2 * (q.1 1 * q.1 1 - 2 * q.1 1 + a * a) * (q.1 1 * q.1 1 + a * a * (Real.cos (q.1 2) * Real.cos (q.1 2))) ≠ 0 :=
    mul_ne_zero (mul_ne_zero two_ne_zero h4) hs
  unfold diff
  dsimp only
  rw [if_neg (not_lt.2 h1.le), if_neg (not_lt.2 h2.le), if_neg h3, if_neg hs, if_neg h6]
  rfl

theorem inside_open (a rsink : ℝ) : IsOpen {q : Vec × Vec | Inside a rsink q} := by
  have c1 : Continuous fun q : Vec × Vec => q.1 1 := by fun_prop
  have c2 : Continuous fun q : Vec × Vec => q.1 2 := by fun_prop
  refine (isOpen_lt continuous_const c1).inter ((isOpen_lt continuous_const c1).inter
    ((isOpen_ne_fun (Real.continuous_sin.comp c2) continuous_const).inter (isOpen_ne_fun (f := fun q : Vec × Vec => q.1 1 * q.1 1 - 2 * q.1 1 + a * a) (by fun_prop) continuous_const)))

theorem kerrField_analytic {a rsink : ℝ} {cst : Cst} {q : Vec × Vec} (h : Inside a rsink q) : AnalyticAt ℝ (kerrField a cst) q := by
  have hs := sigma_ne h
  obtain ⟨h1, h2, h3, h4⟩ := h
  have h6 : 2 * (q.1 1 * q.1 1 - 2 * q.1 1 + a * a) * (q.1 1 * q.1 1 + a * a * (Real.cos (q.1 2) * Real.cos (q.1 2))) ≠ 0 :=
    mul_ne_zero (mul_ne_zero two_ne_zero h4) hs
  have ar : AnalyticAt ℝ (fun q : Vec × Vec => q.1 1) q :=
    ((ContinuousLinearMap.proj (R := ℝ) (φ := fun _ : Fin 4 => ℝ) 1).comp (ContinuousLinearMap.fst ℝ Vec Vec)).analyticAt q
  have ath : AnalyticAt ℝ (fun q : Vec × Vec => q.1 2) q :=
    ((ContinuousLinearMap.proj (R := ℝ) (φ := fun _ : Fin 4 => ℝ) 2).comp (ContinuousLinearMap.fst ℝ Vec Vec)).analyticAt q
  have apr : AnalyticAt ℝ (fun q : Vec × Vec => q.2 1) q :=
    ((ContinuousLinearMap.proj (R := ℝ) (φ := fun _ : Fin 4 => ℝ) 1).comp (ContinuousLinearMap.snd ℝ Vec Vec)).analyticAt q
  have apt : AnalyticAt ℝ (fun q : Vec × Vec => q.2 2) q :=
    ((ContinuousLinearMap.proj (R := ℝ) (φ := fun _ : Fin 4 => ℝ) 2).comp (ContinuousLinearMap.snd ℝ Vec Vec)).analyticAt q
  have as : AnalyticAt ℝ (fun q : Vec × Vec => Real.sin (q.1 2)) q := Real.analyticAt_sin.comp' ath
  have ac : AnalyticAt ℝ (fun q : Vec × Vec => Real.cos (q.1 2)) q := Real.analyticAt_cos.comp' ath
  have h7 : (q.1 1 * q.1 1 + a * a * (Real.cos (q.1 2) * Real.cos (q.1 2))) *
      (q.1 1 * q.1 1 + a * a * (Real.cos (q.1 2) * Real.cos (q.1 2))) ≠ 0 := mul_ne_zero hs hs
  have h8 : (a * a + q.1 1 * (-2 + q.1 1)) * (a * a + q.1 1 * (-2 + q.1 1)) ≠ 0 := by
    have : a * a + q.1 1 * (-2 + q.1 1) = q.1 1 * q.1 1 - 2 * q.1 1 + a * a := by ring
    rw [this]; exact mul_ne_zero h4 h4
  have x0 : AnalyticAt ℝ (fun q => (kerrField a cst q).1 0) q := by
    simp only [kerrField, Matrix.cons_val]
    fun_prop (disch := assumption)
  have x1 : AnalyticAt ℝ (fun q => (kerrField a cst q).1 1) q := by
    simp only [kerrField, Matrix.cons_val]
    fun_prop (disch := assumption)
  have x2 : AnalyticAt ℝ (fun q => (kerrField a cst q).1 2) q := by
    simp only [kerrField, Matrix.cons_val]
    fun_prop (disch := assumption)
  have x3 : AnalyticAt ℝ (fun q => (kerrField a cst q).1 3) q := by
    simp only [kerrField, Matrix.cons_val]
    fun_prop (disch := assumption)
  have p1 : AnalyticAt ℝ (fun q => (kerrField a cst q).2 1) q := by
    simp only [kerrField, Matrix.cons_val]
    fun_prop (disch := assumption)
  have p2 : AnalyticAt ℝ (fun q => (kerrField a cst q).2 2) q := by
    simp only [kerrField, Matrix.cons_val]
    fun_prop (disch := assumption)
  have hx : AnalyticAt ℝ (fun q => (kerrField a cst q).1) q := by
    rw [analyticAt_pi_iff]
    intro i
    match i with
    | 0 => exact x0
    | 1 => exact x1
    | 2 => exact x2
    | 3 => exact x3
  have hp : AnalyticAt ℝ (fun q => (kerrField a cst q).2) q := by
    rw [analyticAt_pi_iff]
    intro i
    match i with
    | 0 => exact analyticAt_const
    | 1 => exact p1
    | 2 => exact p2
    | 3 => exact analyticAt_const
  exact hx.prod hp


/-- The quantity compared with the tolerances is the distance to the axis, for angles from `-π/2` on. -/
theorem thetaCompare_eq {θ : ℝ} (h : -(Real.pi / 2) ≤ θ) :
    (∃ k : ℤ, thetaCompare θ = |θ - k * Real.pi|) ∧ ∀ j : ℤ, thetaCompare θ ≤ |θ - j * Real.pi| := by
  have hpi := Real.pi_pos
  have h0 : 0 ≤ (θ + Real.pi / 2) / Real.pi := div_nonneg (by linarith) hpi.le
  obtain ⟨k, hk⟩ : ∃ k : ℤ, k = ⌊(θ + Real.pi / 2) / Real.pi⌋ := ⟨_, rfl⟩
  have e : thetaCompare θ = |θ - k * Real.pi| := by
    unfold thetaCompare Interp.fmod
    rw [if_pos h0, ← hk]
    congr 1; ring
  refine ⟨⟨k, e⟩, ?_⟩
  have l1 : (k : ℝ) ≤ (θ + Real.pi / 2) / Real.pi := by rw [hk]; exact Int.floor_le _
  have l2 : (θ + Real.pi / 2) / Real.pi < k + 1 := by rw [hk]; exact Int.lt_floor_add_one _
  rw [le_div_iff₀ hpi] at l1
  rw [div_lt_iff₀ hpi] at l2
  intro j
  rw [e]
  rcases lt_trichotomy j k with hj | hj | hj
  · have : (j : ℝ) + 1 ≤ k := by exact_mod_cast hj
    have h5 : (j : ℝ) * Real.pi + Real.pi ≤ k * Real.pi := by nlinarith
    have := le_abs_self (θ - j * Real.pi)
    refine (abs_le.2 ⟨?_, ?_⟩).trans this <;> linarith
  · rw [hj]
  · have : (k : ℝ) + 1 ≤ j := by exact_mod_cast hj
    have h5 : (k : ℝ) * Real.pi + Real.pi ≤ j * Real.pi := by nlinarith
    have := neg_le_abs (θ - j * Real.pi)
    refine (abs_le.2 ⟨?_, ?_⟩).trans this <;> linarith

theorem thetaCompare_near {x ε : ℝ} (h0 : -(Real.pi / 2) < x) (h : ε < thetaCompare x) : ∀ᶠ y in 𝓝 x, ε < thetaCompare y := by
  have hd : ∀ᶠ y in 𝓝 x, |x - y| < thetaCompare x - ε := by
    have : Tendsto (fun y : ℝ => |x - y|) (𝓝 x) (𝓝 |x - x|) := ((continuous_const.sub continuous_id).abs).tendsto x
    rw [sub_self, abs_zero] at this
    exact this.eventually (gt_mem_nhds (by linarith))
  filter_upwards [hd, lt_mem_nhds h0] with y hy hy0
  obtain ⟨k, hk⟩ := (thetaCompare_eq hy0.le).1
  have h1 := (thetaCompare_eq h0.le).2 k
  have h2 : |x - k * Real.pi| ≤ |x - y| + |y - k * Real.pi| := by
    have := abs_add_le (x - y) (y - k * Real.pi)
    rwa [show x - y + (y - k * Real.pi) = x - k * Real.pi by ring] at this
  rw [hk]
  linarith

/-- Four successful stages make a successful step. -/
theorem rk4_ok {stage : Vec → Vec → StepRes} {F : Vec × Vec → Vec × Vec} {h : ℝ} {q : Vec × Vec}
    (h1 : stage q.1 q.2 = .ok (F q).1 (F q).2)
    (h2 : ∀ q2, q2 = q + (h / 2) • F q → stage q2.1 q2.2 = .ok (F q2).1 (F q2).2)
    (h3 : ∀ q3, q3 = q + (h / 2) • Rk4.stage2 F q h → stage q3.1 q3.2 = .ok (F q3).1 (F q3).2)
    (h4 : ∀ q4, q4 = q + h • Rk4.stage3 F q h → stage q4.1 q4.2 = .ok (F q4).1 (F q4).2) :
    ∃ r : Vec × Vec, rk4 stage h q.1 q.2 = .ok r.1 r.2 ∧ r = q + (h / 6) • F q + (h / 3) • Rk4.stage2 F q h +
      (h / 3) • Rk4.stage3 F q h + (h / 6) • Rk4.stage4 F q h := by
  have e2 : ((fun i => q.1 i + 0.5 * (h * (F q).1 i), fun i => q.2 i + 0.5 * (h * (F q).2 i)) : Vec × Vec) = q + (h / 2) • F q := by
    refine Prod.ext (funext fun i => ?_) (funext fun i => ?_) <;>
      simp only [Prod.fst_add, Prod.snd_add, Prod.smul_fst, Prod.smul_snd, Pi.add_apply, Pi.smul_apply, smul_eq_mul] <;> ring
  have g2 := h2 _ e2
  rw [show F _ = Rk4.stage2 F q h from congrArg F e2] at g2
  dsimp only at g2
  have e3 : ((fun i => q.1 i + 0.5 * (h * (Rk4.stage2 F q h).1 i), fun i => q.2 i + 0.5 * (h * (Rk4.stage2 F q h).2 i)) : Vec × Vec) =
      q + (h / 2) • Rk4.stage2 F q h := by
    refine Prod.ext (funext fun i => ?_) (funext fun i => ?_) <;>
      simp only [Prod.fst_add, Prod.snd_add, Prod.smul_fst, Prod.smul_snd, Pi.add_apply, Pi.smul_apply, smul_eq_mul] <;> ring
  have g3 := h3 _ e3
  rw [show F _ = Rk4.stage3 F q h from congrArg F e3] at g3
  dsimp only at g3
  have e4 : ((fun i => q.1 i + (h * (Rk4.stage3 F q h).1 i), fun i => q.2 i + (h * (Rk4.stage3 F q h).2 i)) : Vec × Vec) =
      q + h • Rk4.stage3 F q h := by
    refine Prod.ext (funext fun i => ?_) (funext fun i => ?_) <;>
      simp only [Prod.fst_add, Prod.snd_add, Prod.smul_fst, Prod.smul_snd, Pi.add_apply, Pi.smul_apply, smul_eq_mul]
  have g4 := h4 _ e4
  rw [show F _ = Rk4.stage4 F q h from congrArg F e4] at g4
  dsimp only at g4
  refine ⟨_, ?_, rfl⟩
  unfold rk4
  simp only [h1, g2, g3, g4]
  congr 1 <;> funext i <;>
    simp only [Prod.fst_add, Prod.snd_add, Prod.smul_fst, Prod.smul_snd, Pi.add_apply, Pi.smul_apply, smul_eq_mul] <;> ring

end Gyoto.KerrBL
