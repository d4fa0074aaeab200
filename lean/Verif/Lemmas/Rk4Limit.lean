import Verif.Lemmas.Rk4

/-!
# Short steps of the classical Runge-Kutta method stay near their start
-/

namespace Gyoto.Rk4

open Topology Filter

variable {E : Type} [NormedAddCommGroup E] [NormedSpace ℝ E]

/-- The point reached from `q.1` with the step `q.2`. -/
noncomputable def step (F : E → E) (q : E × ℝ) : E :=
  q.1 + (q.2 / 6) • F q.1 + (q.2 / 3) • stage2 F q.1 q.2 + (q.2 / 3) • stage3 F q.1 q.2 + (q.2 / 6) • stage4 F q.1 q.2

/-- The points at which the method evaluates the vector field, and the one it reaches, tend to the start. -/
theorem step_limits {F : E → E} {x0 : E} (hF : ContinuousAt F x0) :
    Tendsto (fun q : E × ℝ => q.1 + (q.2 / 2) • F q.1) (𝓝 (x0, 0)) (𝓝 x0) ∧
    Tendsto (fun q : E × ℝ => q.1 + (q.2 / 2) • stage2 F q.1 q.2) (𝓝 (x0, 0)) (𝓝 x0) ∧
    Tendsto (fun q : E × ℝ => q.1 + q.2 • stage3 F q.1 q.2) (𝓝 (x0, 0)) (𝓝 x0) ∧
    Tendsto (step F) (𝓝 (x0, 0)) (𝓝 x0) := by
  have t1 : Tendsto (fun q : E × ℝ => q.1) (𝓝 (x0, 0)) (𝓝 x0) := continuous_fst.tendsto (x0, (0 : ℝ))
  have th : Tendsto (fun q : E × ℝ => q.2) (𝓝 (x0, 0)) (𝓝 0) := continuous_snd.tendsto (x0, (0 : ℝ))
  have tdiv : ∀ c : ℝ, Tendsto (fun q : E × ℝ => q.2 / c) (𝓝 (x0, 0)) (𝓝 0) := by
    intro c
    have := th.div_const c
    rwa [zero_div] at this
  have sm : ∀ {c : E × ℝ → ℝ} {k : E × ℝ → E} {k0 : E}, Tendsto c (𝓝 (x0, 0)) (𝓝 0) →
      Tendsto k (𝓝 (x0, 0)) (𝓝 k0) → Tendsto (fun q => c q • k q) (𝓝 (x0, 0)) (𝓝 0) := by
    intro c k k0 hc hk
    have := hc.smul hk
    rwa [zero_smul] at this
  have near : ∀ {u : E × ℝ → E}, Tendsto u (𝓝 (x0, 0)) (𝓝 0) →
      Tendsto (fun q : E × ℝ => q.1 + u q) (𝓝 (x0, 0)) (𝓝 x0) := by
    intro u hu
    have := t1.add hu
    rwa [add_zero] at this
  have k1 : Tendsto (fun q : E × ℝ => F q.1) (𝓝 (x0, 0)) (𝓝 (F x0)) := hF.tendsto.comp t1
  have p2 := near (sm (tdiv 2) k1)
  have k2 : Tendsto (fun q : E × ℝ => stage2 F q.1 q.2) (𝓝 (x0, 0)) (𝓝 (F x0)) := hF.tendsto.comp p2
  have p3 := near (sm (tdiv 2) k2)
  have k3 : Tendsto (fun q : E × ℝ => stage3 F q.1 q.2) (𝓝 (x0, 0)) (𝓝 (F x0)) := hF.tendsto.comp p3
  have p4 := near (sm th k3)
  have k4 : Tendsto (fun q : E × ℝ => stage4 F q.1 q.2) (𝓝 (x0, 0)) (𝓝 (F x0)) := hF.tendsto.comp p4
  refine ⟨p2, p3, p4, ?_⟩
  have := (((t1.add (sm (tdiv 6) k1)).add (sm (tdiv 3) k2)).add (sm (tdiv 3) k3)).add (sm (tdiv 6) k4)
  simp only [add_zero] at this
  exact this

end Gyoto.Rk4
