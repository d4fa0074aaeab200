import Verif.Model.Adaptive
import Verif.Props.Rk4

/-!
# The adaptive integrator of the generic metric
-/

namespace Gyoto.GenericMotion

open Gyoto.MetricAlg Topology Asymptotics Filter

theorem foldl_err (delta0 a b : Nat → ℝ) (l : List Nat) (e : ℝ) :
    (e ≤ l.foldl (fun err i => if err < |(b i - a i) / delta0 i| then |(b i - a i) / delta0 i| else err) e) ∧
    (∀ i ∈ l, |(b i - a i) / delta0 i| ≤ l.foldl (fun err i => if err < |(b i - a i) / delta0 i| then |(b i - a i) / delta0 i| else err) e) ∧
    ∀ c, e ≤ c → (∀ i ∈ l, |(b i - a i) / delta0 i| ≤ c) →
      l.foldl (fun err i => if err < |(b i - a i) / delta0 i| then |(b i - a i) / delta0 i| else err) e ≤ c := by
  induction l generalizing e with
  | nil => exact ⟨le_refl _, by simp, fun c hc _ => hc⟩
  | cons j l ih =>
    simp only [List.foldl_cons]
    obtain ⟨h1, h2, h3⟩ := ih (if e < |(b j - a j) / delta0 j| then |(b j - a j) / delta0 j| else e)
    have hj : |(b j - a j) / delta0 j| ≤ (if e < |(b j - a j) / delta0 j| then |(b j - a j) / delta0 j| else e) := by
      split_ifs with h
      · exact le_refl _
      · exact not_lt.1 h
    have he : e ≤ (if e < |(b j - a j) / delta0 j| then |(b j - a j) / delta0 j| else e) := by
      split_ifs with h
      · exact h.le
      · exact le_refl _
    refine ⟨he.trans h1, ?_, ?_⟩
    · intro i hi
      rcases List.mem_cons.1 hi with rfl | hi
      · exact hj.trans h1
      · exact h2 i hi
    · intro c hc hl
      refine h3 c ?_ fun i hi => hl i (List.mem_cons_of_mem _ hi)
      split_ifs
      · exact hl j List.mem_cons_self
      · exact hc

theorem errOf_le {delta0 a b : Nat → ℝ} (hd : ∀ i, 0 < delta0 i) : errOf delta0 a b ≤ 1 ↔ ∀ i < 8, |b i - a i| ≤ delta0 i := by
  obtain ⟨-, h2, h3⟩ := foldl_err delta0 a b (List.range 8) 0
  have e : ∀ i, |(b i - a i) / delta0 i| ≤ 1 ↔ |b i - a i| ≤ delta0 i := by
    intro i
    rw [abs_div, abs_of_pos (hd i), div_le_one (hd i)]
  constructor
  · intro h i hi
    exact (e i).1 ((h2 i (List.mem_range.2 hi)).trans h)
  · intro h
    exact h3 1 zero_le_one fun i hi => (e i).2 (h i (List.mem_range.1 hi))

theorem errOf_nonneg (delta0 a b : Nat → ℝ) : 0 ≤ errOf delta0 a b := (foldl_err delta0 a b (List.range 8) 0).1

theorem nextStep_ok {deltaMin h1max h0 err : ℝ} (hm : 0 ≤ deltaMin) (hM : 0 ≤ h1max) (h0n : h0 ≠ 0) :
    |nextStep deltaMin h1max h0 err| ≤ h1max ∧ (deltaMin ≤ h1max → deltaMin ≤ |nextStep deltaMin h1max h0 err|) ∧
      0 ≤ nextStep deltaMin h1max h0 err * h0 := by
  unfold nextStep
  dsimp only
  obtain ⟨k, hk⟩ : ∃ k, k = (if err > 1e-6 then 0.9 * h0 * err ^ (-0.2 : ℝ) else 4 * h0) := ⟨_, rfl⟩
  have ks : 0 ≤ k * h0 := by
    rw [hk]
    split_ifs with h
    · have : 0 ≤ err ^ (-0.2 : ℝ) := Real.rpow_nonneg (by linarith [show (0 : ℝ) < 1e-6 by norm_num]) _
      have h2 : 0.9 * h0 * err ^ (-0.2 : ℝ) * h0 = 0.9 * (h0 * h0) * err ^ (-0.2 : ℝ) := by ring
      rw [h2]
      exact mul_nonneg (mul_nonneg (by norm_num) (mul_self_nonneg _)) this
    · nlinarith [mul_self_nonneg h0]
  rw [← hk]
  have sgn : ∀ c : ℝ, 0 ≤ c → |if h0 > 0 then c else -c| = c ∧ 0 ≤ (if h0 > 0 then c else -c) * h0 := by
    intro c hc
    split_ifs with h
    · exact ⟨abs_of_nonneg hc, mul_nonneg hc h.le⟩
    · rw [abs_neg, abs_of_nonneg hc]
      exact ⟨rfl, by nlinarith [not_lt.1 h]⟩
  have s1 := sgn deltaMin hm
  have s2 := sgn h1max hM
  by_cases c1 : |k| < deltaMin
  · rw [if_pos c1]
    by_cases c2 : |if h0 > 0 then deltaMin else -deltaMin| > h1max
    · rw [if_pos c2, s2.1]
      exact ⟨le_refl _, id, s2.2⟩
    · rw [if_neg c2]
      exact ⟨not_lt.1 c2, fun _ => s1.1.ge, s1.2⟩
  · rw [if_neg c1]
    by_cases c2 : |k| > h1max
    · rw [if_pos c2, s2.1]
      exact ⟨le_refl _, id, s2.2⟩
    · rw [if_neg c2]
      exact ⟨not_lt.1 c2, fun _ => not_lt.1 c1, ks⟩

/-- A `myrk4` that neither throws nor fails writes its result. -/
theorem get_ok {r : RkOut} (h1 : r.isError = false) (h2 : r.isFailed = false) (old : Nat → ℝ) : r = .ok (r.get old) := by
  cases r with
  | error => cases h1
  | failed => cases h2
  | ok x => rfl

/-- `myrk4` writes the first eight elements, whatever was there. -/
theorem rk4_old {f : Nat → Nat → (Nat → ℝ) → (Nat → ℝ) → DiffOut} {n : Nat} {coord res res' r : Nat → ℝ} {h : ℝ}
    (hr : myrk4 f n coord h res = .ok r) : myrk4 f n coord h res' = .ok fun i => if i < 8 then r i else res' i := by
  unfold myrk4 at hr ⊢
  split at hr
  · cases hr
  · cases hr
  rename_i d1 e1
  dsimp only at hr ⊢
  split at hr
  · cases hr
  · cases hr
  rename_i d2 e2
  split at hr
  · cases hr
  · cases hr
  rename_i d3 e3
  split at hr
  · cases hr
  · cases hr
  rename_i d4 e4
  rw [RkOut.ok.injEq] at hr
  subst hr
  simp only [e2, e3, e4]
  congr 1
  funext i
  split_ifs <;> rfl

theorem rk4_rest {f : Nat → Nat → (Nat → ℝ) → (Nat → ℝ) → DiffOut} {n : Nat} {coord res r : Nat → ℝ} {h : ℝ}
    (hr : myrk4 f n coord h res = .ok r) {i : Nat} (hi : 8 ≤ i) : r i = res i := by
  have := rk4_old (res' := res) hr
  rw [hr, RkOut.ok.injEq] at this
  rw [this]
  exact if_neg (by omega)

/-- What an accepted step satisfies: with the step `h`, of the same sign as the one proposed and not longer, the result is one step of
`h`, two steps of `h / 2` are possible, and they lead to within the tolerance of the result. -/
def Accepted (f : Nat → Nat → (Nat → ℝ) → (Nat → ℝ) → DiffOut) (n : Nat) (coord delta0 res : Nat → ℝ) (h0 : ℝ) (new : Nat → ℝ) (h : ℝ) :
    Prop :=
  0 ≤ h * h0 ∧ |h| ≤ |h0| ∧ myrk4 f n coord h res = .ok new ∧
  ∃ half two, myrk4 f n coord (h / 2) (fun _ => 0) = .ok half ∧ myrk4 f n half (h / 2) (fun _ => 0) = .ok two ∧
    ∀ i < 8, |two i - new i| ≤ delta0 i

theorem loop_ok {f : Nat → Nat → (Nat → ℝ) → (Nat → ℝ) → DiffOut} {n : Nat} {coord delta0 res : Nat → ℝ} {deltaMin h1max : ℝ}
    (hd : ∀ i, 0 < delta0 i) (fuel : Nat) (s : AdState) (hb : s.hbis = 0.5 * s.h0) (hres : ∀ i, 8 ≤ i → s.coordnew i = res i)
    (hhalf : ∀ i, 8 ≤ i → s.coordhalf i = 0) (htwo : ∀ i, 8 ≤ i → s.coord2 i = 0) {new : Nat → ℝ} {h1 : ℝ}
    (h : adaptiveLoop f true n coord delta0 deltaMin h1max fuel s = some (.ok new h1)) :
    ∃ hh e, Accepted f n coord delta0 res s.h0 new hh ∧ (s.h0 ≠ 0 → hh ≠ 0) ∧ h1 = nextStep deltaMin h1max hh e := by
  induction fuel generalizing s with
  | zero => cases h
  | succ fuel ih =>
    unfold adaptiveLoop three at h
    dsimp only at h
    simp only [if_true] at h
    generalize hr1 : myrk4 f n coord s.h0 s.coordnew = r1 at h
    generalize hr2 : myrk4 f n coord s.hbis s.coordhalf = r2 at h
    generalize hr3 : myrk4 f n (r2.get s.coordhalf) s.hbis s.coord2 = r3 at h
    by_cases c1 : (r1.isError || r2.isError || r3.isError) = true
    · rw [if_pos c1] at h; cases h
    rw [if_neg c1] at h
    by_cases c2 : (r1.isFailed || r2.isFailed || r3.isFailed) = true
    · rw [if_pos c2] at h; cases h
    rw [if_neg c2] at h
    simp only [Bool.or_eq_true, not_or, Bool.not_eq_true] at c1 c2
    have g1 := get_ok c1.1.1 c2.1.1 s.coordnew
    have g2 := get_ok c1.1.2 c2.1.2 s.coordhalf
    have g3 := get_ok c1.2 c2.2 s.coord2
    rw [g1] at hr1
    rw [g2] at hr2
    rw [g3] at hr3
    generalize r1.get s.coordnew = new1 at *
    generalize r2.get s.coordhalf = half at *
    generalize r3.get s.coord2 = two at *
    by_cases c3 : errOf delta0 new1 two > 1
    · rw [if_pos c3] at h
      obtain ⟨hh, e, ⟨p1, p2, p3⟩, p4, p5⟩ := ih _ rfl (fun i hi => (rk4_rest hr1 hi).trans (hres i hi))
        (fun i hi => (rk4_rest hr2 hi).trans (hhalf i hi)) (fun i hi => (rk4_rest hr3 hi).trans (htwo i hi)) h
      have ep : (0 : ℝ) < errOf delta0 new1 two ^ (-0.25 : ℝ) := Real.rpow_pos_of_pos (by linarith) _
      have ep1 : errOf delta0 new1 two ^ (-0.25 : ℝ) ≤ 1 := Real.rpow_le_one_of_one_le_of_nonpos c3.le (by norm_num)
      generalize errOf delta0 new1 two ^ (-0.25 : ℝ) = q at *
      dsimp only at p1 p2 p4
      refine ⟨hh, e, ⟨?_, ?_, p3⟩, ?_, p5⟩
      · have : hh * (0.9 * s.h0 * q) = (0.9 * q) * (hh * s.h0) := by ring
        rw [this] at p1
        exact nonneg_of_mul_nonneg_right p1 (by positivity)
      · refine p2.trans ?_
        rw [abs_mul, abs_mul, abs_of_pos ep, abs_of_pos (by norm_num : (0 : ℝ) < 0.9)]
        have := abs_nonneg s.h0
        nlinarith
      · intro hn
        exact p4 (mul_ne_zero (mul_ne_zero (by norm_num) hn) ep.ne')
    · rw [if_neg c3] at h
      simp only [Option.some.injEq, AdOut.ok.injEq] at h
      obtain ⟨rfl, rfl⟩ := h
      have hb2 : s.hbis = s.h0 / 2 := by rw [hb]; ring
      rw [hb2] at hr2 hr3
      refine ⟨s.h0, errOf delta0 new1 two, ⟨mul_self_nonneg _, le_refl _, ?_, half, two, ?_, ?_, ?_⟩, id, rfl⟩
      · rw [rk4_old hr1]
        congr 1; funext i
        split_ifs with hi
        · rfl
        · rw [rk4_rest hr1 (not_lt.1 hi), hres i (not_lt.1 hi)]
      · rw [rk4_old hr2]
        congr 1; funext i
        split_ifs with hi
        · rfl
        · rw [rk4_rest hr2 (not_lt.1 hi), hhalf i (not_lt.1 hi)]
      · rw [rk4_old hr3]
        congr 1; funext i
        split_ifs with hi
        · rfl
        · rw [rk4_rest hr3 (not_lt.1 hi), htwo i (not_lt.1 hi)]
      · exact (errOf_le hd).1 (not_lt.1 c3)

/-- C76. What the adaptive integrator returns when it succeeds, if the calls are made from left to right: one step of a length not
above the one proposed, which agrees within the tolerance with two steps of half the length; and a next step in the same direction,
within the allowed range. -/
theorem adaptive_ok {f : Nat → Nat → (Nat → ℝ) → (Nat → ℝ) → DiffOut} {n : Nat} {coord res d : Nat → ℝ} {deltaMin h1max h0 : ℝ}
    {fuel : Nat} (hdiff : f n n coord (fun _ => 0) = .ok d) (hm : 0 ≤ deltaMin) (hM : 0 ≤ h1max) (hh : h0 ≠ 0) {new : Nat → ℝ} {h1 : ℝ}
    (h : adaptive f true n coord res deltaMin h1max h0 fuel = some (.ok new h1)) :
    (∃ h, Accepted f n coord (fun i => 1e-15 + 1e-4 * |h0 * d i|) res h0 new h) ∧
    |h1| ≤ h1max ∧ (deltaMin ≤ h1max → deltaMin ≤ |h1|) ∧ 0 ≤ h1 * h0 := by
  unfold adaptive at h
  rw [hdiff] at h
  dsimp only at h
  have hd : ∀ i, (0 : ℝ) < 1e-15 + 0.0001 * |h0 * d i| := fun i => by positivity
  obtain ⟨hx, e, ha, hn, hq⟩ := loop_ok (res := res) hd fuel _ rfl (fun _ _ => rfl) (fun _ _ => rfl) (fun _ _ => rfl) h
  have he : (fun i => (1e-15 : ℝ) + 1e-4 * |h0 * d i|) = fun i => 1e-15 + 0.0001 * |h0 * d i| := by
    funext i; norm_num
  rw [he]
  have hx0 := hn hh
  obtain ⟨n1, n2, n3⟩ := nextStep_ok (err := e) hm hM hx0
  rw [hq]
  refine ⟨⟨hx, ha⟩, n1, n2, ?_⟩
  have hs := ha.1
  dsimp only at hs
  rcases lt_or_gt_of_ne hx0 with hneg | hpos
  · have : h0 < 0 := lt_of_le_of_ne (nonpos_of_mul_nonneg_right hs hneg) hh
    exact mul_nonneg_of_nonpos_of_nonpos (nonpos_of_mul_nonneg_left n3 hneg) this.le
  · have : 0 < h0 := lt_of_le_of_ne (nonneg_of_mul_nonneg_right hs hpos) (Ne.symm hh)
    exact mul_nonneg (nonneg_of_mul_nonneg_left n3 hpos) this.le

/-- The point reached by a step from `x`. -/
noncomputable def stepFrom (F : (Fin 8 → ℝ) → Fin 8 → ℝ) (q : (Fin 8 → ℝ) × ℝ) : Fin 8 → ℝ :=
  q.1 + (q.2 / 6) • F q.1 + (q.2 / 3) • Rk4.stage2 F q.1 q.2 + (q.2 / 3) • Rk4.stage3 F q.1 q.2 + (q.2 / 6) • Rk4.stage4 F q.1 q.2

/-- For points near `x0` and small steps, a step succeeds and stays near `x0`. -/
theorem step_near {f : Nat → Nat → (Nat → ℝ) → (Nat → ℝ) → DiffOut} {n : Nat} {F : (Fin 8 → ℝ) → Fin 8 → ℝ} {x0 : Fin 8 → ℝ}
    (hf : ∀ᶠ x in 𝓝 x0, Provides f n F x) (hF : ContinuousAt F x0) :
    (∀ᶠ q : (Fin 8 → ℝ) × ℝ in 𝓝 (x0, 0), ∀ s res, first s = q.1 → ∃ r, myrk4 f n s q.2 res = .ok r ∧ first r = stepFrom F q) ∧
    Tendsto (stepFrom F) (𝓝 (x0, 0)) (𝓝 x0) := by
  have t1 : Tendsto (fun q : (Fin 8 → ℝ) × ℝ => q.1) (𝓝 (x0, 0)) (𝓝 x0) := continuous_fst.tendsto (x0, (0 : ℝ))
  have th : Tendsto (fun q : (Fin 8 → ℝ) × ℝ => q.2) (𝓝 (x0, 0)) (𝓝 0) := continuous_snd.tendsto (x0, (0 : ℝ))
  have tdiv : ∀ c : ℝ, Tendsto (fun q : (Fin 8 → ℝ) × ℝ => q.2 / c) (𝓝 (x0, 0)) (𝓝 0) := by
    intro c
    have := th.div_const c
    rwa [zero_div] at this
  have sm : ∀ {c : (Fin 8 → ℝ) × ℝ → ℝ} {k : (Fin 8 → ℝ) × ℝ → Fin 8 → ℝ} {k0 : Fin 8 → ℝ}, Tendsto c (𝓝 (x0, 0)) (𝓝 0) →
      Tendsto k (𝓝 (x0, 0)) (𝓝 k0) → Tendsto (fun q => c q • k q) (𝓝 (x0, 0)) (𝓝 0) := by
    intro c k k0 hc hk
    have := hc.smul hk
    rwa [zero_smul] at this
  have near : ∀ {u : (Fin 8 → ℝ) × ℝ → Fin 8 → ℝ}, Tendsto u (𝓝 (x0, 0)) (𝓝 0) →
      Tendsto (fun q : (Fin 8 → ℝ) × ℝ => q.1 + u q) (𝓝 (x0, 0)) (𝓝 x0) := by
    intro u hu
    have := t1.add hu
    rwa [add_zero] at this
  have k1 : Tendsto (fun q : (Fin 8 → ℝ) × ℝ => F q.1) (𝓝 (x0, 0)) (𝓝 (F x0)) := hF.tendsto.comp t1
  have p2 := near (sm (tdiv 2) k1)
  have k2 : Tendsto (fun q : (Fin 8 → ℝ) × ℝ => Rk4.stage2 F q.1 q.2) (𝓝 (x0, 0)) (𝓝 (F x0)) := hF.tendsto.comp p2
  have p3 := near (sm (tdiv 2) k2)
  have k3 : Tendsto (fun q : (Fin 8 → ℝ) × ℝ => Rk4.stage3 F q.1 q.2) (𝓝 (x0, 0)) (𝓝 (F x0)) := hF.tendsto.comp p3
  have p4 := near (sm th k3)
  have k4 : Tendsto (fun q : (Fin 8 → ℝ) × ℝ => Rk4.stage4 F q.1 q.2) (𝓝 (x0, 0)) (𝓝 (F x0)) := hF.tendsto.comp p4
  constructor
  · filter_upwards [t1.eventually hf, p2.eventually hf, p3.eventually hf, p4.eventually hf] with q e1 e2 e3 e4 s res hs
    have hs' : q.1 = first s := hs.symm
    rw [hs'] at e1 e2 e3 e4
    obtain ⟨r, hr, -, hv⟩ := rk4_ok (res := res) e1 e2 e3 e4
    refine ⟨r, hr, ?_⟩
    unfold stepFrom
    rw [hv, hs']
  · have := (((t1.add (sm (tdiv 6) k1)).add (sm (tdiv 3) k2)).add (sm (tdiv 3) k3)).add (sm (tdiv 6) k4)
    simp only [add_zero] at this
    exact this

/-- C76. The loop always ends when the vector field is available and continuous around the starting point, whatever the step proposed:
each unsuccessful turn shortens the step by a tenth at least, and two half steps agree with a whole one when the step is short. -/
theorem adaptive_terminates {f : Nat → Nat → (Nat → ℝ) → (Nat → ℝ) → DiffOut} {n : Nat} {F : (Fin 8 → ℝ) → Fin 8 → ℝ}
    {coord res : Nat → ℝ} (hf : ∀ᶠ x in 𝓝 (first coord), Provides f n F x) (hF : ContinuousAt F (first coord)) (deltaMin h1max h0 : ℝ) :
    ∃ N, ∀ fuel, N ≤ fuel → (adaptive f true n coord res deltaMin h1max h0 fuel).isSome := by
  obtain ⟨hnear, htend⟩ := step_near hf hF
  set x0 := first coord with hx0
  obtain ⟨d, hdiff, -⟩ := hf.self_of_nhds coord rfl
  -- for short steps the turn ends the loop
  have tq : Tendsto (fun h : ℝ => (x0, h)) (𝓝 0) (𝓝 (x0, 0)) := (Continuous.prodMk_right x0).tendsto 0
  have tqh : Tendsto (fun h : ℝ => (x0, h / 2)) (𝓝 0) (𝓝 (x0, 0)) := by
    have h2 : Tendsto (fun h : ℝ => h / 2) (𝓝 0) (𝓝 0) := by
      have := (tendsto_id (α := ℝ) (x := 𝓝 0)).div_const 2
      simpa using this
    exact tq.comp h2
  have th2 : Tendsto (fun h : ℝ => h / 2) (𝓝 0) (𝓝 0) := by
    have := (tendsto_id (α := ℝ) (x := 𝓝 0)).div_const 2
    simpa using this
  have tw : Tendsto (fun h : ℝ => (stepFrom F (x0, h / 2), h / 2)) (𝓝 0) (𝓝 (x0, 0)) := (htend.comp tqh).prodMk_nhds th2
  have tdiff : Tendsto (fun h : ℝ => stepFrom F (stepFrom F (x0, h / 2), h / 2) - stepFrom F (x0, h)) (𝓝 0) (𝓝 0) := by
    have := (htend.comp tw).sub (htend.comp tq)
    rwa [sub_self] at this
  have hsmall : ∀ᶠ h : ℝ in 𝓝 0, ‖stepFrom F (stepFrom F (x0, h / 2), h / 2) - stepFrom F (x0, h)‖ < 1e-15 := by
    have := tdiff.norm
    rw [norm_zero] at this
    exact this.eventually (gt_mem_nhds (by norm_num))
  have hev := (tq.eventually hnear).and ((tqh.eventually hnear).and ((tw.eventually hnear).and hsmall))
  obtain ⟨η, hη, hall⟩ := Metric.eventually_nhds_iff.1 hev
  have turn : ∀ (delta0 : Nat → ℝ), (∀ i, (1e-15 : ℝ) ≤ delta0 i) → ∀ fuel (s : AdState), s.hbis = 0.5 * s.h0 → |s.h0| < η →
      (adaptiveLoop f true n coord delta0 deltaMin h1max (fuel + 1) s).isSome := by
    intro delta0 hdel fuel s hb hs
    obtain ⟨e1, e2, e3, e4⟩ := hall (y := s.h0) (by rw [Real.dist_eq, sub_zero]; exact hs)
    have hb2 : s.hbis = s.h0 / 2 := by rw [hb]; ring
    obtain ⟨r1, q1, v1⟩ := e1 coord s.coordnew rfl
    obtain ⟨r2, q2, v2⟩ := e2 coord s.coordhalf rfl
    obtain ⟨r3, q3, v3⟩ := e3 r2 s.coord2 v2
    dsimp only at q1 q2 q3 v1 v2 v3
    have hthree : three f true n coord s = (.ok r1, .ok r2, .ok r3) := by
      unfold three
      dsimp only
      rw [hb2, q1, q2]
      simp only [if_true, RkOut.get]
      rw [q3]
    unfold adaptiveLoop
    rw [hthree]
    simp only [RkOut.isError, RkOut.isFailed, RkOut.get, Bool.or_false, Bool.false_eq_true, if_false]
    have hle : ¬errOf delta0 r1 r3 > 1 := by
      rw [not_lt, errOf_le fun i => lt_of_lt_of_le (by norm_num) (hdel i)]
      intro i hi
      have h5 : |(stepFrom F (stepFrom F (x0, s.h0 / 2), s.h0 / 2) - stepFrom F (x0, s.h0)) ⟨i, hi⟩| ≤ _ :=
        norm_le_pi_norm (stepFrom F (stepFrom F (x0, s.h0 / 2), s.h0 / 2) - stepFrom F (x0, s.h0)) ⟨i, hi⟩
      rw [← v3, ← v1] at h5
      have h6 := e4
      rw [← v3, ← v1] at h6
      exact (h5.trans h6.le).trans (hdel i)
    exact Option.isSome_iff_exists.2 ⟨_, if_neg hle⟩
  have rounds : ∀ (delta0 : Nat → ℝ), (∀ i, (1e-15 : ℝ) ≤ delta0 i) → ∀ (N : Nat) (fuel : Nat) (s : AdState), N + 1 ≤ fuel →
      s.hbis = 0.5 * s.h0 → |s.h0| * 0.9 ^ N < η → (adaptiveLoop f true n coord delta0 deltaMin h1max fuel s).isSome := by
    intro delta0 hdel N
    induction N with
    | zero =>
      intro fuel s hfu hb hs
      obtain ⟨k, rfl⟩ : ∃ k, fuel = k + 1 := ⟨fuel - 1, by omega⟩
      exact turn delta0 hdel k s hb (by simpa using hs)
    | succ N ih =>
      intro fuel s hfu hb hs
      obtain ⟨k, rfl⟩ : ∃ k, fuel = k + 1 := ⟨fuel - 1, by omega⟩
      unfold adaptiveLoop
      dsimp only
      generalize three f true n coord s = t
      obtain ⟨r1, r2, r3⟩ := t
      dsimp only
      split_ifs with c1 c2 c3
      · rfl
      · rfl
      · refine ih k _ (by omega) rfl ?_
        dsimp only
        have ep : (0 : ℝ) < errOf delta0 (r1.get s.coordnew) (r3.get s.coord2) ^ (-0.25 : ℝ) :=
          Real.rpow_pos_of_pos (by linarith) _
        have ep1 : errOf delta0 (r1.get s.coordnew) (r3.get s.coord2) ^ (-0.25 : ℝ) ≤ 1 :=
          Real.rpow_le_one_of_one_le_of_nonpos c3.le (by norm_num)
        refine lt_of_le_of_lt ?_ hs
        rw [abs_mul, abs_mul, abs_of_pos ep, abs_of_pos (by norm_num : (0 : ℝ) < 0.9), pow_succ]
        have h9 : (0 : ℝ) ≤ |s.h0| * 0.9 ^ N * 0.9 := by positivity
        calc 0.9 * |s.h0| * _ * 0.9 ^ N = (|s.h0| * 0.9 ^ N * 0.9) * _ := by ring
          _ ≤ (|s.h0| * 0.9 ^ N * 0.9) * 1 := mul_le_mul_of_nonneg_left ep1 h9
          _ = _ := by ring
      · rfl
  obtain ⟨N, hN⟩ : ∃ N : Nat, |h0| * 0.9 ^ N < η := by
    have : Tendsto (fun N : Nat => |h0| * (0.9 : ℝ) ^ N) atTop (𝓝 (|h0| * 0)) :=
      (tendsto_pow_atTop_nhds_zero_of_lt_one (by norm_num) (by norm_num)).const_mul _
    rw [mul_zero] at this
    exact (this.eventually (gt_mem_nhds hη)).exists
  refine ⟨N + 1, fun fuel hfu => ?_⟩
  unfold adaptive
  rw [hdiff]
  dsimp only
  exact rounds _ (fun i => by have := abs_nonneg (h0 * d i); nlinarith) N fuel _ hfu rfl hN

/-- C76. If the calls are made from right to left, which the language allows, the generic integrator never makes a step: the third
call starts from a state of zeros, which the equations of motion refuse. -/
theorem adaptive_order {chr : (Nat → ℝ) → Int × (Fin 4 → Tensor)} {n : Nat} (hn : 8 ≤ n) (coord res : Nat → ℝ)
    (deltaMin h1max h0 : ℝ) (fuel : Nat) : adaptive (diff chr) false n coord res deltaMin h1max h0 (fuel + 1) = some .failed := by
  have noerr : ∀ s, diff chr n n s (fun _ => 0) ≠ .error := by
    intro s
    unfold diff
    rw [if_neg (by omega), if_neg (by simp)]
    by_cases h1 : s 4 < 1e-6
    · rw [if_pos h1]; simp
    rw [if_neg h1]
    dsimp only
    by_cases h2 : (chr s).1 ≠ 0
    · rw [if_pos h2]; simp
    · rw [if_neg h2]; simp
  have rkno : ∀ c h r, (myrk4 (diff chr) n c h r).isError = false := by
    intro c h r
    have := (rk4_outcome (diff chr) n c r h).1 noerr
    cases hm : myrk4 (diff chr) n c h r with
    | error => exact absurd hm this
    | failed => rfl
    | ok x => rfl
  have rk0 : ∀ h r, myrk4 (diff chr) n (fun _ => 0) h r = .failed := by
    intro h r
    refine (rk4_outcome (diff chr) n _ r h).2.2 ⟨1, ?_⟩
    unfold diff
    rw [if_neg (by omega), if_neg (by simp), if_pos (by norm_num)]
  unfold adaptive
  have hloop : ∀ delta0 s, s.coordhalf = (fun _ => 0) → adaptiveLoop (diff chr) false n coord delta0 deltaMin h1max (fuel + 1) s =
      some .failed := by
    intro delta0 s hs
    unfold adaptiveLoop three
    dsimp only
    simp only [Bool.false_eq_true, if_false, hs]
    rw [rk0, rkno, rkno]
    simp [RkOut.isError, RkOut.isFailed]
  split
  · rename_i h; exact absurd h (noerr coord)
  · exact hloop _ _ rfl

/-- The exponential: the loop ends from any state and with any proposed step. -/
example (coord : Nat → ℝ) (h0 : ℝ) : ∃ N, ∀ fuel, N ≤ fuel →
    (adaptive (fun _ _ s _ => .ok s) true 8 coord (fun _ => 0) 0 1 h0 fuel).isSome :=
  adaptive_terminates (F := fun x => x) (Eventually.of_forall fun _ s hs => ⟨s, rfl, hs⟩) continuousAt_id 0 1 h0

/-- A uniform motion: the step is accepted at once and the next one, four times as long, is cut to the maximum. -/
example : ∃ new, adaptive (fun _ _ _ _ => .ok fun _ => 1) true 8 (fun _ => 2) (fun _ => 0) 0 3 1 1 = some (.ok new 3) ∧ new 5 = 3 := by
  have hrk : ∀ (c r : Nat → ℝ) (h : ℝ), myrk4 (fun _ _ _ _ => .ok fun _ => 1) 8 c h r =
      .ok fun i => if i < 8 then c i + h else r i := by
    intro c r h
    unfold myrk4
    dsimp only
    congr 1
    funext i
    by_cases hi : i < 8
    · simp only [if_pos hi]; ring
    · simp only [if_neg hi]
  refine ⟨fun i => if i < 8 then 2 + 1 else 0, ?_, by norm_num⟩
  unfold adaptive
  dsimp only
  unfold adaptiveLoop three
  simp only [hrk, RkOut.isError, RkOut.isFailed, RkOut.get, Bool.or_false, Bool.false_eq_true, if_false, if_true]
  have he : errOf (fun i => 1e-15 + 0.0001 * |1 * (1 : ℝ)|) (fun i => if i < 8 then (2 : ℝ) + 1 else 0)
      (fun i => if i < 8 then (if i < 8 then (2 : ℝ) + 0.5 * 1 else 0) + 0.5 * 1 else 0) = 0 := by
    apply le_antisymm _ (errOf_nonneg _ _ _)
    refine (foldl_err _ _ _ (List.range 8) 0).2.2 0 le_rfl fun i hi => ?_
    have := List.mem_range.1 hi
    simp only [if_pos this]
    norm_num
  rw [he, if_neg (by norm_num)]
  unfold nextStep
  norm_num

end Gyoto.GenericMotion
