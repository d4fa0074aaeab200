import Verif.Model.SphAcc
import Verif.Spec.Slab
import Mathlib.Analysis.SpecialFunctions.ExpDeriv
import Mathlib.Analysis.Calculus.Deriv.Add
import Mathlib.Analysis.Calculus.MeanValue
import Mathlib.Analysis.Complex.ExponentialBounds
import Mathlib.Tactic.FieldSimp
import Mathlib.Tactic.Positivity
import Mathlib.Tactic.Linarith
import Mathlib.Tactic.LinearCombination

/-! # C111. Coefficients become intensity and transmission -/

namespace Gyoto.SphAcc

open Gyoto.Transfer (Out)
open Gyoto.Plasma
open Filter Topology

/-- The intensity of `slab`. -/
noncomputable def inten (j a s : ℝ) : ℝ := if a = 0 then j * s else -j / a * (Real.exp (-a * s) - 1)

theorem inten_nonneg {j a s : ℝ} (hj : 0 ≤ j) (hs : 0 ≤ s) : 0 ≤ inten j a s := by
  unfold inten
  split_ifs with h
  · positivity
  · have e : -j / a * (Real.exp (-a * s) - 1) = j * ((1 - Real.exp (-a * s)) / a) := by field_simp; ring
    rw [e]
    refine mul_nonneg hj ?_
    rcases lt_or_gt_of_ne h with h | h
    · refine div_nonneg_of_nonpos ?_ h.le
      have : 1 ≤ Real.exp (-a * s) := Real.one_le_exp (by nlinarith)
      linarith
    · refine div_nonneg ?_ h.le
      have : Real.exp (-a * s) ≤ 1 := Real.exp_le_one_iff.2 (by nlinarith)
      linarith

theorem slab_ok {j a s : ℝ} (hj : 0 ≤ j) (hs : 0 ≤ s) (hi : inten j a s < 2 ^ 53) (ht : Real.exp (-a * s) < 2 ^ 53) :
    slab j a s = .ok (inten j a s, Real.exp (-a * s)) := by
  have h0 := inten_nonneg (a := a) hj hs
  unfold inten at *
  unfold slab
  simp only [sub_add_cancel]
  rw [if_neg (not_lt.2 h0), if_neg (by rintro (h | h) <;> linarith)]

/-- What absorbs does not send out more than the same matter without absorption. -/
theorem inten_le {j a s : ℝ} (hj : 0 ≤ j) (ha : 0 ≤ a) : inten j a s ≤ j * s := by
  unfold inten
  split_ifs with h
  · exact le_rfl
  · have hp := lt_of_le_of_ne ha (Ne.symm h)
    have : -a * s + 1 ≤ Real.exp (-a * s) := Real.add_one_le_exp _
    have e : -j / a * (Real.exp (-a * s) - 1) = j * ((1 - Real.exp (-a * s)) / a) := by field_simp; ring
    rw [e]
    refine mul_le_mul_of_nonneg_left ?_ hj
    rw [div_le_iff₀ hp]
    linarith

theorem inten_transfer (j a : ℝ) : IsTransfer j a (inten j a) fun s => Real.exp (-a * s) := by
  have hexp : ∀ s, HasDerivAt (fun s => Real.exp (-a * s)) (-a * Real.exp (-a * s)) s := fun s => by
    have h1 : HasDerivAt (fun s => -a * s) (-a) s := by simpa using (hasDerivAt_id s).const_mul (-a)
    exact h1.exp.congr_deriv (by ring)
  refine ⟨?_, by simp, ?_, hexp⟩
  · unfold inten; simp
  · intro s
    by_cases h : a = 0
    · have e : inten j a = fun s => j * s := by funext s; unfold inten; rw [if_pos h]
      rw [e]
      exact ((hasDerivAt_id s).const_mul j).congr_deriv (by simp [h])
    · have e : inten j a = fun s => -j / a * (Real.exp (-a * s) - 1) := by funext s; unfold inten; rw [if_neg h]
      rw [e]
      refine (((hexp s).sub_const 1).const_mul (-j / a)).congr_deriv ?_
      field_simp
      ring

/-- C111. The intensity and the transmission solve the equation of radiative transfer, with or without absorption, up to an emission of 2^53. -/
theorem slab_transfer {j a : ℝ} (hj : 0 ≤ j) (ha : 0 ≤ a) : ∃ I T, IsTransfer j a I T ∧ ∀ s, 0 ≤ s → j * s < 2 ^ 53 → slab j a s = .ok (I s, T s) := by
  refine ⟨_, _, inten_transfer j a, fun s hs hb => slab_ok hj hs (lt_of_le_of_lt (inten_le hj ha) hb) ?_⟩
  have : Real.exp (-a * s) ≤ 1 := Real.exp_le_one_iff.2 (by nlinarith)
  exact lt_of_le_of_lt this (by norm_num)

/-- C111. No other pair of functions solves the equation: the answer is the only right one. -/
theorem transfer_unique {j a : ℝ} {I T I' T' : ℝ → ℝ} (h : IsTransfer j a I T) (h' : IsTransfer j a I' T') : I = I' ∧ T = T' := by
  have zero : ∀ f : ℝ → ℝ, f 0 = 0 → (∀ s, HasDerivAt f (-a * f s) s) → ∀ s, f s = 0 := by
    intro f h0 hf s
    have hd : ∀ x, HasDerivAt (fun x => f x * Real.exp (a * x)) 0 x := fun x => by
      have h1 : HasDerivAt (fun s => a * s) a x := by simpa using (hasDerivAt_id x).const_mul a
      exact ((hf x).mul h1.exp).congr_deriv (by ring)
    have hc := is_const_of_deriv_eq_zero (fun x => (hd x).differentiableAt) (fun x => (hd x).deriv) s 0
    simp only [h0, zero_mul] at hc
    exact (mul_eq_zero.1 hc).resolve_right (Real.exp_pos _).ne'
  refine ⟨funext fun s => ?_, funext fun s => ?_⟩
  · refine sub_eq_zero.1 (zero (fun s => I s - I' s) (by simp [h.dark, h'.dark]) (fun x => ?_) s)
    exact ((h.intensity x).sub (h'.intensity x)).congr_deriv (by ring)
  · refine sub_eq_zero.1 (zero (fun s => T s - T' s) (by simp [h.clear, h'.clear]) (fun x => ?_) s)
    exact ((h.transmission x).sub (h'.transmission x)).congr_deriv (by ring)

/-- C111. Cutting the path in two changes nothing: the light of the far part is dimmed by the near one, which adds its own. -/
theorem slab_split {j a s1 s2 : ℝ} (hj : 0 ≤ j) (ha : 0 ≤ a) (h1 : 0 ≤ s1) (h2 : 0 ≤ s2) (hb : j * (s1 + s2) < 2 ^ 53) :
    ∃ I1 T1 I2 T2, slab j a s1 = .ok (I1, T1) ∧ slab j a s2 = .ok (I2, T2) ∧ slab j a (s1 + s2) = .ok (I1 * T2 + I2, T1 * T2) := by
  have big : ∀ s, 0 ≤ s → s ≤ s1 + s2 → slab j a s = .ok (inten j a s, Real.exp (-a * s)) := fun s hs hl => by
    refine slab_ok hj hs (lt_of_le_of_lt (inten_le hj ha) (lt_of_le_of_lt (mul_le_mul_of_nonneg_left hl hj) hb)) ?_
    have : Real.exp (-a * s) ≤ 1 := Real.exp_le_one_iff.2 (by nlinarith)
    exact lt_of_le_of_lt this (by norm_num)
  refine ⟨_, _, _, _, big s1 h1 (by linarith), big s2 h2 (by linarith), ?_⟩
  rw [big (s1 + s2) (by linarith) le_rfl]
  have e : Real.exp (-a * (s1 + s2)) = Real.exp (-a * s1) * Real.exp (-a * s2) := by rw [← Real.exp_add]; ring_nf
  have ei : inten j a (s1 + s2) = inten j a s1 * Real.exp (-a * s2) + inten j a s2 := by
    unfold inten
    split_ifs with h
    · simp [h]; ring
    · rw [e]; ring
  rw [ei, e]

/-- C111. Bounds: nothing is negative; the transmission is at most one; the intensity exceeds neither what is emitted nor the source function. -/
theorem slab_bounds {j a s : ℝ} (hj : 0 ≤ j) (ha : 0 ≤ a) (hs : 0 ≤ s) (hb : j * s < 2 ^ 53) :
    ∃ I T, slab j a s = .ok (I, T) ∧ 0 ≤ I ∧ I ≤ j * s ∧ 0 < T ∧ T ≤ 1 ∧ I * a = j * (1 - T) := by
  have ht : Real.exp (-a * s) ≤ 1 := Real.exp_le_one_iff.2 (by nlinarith)
  refine ⟨_, _, slab_ok hj hs (lt_of_le_of_lt (inten_le hj ha) hb) (lt_of_le_of_lt ht (by norm_num)), inten_nonneg hj hs, inten_le hj ha,
    Real.exp_pos _, ht, ?_⟩
  unfold inten
  split_ifs with h
  · simp [h]
  · field_simp; ring

/-- C111. No jump where the code changes its formula: when the absorption vanishes, the intensity goes to the one without absorption. -/
theorem slab_continuous {j s : ℝ} (hj : 0 ≤ j) (hs : 0 ≤ s) (hb : j * s < 2 ^ 53) :
    ∃ I : ℝ → ℝ, (∀ a, 0 ≤ a → ∃ T, slab j a s = .ok (I a, T)) ∧ I 0 = j * s ∧ Tendsto I (𝓝 0) (𝓝 (I 0)) := by
  refine ⟨fun a => inten j a s, fun a ha => ?_, by simp [inten], ?_⟩
  · obtain ⟨I, T, e, -⟩ := slab_bounds hj ha hs hb
    have ht : Real.exp (-a * s) ≤ 1 := Real.exp_le_one_iff.2 (by nlinarith)
    exact ⟨_, slab_ok hj hs (lt_of_le_of_lt (inten_le hj ha) hb) (lt_of_le_of_lt ht (by norm_num))⟩
  · have h1 : HasDerivAt (fun a : ℝ => -a * s) (-s) 0 := by simpa using ((hasDerivAt_id (0 : ℝ)).neg.mul_const s)
    have hd : HasDerivAt (fun a => Real.exp (-a * s)) (-s) 0 := h1.exp.congr_deriv (by simp)
    have hl := hasDerivAt_iff_tendsto_slope.1 hd
    have hm : Tendsto (fun a => inten j a s) (𝓝[≠] 0) (𝓝 (j * s)) := by
      have := hl.const_mul (-j)
      rw [show -j * -s = j * s by ring] at this
      refine this.congr' ?_
      filter_upwards [self_mem_nhdsWithin] with a (ha : a ≠ 0)
      unfold inten slope
      rw [if_neg ha]
      simp
      field_simp
    have h0 : inten j 0 s = j * s := by simp [inten]
    simp only [h0]
    rw [← nhdsNE_sup_pure, tendsto_sup]
    exact ⟨hm, by rw [tendsto_pure_left]; intro u hu; rw [h0]; exact mem_of_mem_nhds hu⟩

theorem slab_source_eq {a B s : ℝ} (ha : 0 < a) (hB : 0 ≤ B) (hs : 0 ≤ s) (hb : B < 2 ^ 53) :
    slab (a * B) a s = .ok (B * (1 - Real.exp (-a * s)), Real.exp (-a * s)) := by
  have ht : Real.exp (-a * s) ≤ 1 := Real.exp_le_one_iff.2 (by nlinarith)
  have hp := Real.exp_pos (-a * s)
  have e : inten (a * B) a s = B * (1 - Real.exp (-a * s)) := by
    unfold inten
    rw [if_neg ha.ne']
    field_simp
    ring
  rw [slab_ok (by positivity) hs ?_ (lt_of_le_of_lt ht (by norm_num)), e]
  rw [e]
  nlinarith

/-- C111. Where emission and absorption are in the ratio `B`, as in matter of one temperature, the intensity is that fraction of `B` that does
not pass: deep matter sends out `B`. -/
theorem slab_source {a B s : ℝ} (ha : 0 < a) (hB : 0 ≤ B) (hs : 0 ≤ s) (hb : B < 2 ^ 53) :
    ∃ T, slab (a * B) a s = .ok (B * (1 - T), T) ∧ 0 < T ∧ T ≤ 1 :=
  ⟨_, slab_source_eq ha hB hs hb, Real.exp_pos _, Real.exp_le_one_iff.2 (by nlinarith)⟩

/-- C111 (negation). A bright slab is refused as infinite though its intensity is a number. -/
theorem slab_bright_wrong {j s : ℝ} (hb : 2 ^ 53 ≤ j * s) : slab j 0 s = .throws ∧ ∃ I T, IsTransfer j 0 I T ∧ I s = j * s := by
  refine ⟨?_, _, _, inten_transfer j 0, by simp [inten]⟩
  unfold slab
  simp only [if_true]
  have : (0 : ℝ) < 2 ^ 53 := by positivity
  rw [if_neg (by linarith), if_pos (Or.inl hb)]

/-- C111 (negation). Matter that amplifies, with a negative coefficient, is accepted as long as it is thin, though transmission is a fraction: it
then exceeds one. -/
theorem slab_amplifies_wrong : ∃ I T, slab 1 (-1) 1 = .ok (I, T) ∧ 1 < T := by
  have h1 : Real.exp 1 < 2.7182818286 := Real.exp_one_lt_d9
  have e : inten 1 (-1) 1 = Real.exp 1 - 1 := by unfold inten; norm_num
  refine ⟨_, _, slab_ok zero_le_one zero_le_one ?_ ?_, ?_⟩
  · rw [e]; norm_num at *; linarith
  · norm_num at *; linarith
  · have := Real.add_one_le_exp (1 : ℝ)
    norm_num at *

/-- Example: one unit of optical depth. -/
example : ∃ I1 T1 I2 T2, slab 3 2 0.25 = .ok (I1, T1) ∧ slab 3 2 0.25 = .ok (I2, T2) ∧ slab 3 2 (0.25 + 0.25) = .ok (I1 * T2 + I2, T1 * T2) :=
  slab_split (by norm_num) (by norm_num) (by norm_num) (by norm_num) (by norm_num)

/-- Example: a source function of 5. -/
example : ∃ T, slab (2 * 5) 2 0.5 = .ok (5 * (1 - T), T) ∧ 0 < T ∧ T ≤ 1 := slab_source (by norm_num) (by norm_num) (by norm_num) (by norm_num)

end Gyoto.SphAcc
