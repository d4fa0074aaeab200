import Verif.Model.Moving
import Mathlib.Topology.Order.Lattice
import Mathlib.Topology.Algebra.Order.Field
import Mathlib.Topology.Instances.Real.Lemmas
import Mathlib.Tactic.FieldSimp
import Mathlib.Tactic.Linarith
import Mathlib.Tactic.Positivity

/-!
# C107: the size of an `InflateStar` and what it emits
-/

namespace Gyoto.Moving

open Gyoto.USphere (Kind P3 Sphere dist2)

private theorem dist2_nonneg (p c : P3) : 0 ≤ dist2 p c := by
  simp only [dist2]
  nlinarith [mul_self_nonneg (p.1 - c.1), mul_self_nonneg (p.2.1 - c.2.1), mul_self_nonneg (p.2.2 - c.2.2)]

/-- The radius as a function of the date: that of the star, then a segment, then the final one. -/
private theorem radius_formula (s : Inflate) (h : s.tInit < s.tStop) (t : ℝ) :
    s.radiusAt t = s.sphere.radius + max 0 (min 1 ((t - s.tInit) / (s.tStop - s.tInit))) * (s.rStop - s.sphere.radius) := by
  have hd : 0 < s.tStop - s.tInit := by linarith
  simp only [Inflate.radiusAt]
  split_ifs with h1 h2
  · rw [min_eq_left (by rw [le_div_iff₀ hd]; linarith), max_eq_right (by norm_num)]; ring
  · push Not at h1
    rw [min_eq_right (by rw [div_le_one hd]; linarith), max_eq_right (div_nonneg (by linarith) hd.le)]
  · push Not at h1 h2
    have : (t - s.tInit) / (s.tStop - s.tInit) ≤ 0 := div_nonpos_of_nonpos_of_nonneg (by linarith) hd.le
    rw [min_eq_right (by linarith), max_eq_left this]; ring

/-- C107: if the inflation ends after it starts, the radius is that of the star before, the final one after, in between the dates it is
affine, it changes continuously, and it is monotonic. -/
theorem inflate_radius (s : Inflate) (h : s.tInit < s.tStop) :
    (∀ t ≤ s.tInit, s.radiusAt t = s.sphere.radius) ∧ (∀ t ≥ s.tStop, s.radiusAt t = s.rStop) ∧
    (∀ x ∈ Set.Icc (0 : ℝ) 1, s.radiusAt ((1 - x) * s.tInit + x * s.tStop) = (1 - x) * s.sphere.radius + x * s.rStop) ∧
    Continuous s.radiusAt ∧ (s.sphere.radius ≤ s.rStop → Monotone s.radiusAt) ∧ (s.rStop ≤ s.sphere.radius → Antitone s.radiusAt) := by
  have hd : 0 < s.tStop - s.tInit := by linarith
  have hmono : Monotone fun t => max 0 (min 1 ((t - s.tInit) / (s.tStop - s.tInit))) := by
    intro a b hab
    have : (a - s.tInit) / (s.tStop - s.tInit) ≤ (b - s.tInit) / (s.tStop - s.tInit) := by gcongr
    exact max_le_max le_rfl (min_le_min le_rfl this)
  refine ⟨fun t ht => ?_, fun t ht => ?_, fun x hx => ?_, ?_, fun hr => ?_, fun hr => ?_⟩
  · simp only [Inflate.radiusAt]
    rw [if_neg (by push Not; linarith), if_neg (by push Not; exact ht)]
  · simp only [Inflate.radiusAt, if_pos ht]
  · rw [radius_formula s h]
    have e : ((1 - x) * s.tInit + x * s.tStop - s.tInit) / (s.tStop - s.tInit) = x := by field_simp; ring
    rw [e, min_eq_right hx.2, max_eq_right hx.1]; ring
  · have : s.radiusAt = fun t => s.sphere.radius + max 0 (min 1 ((t - s.tInit) / (s.tStop - s.tInit))) * (s.rStop - s.sphere.radius) :=
      funext (radius_formula s h)
    rw [this]
    fun_prop
  · intro a b hab
    rw [radius_formula s h, radius_formula s h]
    have := hmono hab
    have := mul_le_mul_of_nonneg_right this (sub_nonneg.2 hr)
    simp only at this
    linarith
  · intro a b hab
    rw [radius_formula s h, radius_formula s h]
    have := hmono hab
    have := mul_le_mul_of_nonpos_right this (sub_nonpos.2 hr)
    simp only at this
    linarith

/-- C107, full statement refuted: "a star of which no inflation has been asked has its radius". At every date from 0 on the radius of a
fresh star is `DBL_MAX`. -/
theorem inflate_fresh_wrong (sp : Sphere) (r : ℝ) (t : ℝ) (ht : 0 ≤ t) : ((Inflate.new sp).setRadius r).radiusAt t = dblMax := by
  simp [Inflate.radiusAt, Inflate.new, Inflate.setRadius, ht]

/-- C107, full statement refuted: "the radius changes continuously". If the dates are exchanged or equal, it jumps at the final one. -/
theorem inflate_jump_wrong (s : Inflate) (h : s.tStop ≤ s.tInit) (hr : s.rStop ≠ s.sphere.radius) : ¬ Continuous s.radiusAt := by
  intro hc
  have h1 : ∀ t < s.tStop, s.radiusAt t = s.sphere.radius := fun t ht => by
    simp only [Inflate.radiusAt]
    rw [if_neg (by push Not; exact ht), if_neg (by push Not; linarith)]
  have h2 : s.radiusAt s.tStop = s.rStop := by simp [Inflate.radiusAt]
  have h3 : Filter.Tendsto s.radiusAt (nhdsWithin s.tStop (Set.Iio s.tStop)) (nhds s.rStop) := by
    rw [← h2]; exact hc.continuousAt.continuousWithinAt
  have h4 : Filter.Tendsto s.radiusAt (nhdsWithin s.tStop (Set.Iio s.tStop)) (nhds s.sphere.radius) := by
    refine tendsto_const_nhds.congr' ?_
    filter_upwards [self_mem_nhdsWithin] with t ht
    exact (h1 t ht).symm
  exact hr (tendsto_nhds_unique h3 h4)

/-- C107: what the star emits, times its volume, is what a star of its initial radius emits, times the initial volume. -/
theorem inflate_emission (s : Inflate) (nu dsem t : ℝ) (h : s.radiusAt t ≠ 0) (e : ℝ) (he : s.sphere.emission nu dsem = some e) :
    ∃ x, s.emission nu dsem t = some x ∧ x * s.radiusAt t ^ 3 = e * s.sphere.radius ^ 3 := by
  refine ⟨s.sphere.radius * s.sphere.radius * s.sphere.radius / (s.radiusAt t * s.radiusAt t * s.radiusAt t) * e, ?_, ?_⟩
  · simp only [Inflate.emission, he]
    rw [if_neg (by simpa using h)]
    rfl
  · field_simp

/-- C107: before the inflation the star emits as an ordinary one. -/
theorem inflate_emission_before (s : Inflate) (nu dsem t : ℝ) (h : s.tInit < s.tStop) (ht : t ≤ s.tInit) (hr : s.sphere.radius ≠ 0) :
    s.emission nu dsem t = s.sphere.emission nu dsem := by
  simp only [Inflate.emission, (inflate_radius s h).1 t ht]
  rw [if_neg (by simpa using hr)]
  rcases s.sphere.emission nu dsem with _ | e
  · rfl
  · simp only [Option.map_some]
    congr 1
    field_simp

/-- C107: when a photon comes near at the date `t`, a point is inside if its distance to the centre is less than the radius at this date;
what happened before does not matter. -/
theorem inflate_impact (s : Inflate) (t t' : ℝ) (h : 0 ≤ s.radiusAt t) (p c : P3) :
    (dist2 p c < (s.impact t).sphere.critical ↔ √(dist2 p c) < s.radiusAt t) ∧
    (s.impact t').impact t = s.impact t ∧ (s.impact t').radiusAt = s.radiusAt ∧ (s.impact t').sphere.radius = s.sphere.radius := by
  refine ⟨?_, rfl, rfl, rfl⟩
  show _ < s.radiusAt t * s.radiusAt t ↔ _
  rw [Real.sqrt_lt (dist2_nonneg p c) h, sq]

/-- C107, full statement refuted: "inside the step, a point is in the star if its distance to the centre is less than the radius at its
own date". The limit is that of the first end of the step: for a star that grows and any other date of the inflation there are places on
which the two disagree. -/
theorem inflate_stale_wrong (s : Inflate) (h : s.tInit < s.tStop) (h0 : 0 ≤ s.sphere.radius) (hr : s.sphere.radius < s.rStop) (t t' : ℝ)
    (h1 : s.tInit ≤ t) (h2 : t < t') (h3 : t' ≤ s.tStop) :
    ∃ p c : P3, √(dist2 p c) < s.radiusAt t' ∧ ¬ dist2 p c < (s.impact t).sphere.critical := by
  have hd : 0 < s.tStop - s.tInit := by linarith
  have e : ∀ x, s.tInit ≤ x → x ≤ s.tStop →
      s.radiusAt x = s.sphere.radius + (x - s.tInit) / (s.tStop - s.tInit) * (s.rStop - s.sphere.radius) := fun x hx hx' => by
    rw [radius_formula s h, min_eq_right (by rw [div_le_one hd]; linarith), max_eq_right (div_nonneg (by linarith) hd.le)]
  have hlt : s.radiusAt t < s.radiusAt t' := by
    rw [e t h1 (by linarith), e t' (by linarith) h3]
    have : (t - s.tInit) / (s.tStop - s.tInit) < (t' - s.tInit) / (s.tStop - s.tInit) := by gcongr
    have := mul_lt_mul_of_pos_right this (sub_pos.2 hr)
    linarith
  have hn : 0 ≤ s.radiusAt t := by
    rw [e t h1 (by linarith)]
    have := mul_nonneg (div_nonneg (sub_nonneg.2 h1) hd.le) (sub_nonneg.2 hr.le)
    linarith
  have hx : dist2 (s.radiusAt t, 0, 0) (0, 0, 0) = s.radiusAt t ^ 2 := by simp [dist2]; try ring
  refine ⟨(s.radiusAt t, 0, 0), (0, 0, 0), ?_, ?_⟩
  · rw [hx, Real.sqrt_sq hn]; exact hlt
  · rw [hx]
    show ¬ _ < s.radiusAt t * s.radiusAt t
    rw [sq]; exact lt_irrefl _

/-- A star of radius 1 that grows up to 3 between the dates 10 and 20: at the date 15 its radius is 2 and it emits eight times less. -/
example (sp : Sphere) (hs : sp.radius = 1) (nu d e : ℝ) (he : sp.emission nu d = some e) :
    (⟨10, 20, 3, sp⟩ : Inflate).radiusAt 15 = 2 ∧ ∃ x, (⟨10, 20, 3, sp⟩ : Inflate).emission nu d 15 = some x ∧ x * 8 = e := by
  have h : (⟨10, 20, 3, sp⟩ : Inflate).radiusAt 15 = 2 := by
    have := (inflate_radius ⟨10, 20, 3, sp⟩ (by norm_num)).2.2.1 (1 / 2) ⟨by norm_num, by norm_num⟩
    norm_num [hs] at this
    exact this
  obtain ⟨x, h1, h2⟩ := inflate_emission ⟨10, 20, 3, sp⟩ nu d 15 (by rw [h]; norm_num) e he
  refine ⟨h, x, h1, ?_⟩
  rw [h] at h2
  norm_num [hs] at h2
  exact h2

end Gyoto.Moving
