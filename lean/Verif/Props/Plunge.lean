import Verif.Lemmas.Plunge
import Mathlib.Topology.Order.IntermediateValue

/-!
# The velocity of the gas of thin disks, down to the horizon
-/

namespace Gyoto.Plunge

open Gyoto.MetricAlg Gyoto.KerrBL Gyoto.Orbits Gyoto.Static Gyoto.Spacetime

/-! ### C101: gas in circular motion, in radial fall, and below the last stable orbit -/

/-- A position in the equatorial plane, outside the horizon. -/
structure Outside (a : ℝ) (p : Vec) : Prop where
  r : 1 < p 1
  delta : 0 < p 1 * p 1 - 2 * p 1 + a * a
  plane : p 2 = Real.pi / 2

section
variable {a : ℝ} {p : Vec}

theorem Outside.r0 (h : Outside a p) : 0 < p 1 := by linarith [h.r]

theorem gmunu_shape (h : Outside a p) : ∃ tt rr hh pp tp, gmunu a p = circ tt rr hh pp tp ∧ 0 < rr ∧ 0 < pp := by
  refine ⟨_, _, _, _, _, rfl, ?_, ?_⟩
  · have := g11 (a := a) h.plane
    have e : 0 < p 1 * p 1 / (p 1 * p 1 - 2 * p 1 + a * a) := div_pos (mul_pos h.r0 h.r0) h.delta
    rw [← this] at e
    exact e
  · have e : 0 < p 1 ^ 2 + a ^ 2 + 2 * a ^ 2 / p 1 := by
      have := h.r0
      positivity
    rw [← g33 h.r0.ne' h.plane] at e
    exact e

theorem radial_W (r : ℝ) : uW a 1 0 r = 2 / r + 2 * a ^ 2 / r ^ 3 := by unfold uW; ring

theorem radial_W_pos (h : Outside a p) : 0 < uW a 1 0 (p 1) := by
  rw [radial_W]
  have := h.r0
  positivity

theorem radial_eq (h : Outside a p) : radial (gmunu a p) (gmunuUp a p) = some (fall a 1 0 p) := by
  have hr := h.r0
  have hd := h.delta
  have e : (-1 - gmunuUp a p 0 0) / gmunu a p 1 1 = uW a 1 0 (p 1) := by
    rw [up00 hr.ne' hd.ne' h.plane, g11 h.plane, radial_W]
    generalize p 1 = r at *
    obtain ⟨d, hdd⟩ : ∃ d, d = r * r - 2 * r + a * a := ⟨_, rfl⟩
    rw [← hdd] at hd ⊢
    field_simp
    rw [hdd]; ring
  unfold radial
  have h11 : gmunu a p 1 1 ≠ 0 := by
    rw [g11 h.plane]
    exact (div_pos (mul_pos hr hr) hd).ne'
  rw [quot_ne h11, e, Option.bind_some, root_nonneg (radial_W_pos h).le, Option.map_some]
  congr 1
  unfold fall uT uF
  rw [up00 hr.ne' hd.ne' h.plane, up03 hr.ne' h.plane]
  congr 1
  · ring
  · congr 1; congr 1; congr 1; ring

theorem radial_observer (h : Outside a p) : IsObserver (gmunu a p) (fall a 1 0 p) := by
  have hr := h.r0
  have hd := h.delta
  refine ⟨?_, fall_unit hr.ne' hd.ne' h.plane (radial_W_pos h).le⟩
  show 0 < uT a 1 0 (p 1)
  unfold uT
  have : 0 < (p 1 ^ 3 + a ^ 2 * p 1 + 2 * a ^ 2) * 1 - 2 * a * 0 := by
    rw [mul_zero, sub_zero, mul_one]; positivity
  positivity

/-- Energy and angular momentum of the last stable orbit. -/
noncomputable abbrev eI (a : ℝ) : ℝ := orbitE a (kerrRms a)
noncomputable abbrev lI (a : ℝ) : ℝ := orbitL a (kerrRms a)

theorem inner_W (h1 : 0 ≤ a) (h2 : a < 1) {r : ℝ} (hr : 0 < r) (hR : r ≤ kerrRms a) :
    0 ≤ uW a (eI a) (lI a) r ∧ √(uW a (eI a) (lI a) r) = √(2 / (3 * kerrRms a)) * (kerrRms a / r - 1) ^ (1.5 : ℝ) := by
  have hk : 0 ≤ kerrRms a / r - 1 := by rw [sub_nonneg, le_div_iff₀ hr]; linarith
  have hR0 : 0 < kerrRms a := by linarith
  unfold eI lI
  rw [isco_uW h1 h2 hr.ne', Real.sqrt_mul (by positivity)]
  refine ⟨by positivity, ?_⟩
  congr 1
  rw [Real.sqrt_eq_rpow, ← Real.rpow_natCast, ← Real.rpow_mul hk]
  norm_num

/-- The gas that falls from the last stable orbit goes towards the future. -/
theorem inner_future (h1 : 0 ≤ a) (h2 : a < 1) (h : Outside a p) (hR : p 1 ≤ kerrRms a) : 0 < uT a (eI a) (lI a) (p 1) := by
  obtain ⟨f, hf⟩ : ∃ f : ℝ → ℝ, f = fun r => (r ^ 3 + a ^ 2 * r + 2 * a ^ 2) * eI a - 2 * a * lI a := ⟨_, rfl⟩
  have hE : 0 < eI a := orbitE_pos h1 h2
  have hdel : ∀ r, p 1 ≤ r → 0 < r * r - 2 * r + a * a := by
    intro r hr
    have := h.delta
    have := h.r
    nlinarith
  have hne : ∀ r, p 1 ≤ r → r ≤ kerrRms a → f r ≠ 0 := by
    intro r hr hrR h0
    have hr0 : 0 < r := lt_of_lt_of_le h.r0 hr
    have hW := (inner_W h1 h2 hr0 hrR).1
    have hu := fall_unit (a := a) (E := eI a) (L := lI a) (p := ![0, r, Real.pi / 2, 0]) hr0.ne' (hdel r hr).ne' rfl hW
    rw [sp_lower, lower_fall hr0.ne' (hdel r hr).ne' rfl, Fin.sum_univ_four] at hu
    have hq := Real.mul_self_sqrt hW
    unfold fall at hu
    simp only [Matrix.cons_val] at hu
    have e0 : uT a (eI a) (lI a) r = 0 := by
      unfold uT
      rw [hf] at h0
      simp only at h0
      rw [h0, zero_div]
    have eF : uF a (eI a) (lI a) r * lI a * (r ^ 3 + a ^ 2 * r + 2 * a ^ 2) = r * lI a ^ 2 := by
      rw [hf] at h0
      simp only at h0
      unfold uF
      have hd := (hdel r hr).ne'
      obtain ⟨d, hdd⟩ : ∃ d, d = r * r - 2 * r + a * a := ⟨_, rfl⟩
      rw [← hdd] at hd ⊢
      field_simp
      rw [hdd]
      linear_combination (2 * a * lI a) * h0
    rw [e0] at hu
    have hA : 0 < r ^ 3 + a ^ 2 * r + 2 * a ^ 2 := by positivity
    have k1 : 0 ≤ uF a (eI a) (lI a) r * lI a := by
      by_contra hc
      push Not at hc
      have := mul_neg_of_neg_of_pos hc hA
      rw [eF] at this
      have : 0 ≤ r * lI a ^ 2 := by positivity
      linarith
    have k2 : 0 ≤ -√(uW a (eI a) (lI a) r) * (r * r / (r * r - 2 * r + a * a) * -√(uW a (eI a) (lI a) r)) := by
      have hd := hdel r hr
      have : 0 ≤ r * r / (r * r - 2 * r + a * a) * (√(uW a (eI a) (lI a) r) * √(uW a (eI a) (lI a) r)) := by positivity
      linarith
    linarith
  have hfR : 0 < f (kerrRms a) := by
    have hR0 : 0 < kerrRms a := by linarith [h.r0]
    have hs := slow_outside h1 h2 le_rfl
    have hd := hdel _ hR
    have k := (kerr_circular (a := a) (dir := 1) (pos := ![0, kerrRms a, Real.pi / 2, 0]) hR0 hd.ne' rfl (Or.inl rfl) hs).1.future
    have e := raise_orbit (a := a) (p := ![0, kerrRms a, Real.pi / 2, 0]) hR0 hd.ne' rfl hs
    rw [raise_eq hR0.ne' hd.ne' rfl] at e
    rw [← (Prod.mk.inj e).1] at k
    have k' : 0 < uT a (eI a) (lI a) (kerrRms a) := k
    unfold uT at k'
    rw [hf]
    simp only
    have hpos : 0 < kerrRms a * (kerrRms a * kerrRms a - 2 * kerrRms a + a * a) := mul_pos hR0 hd
    exact (div_pos_iff_of_pos_right hpos).1 k'
  have hfp : 0 < f (p 1) := by
    by_contra hc
    push Not at hc
    have hcont : ContinuousOn f (Set.Icc (p 1) (kerrRms a)) := by
      rw [hf]; fun_prop
    obtain ⟨r, ⟨m1, m2⟩, e⟩ := intermediate_value_Icc hR hcont ⟨hc, hfR.le⟩
    exact hne r m1 m2 e
  have e : uT a (eI a) (lI a) (p 1) = f (p 1) / (p 1 * (p 1 * p 1 - 2 * p 1 + a * a)) := by rw [hf]; rfl
  rw [e]
  exact div_pos hfp (mul_pos h.r0 h.delta)

theorem inner_observer (h1 : 0 ≤ a) (h2 : a < 1) (h : Outside a p) (hR : p 1 ≤ kerrRms a) :
    IsObserver (gmunu a p) (fall a (eI a) (lI a) p) :=
  ⟨inner_future h1 h2 h hR, fall_unit h.r0.ne' h.delta.ne' h.plane (inner_W h1 h2 h.r0 hR).1⟩

theorem circular_outer (h1 : 0 ≤ a) (h2 : a < 1) (h : Outside a p) (hR : kerrRms a < p 1) (xi : ℝ) :
    circular (kerr a) xi p = some (kerrVel a p 1) := by
  have hs := slow_outside h1 h2 hR.le
  unfold circular
  rw [if_pos (show p 1 > (kerr a).risco from hR)]
  show (kerrEL a xi (p 1)).map _ = _
  rw [kerrEL_eq h.r0 hs, Option.map_some]
  show some (![(raise (gmunuUp a p) _).1, 0, 0, (raise (gmunuUp a p) _).2] : Vec) = _
  rw [raise_orbit h.r0 h.delta.ne' h.plane hs]
  rw [kerr_eq h.r0 h.plane]
  rfl

theorem circnorm_eq {g : Tensor} {u0 u3 c : ℝ} (h11 : g 1 1 ≠ 0)
    (hc : -(1 / g 1 1) * (1 + g 0 0 * u0 ^ 2 + g 3 3 * u3 ^ 2 + 2 * g 0 3 * u0 * u3) = c) (h0 : 0 ≤ c) : circnorm g u0 u3 = some c := by
  unfold circnorm
  rw [quot_ne h11, Option.map_some]
  subst hc
  exact congrArg some (if_neg fun hc => absurd hc.1 (not_lt.2 h0))

theorem circular_inner (h1 : 0 ≤ a) (h2 : a < 1) (h : Outside a p) (hR : p 1 ≤ kerrRms a) (xi : ℝ) :
    circular (kerr a) xi p = some (fall a (eI a) (lI a) p) := by
  have hs := slow_outside h1 h2 (r := kerrRms a) le_rfl
  have hR0 : 0 < kerrRms a := by linarith [h.r0]
  unfold circular
  rw [if_neg (show ¬p 1 > (kerr a).risco from not_lt.2 hR)]
  show (kerrEL a xi (kerrRms a)).bind _ = _
  rw [kerrEL_eq hR0 hs, Option.bind_some]
  show ((circnorm (gmunu a p) (raise (gmunuUp a p) (eI a, lI a)).1 (raise (gmunuUp a p) (eI a, lI a)).2).bind root).map
    (fun w => (![(raise (gmunuUp a p) (eI a, lI a)).1, -w, 0, (raise (gmunuUp a p) (eI a, lI a)).2] : Vec)) = _
  rw [raise_eq h.r0.ne' h.delta.ne' h.plane]
  have hW := (inner_W h1 h2 h.r0 hR).1
  obtain ⟨tt, rr, hh, pp, tp, hg, hrr, -⟩ := gmunu_shape h
  have hu := fall_unit (E := eI a) (L := lI a) h.r0.ne' h.delta.ne' h.plane hW
  have hq := Real.mul_self_sqrt hW
  have e : circnorm (gmunu a p) (uT a (eI a) (lI a) (p 1)) (uF a (eI a) (lI a) (p 1)) = some (uW a (eI a) (lI a) (p 1)) := by
    rw [hg] at hu ⊢
    rw [sp_circ'] at hu
    have h11 : circ tt rr hh pp tp 1 1 ≠ 0 := hrr.ne'
    unfold fall at hu
    simp only [Matrix.cons_val] at hu
    refine circnorm_eq h11 ?_ hW
    show -(1 / rr) * (1 + tt * uT a (eI a) (lI a) (p 1) ^ 2 + pp * uF a (eI a) (lI a) (p 1) ^ 2 +
        2 * tp * uT a (eI a) (lI a) (p 1) * uF a (eI a) (lI a) (p 1)) = uW a (eI a) (lI a) (p 1)
    rw [← hq]
    field_simp
    linear_combination (-1) * hu
  rw [e, Option.bind_some, root_nonneg hW, Option.map_some]
  rfl

/-- C101. Outside the last stable orbit, the gas in circular motion is on the free circular orbit. -/
theorem profile_circular (h1 : 0 ≤ a) (h2 : a < 1) (h : Outside a p) (hR : kerrRms a < p 1) :
    getVelocity (kerr a) .circular p = .ok (kerrVel a p 1) ∧ IsRotating (gmunu a p) (kerrVel a p 1) ∧
      IsFree (gmunu a) p (kerrVel a p 1) := by
  have hs := slow_outside h1 h2 hR.le
  obtain ⟨k1, k2, -⟩ := kerr_circular h.r0 h.delta.ne' h.plane (Or.inl rfl) hs
  obtain ⟨tt, rr, hh, pp, tp, hg, hrr, hpp⟩ := gmunu_shape h
  obtain ⟨w, e, -, -, -, -, ew, -⟩ := getVelocity_eq (M := kerr a) (k := .circular) hg hrr hpp (radial_eq h) (radial_observer h) rfl
    (circular_outer h1 h2 h hR _) ⟨k1.future, k1.unit⟩ k1.theta
  rw [e, ew rfl]
  exact ⟨rfl, k1, k2⟩

/-- The velocity that the disk gives, as a field. -/
noncomputable def field (M : Metric) (k : Motion) (q : Vec) : Vec :=
  match getVelocity M k q with
  | .ok v => v
  | .error _ => 0

theorem profile_inner_eq (h1 : 0 ≤ a) (h2 : a < 1) (h : Outside a p) (hR : p 1 ≤ kerrRms a) :
    getVelocity (kerr a) .circular p = .ok (fall a (eI a) (lI a) p) := by
  obtain ⟨tt, rr, hh, pp, tp, hg, hrr, hpp⟩ := gmunu_shape h
  obtain ⟨w, e, -, -, -, -, ew, -⟩ := getVelocity_eq (M := kerr a) (k := .circular) hg hrr hpp (radial_eq h) (radial_observer h) rfl
    (circular_inner h1 h2 h hR _) (inner_observer h1 h2 h hR) rfl
  rw [e, ew rfl]

theorem circular_ok (h1 : 0 ≤ a) (h2 : a < 1) (h : Outside a p) (xi : ℝ) :
    ∃ c, circular (kerr a) xi p = some c ∧ IsObserver (gmunu a p) c ∧ c 2 = 0 := by
  rcases lt_or_ge (kerrRms a) (p 1) with hR | hR
  · obtain ⟨k1, -, -⟩ := kerr_circular h.r0 h.delta.ne' h.plane (Or.inl rfl) (slow_outside h1 h2 hR.le)
    exact ⟨_, circular_outer h1 h2 h hR xi, ⟨k1.future, k1.unit⟩, k1.theta⟩
  · exact ⟨_, circular_inner h1 h2 h hR xi, inner_observer h1 h2 h hR, rfl⟩

theorem profile_radial_eq (h1 : 0 ≤ a) (h2 : a < 1) (h : Outside a p) :
    getVelocity (kerr a) .radial p = .ok (fall a 1 0 p) := by
  obtain ⟨tt, rr, hh, pp, tp, hg, hrr, hpp⟩ := gmunu_shape h
  obtain ⟨c, ec, hc, hc2⟩ := circular_ok h1 h2 h (xiOf (kerr a) .radial)
  obtain ⟨w, e, -, -, -, -, -, ew⟩ := getVelocity_eq (M := kerr a) (k := .radial) hg hrr hpp (radial_eq h) (radial_observer h) rfl ec hc hc2
  rw [e, ew rfl]

/-- Being in free fall only depends on the field along itself. -/
theorem falls_congr {g : Vec → Tensor} {V V' : Vec → Vec} (h : FallsFreely g V' p) (e0 : V p = V' p)
    (e : ∀ᶠ s in nhds (0 : ℝ), V (p + s • V' p) = V' (p + s • V' p)) : FallsFreely g V p := by
  obtain ⟨D, hD, k⟩ := h
  refine ⟨D, hD, fun α => ?_⟩
  rw [e0]
  refine (k α).congr_of_eventuallyEq ?_
  filter_upwards [e] with s hs
  rw [hs]

theorem outside_near (h : Outside a p) {E L : ℝ} : ∀ᶠ s in nhds (0 : ℝ), Outside a (p + s • fall a E L p) := by
  obtain ⟨v, hv⟩ : ∃ v, v = fall a E L p 1 := ⟨_, rfl⟩
  have e1 : ∀ s : ℝ, (p + s • fall a E L p) 1 = p 1 + s * v := fun s => by rw [hv]; rfl
  have e2 : ∀ s : ℝ, (p + s • fall a E L p) 2 = Real.pi / 2 := fun s => by
    show p 2 + s * 0 = _; rw [h.plane]; ring
  have r0 : p 1 + 0 * v = p 1 := by ring
  have c1 : ∀ᶠ s in nhds (0 : ℝ), 1 < p 1 + s * v := by
    have : ContinuousAt (fun s : ℝ => p 1 + s * v) 0 := by fun_prop
    exact this.eventually (lt_mem_nhds (by show 1 < p 1 + 0 * v; rw [r0]; exact h.r))
  have c2 : ∀ᶠ s in nhds (0 : ℝ), 0 < (p 1 + s * v) * (p 1 + s * v) - 2 * (p 1 + s * v) + a * a := by
    have : ContinuousAt (fun s : ℝ => (p 1 + s * v) * (p 1 + s * v) - 2 * (p 1 + s * v) + a * a) 0 := by fun_prop
    exact this.eventually (lt_mem_nhds (by show 0 < (p 1 + 0 * v) * (p 1 + 0 * v) - 2 * (p 1 + 0 * v) + a * a; rw [r0]; exact h.delta))
  filter_upwards [c1, c2] with s k1 k2
  exact ⟨by rw [e1]; exact k1, by rw [e1]; exact k2, e2 s⟩

/-- C101. Below the last stable orbit, the gas in circular motion keeps the energy and the angular momentum of that orbit and falls
freely, with the velocity of an observer. -/
theorem profile_plunge (h1 : 0 ≤ a) (h2 : a < 1) (h : Outside a p) (hR : p 1 < kerrRms a) :
    ∃ w, getVelocity (kerr a) .circular p = .ok w ∧ IsObserver (gmunu a p) w ∧ w 1 < 0 ∧ w 2 = 0 ∧
      (∀ q : Vec, q 1 = kerrRms a → q 2 = Real.pi / 2 → lower (gmunu a p) w 0 = lower (gmunu a q) (kerrVel a q 1) 0 ∧
        lower (gmunu a p) w 3 = lower (gmunu a q) (kerrVel a q 1) 3) ∧
      FallsFreely (gmunu a) (field (kerr a) .circular) p := by
  have e := profile_inner_eq h1 h2 h hR.le
  have hW : 0 < uW a (eI a) (lI a) (p 1) := by
    unfold eI lI
    rw [isco_uW h1 h2 h.r0.ne']
    have : 0 < kerrRms a / p 1 - 1 := by rw [sub_pos, lt_div_iff₀ h.r0]; linarith
    have : 0 < kerrRms a := by linarith [h.r0]
    positivity
  refine ⟨_, e, inner_observer h1 h2 h hR.le, ?_, rfl, ?_, ?_⟩
  · show -√(uW a (eI a) (lI a) (p 1)) < 0
    have := Real.sqrt_pos.2 hW
    linarith
  · intro q hq1 hq2
    have hs := slow_outside h1 h2 (r := kerrRms a) le_rfl
    have hq0 : 0 < q 1 := by rw [hq1]; linarith [h.r0]
    obtain ⟨k1, k2⟩ := orbit_lower (p := q) hq0 hq2 (by rw [hq1]; exact hs)
    rw [lower_fall h.r0.ne' h.delta.ne' h.plane, k1, k2, hq1]
    exact ⟨rfl, rfl⟩
  · refine falls_congr (fall_free h.r0.ne' h.delta.ne' h.plane hW) ?_ ?_
    · unfold field; rw [e]
    · have c3 : ∀ᶠ s in nhds (0 : ℝ), p 1 + s * fall a (eI a) (lI a) p 1 < kerrRms a := by
        have : ContinuousAt (fun s : ℝ => p 1 + s * fall a (eI a) (lI a) p 1) 0 := by fun_prop
        exact this.eventually (gt_mem_nhds (by show p 1 + 0 * _ < _; rw [zero_mul, add_zero]; exact hR))
      filter_upwards [outside_near h (E := eI a) (L := lI a), c3] with s k1 k2
      unfold field
      rw [profile_inner_eq h1 h2 k1 (by exact k2.le)]

/-- C101. In radial fall, the gas has the energy of rest far away, no angular momentum, and falls freely. -/
theorem profile_radial (h1 : 0 ≤ a) (h2 : a < 1) (h : Outside a p) :
    ∃ w, getVelocity (kerr a) .radial p = .ok w ∧ IsObserver (gmunu a p) w ∧ w 1 < 0 ∧ w 2 = 0 ∧
      lower (gmunu a p) w 0 = -1 ∧ lower (gmunu a p) w 3 = 0 ∧ FallsFreely (gmunu a) (field (kerr a) .radial) p := by
  have e := profile_radial_eq h1 h2 h
  refine ⟨_, e, radial_observer h, ?_, rfl, ?_, ?_, ?_⟩
  · show -√(uW a 1 0 (p 1)) < 0
    have := Real.sqrt_pos.2 (radial_W_pos h)
    linarith
  · rw [lower_fall h.r0.ne' h.delta.ne' h.plane]; rfl
  · rw [lower_fall h.r0.ne' h.delta.ne' h.plane]; rfl
  · refine falls_congr (fall_free h.r0.ne' h.delta.ne' h.plane (radial_W_pos h)) ?_ ?_
    · unfold field; rw [e]
    · filter_upwards [outside_near h (E := 1) (L := 0)] with s k1
      unfold field
      rw [profile_radial_eq h1 h2 k1]

/-- C101. In mixed motion, the gas has the velocity of an observer, four fifths of the way from the radial fall to the circular motion. -/
theorem profile_mixed (h1 : 0 ≤ a) (h2 : a < 1) (h : Outside a p) :
    ∃ w u v, getVelocity (kerr a) .mixed p = .ok w ∧ getVelocity (kerr a) .radial p = .ok u ∧ getVelocity (kerr a) .circular p = .ok v ∧
      IsObserver (gmunu a p) w ∧ w 1 = u 1 + 4 / 5 * (v 1 - u 1) ∧ w 2 = 0 ∧
      w 3 / w 0 = u 3 / u 0 + 4 / 5 * (v 3 / v 0 - u 3 / u 0) := by
  obtain ⟨tt, rr, hh, pp, tp, hg, hrr, hpp⟩ := gmunu_shape h
  have hxi : ∀ k, xiOf (kerr a) k = 1 := by
    intro k
    cases k <;> simp [xiOf, kerr]
  obtain ⟨c, ec, hc, hc2⟩ := circular_ok h1 h2 h 1
  obtain ⟨w, e, ho, e1, e2, e3, -, -⟩ := getVelocity_eq (M := kerr a) (k := .mixed) hg hrr hpp (radial_eq h) (radial_observer h) rfl
    (by rw [hxi]; exact ec) hc hc2
  obtain ⟨v, ev, -, -, -, -, k, -⟩ := getVelocity_eq (M := kerr a) (k := .circular) hg hrr hpp (radial_eq h) (radial_observer h) rfl
    (by rw [hxi]; exact ec) hc hc2
  have hvc := k rfl
  subst hvc
  refine ⟨w, _, v, e, profile_radial_eq h1 h2 h, ev, ho, ?_, e2, ?_⟩
  · rw [e1]; simp only [beta]; norm_num; ring
  · rw [e3]; simp only [beta]; norm_num; ring

/-- C101. `ThinDiskGridIntensity` and `SimBridge`, with their own formulas, give the same velocity. -/
theorem grid_same (h1 : 0 ≤ a) (h2 : a < 1) (h : Outside a p) : getVelocity (kerr a) .circular p = .ok (gridVelocity a p) := by
  rcases lt_or_ge (kerrRms a) (p 1) with hR | hR
  · rw [(profile_circular h1 h2 h hR).1]
    unfold gridVelocity
    rw [if_pos hR]
  · rw [profile_inner_eq h1 h2 h hR]
    have hR0 : 0 < kerrRms a := by linarith [h.r0]
    congr 1
    unfold gridVelocity
    rw [if_neg (not_lt.2 hR)]
    simp only
    obtain ⟨r1, -, -⟩ := isco_relations h1 h2
    have hE := orbitE_pos h1 h2
    have eE : √(1 - 2 / (3 * kerrRms a)) = eI a := by rw [← r1]; exact Real.sqrt_sq hE.le
    have hw := Real.sqrt_pos.2 hR0
    have hs := slow_outside h1 h2 (r := kerrRms a) le_rfl
    have eL : (kerrRms a * kerrRms a - 2 * a * √(kerrRms a) + a * a) / (kerrRms a ^ (1.5 : ℝ) - 2 * √(kerrRms a) + a) = lI a / eI a := by
      rw [pow_three_half hR0.le]
      unfold KerrSlow at hs
      rw [mul_one] at hs
      have hwr := Real.sq_sqrt hR0.le
      unfold lI eI orbitL orbitE at *
      have hP : 0 < √(√(kerrRms a) ^ 3 * (√(kerrRms a) ^ 3 - 3 * √(kerrRms a) + 2 * a)) := Real.sqrt_pos.2 (by positivity)
      have hnum : 0 < √(kerrRms a) ^ 3 - 2 * √(kerrRms a) + a := by
        by_contra hc
        push Not at hc
        have := div_nonpos_of_nonpos_of_nonneg hc hP.le
        linarith
      rw [div_div_div_cancel_right₀ hP.ne']
      congr 1
      calc kerrRms a * kerrRms a - 2 * a * √(kerrRms a) + a * a = (√(kerrRms a) ^ 2) * (√(kerrRms a) ^ 2) - 2 * a * √(kerrRms a) + a * a := by rw [hwr]
        _ = _ := by ring
    rw [eE, eL]
    have hd := h.delta.ne'
    have hr := h.r0.ne'
    have hEne : eI a ≠ 0 := hE.ne'
    unfold fall
    rw [(inner_W h1 h2 h.r0 hR).2]
    congr 1
    · unfold uT
      generalize eI a = e at *
      generalize lI a = l at *
      generalize p 1 = r at *
      obtain ⟨d, hdd⟩ : ∃ d, d = r * r - 2 * r + a * a := ⟨_, rfl⟩
      rw [← hdd] at hd ⊢
      field_simp
      rw [hdd]
      ring
    · congr 1
      · ring
      · congr 1; congr 1
        unfold uF
        generalize eI a = e at *
        generalize lI a = l at *
        generalize p 1 = r at *
        obtain ⟨d, hdd⟩ : ∃ d, d = r * r - 2 * r + a * a := ⟨_, rfl⟩
        rw [← hdd] at hd ⊢
        field_simp
        rw [hdd]
        ring

/-- C101. `StochasticThinDisk`: at rest, where that is possible, in radial fall, or on circular orbits; below the last stable orbit its
gas in circular motion is in radial fall. -/
theorem stoch_radial (h : Outside a p) : stochVelocity (kerr a) (fun q => kerrVel a q 1) .radial p = some (fall a 1 0 p) := by
  unfold stochVelocity
  simp only
  rw [show radial ((kerr a).g p) ((kerr a).gup p) = some (fall a 1 0 p) from radial_eq h]
  simp only
  exact if_pos (observer_passes (radial_observer h))

theorem stoch_kinds (h1 : 0 ≤ a) (h2 : a < 1) (h : Outside a p) :
    (∃ w, stochVelocity (kerr a) (fun q => kerrVel a q 1) .radial p = some w ∧ getVelocity (kerr a) .radial p = .ok w) ∧
    (kerrRms a < p 1 → stochVelocity (kerr a) (fun q => kerrVel a q 1) .circular p = some (kerrVel a p 1)) ∧
    (p 1 ≤ kerrRms a → stochVelocity (kerr a) (fun q => kerrVel a q 1) .circular p = stochVelocity (kerr a) (fun q => kerrVel a q 1) .radial p) ∧
    (2 < p 1 → ∃ w, stochVelocity (kerr a) (fun q => kerrVel a q 1) .static p = some w ∧ IsObserver (gmunu a p) w ∧ w 1 = 0 ∧ w 2 = 0 ∧ w 3 = 0) ∧
    (p 1 ≤ 2 → stochVelocity (kerr a) (fun q => kerrVel a q 1) .static p = none) := by
  have g0 := g00 (a := a) h.r0.ne' h.plane
  refine ⟨⟨_, stoch_radial h, profile_radial_eq h1 h2 h⟩, fun hR => ?_, fun hR => ?_, fun h2r => ?_, fun h2r => ?_⟩
  · obtain ⟨-, k, -⟩ := profile_circular h1 h2 h hR
    unfold stochVelocity
    simp only
    rw [if_pos (show p 1 > (kerr a).risco from hR)]
    simp only
    exact if_pos (observer_passes ⟨k.future, k.unit⟩)
  · unfold stochVelocity
    simp only
    rw [if_neg (show ¬p 1 > (kerr a).risco from not_lt.2 hR)]
  · have hg : gmunu a p 0 0 < 0 := by
      rw [g0]
      have : 2 / p 1 < 1 := by rw [div_lt_one h.r0]; exact h2r
      linarith
    have hx : 0 < -1 / gmunu a p 0 0 := div_pos_of_neg_of_neg (by norm_num) hg
    have hs := Real.sqrt_pos.2 hx
    have hs2 := Real.sq_sqrt hx.le
    have ho : IsObserver (gmunu a p) ![√(-1 / gmunu a p 0 0), 0, 0, 0] := by
      refine ⟨hs, ?_⟩
      rw [sp_lower, lower_circ, Fin.sum_univ_four]
      simp only [Matrix.cons_val]
      rw [eq_div_iff hg.ne] at hs2
      linear_combination hs2
    refine ⟨_, ?_, ho, rfl, rfl, rfl⟩
    unfold stochVelocity
    simp only
    rw [show quot (-1) ((kerr a).g p 0 0) = some (-1 / gmunu a p 0 0) from quot_ne hg.ne, Option.bind_some, root_nonneg hx.le, Option.map_some]
    simp only
    exact if_pos (observer_passes ho)
  · have hg : 0 ≤ gmunu a p 0 0 := by
      rw [g0]
      have : 1 ≤ 2 / p 1 := by rw [le_div_iff₀ h.r0]; linarith
      linarith
    unfold stochVelocity
    simp only
    rcases hg.eq_or_lt with hz | hz
    · rw [show quot (-1) ((kerr a).g p 0 0) = none from if_pos hz.symm]
      rfl
    · rw [show quot (-1) ((kerr a).g p 0 0) = some (-1 / gmunu a p 0 0) from quot_ne hz.ne', Option.bind_some,
        root_neg (div_neg_of_neg_of_pos (by norm_num) hz)]
      rfl

/-! ### The metric of Rezzolla and Zhidenko -/

theorem rz_shape {m : RZ} {q : Vec} : fill (m.form q) = circ (-m.N2 (q 1)) (m.B2 (q 1) / m.N2 (q 1)) (q 1 * q 1)
    (q 1 * q 1 * (Real.sin (q 2) * Real.sin (q 2))) 0 := by
  funext i j
  fin_cases i <;> fin_cases j <;> rfl

/-- What is asked of the metric of Rezzolla and Zhidenko at a position: an inverse, a lapse that attracts, and circular orbits slower than
light. -/
structure RZOk (m : RZ) (gup : Vec → Tensor) (q : Vec) : Prop where
  r : 0 < q 1
  plane : q 2 = Real.pi / 2
  up : gup q * fill (m.form q) = 1
  lapse : 0 < m.N2 (q 1)
  lapse_le : m.N2 (q 1) ≤ 1
  B : m.B (q 1) ≠ 0
  attracts : 0 ≤ m.Nprime (q 1)
  slow : q 1 * m.Nprime (q 1) < √(m.N2 (q 1))

theorem rz_up {m : RZ} {gup : Vec → Tensor} {q : Vec} (h : RZOk m gup q) :
    gup q 0 0 = -1 / m.N2 (q 1) ∧ gup q 0 3 = 0 ∧ gup q 3 3 = 1 / (q 1 * q 1) := by
  have e := h.up
  have hr := h.r.ne'
  have hN := h.lapse.ne'
  have k : ∀ i j, ∑ l, gup q i l * fill (m.form q) l j = (1 : Tensor) i j := by
    intro i j
    rw [← e, Matrix.mul_apply]
  have k00 := k 0 0
  have k03 := k 0 3
  have k33 := k 3 3
  rw [rz_shape, Fin.sum_univ_four, h.plane, Real.sin_pi_div_two] at k00 k03 k33
  simp only [circ00, circ10, circ20, circ30, circ03, circ13, circ23, circ33] at k00 k03 k33
  have i00 : (1 : Tensor) 0 0 = 1 := rfl
  have i33 : (1 : Tensor) 3 3 = 1 := rfl
  have i03 : (1 : Tensor) 0 3 = 0 := rfl
  rw [i00] at k00
  rw [i03] at k03
  rw [i33] at k33
  refine ⟨?_, ?_, ?_⟩
  · rw [eq_div_iff hN]; linarith
  · have : gup q 0 3 * (q 1 * q 1) = 0 := by linarith
    exact (mul_eq_zero.1 this).resolve_right (mul_ne_zero hr hr)
  · rw [eq_div_iff (mul_ne_zero hr hr)]; linarith

theorem rz_radial {m : RZ} {gup : Vec → Tensor} {q : Vec} (h : RZOk m gup q) :
    ∃ rad, radial (fill (m.form q)) (gup q) = some rad ∧ IsObserver (fill (m.form q)) rad ∧ rad 2 = 0 := by
  obtain ⟨u0, u3, -⟩ := rz_up h
  have hB2 : 0 < m.B2 (q 1) := mul_self_pos.2 h.B
  have hN := h.lapse
  unfold radial
  rw [rz_shape, u0, u3]
  simp only [circ11]
  have hx : 0 ≤ (-1 - -1 / m.N2 (q 1)) / (m.B2 (q 1) / m.N2 (q 1)) := by
    have e : (-1 - -1 / m.N2 (q 1)) / (m.B2 (q 1) / m.N2 (q 1)) = (1 - m.N2 (q 1)) / m.B2 (q 1) := by
      field_simp; ring
    rw [e]
    exact div_nonneg (by linarith [h.lapse_le]) hB2.le
  rw [quot_ne (div_pos hB2 hN).ne', Option.bind_some, root_nonneg hx, Option.map_some]
  refine ⟨_, rfl, ⟨?_, ?_⟩, rfl⟩
  · show 0 < - (-1 / m.N2 (q 1))
    rw [neg_div, neg_neg]; positivity
  · rw [sp_circ']
    simp only [Matrix.cons_val]
    have hs := Real.sq_sqrt hx
    generalize √((-1 - -1 / m.N2 (q 1)) / (m.B2 (q 1) / m.N2 (q 1))) = s at *
    have hs' : m.B2 (q 1) * s ^ 2 = 1 - m.N2 (q 1) := by
      rw [hs]
      field_simp
      ring
    field_simp
    linear_combination hs'

theorem circular_rz {m : RZ} {gup : Vec → Tensor} {q : Vec} {xi : ℝ} (hR : m.rms < q 1) : circular (rz m gup) xi q =
    (rzEL m xi (q 1)).map fun el => ![(raise (gup q) el).1, 0, 0, (raise (gup q) el).2] := by
  unfold circular
  rw [if_pos (show q 1 > (rz m gup).risco from hR)]
  rfl

theorem rz_circ {m : RZ} {gup : Vec → Tensor} {q : Vec} (h : RZOk m gup q) {xi : ℝ} (hx0 : 0 ≤ xi) (hx1 : xi ≤ 1) (hR : m.rms < q 1) :
    ∃ c, circular (rz m gup) xi q = some c ∧ IsObserver (fill (m.form q)) c ∧ c 1 = 0 ∧ c 2 = 0 ∧
      c 3 / c 0 = xi * √(m.Nprime (q 1) * √(m.N2 (q 1)) / q 1) := by
  obtain ⟨u0, u3, u33⟩ := rz_up h
  have hr := h.r
  have hN := Real.sqrt_pos.2 h.lapse
  have hN2 := Real.sq_sqrt h.lapse.le
  have hn' := h.attracts
  have hden : 0 < √(m.N2 (q 1)) - xi ^ 2 * q 1 * m.Nprime (q 1) := by
    have := h.slow
    have : 0 ≤ (1 - xi ^ 2) * (q 1 * m.Nprime (q 1)) := mul_nonneg (by nlinarith) (by positivity)
    linarith
  have el : rzEL m xi (q 1) = some (√(√(m.N2 (q 1)) ^ 3 / (√(m.N2 (q 1)) - xi ^ 2 * q 1 * m.Nprime (q 1))),
      xi * √(q 1 ^ 3 * m.Nprime (q 1) / (√(m.N2 (q 1)) - xi ^ 2 * q 1 * m.Nprime (q 1)))) := by
    unfold rzEL
    rw [root_nonneg h.lapse.le, Option.bind_some, quot_ne hden.ne', quot_ne hden.ne', Option.bind_some, Option.bind_some,
      root_nonneg (by positivity), root_nonneg (by positivity), Option.bind_some, Option.map_some]
  rw [circular_rz hR]
  rw [el, Option.map_some]
  unfold raise
  simp only [u0, u3, u33]
  have hE : 0 < √(m.N2 (q 1)) ^ 3 / (√(m.N2 (q 1)) - xi ^ 2 * q 1 * m.Nprime (q 1)) := by positivity
  have hL : 0 ≤ q 1 ^ 3 * m.Nprime (q 1) / (√(m.N2 (q 1)) - xi ^ 2 * q 1 * m.Nprime (q 1)) := by positivity
  have hE2 := Real.sq_sqrt hE.le
  have hL2 := Real.sq_sqrt hL
  have hE0 := Real.sqrt_pos.2 hE
  have hW : √(m.Nprime (q 1) * √(m.N2 (q 1)) / q 1) * √(√(m.N2 (q 1)) ^ 3 / (√(m.N2 (q 1)) - xi ^ 2 * q 1 * m.Nprime (q 1))) * q 1 ^ 2 =
      √(q 1 ^ 3 * m.Nprime (q 1) / (√(m.N2 (q 1)) - xi ^ 2 * q 1 * m.Nprime (q 1))) * m.N2 (q 1) := by
    rw [← Real.sqrt_mul (by positivity)]
    have a1 : q 1 ^ 2 = √(q 1 ^ 4) := by rw [show q 1 ^ 4 = (q 1 ^ 2) ^ 2 by ring, Real.sqrt_sq (by positivity)]
    have a2 : m.N2 (q 1) = √(√(m.N2 (q 1)) ^ 4) := by
      rw [show √(m.N2 (q 1)) ^ 4 = (√(m.N2 (q 1)) ^ 2) ^ 2 by ring, Real.sqrt_sq (by positivity), hN2]
    have a3 : √(q 1 ^ 3 * m.Nprime (q 1) / (√(m.N2 (q 1)) - xi ^ 2 * q 1 * m.Nprime (q 1))) * m.N2 (q 1) =
        √(q 1 ^ 3 * m.Nprime (q 1) / (√(m.N2 (q 1)) - xi ^ 2 * q 1 * m.Nprime (q 1))) * √(√(m.N2 (q 1)) ^ 4) := by rw [← a2]
    rw [a1, a3]
    rw [← Real.sqrt_mul (by positivity), ← Real.sqrt_mul (by positivity)]
    congr 1
    generalize √(m.N2 (q 1)) = N at *
    generalize N - xi ^ 2 * q 1 * m.Nprime (q 1) = d at *
    field_simp
  generalize √(m.Nprime (q 1) * √(m.N2 (q 1)) / q 1) = W at *
  generalize √(√(m.N2 (q 1)) ^ 3 / (√(m.N2 (q 1)) - xi ^ 2 * q 1 * m.Nprime (q 1))) = e at *
  generalize √(q 1 ^ 3 * m.Nprime (q 1) / (√(m.N2 (q 1)) - xi ^ 2 * q 1 * m.Nprime (q 1))) = l at *
  have hlap := h.lapse
  refine ⟨_, rfl, ⟨?_, ?_⟩, rfl, rfl, ?_⟩
  · show 0 < -1 / m.N2 (q 1) * -e + 0 * (xi * l)
    have : -1 / m.N2 (q 1) * -e + 0 * (xi * l) = e / m.N2 (q 1) := by ring
    rw [this]; positivity
  · rw [rz_shape, sp_circ', h.plane, Real.sin_pi_div_two]
    simp only [Matrix.cons_val]
    have key : -(e ^ 2) / m.N2 (q 1) + (xi * l) ^ 2 / q 1 ^ 2 = -1 := by
      generalize √(m.N2 (q 1)) = N at *
      rw [mul_pow, hE2, hL2, ← hN2]
      obtain ⟨d, hd⟩ : ∃ d, d = N - xi ^ 2 * q 1 * m.Nprime (q 1) := ⟨_, rfl⟩
      rw [← hd] at hden ⊢
      field_simp
      rw [hd]; ring
    field_simp at key ⊢
    linear_combination key
  · show (0 * -e + 1 / (q 1 * q 1) * (xi * l)) / (-1 / m.N2 (q 1) * -e + 0 * (xi * l)) = xi * W
    have : -1 / m.N2 (q 1) * -e + 0 * (xi * l) = e / m.N2 (q 1) := by ring
    rw [this]
    field_simp
    linear_combination (-xi) * hW

/-- C101. Outside the radius given for the last stable orbit, in the metric of Rezzolla and Zhidenko, the gas in circular motion has the
velocity that `circularVelocity` gives. -/
theorem rz_outside {m : RZ} {gup : Vec → Tensor} {dir : ℝ} (h : RZOk m gup p) (hR : m.rms < p 1) :
    getVelocity (rz m gup) .circular p = .ok (rzVel m p dir) ∧ IsRotating (fill (m.form p)) (rzVel m p dir) := by
  obtain ⟨rad, er, hr, hr2⟩ := rz_radial h
  obtain ⟨c, ec, hc, hc1, hc2, hc3⟩ := rz_circ h zero_le_one le_rfl hR
  have hrr : 0 < m.B2 (p 1) / m.N2 (p 1) := div_pos (mul_self_pos.2 h.B) h.lapse
  have hpp : 0 < p 1 * p 1 * (Real.sin (p 2) * Real.sin (p 2)) := by
    rw [h.plane, Real.sin_pi_div_two]
    have := h.r
    positivity
  obtain ⟨w, e, -, -, -, -, ew, -⟩ := getVelocity_eq (M := rz m gup) (k := .circular) rz_shape hrr hpp er hr hr2 ec hc hc2
  have hc' := hc
  rw [rz_shape] at hc'
  have k := (slow_of_observer hrr hc' hc2).2
  rw [hc3, one_mul] at k
  have hsp : ∀ O : ℝ, sp (fill (m.form p)) ![1, 0, 0, O] ![1, 0, 0, O] = -m.N2 (p 1) + 2 * 0 * O + p 1 * p 1 * (Real.sin (p 2) * Real.sin (p 2)) * O ^ 2 := by
    intro O
    rw [rz_shape, sp_circ']
    simp only [Matrix.cons_val]
    ring
  have hp : (![p 0, p 1, Real.pi * 0.5, p 3] : Vec) = p := by
    funext i
    fin_cases i <;> simp [h.plane]
    norm_num
    ring
  have ev : rzVel m p dir = finishVel (fill (m.form p)) √(m.Nprime (p 1) * √(m.N2 (p 1)) / p 1) := by
    unfold rzVel
    simp only [h.plane, Real.sin_pi_div_two, mul_one]
    rw [hp]
  obtain ⟨k1, k2, -⟩ := finish_ok (g := fill (m.form p)) (w := √(m.Nprime (p 1) * √(m.N2 (p 1)) / p 1)) (by rw [hsp]; exact k)
  rw [← ev] at k1 k2
  refine ⟨?_, k1⟩
  rw [e, ew rfl]
  congr 1
  have k1' := k1
  have hu := k1'.unit
  rw [rz_shape] at hu
  refine observer_ext (u := rzVel m p dir) hrr ⟨k1'.future, hu⟩ hc' k1.theta hc2 (by rw [hc1, k1.r]) ?_
  rw [hc3, k2, one_mul, mul_div_cancel_right₀ _ k1.future.ne']

/-- C101. In mixed motion there, the gas has the velocity of an observer. -/
theorem rz_mixed {m : RZ} {gup : Vec → Tensor} (h : RZOk m gup p) (hR : m.rms < p 1) :
    ∃ w, getVelocity (rz m gup) .mixed p = .ok w ∧ IsObserver (fill (m.form p)) w ∧ w 2 = 0 := by
  obtain ⟨rad, er, hr, hr2⟩ := rz_radial h
  have hxi : xiOf (rz m gup) .mixed = 0.7 := by simp [xiOf, rz]
  obtain ⟨c, ec, hc, -, hc2, -⟩ := rz_circ h (xi := 0.7) (by norm_num) (by norm_num) hR
  have hrr : 0 < m.B2 (p 1) / m.N2 (p 1) := div_pos (mul_self_pos.2 h.B) h.lapse
  have hpp : 0 < p 1 * p 1 * (Real.sin (p 2) * Real.sin (p 2)) := by
    rw [h.plane, Real.sin_pi_div_two]
    have := h.r
    positivity
  obtain ⟨w, e, ho, -, h2, -⟩ := getVelocity_eq (M := rz m gup) (k := .mixed) rz_shape hrr hpp er hr hr2 (by rw [hxi]; exact ec) hc hc2
  exact ⟨w, e, ho, h2⟩

end

/-! ### What goes wrong when the black hole turns the other way -/

/-- The last stable orbit is known from the equation that it solves. -/
theorem rms_of_root {a w : ℝ} (h1 : -1 < a) (h2 : a < 1) (hw : 1 < w) (h : w ^ 4 - 6 * w ^ 2 + 8 * |a| * w - 3 * a ^ 2 = 0) : kerrRms a = w ^ 2 := by
  obtain ⟨hr, h'⟩ := rms_spec h1.le h2.le
  have hw' := rms_gt_one h1 h2
  have hb : |a| < 1 := abs_lt.2 ⟨h1, h2⟩
  have hb0 := abs_nonneg a
  rw [← Real.sq_sqrt hr.le]
  rw [← sq_abs a] at h h'
  generalize √(kerrRms a) = v at *
  generalize |a| = b at *
  have pos : ∀ w : ℝ, 1 < w → w ^ 4 - 6 * w ^ 2 + 8 * b * w - 3 * b ^ 2 = 0 → 0 < w ^ 3 - 3 * w + 2 * b := by
    intro w hw h
    have e : w * (w ^ 3 - 3 * w + 2 * b) = 3 * (w - b) ^ 2 := by linear_combination h
    have : 0 < 3 * (w - b) ^ 2 := by
      have : w - b ≠ 0 := by linarith
      positivity
    rw [← e] at this
    exact pos_of_mul_pos_right this (by linarith)
  have noless : ∀ u v : ℝ, 1 < u → u ^ 4 - 6 * u ^ 2 + 8 * b * u - 3 * b ^ 2 = 0 → v ^ 4 - 6 * v ^ 2 + 8 * b * v - 3 * b ^ 2 = 0 → ¬u < v := by
    intro u v hu hu0 hv0 huv
    have hd := pos u hu hu0
    have e : (v - u) * ((v + u) * (v ^ 2 + u ^ 2) - 6 * (v + u) + 8 * b) = 0 := by linear_combination hv0 - hu0
    have hz := (mul_eq_zero.1 e).resolve_left (by linarith)
    have e2 : (v + u) * (v ^ 2 + u ^ 2) - 6 * (v + u) + 8 * b - 4 * (u ^ 3 - 3 * u + 2 * b) = (v - u) * (v ^ 2 + 2 * u * v + 3 * u ^ 2 - 6) := by ring
    have : 0 < (v - u) * (v ^ 2 + 2 * u * v + 3 * u ^ 2 - 6) := mul_pos (by linarith) (by nlinarith)
    linarith
  rcases lt_trichotomy v w with hc | hc | hc
  · exact absurd hc (noless v w hw' h' h)
  · rw [hc]
  · exact absurd hc (noless w v hw h h')

/-- Finding: when the spin is negative, `getRms` is the last stable orbit of what turns with the black hole, but the orbits used turn
against it.  Where they do not exist, `getVelocity` throws, even in radial fall. -/
theorem negative_spin {a : ℝ} {p : Vec} (h : Outside a p) (hR : kerrRms a < p 1) (hs : ¬KerrSlow a 1 (p 1)) (k : Motion) :
    getVelocity (kerr a) k p = .error .circular := by
  have e : circular (kerr a) (xiOf (kerr a) k) p = none := by
    unfold circular
    rw [if_pos (show p 1 > (kerr a).risco from hR)]
    show (kerrEL a _ (p 1)).map _ = _
    rw [kerrEL_none h.r0.le hs]
    rfl
  unfold getVelocity
  rw [show radial ((kerr a).g p) ((kerr a).gup p) = some (fall a 1 0 p) from radial_eq h]
  simp only
  have hP : ¬¬Passes ((kerr a).g p) (fall a 1 0 p) := not_not.2 (observer_passes (radial_observer h))
  rw [if_neg hP, e]

/-- A black hole whose last stable orbit is at `(43 / 23)²`. -/
theorem example_rms : kerrRms (1075 / 1587) = (43 / 23) ^ 2 := by
  refine rms_of_root (by norm_num) (by norm_num) (by norm_num) ?_
  rw [abs_of_nonneg (by norm_num)]
  norm_num

theorem example_rms_neg : kerrRms (-1075 / 1587) = (43 / 23) ^ 2 := by
  rw [show (-1075 / 1587 : ℝ) = -(1075 / 1587) by norm_num, rms_even, example_rms]

/-- Finding: there are such radii. -/
theorem negative_spin_wrong : ¬∀ (a : ℝ) (p : Vec), -1 < a → a < 1 → Outside a p → ∃ w, getVelocity (kerr a) .radial p = .ok w := by
  intro h
  have ho : Outside (-1075 / 1587) ![0, (15 / 8) ^ 2, Real.pi / 2, 0] := ⟨by simp; norm_num, by simp; norm_num, rfl⟩
  obtain ⟨w, e⟩ := h (-1075 / 1587) ![0, (15 / 8) ^ 2, Real.pi / 2, 0] (by norm_num) (by norm_num) ho
  rw [negative_spin ho (by rw [example_rms_neg]; simp; norm_num)] at e
  · cases e
  · unfold KerrSlow
    simp only [Matrix.cons_val]
    rw [Real.sqrt_sq (by norm_num)]
    norm_num

theorem grid_inner {a : ℝ} {p : Vec} (h : p 1 ≤ kerrRms a) : gridVelocity a p =
    (let lambda := (kerrRms a * kerrRms a - 2 * a * √(kerrRms a) + a * a) / (kerrRms a ^ (1.5 : ℝ) - 2 * √(kerrRms a) + a)
    let gamma := √(1 - 2 / (3 * kerrRms a))
    let delta := p 1 * p 1 - 2 * p 1 + a * a
    let hh := (2 * p 1 - a * lambda) / delta
    ![gamma * (1 + 2 / p 1 * (1 + hh)), -√(2 / (3 * kerrRms a)) * (kerrRms a / p 1 - 1) ^ (1.5 : ℝ), 0,
      gamma / (p 1 * p 1) * (lambda + a * hh)]) := by
  unfold gridVelocity
  exact if_neg (not_lt.2 h)

/-- Finding: `ThinDiskGridIntensity` and `SimBridge` do not check, and give a velocity that is not a unit vector. -/
theorem grid_negative_wrong : ¬∀ (a : ℝ) (p : Vec), -1 < a → a < 1 → Outside a p → IsObserver (gmunu a p) (gridVelocity a p) := by
  intro h
  have ho : Outside (-1075 / 1587) ![0, 2, Real.pi / 2, 0] := ⟨by simp, by simp, rfl⟩
  have hu := (h (-1075 / 1587) ![0, 2, Real.pi / 2, 0] (by norm_num) (by norm_num) ho).unit
  have hw : √((43 / 23 : ℝ) ^ 2) = 43 / 23 := Real.sqrt_sq (by norm_num)
  rw [grid_inner (by rw [example_rms_neg]; simp; norm_num), example_rms_neg, pow_three_half (by norm_num), hw] at hu
  rw [sp_lower, lower_circ, Fin.sum_univ_four, g00 (by simp) rfl, g11 rfl, g33 (by simp) rfl, g03 (by simp) rfl] at hu
  simp only [Matrix.cons_val] at hu
  have e1 : (√(1 - 2 / (3 * (43 / 23 : ℝ) ^ 2))) ^ 2 = 1 - 2 / (3 * (43 / 23 : ℝ) ^ 2) := Real.sq_sqrt (by norm_num)
  have e2 : (√(2 / (3 * (43 / 23 : ℝ) ^ 2))) ^ 2 = 2 / (3 * (43 / 23 : ℝ) ^ 2) := Real.sq_sqrt (by norm_num)
  have e3 : (((43 / 23 : ℝ) ^ 2 / 2 - 1) ^ (1.5 : ℝ)) ^ 2 = ((43 / 23 : ℝ) ^ 2 / 2 - 1) ^ 3 := by
    rw [← Real.rpow_natCast, ← Real.rpow_mul (by norm_num), ← Real.rpow_natCast]
    norm_num
  generalize √(1 - 2 / (3 * (43 / 23 : ℝ) ^ 2)) = g at *
  generalize √(2 / (3 * (43 / 23 : ℝ) ^ 2)) = s at *
  generalize ((43 / 23 : ℝ) ^ 2 / 2 - 1) ^ (1.5 : ℝ) = t at *
  ring_nf at hu e1
  rw [e1, e2, e3] at hu
  norm_num at hu

/-- C101, on an example: a black hole of spin `1075 / 1587`, at `r = 3`, below the last stable orbit. -/
example : ∃ w, getVelocity (kerr (1075 / 1587)) .circular ![0, 3, Real.pi / 2, 0] = .ok w ∧ w 1 < 0 := by
  have ho : Outside (1075 / 1587) ![0, 3, Real.pi / 2, 0] := ⟨by simp, by simp; norm_num, rfl⟩
  obtain ⟨w, e, -, h1, -⟩ := profile_plunge (a := 1075 / 1587) (by norm_num) (by norm_num) ho (by rw [example_rms]; simp; norm_num)
  exact ⟨w, e, h1⟩

end Gyoto.Plunge
