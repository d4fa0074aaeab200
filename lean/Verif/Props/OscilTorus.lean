import Verif.Lemmas.OscilTorus
import Verif.Props.DeformedTorus

/-!
# C123, C124: the modes of the torus with oscillations, and the values it keeps
-/

namespace Gyoto.OscTorus

open Gyoto.MetricAlg Gyoto.KerrBL Gyoto.Spec.Oscil
open Gyoto.Transfer (Out)

/-! ## C123: the modes -/

/-- C123. The names of the five kinds are read back; no other name is accepted. -/
theorem kind_names : (∀ p, parse (name p) = some p) ∧ ∀ k p, parse k = some p → name p = k := by
  refine ⟨fun p => by cases p <;> simp [name, parse], fun k p h => ?_⟩
  unfold parse at h
  split_ifs at h with h1 h2 h3 h4 h5 <;> (injection h with h; subst h; simp only [name, *])

example : parse (name .plus) = some .plus ∧ parse "plus" = none := ⟨kind_names.1 _, by decide⟩

theorem pow_neg_three_half {c : ℝ} (hc : 0 < c) : c ^ (-1.5 : ℝ) = 1 / √c ^ 3 := by
  rw [show (-1.5 : ℝ) = -(1.5 : ℝ) by norm_num, Real.rpow_neg hc.le, Orbits.pow_three_half hc.le, one_div]

/-- C123. The frequency of the vertical oscillations is above that of the radial ones, but where `√LargeRadius` is the spin: there they are equal. -/
theorem frequencies {a c : ℝ} (hc : 0 < c) : omr2 a c ≤ omth2 a c ∧ (omr2 a c = omth2 a c ↔ √c = a) := by
  have hw : 0 < √c := Real.sqrt_pos.2 hc
  have e : omth2 a c - omr2 a c = 6 / √c ^ 4 * (√c - a) ^ 2 := by
    unfold omth2 omr2
    rw [pow_neg_three_half hc]
    have hcw : c = √c ^ 2 := (Real.sq_sqrt hc.le).symm
    generalize √c = w at *
    subst hcw
    field_simp; ring
  have k : 0 < 6 / √c ^ 4 := by positivity
  refine ⟨?_, fun h => ?_, fun h => ?_⟩
  · nlinarith [mul_nonneg k.le (sq_nonneg (√c - a))]
  · rw [h, sub_self] at e
    have := (mul_eq_zero.1 e.symm).resolve_left k.ne'
    exact sub_eq_zero.1 (pow_eq_zero_iff two_ne_zero |>.1 this)
  · rw [h, sub_self] at e
    norm_num at e
    linarith

example : omr2 (1 / 2) 16 < omth2 (1 / 2) 16 := by
  obtain ⟨h1, h2⟩ := frequencies (a := 1 / 2) (c := 16) (by norm_num)
  refine lt_of_le_of_ne h1 fun h => ?_
  have := h2.1 h
  rw [show (16 : ℝ) = 4 ^ 2 by norm_num, Real.sqrt_sq (by norm_num)] at this
  norm_num at this

/-- What can be updated: a metric, a centre with stable circular orbits, a positive polytropic index. -/
structure Regular (o : Osc) (a : ℝ) : Prop where
  spin : o.spin = some a
  hold : o.hold = false
  centre : CentreOk a o.c
  stable : 0 < omr2 a o.c
  ne : √o.c ≠ a
  index : 0 < o.n

theorem Regular.lt {o : Osc} {a : ℝ} (h : Regular o a) : omr2 a o.c < omth2 a o.c :=
  lt_of_le_of_ne (frequencies h.centre.1).1 fun e => h.ne ((frequencies h.centre.1).2.1 e)

/-- The values of the kind are numbers. -/
theorem modeValues_some {o : Osc} {p q : ℝ} (hn : 0 < o.n) (hp : 0 < p) (hq : 0 < q) (hpq : p < q) :
    ∃ k, o.modeValues p q = some k ∧ 0 < k.sigma ∧ 0 < k.alpha ∧
      k.omr2 = o.cache.omr2 ∧ k.omth2 = o.cache.omth2 ∧ k.Omega = o.cache.Omega ∧ k.lc = o.cache.lc ∧ k.grr = o.cache.grr ∧ k.ghh = o.cache.ghh ∧
      IsMode o.n p q (k.sigma ^ 2) fun x y => ({ o with cache := k } : Osc).shape x y := by
  obtain ⟨s1, s2, s3, s4, s5⟩ := sigma2_order hn hp hq hpq
  have hne : q - p ≠ 0 := (sub_pos.2 hpq).ne'
  have ha : 0 < √(o.n * √p * √q / Real.pi) := by
    have := Real.sqrt_pos.2 hp
    have := Real.sqrt_pos.2 hq
    have := Real.pi_pos
    refine Real.sqrt_pos.2 ?_
    positivity
  have hn' : ¬ o.n < 0 := not_lt.2 hn.le
  have r1 : 0 < radicand o.n p q (sigma2 o.n p q (-1)) := by
    unfold radicand
    refine div_pos_of_neg_of_neg ?_ s4
    nlinarith
  have r2 : 0 < radicand o.n p q (sigma2 o.n p q 1) := by
    unfold radicand
    refine div_pos ?_ s5
    nlinarith
  unfold Osc.modeValues
  rcases hk : o.kind <;> simp only [hn', if_false]
  case radial =>
    refine ⟨_, rfl, Real.sqrt_pos.2 hp, mul_pos ha (Real.sqrt_pos.2 (by positivity)), rfl, rfl, rfl, rfl, rfl, rfl, ?_⟩
    simp only [Osc.shape, Real.sq_sqrt hp.le]
    exact mode_x hp
  case vertical =>
    refine ⟨_, rfl, Real.sqrt_pos.2 hq, mul_pos ha (Real.sqrt_pos.2 (by positivity)), rfl, rfl, rfl, rfl, rfl, rfl, ?_⟩
    simp only [Osc.shape, Real.sq_sqrt hq.le]
    exact mode_y hq
  case x =>
    refine ⟨_, rfl, Real.sqrt_pos.2 (by positivity), mul_pos ha (Real.sqrt_pos.2 (by positivity)), rfl, rfl, rfl, rfl, rfl, rfl, ?_⟩
    simp only [Osc.shape, Real.sq_sqrt (add_pos hp hq).le]
    exact mode_xy hp hq
  case plus =>
    rw [if_neg (by push Not; exact ⟨hn.ne', hne, s1.le, s4.ne, r1.le⟩)]
    obtain ⟨w1, w2, w3⟩ := weights hpq (sigma2_root (e := -1) hn hp hq (by norm_num))
    refine ⟨_, rfl, Real.sqrt_pos.2 s1, mul_pos ha (Real.sqrt_pos.2 r1), rfl, rfl, rfl, rfl, rfl, rfl, ?_⟩
    simp only [Osc.shape, Real.sq_sqrt s1.le]
    exact mode_quad s1 w1 w2 w3
  case breathing =>
    have s6 : 0 < sigma2 o.n p q 1 := by linarith
    rw [if_neg (by push Not; exact ⟨hn.ne', hne, s6.le, s5.ne', r2.le⟩)]
    obtain ⟨w1, w2, w3⟩ := weights hpq (sigma2_root (e := 1) hn hp hq (by norm_num))
    refine ⟨_, rfl, Real.sqrt_pos.2 s6, mul_pos ha (Real.sqrt_pos.2 r2), rfl, rfl, rfl, rfl, rfl, rfl, ?_⟩
    simp only [Osc.shape, Real.sq_sqrt s6.le]
    exact mode_quad s6 w1 w2 w3

theorem update_eq {o : Osc} {a : ℝ} (h : Regular o a) :
    ∃ k, (o.withCentre a).modeValues (omr2 a o.c) (omth2 a o.c) = some k ∧ o.update = .done { o.withCentre a with cache := k } := by
  have hq : 0 < omth2 a o.c := h.stable.trans h.lt
  obtain ⟨k, hk, -⟩ := modeValues_some (o := o.withCentre a) (p := omr2 a o.c) (q := omth2 a o.c) h.index h.stable hq h.lt
  refine ⟨k, hk, ?_⟩
  unfold Osc.update
  rw [h.hold, h.spin]
  simp only [Bool.false_eq_true, if_false]
  rw [if_neg h.centre.1.ne', if_neg (not_not.2 h.centre), if_neg (by push Not; exact ⟨h.stable, hq⟩), hk]

/-- C123. For a centre with stable orbits and a positive index, the update succeeds, the parameters are kept, and what multiplies the cosine in the
surface is an oscillation of the slender torus of that index, with the pulsation of the cosine in the frame of the gas. -/
theorem modes {o : Osc} {a : ℝ} (h : Regular o a) :
    ∃ k, o.update = .done { o with cache := k } ∧ 0 < k.sigma ∧ 0 < k.alpha ∧ k.omr2 = omr2 a o.c ∧ k.omth2 = omth2 a o.c ∧
      k.Omega = 1 / (o.c ^ (1.5 : ℝ) + a) ∧ IsMode o.n (omr2 a o.c) (omth2 a o.c) (k.sigma ^ 2) ({ o with cache := k } : Osc).shape := by
  obtain ⟨k, hk, hu⟩ := update_eq h
  obtain ⟨k', hk', a1, a2, a3, a4, a5, -, -, -, a6⟩ :=
    modeValues_some (o := o.withCentre a) (p := omr2 a o.c) (q := omth2 a o.c) h.index h.stable (h.stable.trans h.lt) h.lt
  rw [hk] at hk'
  injection hk' with hk'
  subst hk'
  exact ⟨k, hu, a1, a2, a3, a4, a5, a6⟩

/-- A torus 16 gravitational radii from a Schwarzschild black hole. -/
noncomputable def sample (k : Perturb) : Osc := { Osc.new with spin := some 0, c := 16, n := 1, rho := 1, kind := k }

theorem four_pow : (16 : ℝ) ^ (1.5 : ℝ) = 64 := by
  rw [Orbits.pow_three_half (by norm_num), show (16 : ℝ) = 4 ^ 2 by norm_num, Real.sqrt_sq (by norm_num)]; norm_num

theorem cos_posc (c : ℝ) : Real.cos (posc c 2) = 0 := Real.cos_pi_div_two

theorem sin_posc (c : ℝ) : Real.sin (posc c 2) = 1 := Real.sin_pi_div_two

theorem gtt_c (a : ℝ) {c : ℝ} (hc : 0 < c) : gmunu a (posc c) 0 0 = -1 + 2 / c := by
  rw [gmunu_00, cos_posc]
  show -1 + 2 * c / (c * c + a * a * (0 * 0)) = _
  rw [mul_zero, mul_zero, add_zero]; field_simp

theorem gtp_c (a : ℝ) {c : ℝ} (hc : 0 < c) : gmunu a (posc c) 0 3 = -2 * a / c := by
  rw [gmunu_03, cos_posc, sin_posc]
  show -2 * a * c * (1 * 1) / (c * c + a * a * (0 * 0)) = _
  rw [mul_zero, mul_zero, add_zero]; field_simp

theorem gpp_c (a : ℝ) {c : ℝ} (hc : 0 < c) : gmunu a (posc c) 3 3 = c ^ 2 + a ^ 2 + 2 * a ^ 2 / c := by
  rw [gmunu_33, cos_posc, sin_posc]
  show (c * c + a * a + 2 * c * (a * a) * (1 * 1) / (c * c + a * a * (0 * 0))) * (1 * 1) = _
  rw [mul_zero, mul_zero, add_zero]; field_simp

theorem grr_c (a c : ℝ) : gmunu a (posc c) 1 1 = c ^ 2 / (c * c - 2 * c + a * a) := by
  rw [gmunu_11, cos_posc]
  show (c * c + a * a * (0 * 0)) / (c * c - 2 * c + a * a) = _
  ring

theorem ghh_c (a c : ℝ) : gmunu a (posc c) 2 2 = c ^ 2 := by
  rw [gmunu_22, cos_posc]
  show c * c + a * a * (0 * 0) = _
  ring

theorem centreOk_zero {c : ℝ} (hc : 2 < c) : CentreOk 0 c := by
  have h0 : (0 : ℝ) < c ^ (1.5 : ℝ) := Real.rpow_pos_of_pos (by linarith) _
  refine ⟨by linarith, by nlinarith, by linarith, ?_⟩
  rw [gtt_c _ (by linarith), gtp_c _ (by linarith)]
  have : 2 / c < 1 := by rw [div_lt_one (by linarith)]; exact hc
  simp only [mul_zero, zero_div, zero_add]
  linarith

theorem omr2_zero (c : ℝ) : omr2 0 c = 1 - 6 / c := by unfold omr2; ring

theorem omth2_zero (c : ℝ) : omth2 0 c = 1 := by unfold omth2; ring

theorem sample_regular (k : Perturb) : Regular (sample k) 0 := by
  refine ⟨rfl, rfl, centreOk_zero (by norm_num [sample]), ?_, ?_, by norm_num [sample]⟩
  · rw [omr2_zero]; norm_num [sample]
  · show √(16 : ℝ) ≠ 0
    exact (Real.sqrt_pos.2 (by norm_num)).ne'

example : ∃ k, (sample .plus).update = .done { sample .plus with cache := k } ∧
    IsMode 1 (5 / 8) 1 (k.sigma ^ 2) ({ sample .plus with cache := k } : Osc).shape := by
  obtain ⟨k, h1, -, -, -, -, -, h2⟩ := modes (sample_regular .plus)
  refine ⟨k, h1, ?_⟩
  have e1 : omr2 0 (sample .plus).c = 5 / 8 := by rw [omr2_zero]; norm_num [sample]
  rw [e1, omth2_zero] at h2
  exact h2

theorem sigma_of {o : Osc} {k : Cache} {p q : ℝ} (h : o.modeValues p q = some k) :
    k.sigma = match o.kind with
      | .radial => √p
      | .vertical => √q
      | .x => √(p + q)
      | .plus => √(sigma2 o.n p q (-1))
      | .breathing => √(sigma2 o.n p q 1) := by
  unfold Osc.modeValues at h
  by_cases hn : o.n < 0
  · simp [hn] at h
  rcases hk : o.kind <;> simp only [hk, hn, if_false] at h
  case plus =>
    split_ifs at h
    injection h with h
    subst h; rfl
  case breathing =>
    split_ifs at h
    injection h with h
    subst h; rfl
  all_goals
    injection h with h
    subst h; rfl

/-- C123. The pulsations of the plus and of the breathing modes are on each side of that of the mode X. -/
theorem order {o1 o2 o3 : Osc} {a : ℝ} (h : Regular o1 a) {k1 k2 k3 : Cache} (e1 : o1.kind = .plus)
    (h2 : o2 = { o1 with kind := .x }) (h3 : o3 = { o1 with kind := .breathing })
    (u1 : o1.update = .done { o1 with cache := k1 }) (u2 : o2.update = .done { o2 with cache := k2 }) (u3 : o3.update = .done { o3 with cache := k3 }) :
    k1.sigma < k2.sigma ∧ k2.sigma < k3.sigma := by
  subst h2; subst h3
  have hq : 0 < omth2 a o1.c := h.stable.trans h.lt
  obtain ⟨s1, s2, s3, s4, s5⟩ := sigma2_order h.index h.stable hq h.lt
  have key (o : Osc) (k : Cache) (ho : Regular o a) (hu : o.update = .done { o with cache := k }) :
      (o.withCentre a).modeValues (omr2 a o.c) (omth2 a o.c) = some k := by
    obtain ⟨k', hk, hu'⟩ := update_eq ho
    rw [hu] at hu'
    injection hu' with hu'
    have : k = k' := congrArg Osc.cache hu'
    rw [this]; exact hk
  have q1 := sigma_of (key _ _ h u1)
  have q2 := sigma_of (key { o1 with kind := .x } k2 ⟨h.spin, h.hold, h.centre, h.stable, h.ne, h.index⟩ u2)
  have q3 := sigma_of (key { o1 with kind := .breathing } k3 ⟨h.spin, h.hold, h.centre, h.stable, h.ne, h.index⟩ u3)
  simp only [Osc.withCentre, e1] at q1 q2 q3
  rw [q1, q2, q3]
  exact ⟨Real.sqrt_lt_sqrt s1.le s2, Real.sqrt_lt_sqrt (by linarith) s3⟩

example : ∃ k1 k2 : Cache, (sample .plus).update = .done { sample .plus with cache := k1 } ∧
    (sample .x).update = .done { sample .x with cache := k2 } ∧ k1.sigma < k2.sigma := by
  obtain ⟨k1, h1, -⟩ := modes (sample_regular .plus)
  obtain ⟨k2, h2, -⟩ := modes (sample_regular .x)
  obtain ⟨k3, h3, -⟩ := modes (sample_regular .breathing)
  exact ⟨k1, k2, h1, h2, (order (sample_regular .plus) (o2 := sample .x) (o3 := sample .breathing) rfl rfl rfl h1 h2 h3).1⟩

theorem bind_ok {α β : Type} {x : Out α} {f : α → Out β} {b : β} (h : HitQ.Out.bind x f = .ok b) : ∃ a, x = .ok a ∧ f a = .ok b := by
  cases x with
  | ok a => exact ⟨a, rfl, h⟩
  | throws => cases h
  | ub => cases h

/-- The coordinates in the section do not depend on the date nor on the longitude. -/
theorem xy_congr (o : Osc) {pos pos' : Vec} (h1 : pos 1 = pos' 1) (h2 : pos 2 = pos' 2) : o.xy pos = o.xy pos' := by
  unfold Osc.xy
  rw [h1, h2]

/-- C123. The surface turns as a whole with the angular velocity `Ω (1 + σ / m)`; with `m` zero it is symmetric about the axis; its period is
`2 π / (Ω (σ + m))`. -/
theorem pattern (o : Osc) (t r θ φ d : ℝ) :
    (o.mode ≠ 0 → o.value ![t + d, r, θ, φ + o.cache.Omega * (o.cache.sigma + o.mode) / o.mode * d] = o.value ![t, r, θ, φ]) ∧
    (o.mode = 0 → o.value ![t, r, θ, φ + d] = o.value ![t, r, θ, φ]) ∧
    (o.cache.Omega * (o.cache.sigma + o.mode) ≠ 0 →
      o.value ![t + 2 * Real.pi / (o.cache.Omega * (o.cache.sigma + o.mode)), r, θ, φ] = o.value ![t, r, θ, φ]) := by
  refine ⟨fun hm => ?_, fun hm => ?_, fun hm => ?_⟩
  · unfold Osc.value
    rw [xy_congr o (pos := ![t + d, r, θ, φ + o.cache.Omega * (o.cache.sigma + o.mode) / o.mode * d]) (pos' := ![t, r, θ, φ]) rfl rfl]
    congr 1
    funext p
    show Out.ok (o.f (t + d) (φ + o.cache.Omega * (o.cache.sigma + o.mode) / o.mode * d) p.1 p.2) = Out.ok (o.f t φ p.1 p.2)
    congr 1
    unfold Osc.f
    congr 3
    unfold Osc.phase
    have : (o.mode : ℝ) ≠ 0 := by exact_mod_cast hm
    field_simp; ring
  · unfold Osc.value
    rw [xy_congr o (pos := ![t, r, θ, φ + d]) (pos' := ![t, r, θ, φ]) rfl rfl]
    congr 1
    funext p
    show Out.ok (o.f t (φ + d) p.1 p.2) = Out.ok (o.f t φ p.1 p.2)
    congr 1
    unfold Osc.f
    congr 3
    unfold Osc.phase
    rw [hm]; simp
  · unfold Osc.value
    rw [xy_congr o (pos := ![t + 2 * Real.pi / (o.cache.Omega * (o.cache.sigma + o.mode)), r, θ, φ]) (pos' := ![t, r, θ, φ]) rfl rfl]
    congr 1
    funext p
    show Out.ok (o.f (t + 2 * Real.pi / (o.cache.Omega * (o.cache.sigma + o.mode))) φ p.1 p.2) = Out.ok (o.f t φ p.1 p.2)
    congr 1
    unfold Osc.f
    congr 2
    have : o.phase (t + 2 * Real.pi / (o.cache.Omega * (o.cache.sigma + o.mode))) φ = o.phase t φ - 2 * Real.pi := by
      unfold Osc.phase
      generalize o.cache.Omega * (o.cache.sigma + o.mode) = A at *
      field_simp; ring
    rw [this, Real.cos_sub_two_pi]

example (t r θ φ : ℝ) : (sample .radial).value ![t, r, θ, φ + 1] = (sample .radial).value ![t, r, θ, φ] := (pattern _ t r θ φ 1).2.1 rfl

/-- C123. Without intensity the torus is an ellipse in proper lengths, with the thickness given by the ratio of pressure and density. -/
theorem ellipse {o : Osc} {a : ℝ} (h : Regular o a) (hI : o.I = 0) (hK : 0 < o.K) (hr : 0 < o.rho) (hu : 0 < utCentral2 a o.c) (pos : Vec) {o' : Osc}
    (hup : o.update = .done o') :
    ∃ v, o'.value pos = .ok v ∧ (v < 0 ↔
      omr2 a o.c * (gmunu a (posc o.c) 1 1 * (pos 1 - o.c) ^ 2) + omth2 a o.c * (gmunu a (posc o.c) 2 2 * (Real.pi / 2 - pos 2) ^ 2) <
        2 * (o.n + 1) * (o.pressure / o.rho) / (utCentral2 a o.c * Omega a o.c ^ 2)) := by
  obtain ⟨k, hk, -, -, e1, e2, -⟩ := modes h
  rw [hk] at hup
  injection hup with hup
  subst hup
  have hc := h.centre.1
  have hO : 0 < Omega a o.c ^ 2 := by
    have : Omega a o.c ≠ 0 := one_div_ne_zero h.centre.2.2.1
    positivity
  have hp : 0 < o.pressure / o.rho := div_pos (mul_pos hK (Real.rpow_pos_of_pos hr _)) hr
  have hn := h.index
  have hb : o.beta2 a = 2 * (o.n + 1) * (o.pressure / o.rho) / (utCentral2 a o.c * Omega a o.c ^ 2) / o.c ^ 2 := by
    unfold Osc.beta2 Osc.poly
    have := hn.ne'
    have := hc.ne'
    have := hr.ne'
    have := hu.ne'
    have := hO.ne'
    field_simp
  have hb0 : 0 < o.beta2 a := by rw [hb]; positivity
  have hden : gmunu a (posc o.c) 0 0 + gmunu a (posc o.c) 3 3 * Omega a o.c * Omega a o.c + 2 * gmunu a (posc o.c) 0 3 * Omega a o.c ≠ 0 := by
    intro h0
    unfold utCentral2 at hu
    rw [h0, div_zero] at hu
    exact lt_irrefl _ hu
  have hxy : ({ o with cache := k } : Osc).xy pos = .ok (1 / √(o.beta2 a) * √(gmunu a (posc o.c) 1 1) * (pos 1 - o.c) / o.c,
      1 / √(o.beta2 a) * √(gmunu a (posc o.c) 2 2) * (Real.pi / 2 - pos 2) / o.c) := by
    unfold Osc.xy
    simp only [h.spin]
    rw [if_neg (by push Not; exact ⟨hn.ne', hr, h.centre, hden⟩)]
    exact if_neg (not_le.2 hb0)
  refine ⟨_, by unfold Osc.value; rw [hxy]; rfl, ?_⟩
  have g1 : 0 ≤ gmunu a (posc o.c) 1 1 := by rw [grr_c]; exact div_nonneg (sq_nonneg _) h.centre.2.1.le
  have g2 : 0 ≤ gmunu a (posc o.c) 2 2 := by rw [ghh_c]; exact sq_nonneg _
  have ex : o.beta2 a * o.c ^ 2 * (1 / √(o.beta2 a) * √(gmunu a (posc o.c) 1 1) * (pos 1 - o.c) / o.c) ^ 2 =
      gmunu a (posc o.c) 1 1 * (pos 1 - o.c) ^ 2 := by
    have s1 := Real.sq_sqrt hb0.le
    have s2 := Real.sq_sqrt g1
    have := (Real.sqrt_pos.2 hb0).ne'
    have := hc.ne'
    generalize √(gmunu a (posc o.c) 1 1) = G at *
    generalize √(o.beta2 a) = B at *
    rw [← s1, ← s2]
    field_simp
  have ey : o.beta2 a * o.c ^ 2 * (1 / √(o.beta2 a) * √(gmunu a (posc o.c) 2 2) * (Real.pi / 2 - pos 2) / o.c) ^ 2 =
      gmunu a (posc o.c) 2 2 * (Real.pi / 2 - pos 2) ^ 2 := by
    have s1 := Real.sq_sqrt hb0.le
    have s2 := Real.sq_sqrt g2
    have := (Real.sqrt_pos.2 hb0).ne'
    have := hc.ne'
    generalize √(gmunu a (posc o.c) 2 2) = G at *
    generalize √(o.beta2 a) = B at *
    rw [← s1, ← s2]
    field_simp
  have ev : 2 * (o.n + 1) * (o.pressure / o.rho) / (utCentral2 a o.c * Omega a o.c ^ 2) = o.beta2 a * o.c ^ 2 := by
    rw [hb]
    have := hc.ne'
    field_simp
  rw [ev, ← ex, ← ey]
  have hf (x y : ℝ) : ({ o with cache := k } : Osc).f (pos 0) (pos 3) x y = omr2 a o.c * x ^ 2 + omth2 a o.c * y ^ 2 - 1 := by
    unfold Osc.f
    simp only [hI, e1, e2]; ring
  rw [hf]
  have hP : 0 < o.beta2 a * o.c ^ 2 := by positivity
  generalize o.beta2 a * o.c ^ 2 = P at *
  generalize 1 / √(o.beta2 a) * √(gmunu a (posc o.c) 1 1) * (pos 1 - o.c) / o.c = x
  generalize 1 / √(o.beta2 a) * √(gmunu a (posc o.c) 2 2) * (Real.pi / 2 - pos 2) / o.c = y
  constructor
  · intro hv
    nlinarith [mul_lt_mul_of_pos_left hv hP]
  · intro hv
    by_contra hn
    nlinarith [mul_le_mul_of_nonneg_left (not_lt.1 hn) hP.le]

theorem sample_ut (k : Perturb) : utCentral2 0 (sample k).c = 16 / 13 := by
  show utCentral2 0 16 = _
  unfold utCentral2 Omega
  rw [gtt_c _ (by norm_num), gtp_c _ (by norm_num), gpp_c _ (by norm_num), four_pow]
  norm_num

example : ∃ o' v, ({ sample .radial with I := 0 } : Osc).update = .done o' ∧ o'.value ![0, 16, Real.pi / 2, 0] = .ok v ∧ v < 0 := by
  have hr : Regular ({ sample .radial with I := 0 } : Osc) 0 :=
    ⟨rfl, rfl, (sample_regular .radial).centre, (sample_regular .radial).stable, (sample_regular .radial).ne, (sample_regular .radial).index⟩
  obtain ⟨k, hk, -⟩ := modes hr
  have hK : 0 < ({ sample .radial with I := 0 } : Osc).K := by show (0 : ℝ) < 0.01; norm_num
  have hR : 0 < ({ sample .radial with I := 0 } : Osc).rho := by show (0 : ℝ) < 1; norm_num
  have hU : 0 < utCentral2 0 ({ sample .radial with I := 0 } : Osc).c := by
    show 0 < utCentral2 0 (sample .radial).c
    rw [sample_ut]; norm_num
  obtain ⟨v, h1, h2⟩ := ellipse hr rfl hK hR hU ![0, 16, Real.pi / 2, 0] hk
  refine ⟨_, v, hk, h1, h2.2 ?_⟩
  show omr2 0 16 * (gmunu 0 (posc 16) 1 1 * (16 - 16) ^ 2) + omth2 0 16 * (gmunu 0 (posc 16) 2 2 * (Real.pi / 2 - Real.pi / 2) ^ 2) < _
  rw [sub_self, sub_self, zero_pow two_ne_zero, mul_zero, mul_zero, mul_zero, mul_zero, add_zero]
  have hO : (0 : ℝ) < Omega 0 16 ^ 2 := by unfold Omega; rw [four_pow]; norm_num
  have hp : 0 < ({ sample .radial with I := 0 } : Osc).pressure / ({ sample .radial with I := 0 } : Osc).rho :=
    div_pos (mul_pos hK (Real.rpow_pos_of_pos hR _)) hR
  refine div_pos (mul_pos (mul_pos two_pos ?_) hp) (mul_pos hU hO)
  show (0 : ℝ) < 1 + 1
  norm_num

/-- C123, full statement refuted: "a polytropic index that is not positive is refused". A negative one is kept and the values are not numbers. -/
theorem index_wrong {o : Osc} {a : ℝ} (h : o.spin = some a) (hh : o.hold = false) (hc : CentreOk a o.c) (h1 : 0 < omr2 a o.c)
    (h2 : 0 < omth2 a o.c) (v : ℝ) (hv : v < 0) : o.step (.polyIndex v) = .nan := by
  show ({ o with n := v } : Osc).update = _
  unfold Osc.update
  simp only [hh, h, Bool.false_eq_true, if_false]
  rw [if_neg hc.1.ne', if_neg (not_not.2 hc), if_neg (by push Not; exact ⟨h1, h2⟩)]
  have (o' : Osc) (p q : ℝ) (h : o'.n < 0) : o'.modeValues p q = none := by
    unfold Osc.modeValues
    exact if_pos h
  rw [this _ _ _ (by exact hv)]

example : (sample .x).step (.polyIndex (-1)) = .nan :=
  index_wrong rfl rfl (sample_regular .x).centre (sample_regular .x).stable (by rw [omth2_zero]; norm_num) _ (by norm_num)

/-! ## C124: the values kept are those of the parameters -/

/-- Requests other than a radius with a unit. -/
def Op.Plain : Op → Prop
  | .largeRadiusUnit _ => False
  | _ => True

/-- A sequence of requests none of which fails. -/
noncomputable def Osc.run (o : Osc) : List Op → Option Osc
  | [] => some o
  | op :: rest =>
    match o.step op with
    | .done o' => o'.run rest
    | _ => none

/-- The values agree, and the weights too where they are used. -/
structure Same (kind : Perturb) (k k' : Cache) : Prop where
  sigma : k.sigma = k'.sigma
  alpha : k.alpha = k'.alpha
  omr2 : k.omr2 = k'.omr2
  omth2 : k.omth2 = k'.omth2
  Omega : k.Omega = k'.Omega
  lc : k.lc = k'.lc
  grr : k.grr = k'.grr
  ghh : k.ghh = k'.ghh
  w1 : kind = .plus ∨ kind = .breathing → k.w1 = k'.w1
  w2 : kind = .plus ∨ kind = .breathing → k.w2 = k'.w2

theorem xy_cache (o : Osc) (k : Cache) (pos : Vec) : ({ o with cache := k } : Osc).xy pos = o.xy pos := rfl

theorem getVelocity_ub {o : Osc} {pos : Vec} (h : o.xy pos = .ub) : o.getVelocity pos = .ub := by
  unfold Osc.getVelocity
  rw [h]
  cases o.spin <;> rfl

theorem same_answers {o : Osc} {k : Cache} (h : Same o.kind o.cache k) (pos : Vec) :
    ({ o with cache := k } : Osc).value pos = o.value pos ∧ ({ o with cache := k } : Osc).getVelocity pos = o.getVelocity pos := by
  have hs (x y : ℝ) : ({ o with cache := k } : Osc).shape x y = o.shape x y := by
    unfold Osc.shape
    rcases hk : o.kind <;> simp only
    · rw [h.w1 (Or.inl hk), h.w2 (Or.inl hk)]
    · rw [h.w1 (Or.inr hk), h.w2 (Or.inr hk)]
  have hf (x y : ℝ) : ({ o with cache := k } : Osc).flow x y = o.flow x y := by
    unfold Osc.flow
    rcases hk : o.kind <;> simp only
    · rw [h.w1 (Or.inl hk), h.w2 (Or.inl hk)]
    · rw [h.w1 (Or.inr hk), h.w2 (Or.inr hk)]
  have hp (t φ : ℝ) : ({ o with cache := k } : Osc).phase t φ = o.phase t φ := by
    unfold Osc.phase; rw [h.Omega, h.sigma]
  constructor
  · unfold Osc.value
    rw [xy_cache]
    congr 1
    funext p
    congr 1
    unfold Osc.f
    rw [hs, hp, h.omr2, h.omth2, h.sigma, h.alpha]
  · unfold Osc.getVelocity
    simp only [xy_cache]
    have h1 (t φ x y : ℝ) : ({ o with cache := k } : Osc).ur t φ x y = o.ur t φ x y := by
      unfold Osc.ur
      rw [hf, hp, h.alpha, h.grr]; rfl
    have h2 (t φ x y : ℝ) : ({ o with cache := k } : Osc).uth t φ x y = o.uth t φ x y := by
      unfold Osc.uth
      rw [hf, hp, h.alpha, h.ghh]; rfl
    have h3 (a : ℝ) : ({ o with cache := k } : Osc).denom a pos = o.denom a pos := by
      unfold Osc.denom
      rw [h.lc]
    simp only [h1, h2, h3, ← h.lc]

theorem modeValues_same {o : Osc} {k0 k : Cache} {p q : ℝ} (h1 : o.cache.omr2 = k0.omr2) (h2 : o.cache.omth2 = k0.omth2)
    (h3 : o.cache.Omega = k0.Omega) (h4 : o.cache.lc = k0.lc) (h5 : o.cache.grr = k0.grr) (h6 : o.cache.ghh = k0.ghh)
    (h : o.modeValues p q = some k) : ∃ k', ({ o with cache := k0 } : Osc).modeValues p q = some k' ∧ Same o.kind k k' := by
  unfold Osc.modeValues at h ⊢
  by_cases hn : o.n < 0
  · simp [hn] at h
  rcases hk : o.kind <;> simp only [hk, hn, if_false] at h ⊢
  case plus =>
    split_ifs at h ⊢
    injection h with h
    subst h
    exact ⟨_, rfl, rfl, rfl, h1, h2, h3, h4, h5, h6, fun _ => rfl, fun _ => rfl⟩
  case breathing =>
    split_ifs at h ⊢
    injection h with h
    subst h
    exact ⟨_, rfl, rfl, rfl, h1, h2, h3, h4, h5, h6, fun _ => rfl, fun _ => rfl⟩
  all_goals
    injection h with h
    subst h
    exact ⟨_, rfl, rfl, rfl, h1, h2, h3, h4, h5, h6, by simp, by simp⟩

/-- What an update that succeeds has done. -/
theorem update_done {o o' : Osc} (h : o.update = .done o') :
    (o' = o ∧ (o.hold = true ∨ o.spin = none ∨ o.c = 0)) ∨
    ∃ a k, o.hold = false ∧ o.spin = some a ∧ o.c ≠ 0 ∧ CentreOk a o.c ∧ 0 < omr2 a o.c ∧ 0 < omth2 a o.c ∧
      (o.withCentre a).modeValues (omr2 a o.c) (omth2 a o.c) = some k ∧ o' = { o with cache := k } := by
  unfold Osc.update at h
  by_cases hh : o.hold
  · rw [if_pos hh] at h
    injection h with h
    exact Or.inl ⟨h.symm, Or.inl hh⟩
  rw [if_neg hh] at h
  rcases hs : o.spin with _ | a
  · simp only [hs] at h
    injection h with h
    exact Or.inl ⟨h.symm, by simp⟩
  simp only [hs] at h
  by_cases hc : o.c = 0
  · rw [if_pos hc] at h
    injection h with h
    exact Or.inl ⟨h.symm, Or.inr (Or.inr hc)⟩
  rw [if_neg hc] at h
  by_cases hk : CentreOk a o.c
  · rw [if_neg (not_not.2 hk)] at h
    by_cases hf : omr2 a o.c ≤ 0 ∨ omth2 a o.c ≤ 0
    · rw [if_pos hf] at h; cases h
    rw [if_neg hf] at h
    push Not at hf
    rcases hm : (o.withCentre a).modeValues (omr2 a o.c) (omth2 a o.c) with _ | k
    · rw [hm] at h; cases h
    · rw [hm] at h
      injection h with h
      exact Or.inr ⟨a, k, by simpa using hh, rfl, hc, hk, hf.1, hf.2, hm, h.symm.trans (by simp only [Osc.withCentre, hs])⟩
  · rw [if_pos hk] at h; cases h

theorem update_again {o : Osc} {a : ℝ} {k : Cache} (hh : o.hold = false) (hs : o.spin = some a) (hc : o.c ≠ 0) (hk : CentreOk a o.c)
    (h1 : 0 < omr2 a o.c) (h2 : 0 < omth2 a o.c) (hm : (o.withCentre a).modeValues (omr2 a o.c) (omth2 a o.c) = some k) :
    o.update = .done { o with cache := k } := by
  unfold Osc.update
  rw [hh, hs]
  simp only [Bool.false_eq_true, if_false]
  rw [if_neg hc, if_neg (not_not.2 hk), if_neg (by push Not; exact ⟨h1, h2⟩), hm]
  simp only [Osc.withCentre, hh, hs]

/-- The values of an update, from any values kept. -/
theorem update_any {o o' : Osc} {a : ℝ} (hh : o.hold = false) (hs : o.spin = some a) (hc : o.c ≠ 0) (h : o.update = .done o') (k0 : Cache) :
    ∃ k', ({ o with cache := k0 } : Osc).update = .done { o with cache := k' } ∧ Same o.kind o'.cache k' ∧ o' = { o with cache := o'.cache } := by
  rcases update_done h with ⟨-, h0⟩ | ⟨a', k, -, hs', -, hk, h1, h2, hm, he⟩
  · simp [hh, hs, hc] at h0
  · rw [hs] at hs'
    injection hs' with hs'
    subst hs'
    obtain ⟨k', hm', hsame⟩ := modeValues_same (o := o.withCentre a) (k0 := (({ o with cache := k0 } : Osc).withCentre a).cache) rfl rfl rfl rfl rfl rfl hm
    refine ⟨k', ?_, ?_, ?_⟩
    · exact update_again (o := { o with cache := k0 }) hh hs hc hk h1 h2 hm'
    · rw [he]; exact hsame
    · rw [he]

theorem modeValues_idem {o : Osc} {k : Cache} {p q : ℝ} (h : o.modeValues p q = some k) : ({ o with cache := k } : Osc).modeValues p q = some k := by
  unfold Osc.modeValues at h ⊢
  by_cases hn : o.n < 0
  · simp [hn] at h
  rcases hk : o.kind <;> simp only [hk, hn, if_false] at h ⊢
  case plus =>
    split_ifs at h ⊢
    injection h with h
    subst h; rfl
  case breathing =>
    split_ifs at h ⊢
    injection h with h
    subst h; rfl
  all_goals
    injection h with h
    subst h; rfl

theorem modeValues_keeps {o : Osc} {k : Cache} {p q : ℝ} (h : o.modeValues p q = some k) :
    k.omr2 = o.cache.omr2 ∧ k.omth2 = o.cache.omth2 ∧ k.Omega = o.cache.Omega ∧ k.lc = o.cache.lc ∧ k.grr = o.cache.grr ∧ k.ghh = o.cache.ghh := by
  unfold Osc.modeValues at h
  by_cases hn : o.n < 0
  · simp [hn] at h
  rcases hk : o.kind <;> simp only [hk, hn, if_false] at h
  case plus =>
    split_ifs at h
    injection h with h
    subst h; exact ⟨rfl, rfl, rfl, rfl, rfl, rfl⟩
  case breathing =>
    split_ifs at h
    injection h with h
    subst h; exact ⟨rfl, rfl, rfl, rfl, rfl, rfl⟩
  all_goals
    injection h with h
    subst h; exact ⟨rfl, rfl, rfl, rfl, rfl, rfl⟩

theorem update_idem {o o' : Osc} (h : o.update = .done o') : o'.update = .done o' ∧ o'.hold = o.hold := by
  rcases update_done h with ⟨h0, -⟩ | ⟨a, k, hh, hs, hc, hk, h1, h2, hm, he⟩
  · subst h0; exact ⟨h, rfl⟩
  · subst he
    refine ⟨?_, rfl⟩
    have hm' := modeValues_idem hm
    obtain ⟨e1, e2, e3, e4, e5, e6⟩ := modeValues_keeps hm
    have e : ({ o with cache := k } : Osc).withCentre a = { o.withCentre a with cache := k } := by
      unfold Osc.withCentre
      simp only at e1 e2 e3 e4 e5 e6 ⊢
      congr 1
      cases k
      simp only [Osc.withCentre] at e1 e2 e3 e4 e5 e6
      simp [e1, e2, e3, e4, e5, e6]
    exact update_again (o := { o with cache := k }) hh hs hc hk h1 h2 (by rw [e]; exact hm')

/-- An update does not read the mode, the constant, the density nor the intensity. -/
theorem update_other {o : Osc} (h : o.update = .done o) (m : ℕ) (K rho I : ℝ) :
    ({ o with mode := m, K := K, rho := rho, I := I } : Osc).update = .done { o with mode := m, K := K, rho := rho, I := I } := by
  rcases update_done h with ⟨-, h0⟩ | ⟨a, k, hh, hs, hc, hk, h1, h2, hm, he⟩
  · unfold Osc.update
    rcases h0 with h0 | h0 | h0
    · simp [h0]
    · simp [h0]
    · rcases hs : o.spin with _ | a <;> simp [h0]
  · have hck : o.cache = k := congrArg Osc.cache he
    have hm' : (({ o with mode := m, K := K, rho := rho, I := I } : Osc).withCentre a).modeValues (omr2 a o.c) (omth2 a o.c) = some k := by
      rw [← hm]; rfl
    have := update_again (o := { o with mode := m, K := K, rho := rho, I := I }) hh hs hc hk h1 h2 hm'
    rw [this, ← hck]

theorem step_fresh {o o' : Osc} {op : Op} (hp : op.Plain) (hf : o.update = .done o) (h : o.step op = .done o') :
    o'.update = .done o' ∧ o'.hold = o.hold := by
  cases op with
  | largeRadius v => exact update_idem (o := { o with c := v }) h
  | largeRadiusUnit v => exact absurd hp id
  | polyIndex v => exact update_idem (o := { o with n := v }) h
  | kind k => exact update_idem (o := { o with kind := k }) h
  | mode m => injection h with h; subst h; exact ⟨update_other hf _ _ _ _, rfl⟩
  | polyCst v => injection h with h; subst h; exact ⟨update_other hf _ _ _ _, rfl⟩
  | centralDensity v => injection h with h; subst h; exact ⟨update_other hf _ _ _ _, rfl⟩
  | intensity v => injection h with h; subst h; exact ⟨update_other hf _ _ _ _, rfl⟩
  | metric s =>
    cases s with
    | none =>
      injection h with h; subst h
      refine ⟨?_, rfl⟩
      unfold Osc.update
      by_cases hh : o.hold <;> simp [hh]
    | some a => exact update_idem (o := { o with spin := some a }) h
  | spin a =>
    simp only [Osc.step] at h
    rcases hs : o.spin with _ | b
    · rw [hs] at h
      injection h with h; subst h
      exact ⟨hf, rfl⟩
    · rw [hs] at h
      exact update_idem (o := { o with spin := some a }) h

theorem run_fresh : ∀ (ops : List Op) {o o' : Osc}, (∀ op ∈ ops, op.Plain) → o.update = .done o → o.run ops = some o' →
    o'.update = .done o' ∧ o'.hold = o.hold
  | [], o, o', _, hf, h => by
    injection h with h; subst h; exact ⟨hf, rfl⟩
  | op :: rest, o, o', hp, hf, h => by
    simp only [Osc.run] at h
    rcases hs : o.step op with o1 | o1 | _
    · rw [hs] at h
      obtain ⟨h1, h2⟩ := step_fresh (hp op (by simp)) hf hs
      obtain ⟨h3, h4⟩ := run_fresh rest (fun q hq => hp q (by simp [hq])) h1 h
      exact ⟨h3, h4.trans h2⟩
    · rw [hs] at h; cases h
    · rw [hs] at h; cases h

theorem update_new : Osc.new.update = .done Osc.new := by
  unfold Osc.update; simp [Osc.new]

/-- C124. After any requests on a new torus, none with a unit and none refused, the surface and the velocity depend on the parameters only: a torus
with the same parameters and any other values kept, once updated, gives the same answers everywhere. -/
theorem history {o : Osc} {ops : List Op} (hp : ∀ op ∈ ops, op.Plain) (h : Osc.new.run ops = some o) (k0 : Cache) :
    ∃ o', ({ o with cache := k0 } : Osc).update = .done o' ∧ ∀ pos, o'.value pos = o.value pos ∧ o'.getVelocity pos = o.getVelocity pos := by
  obtain ⟨hf, hh⟩ := run_fresh ops hp update_new h
  have hh : o.hold = false := hh
  obtain hs | ⟨a, hs⟩ : o.spin = none ∨ ∃ a, o.spin = some a := by cases o.spin <;> simp
  · refine ⟨{ o with cache := k0 }, ?_, fun pos => ⟨?_, ?_⟩⟩
    · unfold Osc.update; simp [hh, hs]
    · unfold Osc.value Osc.xy; simp only [hs]; rfl
    · unfold Osc.getVelocity; simp only [hs]
  by_cases hc : o.c = 0
  · have hx (pos : Vec) : o.xy pos = .ub := by
      unfold Osc.xy; simp only [hs]
      exact if_pos (Or.inr (Or.inr (Or.inl fun h => h.1.ne' hc)))
    refine ⟨{ o with cache := k0 }, ?_, fun pos => ⟨?_, ?_⟩⟩
    · unfold Osc.update; simp [hh, hs, hc]
    · unfold Osc.value; rw [xy_cache, hx]; rfl
    · rw [getVelocity_ub (hx pos), getVelocity_ub (o := { o with cache := k0 }) (hx pos)]
  obtain ⟨k', h1, h2, -⟩ := update_any hh hs hc hf k0
  exact ⟨_, h1, fun pos => same_answers h2 pos⟩

example : ∃ o, Osc.new.run [.metric (some 0), .largeRadius 16, .kind .breathing, .polyIndex 1] = some o ∧ o.kind = .breathing ∧ o.c = 16 := by
  have r (o : Osc) (h1 : o.spin = some 0) (h2 : o.hold = false) (h3 : 6 < o.c) (h4 : 0 < o.n) : ∃ k, o.update = .done { o with cache := k } := by
    have hr : Regular o 0 := by
      refine ⟨h1, h2, centreOk_zero (by linarith), ?_, (Real.sqrt_pos.2 (by linarith)).ne', h4⟩
      rw [omr2_zero]
      have : 6 / o.c < 1 := by rw [div_lt_one (by linarith)]; exact h3
      linarith
    obtain ⟨k, hk, -⟩ := modes hr
    exact ⟨k, hk⟩
  obtain ⟨k1, e1⟩ := r { Osc.new with spin := some 0 } rfl rfl (by norm_num [Osc.new]) (by norm_num [Osc.new])
  obtain ⟨k2, e2⟩ := r { Osc.new with spin := some 0, cache := k1, c := 16 } rfl rfl (by norm_num) (by norm_num [Osc.new])
  obtain ⟨k3, e3⟩ := r { Osc.new with spin := some 0, cache := k2, c := 16, kind := .breathing } rfl rfl (by norm_num) (by norm_num [Osc.new])
  obtain ⟨k4, e4⟩ := r { Osc.new with spin := some 0, cache := k3, c := 16, kind := .breathing, n := 1 } rfl rfl (by norm_num) (by norm_num)
  refine ⟨{ Osc.new with spin := some 0, cache := k4, c := 16, kind := .breathing, n := 1 }, ?_, rfl, rfl⟩
  have s1 : Osc.new.step (.metric (some 0)) = .done { Osc.new with spin := some 0, cache := k1 } := e1
  have s2 : ({ Osc.new with spin := some 0, cache := k1 } : Osc).step (.largeRadius 16) =
    .done { Osc.new with spin := some 0, cache := k2, c := 16 } := e2
  have s3 : ({ Osc.new with spin := some 0, cache := k2, c := 16 } : Osc).step (.kind .breathing) =
    .done { Osc.new with spin := some 0, cache := k3, c := 16, kind := .breathing } := e3
  have s4 : ({ Osc.new with spin := some 0, cache := k3, c := 16, kind := .breathing } : Osc).step (.polyIndex 1) =
    .done { Osc.new with spin := some 0, cache := k4, c := 16, kind := .breathing, n := 1 } := e4
  simp only [Osc.run, s1, s2, s3, s4]

/-- The coordinates in the section are numbers. -/
theorem xy_ok {o : Osc} {a : ℝ} (hs : o.spin = some a) (hc : CentreOk a o.c) (hn : 0 < o.n) (hK : 0 < o.K) (hr : 0 < o.rho)
    (hu : 0 < utCentral2 a o.c) : 0 < o.beta2 a ∧ ∀ pos, o.xy pos = .ok (1 / √(o.beta2 a) * √(gmunu a (posc o.c) 1 1) * (pos 1 - o.c) / o.c,
      1 / √(o.beta2 a) * √(gmunu a (posc o.c) 2 2) * (Real.pi / 2 - pos 2) / o.c) := by
  have hp : 0 < o.pressure := mul_pos hK (Real.rpow_pos_of_pos hr _)
  have hO : Omega a o.c ≠ 0 := one_div_ne_zero hc.2.2.1
  have hO2 : 0 < Omega a o.c * Omega a o.c := mul_self_pos.2 hO
  have hb : 0 < o.beta2 a := by
    unfold Osc.beta2 Osc.poly
    have := hc.1
    rw [mul_assoc (o.c * o.c * utCentral2 a o.c)]
    positivity
  refine ⟨hb, fun pos => ?_⟩
  have hden : gmunu a (posc o.c) 0 0 + gmunu a (posc o.c) 3 3 * Omega a o.c * Omega a o.c + 2 * gmunu a (posc o.c) 0 3 * Omega a o.c ≠ 0 := by
    intro h0
    unfold utCentral2 at hu
    rw [h0, div_zero] at hu
    exact lt_irrefl _ hu
  unfold Osc.xy
  simp only [hs]
  rw [if_neg (by push Not; exact ⟨hn.ne', hr, hc, hden⟩)]
  exact if_neg (not_le.2 hb)

theorem ut_zero {c : ℝ} (hc : 3 < c) : utCentral2 0 c = c / (c - 3) := by
  have h0 : 0 < c := by linarith
  have hw : c ^ (1.5 : ℝ) * c ^ (1.5 : ℝ) = c ^ 3 := by
    rw [Orbits.pow_three_half h0.le]
    have := Real.sq_sqrt h0.le
    calc √c ^ 3 * √c ^ 3 = (√c ^ 2) ^ 3 := by ring
      _ = c ^ 3 := by rw [this]
  unfold utCentral2 Omega
  rw [gtt_c _ h0, gtp_c _ h0, gpp_c _ h0]
  have hp : (0 : ℝ) < c ^ (1.5 : ℝ) := Real.rpow_pos_of_pos h0 _
  generalize c ^ (1.5 : ℝ) = W at *
  have e : -1 + 2 / c + (c ^ 2 + 0 ^ 2 + 2 * 0 ^ 2 / c) * (1 / (W + 0)) * (1 / (W + 0)) + 2 * (-2 * 0 / c) * (1 / (W + 0)) = -((c - 3) / c) := by
    have : (1 / (W + 0)) * (1 / (W + 0)) = 1 / c ^ 3 := by
      rw [← hw]; field_simp; ring
    rw [mul_assoc _ (1 / (W + 0)), this]
    field_simp; ring
  rw [e]
  have : c - 3 ≠ 0 := by linarith
  field_simp

/-- C124, full statement refuted: a radius set with a unit is not followed by an update. Around a Schwarzschild black hole, from 8 to 12 in this way, the
surface is not that of a torus at 12: without intensity it is other everywhere in the equatorial plane out of the centre. -/
theorem unit_wrong {o : Osc} (hs : o.spin = some 0) (hh : o.hold = false) (hc : o.c = 8) (hf : o.update = .done o) (hI : o.I = 0) (hn : 0 < o.n)
    (hK : 0 < o.K) (hr : 0 < o.rho) :
    ∃ o1 o2, o.step (.largeRadiusUnit 12) = .done o1 ∧ o.step (.largeRadius 12) = .done o2 ∧ o1.c = 12 ∧ o2.c = 12 ∧
      ∀ t r φ, r ≠ 12 → ∃ v1 v2, o1.value ![t, r, Real.pi / 2, φ] = .ok v1 ∧ o2.value ![t, r, Real.pi / 2, φ] = .ok v2 ∧ v1 < v2 := by
  have hR : Regular ({ o with c := 12 } : Osc) 0 := by
    refine ⟨hs, hh, centreOk_zero (by norm_num), ?_, (Real.sqrt_pos.2 (by norm_num)).ne', hn⟩
    rw [omr2_zero]; norm_num
  obtain ⟨k, hk, -, -, e1, -⟩ := modes hR
  have e0 : o.cache.omr2 = 1 / 4 := by
    rcases update_done hf with ⟨-, h0⟩ | ⟨a, k', -, hs', -, -, -, -, hm, he⟩
    · simp [hh, hs, hc] at h0
    · rw [hs] at hs'
      injection hs' with hs'
      subst hs'
      have := (modeValues_keeps hm).1
      rw [congrArg Osc.cache he]
      show k'.omr2 = _
      rw [this]
      show omr2 0 o.c = _
      rw [omr2_zero, hc]; norm_num
  have e2 : k.omr2 = 1 / 2 := by rw [e1, omr2_zero]; norm_num
  refine ⟨{ o with c := 12 }, { o with c := 12, cache := k }, rfl, hk, rfl, rfl, fun t r φ hne => ?_⟩
  obtain ⟨hb, hxy⟩ := xy_ok (o := { o with c := 12 }) hs hR.centre hn hK hr (by
    show 0 < utCentral2 0 12
    rw [ut_zero (by norm_num)]; norm_num)
  have hxy2 (pos : Vec) : ({ o with c := 12, cache := k } : Osc).xy pos = ({ o with c := 12 } : Osc).xy pos := rfl
  refine ⟨_, _, by unfold Osc.value; rw [hxy]; rfl, by unfold Osc.value; rw [hxy2, hxy]; rfl, ?_⟩
  have hx : 1 / √(({ o with c := 12 } : Osc).beta2 0) * √(gmunu 0 (posc 12) 1 1) * (r - 12) / 12 ≠ 0 := by
    have h1 := (Real.sqrt_pos.2 hb).ne'
    have h2 : √(gmunu 0 (posc 12) 1 1) ≠ 0 := by
      refine (Real.sqrt_pos.2 ?_).ne'
      rw [grr_c]; norm_num
    exact div_ne_zero (mul_ne_zero (mul_ne_zero (one_div_ne_zero h1) h2) (sub_ne_zero.2 hne)) (by norm_num)
  show ({ o with c := 12 } : Osc).f t φ (1 / √(({ o with c := 12 } : Osc).beta2 0) * √(gmunu 0 (posc 12) 1 1) * (r - 12) / 12)
      (1 / √(({ o with c := 12 } : Osc).beta2 0) * √(gmunu 0 (posc 12) 2 2) * (Real.pi / 2 - Real.pi / 2) / 12) <
    ({ o with c := 12, cache := k } : Osc).f t φ (1 / √(({ o with c := 12 } : Osc).beta2 0) * √(gmunu 0 (posc 12) 1 1) * (r - 12) / 12)
      (1 / √(({ o with c := 12 } : Osc).beta2 0) * √(gmunu 0 (posc 12) 2 2) * (Real.pi / 2 - Real.pi / 2) / 12)
  rw [sub_self, mul_zero, zero_div]
  generalize 1 / √(({ o with c := 12 } : Osc).beta2 0) * √(gmunu 0 (posc 12) 1 1) * (r - 12) / 12 = x at *
  unfold Osc.f
  simp only [hI, e0, e2, zero_mul, mul_zero, add_zero]
  have := mul_self_pos.2 hx
  linarith

/-- Such a torus. -/
example : ∃ o : Osc, o.spin = some 0 ∧ o.hold = false ∧ o.c = 8 ∧ o.update = .done o ∧ o.I = 0 ∧ 0 < o.n ∧ 0 < o.K ∧ 0 < o.rho := by
  have hr : Regular ({ Osc.new with spin := some 0, c := 8, I := 0 } : Osc) 0 := by
    refine ⟨rfl, rfl, centreOk_zero (by norm_num), ?_, (Real.sqrt_pos.2 (by norm_num)).ne', by norm_num [Osc.new]⟩
    rw [omr2_zero]; norm_num
  obtain ⟨k, hk, -⟩ := modes hr
  refine ⟨_, rfl, rfl, rfl, (update_idem hk).1, rfl, ?_, ?_, ?_⟩ <;> norm_num [Osc.new]

/-- C124, full statement refuted: "a radius that is refused leaves the torus as it was". Below the last stable orbit of a Schwarzschild black hole the
error comes after the radius and the epicyclic frequencies are changed, the pulsation of the mode is still that of the old radius, and, without
intensity, the whole equatorial plane is inside the torus. -/
theorem refused_wrong {o : Osc} (hs : o.spin = some 0) (hh : o.hold = false) (hI : o.I = 0) (hn : 0 < o.n) (hK : 0 < o.K) (hr : 0 < o.rho)
    (v : ℝ) (h3 : 3 < v) (h6 : v ≤ 6) :
    ∃ o1, o.step (.largeRadius v) = .throws o1 ∧ o1.c = v ∧ o1.cache.omr2 = 1 - 6 / v ∧ o1.cache.sigma = o.cache.sigma ∧
      ∀ t r φ, ∃ f, o1.value ![t, r, Real.pi / 2, φ] = .ok f ∧ f < 0 := by
  have hc : CentreOk 0 v := centreOk_zero (by linarith)
  have ho : omr2 0 v ≤ 0 := by
    rw [omr2_zero]
    have : 1 ≤ 6 / v := by rw [le_div_iff₀ (by linarith)]; linarith
    linarith
  refine ⟨({ o with c := v } : Osc).withCentre 0, ?_, rfl, omr2_zero v, rfl, fun t r φ => ?_⟩
  · show ({ o with c := v } : Osc).update = _
    unfold Osc.update
    simp only [hh, hs, Bool.false_eq_true, if_false]
    rw [if_neg (by linarith : v ≠ 0), if_neg (not_not.2 hc), if_pos (Or.inl ho)]
  · obtain ⟨-, hxy⟩ := xy_ok (o := ({ o with c := v } : Osc).withCentre 0) hs hc hn hK hr (by
      show 0 < utCentral2 0 v
      rw [ut_zero h3]; exact div_pos (by linarith) (by linarith))
    refine ⟨_, by unfold Osc.value; rw [hxy]; rfl, ?_⟩
    show (({ o with c := v } : Osc).withCentre 0).f t φ _ (_ * (Real.pi / 2 - Real.pi / 2) / v) < 0
    rw [sub_self, mul_zero, zero_div]
    have key (x : ℝ) : (({ o with c := v } : Osc).withCentre 0).f t φ x 0 < 0 := by
      have hI' : (({ o with c := v } : Osc).withCentre 0).I = 0 := hI
      have ho' : (({ o with c := v } : Osc).withCentre 0).cache.omr2 = omr2 0 v := rfl
      unfold Osc.f
      rw [hI', ho']
      nlinarith [mul_self_nonneg x]
    exact key _

example : ∃ o1, ({ sample .radial with I := 0 } : Osc).step (.largeRadius 5) = .throws o1 ∧ o1.c = 5 := by
  obtain ⟨o1, h1, h2, -⟩ := refused_wrong (o := { sample .radial with I := 0 }) rfl rfl rfl (by norm_num [sample]) (by norm_num [sample, Osc.new])
    (by norm_num [sample]) 5 (by norm_num) (by norm_num)
  exact ⟨o1, h1, h2⟩

end Gyoto.OscTorus
