import Verif.Lemmas.PageThorne

/-!
# The disk of Page and Thorne: its flux, its temperature, and how it follows its metric
-/

namespace Gyoto.PageThorne

open Gyoto.MetricAlg Gyoto.KerrBL Gyoto.Orbits Gyoto.Spacetime

/-! ### C98: the flux -/

theorem slow_iff (a dir r : ℝ) : KerrSlow a dir r ↔ 0 < P (a * dir) √r := by
  unfold KerrSlow P
  rw [mul_assoc]

theorem angMom_eq {a dir r : ℝ} (hr : 0 < r) (hdir : dir = 1 ∨ dir = -1) (hs : KerrSlow a dir r) :
    angMom a dir r = dir * lamb (a * dir) √r := by
  have h := (kerr_energy (a := a) (dir := dir) (pos := equator r) hr rfl hdir hs).2
  unfold angMom
  rw [h]
  unfold lamb P
  rw [show (a * dir) ^ 2 = a ^ 2 by rcases hdir with rfl | rfl <;> ring, mul_div_assoc]
  show dir * ((√r ^ 4 - 2 * a * dir * √r + a ^ 2) / √(√r ^ 3 * (√r ^ 3 - 3 * √r + 2 * a * dir))) = _
  rw [show 2 * a * dir = 2 * (a * dir) by ring]

theorem angVel_eq {a dir r : ℝ} (hr : 0 < r) (hdir : dir = 1 ∨ dir = -1) (hs : KerrSlow a dir r) :
    angVel a dir r = 1 / (dir * √r ^ 3 + a) := by
  have hn := kerr_norm_neg (a := a) (dir := dir) (pos := equator r) hr rfl hdir hs
  obtain ⟨h1, h2, -⟩ := finish_ok hn
  unfold angVel
  rw [kerr_eq (pos := equator r) hr rfl, h2, mul_div_assoc, div_self h1.future.ne', mul_one]
  rfl

theorem drag_eq {a r : ℝ} (hr : 0 < r) (hs : KerrSlow a 1 r) :
    energy a 1 r - angVel a 1 r * angMom a 1 r = √(√r ^ 3 * P a √r) / (√r ^ 3 + a) := by
  have hw : 0 < √r := Real.sqrt_pos.2 hr
  have hE := (kerr_energy (a := a) (dir := 1) (pos := equator r) hr rfl (Or.inl rfl) hs).1
  have hp := omega_pos hw (Or.inl rfl) hs
  rw [angVel_eq hr (Or.inl rfl) hs, angMom_eq hr (Or.inl rfl) hs]
  unfold energy
  rw [hE]
  show -(-(√r ^ 3 - 2 * √r + a * 1) / √(√r ^ 3 * (√r ^ 3 - 3 * √r + 2 * a * 1))) - _ = _
  rw [slow_iff] at hs
  unfold lamb
  simp only [mul_one, one_mul] at hs hp ⊢
  have hK : 0 < √r ^ 3 * P a √r := by positivity
  change -(-(√r ^ 3 - 2 * √r + a) / √(√r ^ 3 * P a √r)) - _ = _
  have hz : 0 < √(√r ^ 3 * P a √r) := Real.sqrt_pos.2 hK
  have hz2 : √(√r ^ 3 * P a √r) ^ 2 = √r ^ 3 * P a √r := Real.sq_sqrt hK.le
  generalize √(√r ^ 3 * P a √r) = z at *
  have hPe : P a √r = √r ^ 3 - 3 * √r + 2 * a := rfl
  generalize √r = w at *
  field_simp
  rw [hz2, hPe]
  ring

/-- Circular orbits slower than light are so in a neighbourhood. -/
theorem slow_nhds {a dir r : ℝ} (hr : 0 < r) (hs : KerrSlow a dir r) : ∀ᶠ s in nhds r, 0 < s ∧ KerrSlow a dir s := by
  have hc : Continuous fun s : ℝ => √s ^ 3 - 3 * √s + 2 * a * dir := by fun_prop
  exact (eventually_gt_nhds hr).and (hc.continuousAt.eventually (eventually_gt_nhds hs))

theorem angMom_deriv {a dir r : ℝ} (hr : 0 < r) (hdir : dir = 1 ∨ dir = -1) (hs : KerrSlow a dir r) :
    HasDerivAt (angMom a dir)
      (dir * (Q (a * dir) √r * (√r ^ 3 + a * dir) / (√r * P (a * dir) √r * √(√r ^ 3 * P (a * dir) √r)) * (1 / (2 * √r)))) r := by
  have hw : 0 < √r := Real.sqrt_pos.2 hr
  have h := (((lamb_deriv hw ((slow_iff a dir r).1 hs)).comp r (Real.hasDerivAt_sqrt hr.ne')).const_mul dir)
  refine h.congr_of_eventuallyEq ?_
  filter_upwards [slow_nhds hr hs] with s hs'
  exact angMom_eq hs'.1 hdir hs'.2

theorem angVel_deriv {a r : ℝ} (hr : 0 < r) (hs : KerrSlow a 1 r) :
    HasDerivAt (angVel a 1) (-(3 / 2 * √r) / (√r ^ 3 + a) ^ 2) r := by
  have hw : 0 < √r := Real.sqrt_pos.2 hr
  have hp := omega_pos hw (Or.inl rfl) hs
  rw [mul_one] at hp
  have h := (((Real.hasDerivAt_sqrt hr.ne').pow 3).add_const a).inv (x := r) hp.ne'
  have h2 : HasDerivAt (fun s => 1 / (1 * √s ^ 3 + a)) (-(3 / 2 * √r) / (√r ^ 3 + a) ^ 2) r := by
    have e : (fun s => 1 / (1 * √s ^ 3 + a)) = (fun s => √s ^ 3 + a)⁻¹ := by
      funext s; simp
    rw [e]
    refine h.congr_deriv ?_
    congr 1
    push_cast
    field_simp
    try ring
  refine h2.congr_of_eventuallyEq ?_
  filter_upwards [slow_nhds hr hs] with s hs'
  exact angVel_eq hs'.1 (Or.inl rfl) hs'.2

/-- From the inner edge on, the orbits are slower than light. -/
theorem disk_slow {a r : ℝ} (h1 : 0 ≤ a) (h2 : a < 1) (hr : kerrRms a ≤ r) :
    0 < r ∧ KerrSlow a 1 r ∧ (coefs a).x1 < √r := by
  have hm : -1 < a := by linarith
  obtain ⟨hx0, -⟩ := x0_spec hm h2
  have hr0 := (rms_spec hm.le h2.le).1
  have hle : (coefs a).x0 ≤ √r := by rw [x0_eq]; exact Real.sqrt_le_sqrt hr
  have hb := (beyond hm h2 hx0).1 (P_x0 h1 h2)
  refine ⟨by linarith, ?_, by linarith⟩
  rw [slow_iff, mul_one]
  exact (beyond hm h2 (by linarith)).2 (by linarith)

/-- C98. For a spin that is not negative, the function `ff` is, at the inner edge and beyond, the one that the conservation of energy and of
angular momentum give for matter on the circular orbits that turn with the black hole, when there is no torque at the marginally
stable orbit. -/
theorem flux_conserved_partial {a r : ℝ} (h1 : 0 ≤ a) (h2 : a < 1) (hr : kerrRms a ≤ r) :
    ff (coefs a) √r = some (conserved (energy a 1) (angMom a 1) (angVel a 1) (kerrRms a) r) := by
  have hm : -1 < a := by linarith
  obtain ⟨hx0, -⟩ := x0_spec hm h2
  have hb := (beyond hm h2 hx0).1 (P_x0 h1 h2)
  obtain ⟨hr0, hs, hx⟩ := disk_slow h1 h2 hr
  rw [ff_eq hm h2 hb hx]
  congr 1
  have hw : 0 < √r := Real.sqrt_pos.2 hr0
  have hsP : 0 < P a √r := by have := (slow_iff a 1 r).1 hs; rwa [mul_one] at this
  -- the integral
  have hI : ∫ s in kerrRms a..r, (energy a 1 s - angVel a 1 s * angMom a 1 s) * deriv (angMom a 1) s = bracket (coefs a) √r := by
    have e : ∀ s ∈ Set.uIcc (kerrRms a) r, (energy a 1 s - angVel a 1 s * angMom a 1 s) * deriv (angMom a 1) s =
        Q a √s / (√s * P a √s) * (1 / (2 * √s)) := by
      intro s hs'
      rw [Set.uIcc_of_le hr] at hs'
      obtain ⟨q1, q2, q3⟩ := disk_slow h1 h2 hs'.1
      rw [drag_eq q1 q2, (angMom_deriv q1 (Or.inl rfl) q2).deriv]
      have hw' : 0 < √s := Real.sqrt_pos.2 q1
      have hp := omega_pos hw' (Or.inl rfl) q2
      have hq := (slow_iff a 1 s).1 q2
      rw [mul_one] at hp hq ⊢
      have hz : 0 < √(√s ^ 3 * P a √s) := Real.sqrt_pos.2 (by positivity)
      generalize √(√s ^ 3 * P a √s) = z at *
      generalize P a √s = p at *
      generalize √s = w at *
      field_simp
    rw [intervalIntegral.integral_congr e]
    have hd : ∀ s ∈ Set.uIcc (kerrRms a) r, HasDerivAt (fun s => bracket (coefs a) √s) (Q a √s / (√s * P a √s) * (1 / (2 * √s))) s := by
      intro s hs'
      rw [Set.uIcc_of_le hr] at hs'
      obtain ⟨q1, q2, q3⟩ := disk_slow h1 h2 hs'.1
      exact (bracket_deriv hm h2 hb q3).comp s (Real.hasDerivAt_sqrt q1.ne')
    rw [intervalIntegral.integral_eq_sub_of_hasDerivAt hd]
    · rw [← x0_eq, bracket_zero hm h2 hb, sub_zero]
    · refine ContinuousOn.intervalIntegrable ?_
      intro s hs'
      rw [Set.uIcc_of_le hr] at hs'
      obtain ⟨q1, q2, q3⟩ := disk_slow h1 h2 hs'.1
      have hw' : 0 < √s := Real.sqrt_pos.2 q1
      have hq := (slow_iff a 1 s).1 q2
      rw [mul_one] at hq
      have c1 : Continuous fun s : ℝ => Q a √s := by unfold Q; fun_prop
      have c2 : Continuous fun s : ℝ => √s * P a √s := by unfold P; fun_prop
      have c3 : Continuous fun s : ℝ => 2 * √s := by fun_prop
      exact ((c1.continuousAt.div c2.continuousAt (by positivity)).mul
        (continuousAt_const.div c3.continuousAt (by positivity))).continuousWithinAt
  unfold conserved
  rw [hI, drag_eq hr0 hs, (angVel_deriv hr0 hs).deriv]
  congr 1
  have hp := omega_pos hw (Or.inl rfl) hs
  rw [mul_one] at hp
  rw [div_pow, Real.sq_sqrt (show 0 ≤ √r ^ 3 * P a √r by positivity)]
  generalize P a √r = p at *
  generalize √r = w at *
  field_simp

/-- The energy per orbit is emitted: nothing at the inner edge, something everywhere beyond. -/
theorem flux_positive_partial {a : ℝ} (h1 : 0 ≤ a) (h2 : a < 1) :
    ff (coefs a) √(kerrRms a) = some 0 ∧ ∀ r, kerrRms a < r → ∃ f, ff (coefs a) √r = some f ∧ 0 < f := by
  have hm : -1 < a := by linarith
  obtain ⟨hx0, hQ⟩ := x0_spec hm h2
  rw [abs_of_nonneg h1] at hQ
  have hb := (beyond hm h2 hx0).1 (P_x0 h1 h2)
  have hP : ∀ z, (coefs a).x0 ≤ z → 0 < P a z := fun z hz => (beyond hm h2 (by linarith)).2 (by linarith)
  refine ⟨by rw [← x0_eq, ff_eq hm h2 hb hb, bracket_zero hm h2 hb, mul_zero], ?_⟩
  intro r hr
  have hr0 := (rms_spec hm.le h2.le).1
  have hlt : (coefs a).x0 < √r := by rw [x0_eq]; exact Real.sqrt_lt_sqrt hr0.le hr
  refine ⟨_, ff_eq hm h2 hb (by linarith), ?_⟩
  have hmono : StrictMonoOn (bracket (coefs a)) (Set.Ici (coefs a).x0) := by
    refine strictMonoOn_of_deriv_pos (convex_Ici _) ?_ ?_
    · intro z hz
      exact (bracket_deriv hm h2 hb (lt_of_lt_of_le hb hz)).continuousAt.continuousWithinAt
    · intro z hz
      rw [interior_Ici] at hz
      rw [(bracket_deriv hm h2 hb (hb.trans hz)).deriv]
      have hz' : (coefs a).x0 < z := hz
      have := Q_mono hP hz'
      have := hP z hz'.le
      have : 0 < z := by linarith
      have : 0 < Q a z := by linarith
      positivity
  have := hmono Set.self_mem_Ici (Set.mem_Ici.2 hlt.le) hlt
  rw [bracket_zero hm h2 hb] at this
  have hp := hP _ hlt.le
  have : 0 < √r := by linarith
  positivity

/-- C98. The two systems of coordinates agree: `xx` is the square root of the radius of Boyer and Lindquist. -/
theorem place_agree {a r x y : ℝ} (hr : 0 ≤ r) (h : x ^ 2 + y ^ 2 = r ^ 2 + a ^ 2) :
    rootOf (coefs a) (.cartesian x y) = some √r ∧ rootOf (coefs a) (.spherical r) = some √r := by
  unfold rootOf
  have e : x * x + y * y - (coefs a).aa2 = r ^ 2 := by
    show x * x + y * y - a * a = r ^ 2
    linarith
  simp only [e, if_pos hr, if_pos (sq_nonneg r), Option.some.injEq, and_true]
  rw [← Real.rpow_natCast, ← Real.rpow_mul hr, Real.sqrt_eq_rpow]
  norm_num

/-- C98. The intensity, with the mass and the accretion rate both given: `pi` times it is the flux from one face. -/
theorem intensity_partial {a r mass mdot dsem : ℝ} (h1 : 0 ≤ a) (h2 : a < 1) (hr : kerrRms a ≤ r) (hM : mass ≠ 1) (hmd : mdot ≠ 1) :
    bolometric ⟨coefs a, false, mass, mdot, false⟩ dsem (.spherical r) =
      some (mdot / (4 * Real.pi * r) * conserved (energy a 1) (angMom a 1) (angVel a 1) (kerrRms a) r / Real.pi
        * (cCGS ^ 6 / (gCGS * (1000 * mass)) ^ 2) / 1000) := by
  obtain ⟨hr0, -, -⟩ := disk_slow h1 h2 hr
  unfold bolometric
  have hroot : rootOf (coefs a) (.spherical r) = some √r := by
    show (if 0 ≤ r then some √r else none) = _
    rw [if_pos hr0.le]
  have hpi := Real.pi_pos
  simp only [Bool.false_eq_true, if_false, hroot, Option.bind_eq_bind, Option.bind_some, flux_conserved_partial h1 h2 hr, hM, hmd,
    ne_eq, not_false_eq_true, and_self, if_true, Option.pure_def, Option.some.injEq, Real.mul_self_sqrt hr0.le]
  generalize conserved (energy a 1) (angMom a 1) (angVel a 1) (kerrRms a) r = f
  by_cases hM0 : mass = 0
  · subst hM0; simp
  have hg : gCGS ≠ 0 := by unfold gCGS; norm_num
  rw [show (1e3 : ℝ) = 1000 by norm_num, show (0.001 : ℝ) = 1 / 1000 by norm_num]
  field_simp

example : (0 : ℝ) ≤ 1 / 2 ∧ (1 / 2 : ℝ) < 1 ∧ kerrRms (1 / 2) ≤ kerrRms (1 / 2) + 1 := by norm_num

/-- C98. An optically thin disk sends out in proportion to the path through it: the opaque one is as bright as the thin one is for a path of one
unit. -/
theorem thin_path (c : Coefs) (mass mdot dsem : ℝ) (p : Place) : bolometric ⟨c, false, mass, mdot, true⟩ dsem p =
    (bolometric ⟨c, false, mass, mdot, false⟩ dsem p).map fun i => i * dsem := by
  unfold bolometric
  simp only [Bool.false_eq_true, if_false, if_true]
  rcases rootOf c p with _ | x
  · rfl
  · simp only [Option.bind_eq_bind, Option.bind_some]
    rcases ff c x with _ | f
    · rfl
    · simp only [Option.bind_some, Option.pure_def, Option.map_some, Option.some.injEq]
      ring

/-- Example: a path of three units. -/
example : bolometric ⟨coefs (1 / 2), false, 2, 3, true⟩ 3 (.spherical 6) =
    (bolometric ⟨coefs (1 / 2), false, 2, 3, false⟩ 3 (.spherical 6)).map fun i => i * 3 := thin_path _ _ _ _ _

/-- Finding: the scale is only applied if neither the mass nor the accretion rate is 1: a disk that accretes one unit of mass per
unit of time around a black hole of 2 units has the intensity of one in natural units. -/
theorem scale_wrong : ¬∀ a r mass mdot dsem : ℝ, 0 ≤ a → a < 1 → kerrRms a < r → 0 < mass → 0 < mdot →
    bolometric ⟨coefs a, false, mass, mdot, false⟩ dsem (.spherical r) =
      some (mdot / (4 * Real.pi * r) * conserved (energy a 1) (angMom a 1) (angVel a 1) (kerrRms a) r / Real.pi
        * (cCGS ^ 6 / (gCGS * (1000 * mass)) ^ 2) / 1000) := by
  intro h
  have e1 := h 0 (kerrRms 0 + 1) 2 1 0 le_rfl one_pos (by linarith) two_pos one_pos
  have e2 := h 0 (kerrRms 0 + 1) 3 1 0 le_rfl one_pos (by linarith) three_pos one_pos
  have e : bolometric ⟨coefs 0, false, 2, 1, false⟩ 0 (.spherical (kerrRms 0 + 1)) =
      bolometric ⟨coefs 0, false, 3, 1, false⟩ 0 (.spherical (kerrRms 0 + 1)) := by
    unfold bolometric
    simp
  rw [e, e2, Option.some.injEq] at e1
  obtain ⟨f, hf, hf0⟩ := (flux_positive_partial (a := 0) le_rfl one_pos).2 (kerrRms 0 + 1) (by linarith)
  rw [flux_conserved_partial le_rfl one_pos (by linarith), Option.some.injEq] at hf
  rw [hf] at e1
  have hpi := Real.pi_pos
  have hr := (rms_spec (a := 0) (by norm_num) (by norm_num)).1
  have hr1 : 0 < kerrRms 0 + 1 := by linarith
  have hg : gCGS ≠ 0 := by unfold gCGS; norm_num
  have hc : cCGS ≠ 0 := by unfold cCGS; norm_num
  generalize kerrRms 0 + 1 = r at *
  field_simp at e1
  norm_num at e1

/-- Finding: the intensity is returned in SI units, but `emission` takes it to be in cgs units when it computes the temperature: the
energy radiated by the black body is a thousandth of the flux of the disk. -/
theorem temperature_wrong {a r mass mdot dsem : ℝ} (h1 : 0 ≤ a) (h2 : a < 1) (hr : kerrRms a < r) (hM : mass ≠ 1) (hM0 : 0 < mass)
    (hmd : mdot ≠ 1) (hmd0 : 0 < mdot) : ∃ T F, temperature ⟨coefs a, false, mass, mdot, false⟩ dsem (.spherical r) = some T ∧
      F = mdot / (4 * Real.pi * r) * conserved (energy a 1) (angMom a 1) (angVel a 1) (kerrRms a) r
        * (cCGS ^ 6 / (gCGS * (1000 * mass)) ^ 2) ∧ 0 < F ∧ sigmaCGS * T ^ 4 = F / 1000 := by
  obtain ⟨f, hf, hf0⟩ := (flux_positive_partial h1 h2).2 r hr
  rw [flux_conserved_partial h1 h2 hr.le, Option.some.injEq] at hf
  obtain ⟨hr0, -, -⟩ := disk_slow h1 h2 hr.le
  have hpi := Real.pi_pos
  have hg : 0 < gCGS := by unfold gCGS; norm_num
  have hc : 0 < cCGS := by unfold cCGS; norm_num
  have hsig : 0 < sigmaCGS := by unfold sigmaCGS; norm_num
  have hF : 0 < mdot / (4 * Real.pi * r) * conserved (energy a 1) (angMom a 1) (angVel a 1) (kerrRms a) r
        * (cCGS ^ 6 / (gCGS * (1000 * mass)) ^ 2) := by rw [hf]; positivity
  unfold temperature
  rw [intensity_partial h1 h2 hr.le hM hmd]
  have e : mdot / (4 * Real.pi * r) * conserved (energy a 1) (angMom a 1) (angVel a 1) (kerrRms a) r / Real.pi
        * (cCGS ^ 6 / (gCGS * (1000 * mass)) ^ 2) / 1000 * Real.pi / sigmaCGS =
      mdot / (4 * Real.pi * r) * conserved (energy a 1) (angMom a 1) (angVel a 1) (kerrRms a) r
        * (cCGS ^ 6 / (gCGS * (1000 * mass)) ^ 2) / 1000 / sigmaCGS := by
    field_simp
  simp only [Option.bind_eq_bind, Option.bind_some]
  rw [e]
  generalize mdot / (4 * Real.pi * r) * conserved (energy a 1) (angMom a 1) (angVel a 1) (kerrRms a) r
        * (cCGS ^ 6 / (gCGS * (1000 * mass)) ^ 2) = F at *
  have hn : 0 ≤ F / 1000 / sigmaCGS := by positivity
  rw [if_pos hn]
  refine ⟨_, F, rfl, rfl, hF, ?_⟩
  rw [← Real.rpow_natCast, ← Real.rpow_mul hn]
  norm_num
  field_simp

/-! ### The inner edge -/

/-- The inner edge `x0_` is the marginally stable orbit when the matter turns with the black hole. -/
theorem edge_marginal_partial {a : ℝ} (h1 : 0 ≤ a) (h2 : a < 1) :
    KerrSlow a 1 ((coefs a).x0 ^ 2) ∧ HasDerivAt (angMom a 1) 0 ((coefs a).x0 ^ 2) := by
  have hm : -1 < a := by linarith
  obtain ⟨hx0, hQ⟩ := x0_spec hm h2
  rw [abs_of_nonneg h1] at hQ
  have he : √((coefs a).x0 ^ 2) = (coefs a).x0 := Real.sqrt_sq (by linarith)
  have hs : KerrSlow a 1 ((coefs a).x0 ^ 2) := by rw [slow_iff, he, mul_one]; exact P_x0 h1 h2
  refine ⟨hs, (angMom_deriv (by positivity) (Or.inl rfl) hs).congr_deriv ?_⟩
  rw [he, mul_one, hQ]
  simp

/-- Finding: when the matter turns against the black hole (a negative spin, or `CounterRotating`), the inner edge is still that of
the orbits that turn with it: the orbit there is not marginally stable. -/
theorem edge_retrograde_wrong {a dir : ℝ} (h1 : -1 < a) (h2 : a < 1) (hdir : dir = 1 ∨ dir = -1) (h : a * dir < 0) :
    ¬(KerrSlow a dir ((coefs a).x0 ^ 2) ∧ HasDerivAt (angMom a dir) 0 ((coefs a).x0 ^ 2)) := by
  rintro ⟨hs, hd⟩
  obtain ⟨hx0, hQ⟩ := x0_spec h1 h2
  have he : √((coefs a).x0 ^ 2) = (coefs a).x0 := Real.sqrt_sq (by linarith)
  have hd' := hd.unique (angMom_deriv (by positivity) hdir hs)
  have hw : 0 < (coefs a).x0 := by linarith
  have hp := omega_pos (a := a) (dir := dir) hw hdir (by unfold KerrSlow at hs; rwa [he] at hs)
  rw [slow_iff] at hs
  rw [he] at hs hd'
  have habs : |a| = -(a * dir) := by
    rcases hdir with rfl | rfl
    · rw [mul_one] at h ⊢; exact abs_of_neg h
    · rw [abs_of_pos (by linarith)]; ring
  have hQn : Q (a * dir) (coefs a).x0 = 16 * (a * dir) * (coefs a).x0 := by
    rw [habs] at hQ
    unfold Q at hQ ⊢
    linear_combination hQ
  have hz : 0 < √((coefs a).x0 ^ 3 * P (a * dir) (coefs a).x0) := Real.sqrt_pos.2 (by positivity)
  rw [hQn] at hd'
  have hd0 : dir ≠ 0 := by rcases hdir with rfl | rfl <;> norm_num
  have : dir * (16 * (a * dir) * (coefs a).x0 * ((coefs a).x0 ^ 3 + a * dir) /
      ((coefs a).x0 * P (a * dir) (coefs a).x0 * √((coefs a).x0 ^ 3 * P (a * dir) (coefs a).x0)) * (1 / (2 * (coefs a).x0))) ≠ 0 := by
    have hn : a * dir ≠ 0 := h.ne
    generalize √((coefs a).x0 ^ 3 * P (a * dir) (coefs a).x0) = z at *
    generalize P (a * dir) (coefs a).x0 = p at *
    positivity
  exact this hd'.symm

/-- Finding: with any negative spin the intensity is negative, or not a number, somewhere beyond the inner edge. -/
theorem negative_spin_wrong {a : ℝ} (h1 : -1 < a) (h2 : a < 0) : ∃ r, kerrRms a < r ∧ ∀ f, ff (coefs a) √r = some f → f < 0 := by
  have h3 : a < 1 := by linarith
  obtain ⟨hx0, hQ⟩ := x0_spec h1 h3
  obtain ⟨p1, p2, p3, p4⟩ := places h1 h3
  have hr0 := (rms_spec h1.le h3.le).1
  have hk : kerrRms a = (coefs a).x0 ^ 2 := by rw [x0_eq, Real.sq_sqrt hr0.le]
  rcases le_or_gt (coefs a).x0 (coefs a).x1 with hle | hb
  · refine ⟨((coefs a).x1 + 1) ^ 2, by rw [hk]; nlinarith, ?_⟩
    rw [Real.sqrt_sq (by linarith)]
    intro f hf
    unfold ff at hf
    have hn : ¬0 < ((coefs a).x1 + 1 - (coefs a).x1) / ((coefs a).x0 - (coefs a).x1) := by
      rw [add_sub_cancel_left, not_lt]
      exact div_nonpos_of_nonneg_of_nonpos zero_le_one (by linarith)
    have hnone : logOf ((coefs a).x1 + 1 - (coefs a).x1) ((coefs a).x0 - (coefs a).x1) = none := by
      unfold logOf; rw [if_neg hn]
    rw [hnone] at hf
    rcases e : logOf ((coefs a).x1 + 1) (coefs a).x0 with _ | l <;> rw [e] at hf <;> simp at hf
  · have hd := bracket_deriv h1 h3 hb hb
    rw [abs_of_neg h2] at hQ
    have hQn : Q a (coefs a).x0 = 16 * a * (coefs a).x0 := by
      unfold Q at hQ ⊢
      linear_combination hQ
    have hP := (beyond h1 h3 hx0).2 hb
    have hneg : Q a (coefs a).x0 / ((coefs a).x0 * P a (coefs a).x0) < 0 := by
      rw [hQn]
      refine div_neg_of_neg_of_pos ?_ (by positivity)
      have := mul_pos (neg_pos.2 h2) (by linarith : 0 < (coefs a).x0)
      linarith
    have ht := hd.tendsto_slope.eventually (eventually_lt_nhds hneg)
    obtain ⟨x, hx, hxs⟩ := ((ht.filter_mono (nhdsWithin_mono _ (fun z hz => ne_of_gt hz : Set.Ioi (coefs a).x0 ⊆ {(coefs a).x0}ᶜ))).and
      self_mem_nhdsWithin).exists
    have hxs' : (coefs a).x0 < x := hxs
    refine ⟨x ^ 2, by rw [hk]; nlinarith, ?_⟩
    rw [Real.sqrt_sq (by linarith)]
    intro f hf
    rw [ff_eq h1 h3 hb (by linarith), Option.some.injEq] at hf
    rw [slope_def_field, bracket_zero h1 h3 hb, sub_zero, div_lt_iff₀ (by linarith), zero_mul] at hx
    have hPx := (beyond h1 h3 (by linarith : 1 < x)).2 (by linarith)
    have hx' : 0 < x := by linarith
    rw [← hf]
    exact mul_neg_of_pos_of_neg (by positivity) hx

example : ∃ r, kerrRms (-1 / 2) < r ∧ ∀ f, ff (coefs (-1 / 2)) √r = some f → f < 0 := negative_spin_wrong (by norm_num) (by norm_num)

/-! ### The disk and its metric -/

/-- The disk is told of the changes of its metric and knows its spin. -/
def Follows (w : World) : Prop := ∀ m, w.gg = some m → w.hooked m = true ∧ w.kept = coefs (w.spin m)

theorem follows_step {w : World} (h : Follows w) (o : Op) (ht : (step w o).2 = false) : Follows (step w o).1 := by
  rcases o with (_ | m) | ⟨m, a⟩
  · simp [step] at ht
  · simp only [step] at ht ⊢
    by_cases hk : (World.unhook w).kind m = .other
    · rw [if_pos hk] at ht; simp at ht
    rw [if_neg hk]
    intro n hn
    simp only [World.updateSpin] at hn ⊢
    have : m = n := by simpa using hn
    subst this
    exact ⟨Function.update_self .., rfl⟩
  · simp only [step]
    split_ifs with hc
    · obtain ⟨h1, h2⟩ := hc
      intro n hn
      simp only [World.updateSpin, h2] at hn ⊢
      have : m = n := by simpa [h2] using hn
      subst this
      exact ⟨h1, rfl⟩
    · intro n hn
      simp only at hn hc ⊢
      obtain ⟨k1, k2⟩ := h n hn
      refine ⟨k1, ?_⟩
      have : n ≠ m := by
        rintro rfl
        exact hc ⟨k1, hn⟩
      rw [Function.update_of_ne this]
      exact k2

theorem follows_run {w : World} (h : Follows w) (os : List Op) (ht : (run w os).2 = false) : Follows (run w os).1 := by
  induction os generalizing w with
  | nil => exact h
  | cons o os ih =>
    simp only [run, Bool.or_eq_false_iff] at ht ⊢
    exact ih (follows_step h o ht.1) ht.2

/-- C98. As long as no error is thrown, the disk follows its metric: whatever metrics it is given and however their spins change,
the intensity is computed with the spin of its metric. -/
theorem follows_metric_partial (kind : ℕ → Kind) (spin : ℕ → ℝ) (os : List Op) (ht : (run (World.new kind spin) os).2 = false)
    {m : ℕ} (hm : (run (World.new kind spin) os).1.gg = some m) :
    (run (World.new kind spin) os).1.kept = coefs ((run (World.new kind spin) os).1.spin m) := by
  have h0 : Follows (World.new kind spin) := by intro m hm; cases hm
  exact (follows_run h0 os ht m hm).2

example : (run (World.new (fun _ => .kerrKS) (fun _ => 0)) [.metric (some 0), .spin 0 (1 / 2), .metric (some 1)]).2 = false := by
  simp [run, step, World.new, World.unhook, World.updateSpin]

/-- Finding: a metric that is refused leaves the disk with its former metric but no longer told of its changes. -/
theorem refused_wrong : ¬∀ (kind : ℕ → Kind) (spin : ℕ → ℝ) (os : List Op) (m : ℕ), (run (World.new kind spin) os).1.gg = some m →
    (run (World.new kind spin) os).1.kept = coefs ((run (World.new kind spin) os).1.spin m) := by
  intro h
  have := h (fun n => if n = 0 then .kerrBL else .other) (fun _ => 0) [.metric (some 0), .metric (some 1), .spin 0 1] 0
    (by simp [run, step, World.new, World.unhook, World.updateSpin])
  simp [run, step, World.new, World.unhook, World.updateSpin] at this
  have e := congrArg Coefs.aa this
  simp [coefs] at e

/-- Finding: the inner radius set for the first spin is kept when the spin changes, for every other spin. -/
theorem inner_radius_wrong {a : ℝ} (h1 : -1 ≤ a) (h2 : a ≤ 1) (h0 : a ≠ 0) :
    let w := run (World.new (fun _ => .kerrBL) (fun _ => 0)) [.metric (some 0), .spin 0 a]
    w.2 = false ∧ w.1.kept = coefs a ∧ w.1.rin ≠ kerrRms a := by
  have e6 : kerrRms 0 = 6 := by
    obtain ⟨p, q⟩ := rms_spec (a := 0) (by norm_num) (by norm_num)
    have hs : √(kerrRms 0) ^ 2 = kerrRms 0 := Real.sq_sqrt p.le
    have : √(kerrRms 0) ^ 4 = kerrRms 0 ^ 2 := by
      have e : √(kerrRms 0) ^ 4 = (√(kerrRms 0) ^ 2) ^ 2 := by ring
      rw [e, hs]
    rw [this, hs] at q
    norm_num at q
    have : kerrRms 0 * (kerrRms 0 - 6) = 0 := by linarith
    rcases mul_eq_zero.1 this with h | h <;> linarith
  have hr : innerRadius 0 = 6 := by rw [inner_eq, e6]
  simp [run, step, World.new, World.unhook, World.updateSpin, hr]
  intro h
  obtain ⟨p, q⟩ := rms_spec h1 h2
  rw [← h, show √(6 : ℝ) ^ 4 = (√6 ^ 2) ^ 2 by ring, Real.sq_sqrt (show (0 : ℝ) ≤ 6 by norm_num), ← sq_abs a] at q
  have hp : 0 < |a| := abs_pos.2 h0
  have ha : |a| ≤ 1 := abs_le.2 ⟨h1, h2⟩
  have h3 : 2 < √(6 : ℝ) := by rw [Real.lt_sqrt (by norm_num)]; norm_num
  have e : |a| * (8 * √6 - 3 * |a|) = 0 := by linarith
  have : 0 < |a| * (8 * √6 - 3 * |a|) := mul_pos hp (by linarith)
  linarith

/-! ### What is asked -/

/-- Finding: asking for the spectrum without parallel transport always ends with an error, after the spectrum has been added to. -/
theorem spectrum_wrong (q : Asked) (bolo inu i g : ℝ) (s : Done) (hs : q.spectrum = true) (h1 : q.intensity = false)
    (h2 : q.binspectrum = false) : (hit q false bolo inu i g s).threw = true ∧
      (hit q false bolo inu i g s).spectrum = s.spectrum + inu * s.transmission * g ^ 3 := by
  unfold hit
  simp only [h1, h2, hs]
  cases q.user4 <;> simp <;> ring

/-- C98. The bolometric intensity alone is added, scaled by the fourth power of the redshift, once: the disk is opaque. -/
theorem bolometric_hit (bolo inu i g : ℝ) (s : Done) (parallel : Bool) (ht : s.threw = false) :
    let q : Asked := ⟨false, true, false, false, false⟩
    let s1 := hit q parallel bolo inu i g s
    s1.threw = false ∧ s1.user4 = s.user4 + bolo * s.transmission * g ^ 4 ∧ s1.spectrum = s.spectrum ∧
      ∀ bolo' inu' i' g', (hit q parallel bolo' inu' i' g' s1).user4 = s1.user4 := by
  simp [hit, ht]
  ring

end Gyoto.PageThorne
