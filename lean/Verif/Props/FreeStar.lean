import Verif.Lemmas.Moving
import Mathlib.Analysis.SpecialFunctions.Trigonometric.Deriv

/-!
# C104: where a `FreeStar` is and how fast it moves
-/

namespace Gyoto.Moving

open Gyoto.MetricAlg Gyoto.Paths Gyoto.Spacetime
open Gyoto.Transfer (Out)
open Gyoto.USphere (Kind P3)

/-- C104: a star told a position, then a velocity slower than light, moves with a unit four-velocity that has this velocity. -/
theorem free_velocity (f : Free) (m : Met) (hm : f.metric = some m) (t r th ph a b c : ℝ)
    (h : sp (m.g ![t, r, th, ph]) ![1, a, b, c] ![1, a, b, c] < 0) :
    ∃ f1, f.initPosition [t, r, th, ph] = .ok f1 ∧ ∃ f2, f1.initVelocity [a, b, c] = .ok f2 ∧ f2.metric = some m ∧
      f2.getInitPosition = .ok [t, r, th, ph] ∧
      ∃ u, (∀ x, f2.getVelocity x = .ok u) ∧ IsObserver (m.g ![t, r, th, ph]) u ∧ u 1 = a * u 0 ∧ u 2 = b * u 0 ∧ u 3 = c * u 0 := by
  obtain ⟨u, h1, h2, h3⟩ := observer_of_slow _ a b c h
  refine ⟨{ f with pos := some ![t, r, th, ph], posSet := true }, rfl,
    { f with pos := some ![t, r, th, ph], posSet := true, vel := some u }, ?_, hm, ?_, u, ?_, h2, h3⟩
  · have hn : ¬ scalarProd (m.g ![t, r, th, ph]) ![1, a, b, c] ![1, a, b, c] ≥ 0 := by rw [scalarProd_eq]; exact not_le.2 h
    simp only [Free.initVelocity, hm, h1, if_neg hn]
    rfl
  · simp [Free.getInitPosition]
  · intro x; simp only [Free.getVelocity, hm]

/-- C104: the coordinates of its centre change uniformly from the position told, and the velocity is tangent to this path. -/
theorem free_path (f : Free) (m : Met) (hm : f.metric = some m) (t r th ph a b c : ℝ)
    (h : sp (m.g ![t, r, th, ph]) ![1, a, b, c] ![1, a, b, c] < 0) :
    ∃ f1, f.initPosition [t, r, th, ph] = .ok f1 ∧ ∃ f2, f1.initVelocity [a, b, c] = .ok f2 ∧
      ∃ path : ℝ → P3, (∀ s, path s = (r + a * (s - t), th + b * (s - t), ph + c * (s - t))) ∧
        (∀ s, ∃ d, f2.getCartesian s = .ok (place .spherical (event s (path s)), d)) ∧
        ∀ s, ∃ u, f2.getVelocity (event s (path s)) = .ok u ∧ IsTangent path s u := by
  obtain ⟨u, h1, h2, e1, e2, e3⟩ := observer_of_slow _ a b c h
  have hn : ¬ scalarProd (m.g ![t, r, th, ph]) ![1, a, b, c] ![1, a, b, c] ≥ 0 := by rw [scalarProd_eq]; exact not_le.2 h
  have h0 := h2.future.ne'
  refine ⟨{ f with pos := some ![t, r, th, ph], posSet := true }, rfl,
    { f with pos := some ![t, r, th, ph], posSet := true, vel := some u }, ?_,
    fun s => (r + a * (s - t), th + b * (s - t), ph + c * (s - t)), fun _ => rfl, fun s => ⟨derivatives (r + a * (s - t), th + b * (s - t), ph + c * (s - t)) u, ?_⟩, fun s => ⟨u, ?_, h0, ?_, ?_, ?_⟩⟩
  · simp only [Free.initVelocity, hm, h1, if_neg hn]
    rfl
  · simp only [Free.getCartesian, Free.path, Free.getVelocity, hm, bind, quot_ne h0]
    simp [e1, e2, e3, h0, cartesian, place, event]
  · simp only [Free.getVelocity, hm]
  · rw [e1, mul_div_assoc, div_self h0, mul_one]; exact hasDerivAt_lin ..
  · rw [e2, mul_div_assoc, div_self h0, mul_one]; exact hasDerivAt_lin ..
  · rw [e3, mul_div_assoc, div_self h0, mul_one]; exact hasDerivAt_lin ..

/-- C104, full statement refuted: "the velocity along the path is that of an observer". In flat space, a star that spirals outward ends
up with a four-velocity that is not timelike. -/
theorem free_unit_wrong : ∃ f1 f2 : Free,
    (Free.new.setMetric ⟨.spherical, flatAt, fun _ => 0⟩).initPosition [0, 10, Real.pi / 2, 0] = .ok f1 ∧
    f1.initVelocity [1 / 10, 0, 1 / 20] = .ok f2 ∧
    (∃ d, f2.getCartesian 200 = .ok (place .spherical (event 200 (30, Real.pi / 2, 10)), d)) ∧
    ∃ u, f2.getVelocity (event 200 (30, Real.pi / 2, 10)) = .ok u ∧ 0 < sp (flatAt (event 200 (30, Real.pi / 2, 10))) u u := by
  have h : sp (flatAt ![0, 10, Real.pi / 2, 0]) ![1, 1 / 10, 0, 1 / 20] ![1, 1 / 10, 0, 1 / 20] < 0 := by
    rw [sp_flat]; simp; norm_num
  obtain ⟨f1, g1, f2, g2, -, -, u, g3, g4, g5, g6, g7⟩ :=
    free_velocity (Free.new.setMetric ⟨.spherical, flatAt, fun _ => 0⟩) _ rfl 0 10 (Real.pi / 2) 0 (1 / 10) 0 (1 / 20) h
  obtain ⟨f1', g1', f2', g2', path, p1, p2, -⟩ :=
    free_path (Free.new.setMetric ⟨.spherical, flatAt, fun _ => 0⟩) _ rfl 0 10 (Real.pi / 2) 0 (1 / 10) 0 (1 / 20) h
  obtain rfl : f1 = f1' := by rw [g1] at g1'; injection g1'
  obtain rfl : f2 = f2' := by rw [g2] at g2'; injection g2'
  refine ⟨f1, f2, g1, g2, ?_, u, g3 _, ?_⟩
  · have := p2 200
    rw [p1] at this
    norm_num at this ⊢
    exact this
  · rw [sp_flat, g5, g6, g7]
    have := g4.future
    simp [event]
    nlinarith [mul_pos this this]

/-- C104, what is true: in a stationary axisymmetric metric, a star that moves only in longitude keeps the velocity of an observer. -/
theorem free_unit_partial (f : Free) (m : Met) (hm : f.metric = some m) (ha : Axial m.g) (t r th ph c : ℝ)
    (h : sp (m.g ![t, r, th, ph]) ![1, 0, 0, c] ![1, 0, 0, c] < 0) :
    ∃ f1, f.initPosition [t, r, th, ph] = .ok f1 ∧ ∃ f2, f1.initVelocity [0, 0, c] = .ok f2 ∧
      ∀ s, (∃ d, f2.getCartesian s = .ok (place .spherical (event s (r, th, ph + c * (s - t))), d)) ∧
        ∃ u, f2.getVelocity (event s (r, th, ph + c * (s - t))) = .ok u ∧ IsObserver (m.g (event s (r, th, ph + c * (s - t)))) u := by
  obtain ⟨f1, g1, f2, g2, -, -, u, g3, g4, -⟩ := free_velocity f m hm t r th ph 0 0 c h
  obtain ⟨f1', g1', f2', g2', path, p1, p2, -⟩ := free_path f m hm t r th ph 0 0 c h
  obtain rfl : f1 = f1' := by rw [g1] at g1'; injection g1'
  obtain rfl : f2 = f2' := by rw [g2] at g2'; injection g2'
  refine ⟨f1, g1, f2, g2, fun s => ⟨?_, u, g3 _, ?_⟩⟩
  · have := p2 s
    rw [p1] at this
    simpa using this
  · rw [ha (event s (r, th, ph + c * (s - t))) ![t, r, th, ph] (by simp [event]) (by simp [event])]
    exact g4

/-- C104: what `initVelocity()` returns is what was set times `u^t`: it is what was set only if `u^t` is 1 or the star is at rest. -/
theorem free_getter_partial (f : Free) (m : Met) (hm : f.metric = some m) (t r th ph a b c : ℝ)
    (h : sp (m.g ![t, r, th, ph]) ![1, a, b, c] ![1, a, b, c] < 0) :
    ∃ f1, f.initPosition [t, r, th, ph] = .ok f1 ∧ ∃ f2, f1.initVelocity [a, b, c] = .ok f2 ∧
      ∃ u, f2.vel = some u ∧ IsObserver (m.g ![t, r, th, ph]) u ∧ f2.getInitVelocity = .ok [a * u 0, b * u 0, c * u 0] ∧
      (f2.getInitVelocity = .ok [a, b, c] ↔ u 0 = 1 ∨ (a = 0 ∧ b = 0 ∧ c = 0)) := by
  obtain ⟨f1, g1, f2, g2, g0, -, u, g3, g4, g5, g6, g7⟩ := free_velocity f m hm t r th ph a b c h
  have hv : f2.vel = some u := by
    have := g3 0
    simp only [Free.getVelocity, g0] at this
    rcases e : f2.vel with _ | w
    · rw [e] at this; cases this
    · rw [e] at this; injection this with this; rw [this]
  have hg : f2.getInitVelocity = .ok [a * u 0, b * u 0, c * u 0] := by simp only [Free.getInitVelocity, hv, g5, g6, g7]
  refine ⟨f1, g1, f2, g2, u, hv, g4, hg, ?_⟩
  rw [hg]
  constructor
  · intro e
    simp only [Out.ok.injEq, List.cons.injEq, and_true] at e
    obtain ⟨e1, e2, e3⟩ := e
    by_cases hu : u 0 = 1
    · exact .inl hu
    · have : u 0 - 1 ≠ 0 := sub_ne_zero.2 hu
      refine .inr ⟨?_, ?_, ?_⟩
      · exact (mul_eq_zero.1 (show a * (u 0 - 1) = 0 by linarith)).resolve_right this
      · exact (mul_eq_zero.1 (show b * (u 0 - 1) = 0 by linarith)).resolve_right this
      · exact (mul_eq_zero.1 (show c * (u 0 - 1) = 0 by linarith)).resolve_right this
  · rintro (e | ⟨rfl, rfl, rfl⟩)
    · simp [e]
    · simp

/-- C104, full statement refuted: "the velocity read is the velocity set". A star set to 4/5 of the speed of light gives back 4/3, which is
refused when set again. -/
theorem free_getter_wrong : ∃ f1 f2 : Free,
    (Free.new.setMetric ⟨.spherical, flatAt, fun _ => 0⟩).initPosition [0, 10, Real.pi / 2, 0] = .ok f1 ∧
    f1.initVelocity [4 / 5, 0, 0] = .ok f2 ∧ f2.getInitVelocity = .ok [4 / 3, 0, 0] ∧
    ∃ f3, f2.initVelocity [4 / 3, 0, 0] = .throws f3 := by
  have h : sp (flatAt ![0, 10, Real.pi / 2, 0]) ![1, 4 / 5, 0, 0] ![1, 4 / 5, 0, 0] < 0 := by
    rw [sp_flat]; simp; norm_num
  obtain ⟨f1, g1, f2, g2, u, hv, g3, g4, -⟩ :=
    free_getter_partial (Free.new.setMetric ⟨.spherical, flatAt, fun _ => 0⟩) _ rfl 0 10 (Real.pi / 2) 0 (4 / 5) 0 0 h
  have g5 := g3.unit
  have hu : u 1 = 4 / 5 * u 0 ∧ u 2 = 0 ∧ u 3 = 0 := by
    simp only [Free.getInitVelocity, hv, Out.ok.injEq, List.cons.injEq, and_true, zero_mul] at g4
    exact g4
  have h0 : u 0 = 5 / 3 := by
    have e : sp (flatAt ![0, 10, Real.pi / 2, 0]) u u = -1 := g5
    rw [sp_flat, hu.1, hu.2.1, hu.2.2] at e
    have := g3.future
    nlinarith
  have hp : f2.posSet = true ∧ f2.metric = some ⟨.spherical, flatAt, fun _ => 0⟩ ∧ f2.pos = some ![0, 10, Real.pi / 2, 0] := by
    injection g1 with g1
    subst g1
    have hn : ¬ scalarProd (flatAt ![0, 10, Real.pi / 2, 0]) ![1, 4 / 5, 0, 0] ![1, 4 / 5, 0, 0] ≥ 0 := by
      rw [scalarProd_eq]; exact not_le.2 h
    obtain ⟨w, hw, -⟩ := observer_of_slow _ (4 / 5) 0 0 h
    simp only [Free.initVelocity, Free.setMetric, Free.new, hw, if_neg hn] at g2
    injection g2 with g2
    subst g2
    exact ⟨rfl, rfl, rfl⟩
  refine ⟨f1, f2, g1, g2, ?_, { f2 with vel := some ![1, 4 / 3, 0, 0] }, ?_⟩
  · rw [g4, h0]; norm_num
  · have hn : scalarProd (flatAt ![0, 10, Real.pi / 2, 0]) ![1, 4 / 3, 0, 0] ![1, 4 / 3, 0, 0] ≥ 0 := by
      rw [scalarProd_eq, sp_flat]; simp; norm_num
    simp only [Free.initVelocity, hp.1, hp.2.1, hp.2.2, if_pos hn]
    rfl

/-- C104, full statement refuted: "a velocity that is refused leaves the star as it was". The velocity faster than light is stored, and is
the one with which the star then moves. -/
theorem free_refused_wrong (f : Free) (m : Met) (hm : f.metric = some m) (t r th ph a b c : ℝ)
    (h : 0 ≤ sp (m.g ![t, r, th, ph]) ![1, a, b, c] ![1, a, b, c]) :
    ∃ f1, f.initPosition [t, r, th, ph] = .ok f1 ∧ ∃ f2, f1.initVelocity [a, b, c] = .throws f2 ∧
      ∃ u, (∀ x, f2.getVelocity x = .ok u) ∧ 0 ≤ sp (m.g ![t, r, th, ph]) u u := by
  have hn : scalarProd (m.g ![t, r, th, ph]) ![1, a, b, c] ![1, a, b, c] ≥ 0 := by rw [scalarProd_eq]; exact h
  refine ⟨{ f with pos := some ![t, r, th, ph], posSet := true }, rfl,
    { f with pos := some ![t, r, th, ph], posSet := true, vel := some ![1, a, b, c] }, ?_, ![1, a, b, c], ?_, h⟩
  · simp only [Free.initVelocity, hm, if_pos hn]
    rfl
  · intro x; simp only [Free.getVelocity, hm]

/-- C104, full statement refuted: "a velocity may be set once the position is". `initCoord` sets a position and the four-velocity given,
and yet every velocity is refused after it. -/
theorem free_initCoord_wrong (m : Met) (x : Fin 8 → ℝ) : ∃ f : Free,
    (Free.new.setMetric m).initCoord [x 0, x 1, x 2, x 3, x 4, x 5, x 6, x 7] = .ok f ∧
    f.getInitPosition = .ok [x 0, x 1, x 2, x 3] ∧ (∀ p, f.getVelocity p = .ok ![x 4, x 5, x 6, x 7]) ∧
    ∀ v, f.initVelocity v = .throws f := by
  refine ⟨_, rfl, rfl, fun p => rfl, fun v => ?_⟩
  simp [Free.initVelocity, Free.setMetric, Free.new]

/-- C104: before a velocity is set, asking for the velocity reads an array that nothing has written. -/
theorem free_unset (m : Met) (v : List ℝ) (f : Free) (h : (Free.new.setMetric m).initPosition v = .ok f) :
    (∀ x, f.getVelocity x = .ub) ∧ ∀ s, f.getCartesian s = .ub := by
  have e : f.vel = none ∧ f.metric = some m ∧ ∃ p, f.pos = some p := by
    rcases v with _ | ⟨a, _ | ⟨b, _ | ⟨c, _ | ⟨d, v⟩⟩⟩⟩ <;> simp only [Free.initPosition, reduceCtorEq] at h
    injection h with h
    subst h
    exact ⟨rfl, rfl, _, rfl⟩
  obtain ⟨e1, e2, p, e3⟩ := e
  refine ⟨fun x => by simp only [Free.getVelocity, e1, e2], fun s => ?_⟩
  simp only [Free.getCartesian, Free.path, Free.getVelocity, e1, e2, e3, bind]

/-- C104, full statement refuted: "`xprime`, `yprime`, `zprime` are the derivatives of the position". For a star on a circle, at any time,
they are zero. -/
theorem free_derivatives_wrong : ∃ f1 f2 : Free,
    (Free.new.setMetric ⟨.spherical, flatAt, fun _ => 0⟩).initPosition [0, 10, Real.pi / 2, 0] = .ok f1 ∧
    f1.initVelocity [0, 0, 1 / 20] = .ok f2 ∧
    ∃ path d : ℝ → P3, (∀ s, f2.getCartesian s = .ok (path s, d s)) ∧ (∀ s, d s = 0) ∧
      HasDerivAt (fun s => (path s).2.1) (1 / 2) 0 := by
  have h : sp (flatAt ![0, 10, Real.pi / 2, 0]) ![1, 0, 0, 1 / 20] ![1, 0, 0, 1 / 20] < 0 := by
    rw [sp_flat]; simp; norm_num
  have hn : ¬ scalarProd (flatAt ![0, 10, Real.pi / 2, 0]) ![1, 0, 0, 1 / 20] ![1, 0, 0, 1 / 20] ≥ 0 := by
    rw [scalarProd_eq]; exact not_le.2 h
  obtain ⟨u, hu, hU, e1, e2, e3⟩ := observer_of_slow _ 0 0 (1 / 20) h
  have h0 := hU.future.ne'
  refine ⟨_, { (Free.new.setMetric ⟨.spherical, flatAt, fun _ => 0⟩) with pos := some ![0, 10, Real.pi / 2, 0], posSet := true, vel := some u },
    rfl, ?_, fun s => cartesian (10, Real.pi / 2, 1 / 20 * s), fun s => 0, fun s => ?_, fun _ => rfl, ?_⟩
  · simp only [Free.initVelocity, Free.setMetric, Free.new, hu, if_neg hn]
    rfl
  · simp only [Free.getCartesian, Free.path, Free.getVelocity, Free.setMetric, Free.new, bind, quot_ne h0]
    simp [e1, e2, e3, h0, derivatives]
  · have : HasDerivAt (fun s : ℝ => 10 * Real.sin (1 / 20 * s)) (10 * (Real.cos (1 / 20 * 0) * (1 / 20 * 1))) 0 :=
      ((Real.hasDerivAt_sin _).comp (0 : ℝ) ((hasDerivAt_id (0 : ℝ)).const_mul (1 / 20))).const_mul 10
    refine (this.congr_deriv (by norm_num)).congr_of_eventuallyEq (Filter.Eventually.of_forall fun s => ?_)
    simp [cartesian]

/-- C104, what is true: they are right for a star at rest. -/
theorem free_derivatives_partial (f : Free) (m : Met) (hm : f.metric = some m) (t r th ph : ℝ)
    (h : sp (m.g ![t, r, th, ph]) ![1, 0, 0, 0] ![1, 0, 0, 0] < 0) :
    ∃ f1, f.initPosition [t, r, th, ph] = .ok f1 ∧ ∃ f2, f1.initVelocity [0, 0, 0] = .ok f2 ∧
      ∃ path d : ℝ → P3, ∀ s, f2.getCartesian s = .ok (path s, d s) ∧ path s = place .spherical ![t, r, th, ph] ∧
        HasDerivAt (fun s => (path s).1) (d s).1 s ∧ HasDerivAt (fun s => (path s).2.1) (d s).2.1 s ∧
        HasDerivAt (fun s => (path s).2.2) (d s).2.2 s := by
  have hn : ¬ scalarProd (m.g ![t, r, th, ph]) ![1, 0, 0, 0] ![1, 0, 0, 0] ≥ 0 := by rw [scalarProd_eq]; exact not_le.2 h
  obtain ⟨u, hu, hU, e1, e2, e3⟩ := observer_of_slow _ 0 0 0 h
  have h0 := hU.future.ne'
  refine ⟨{ f with pos := some ![t, r, th, ph], posSet := true }, rfl,
    { f with pos := some ![t, r, th, ph], posSet := true, vel := some u }, ?_,
    fun s => place .spherical ![t, r, th, ph], fun s => 0, fun s => ⟨?_, rfl, ?_, ?_, ?_⟩⟩
  · simp only [Free.initVelocity, hm, hu, if_neg hn]
    rfl
  · simp only [Free.getCartesian, Free.path, Free.getVelocity, hm, bind, quot_ne h0]
    simp [e1, e2, e3, derivatives, cartesian, place]
  · exact hasDerivAt_const ..
  · exact hasDerivAt_const ..
  · exact hasDerivAt_const ..

/-- C104, full statement refuted: "at the initial date the star is where it was put". With a metric in Cartesian coordinates, the numbers
are read as spherical coordinates. -/
theorem free_cartesian_wrong (g : Vec → Tensor) (hg : sp (g ![0, 1, 0, 0]) ![1, 0, 0, 0] ![1, 0, 0, 0] < 0) : ∃ f1 f2 : Free,
    (Free.new.setMetric ⟨.cartesian, g, fun _ => 0⟩).initPosition [0, 1, 0, 0] = .ok f1 ∧ f1.initVelocity [0, 0, 0] = .ok f2 ∧
    place .cartesian ![0, 1, 0, 0] = (1, 0, 0) ∧ ∃ d, f2.getCartesian 0 = .ok ((0, 0, 1), d) := by
  obtain ⟨f1, g1, f2, g2, path, d, g3⟩ :=
    free_derivatives_partial (Free.new.setMetric ⟨.cartesian, g, fun _ => 0⟩) _ rfl 0 1 0 0 hg
  obtain ⟨a, b, -⟩ := g3 0
  refine ⟨f1, f2, g1, g2, by simp [place], d 0, ?_⟩
  rw [a, b]
  simp [place]

/-- The hypotheses hold for a star that orbits in flat space at half the speed of light. -/
example : ∃ f1 f2 : Free, (Free.new.setMetric ⟨.spherical, flatAt, fun _ => 0⟩).initPosition [0, 10, Real.pi / 2, 0] = .ok f1 ∧
    f1.initVelocity [0, 0, 1 / 20] = .ok f2 ∧ ∃ u, f2.getVelocity ![0, 10, Real.pi / 2, 0] = .ok u ∧ 0 < u 3 := by
  have h : sp (flatAt ![0, 10, Real.pi / 2, 0]) ![1, 0, 0, 1 / 20] ![1, 0, 0, 1 / 20] < 0 := by
    rw [sp_flat]; simp; norm_num
  obtain ⟨f1, g1, f2, g2, -, -, u, g3, g4, -, -, g7⟩ :=
    free_velocity (Free.new.setMetric ⟨.spherical, flatAt, fun _ => 0⟩) _ rfl 0 10 (Real.pi / 2) 0 0 0 (1 / 20) h
  exact ⟨f1, f2, g1, g2, u, g3 _, by rw [g7]; have := g4.future; linarith⟩

end Gyoto.Moving
