import Verif.Lemmas.Moving
import Mathlib.Analysis.Calculus.Deriv.Inv
import Mathlib.Data.List.Basic

/-!
# C106: where a `Plasmoid` is, how fast it moves and how large it is
-/

namespace Gyoto.Moving

open Gyoto.MetricAlg Gyoto.Paths Gyoto.Spacetime
open Gyoto.Transfer (Out)
open Gyoto.USphere (Kind P3 Sphere)

/-- C106, helical motion: the radius grows uniformly and the longitude turns with a constant `r² dphi/dt`; the velocity returned at the
centre is that of an observer, and it follows this path exactly at the dates where the radius is, up to its sign, the initial one, or if
the plasmoid does not turn. -/
theorem plasmoid_helical_partial (p : Plasmoid) (m : Met) (hm : p.metric = some m) (hf : p.flag = .helical) (c u : Vec)
    (hp : p.pos = some c) (hu : p.vel = some u) (h1 : u 1 ≠ 0) (hc : c 1 ≠ 0) (t : ℝ) (hr : c 1 + u 1 * (t - c 0) ≠ 0) :
    ∃ path : ℝ → P3, (∀ᶠ s in nhds t, p.path s = .ok (path s)) ∧ (path t).1 = c 1 + u 1 * (t - c 0) ∧ (path t).2.1 = c 2 ∧
      (∃ w, IsTangent path t w ∧ w = ![1, u 1, 0, c 1 ^ 2 * u 3 / (path t).1 ^ 2]) ∧
      p.getCartesian t = .ok (place .spherical (event t (path t))) ∧
      (sp (m.g (event t (path t))) ![1, u 1, 0, u 3] ![1, u 1, 0, u 3] < 0 →
        ∃ w, p.getVelocity (event t (path t)) = .ok w ∧ IsObserver (m.g (event t (path t))) w ∧
          (Follows p.path t w ↔ u 3 = 0 ∨ (path t).1 ^ 2 = c 1 ^ 2)) := by
  have hq : ∀ s, c 1 + u 1 * (s - c 0) ≠ 0 → p.path s = .ok (c 1 + u 1 * (s - c 0), c 2,
      c 3 + c 1 * c 1 * u 3 / u 1 * (1 / c 1 - 1 / (c 1 + u 1 * (s - c 0)))) := fun s hs => by
    simp only [Plasmoid.path, hf, hp, hu, quot_ne h1, quot_ne hc, quot_ne hs, bind]
  have hl : HasDerivAt (fun s => c 1 + u 1 * (s - c 0)) (u 1) t := hasDerivAt_lin ..
  have hev : ∀ᶠ s in nhds t, p.path s = .ok (c 1 + u 1 * (s - c 0), c 2,
      c 3 + c 1 * c 1 * u 3 / u 1 * (1 / c 1 - 1 / (c 1 + u 1 * (s - c 0)))) := (hl.continuousAt.eventually_ne hr).mono hq
  have hd : HasDerivAt (fun s => c 3 + c 1 * c 1 * u 3 / u 1 * (1 / c 1 - 1 / (c 1 + u 1 * (s - c 0))))
      (c 1 ^ 2 * u 3 / (c 1 + u 1 * (t - c 0)) ^ 2) t := by
    have := (((hl.inv hr).const_sub (1 / c 1)).const_mul (c 1 * c 1 * u 3 / u 1)).const_add (c 3)
    refine (this.congr_deriv ?_).congr_of_eventuallyEq (Filter.Eventually.of_forall fun s => ?_)
    · field_simp
    · simp only [one_div, Pi.inv_apply]
  refine ⟨_, hev, rfl, rfl, ⟨_, ⟨?_, ?_, ?_, ?_⟩, rfl⟩, ?_, fun h => ?_⟩
  · simp
  · simpa using hl
  · simpa using hasDerivAt_const ..
  · simpa using hd
  · simp only [Plasmoid.getCartesian, hq t hr, bind]
    simp [cartesian, place, event]
  · obtain ⟨w, g1, g2, e1, e2, e3⟩ := observer_of_slow _ (u 1) 0 (u 3) h
    have h0 := g2.future.ne'
    refine ⟨w, ?_, g2, ?_⟩
    · simp only [Plasmoid.getVelocity, hm, hf, hu, g1]
    · rw [Follows.iff hev]
      constructor
      · intro ht
        have := ht.three.unique hd
        rw [e3, mul_div_assoc, div_self h0, mul_one, eq_div_iff (pow_ne_zero 2 hr)] at this
        by_cases h3 : u 3 = 0
        · exact .inl h3
        · refine .inr (mul_left_cancel₀ h3 ?_)
          rw [this]; ring
      · intro hh
        refine ⟨h0, ?_, ?_, ?_⟩
        · rw [e1, mul_div_cancel_right₀ _ h0]; exact hl
        · rw [e2, zero_mul, zero_div]; exact hasDerivAt_const ..
        · refine hd.congr_deriv ?_
          rw [e3, mul_div_cancel_right₀ _ h0]
          rcases hh with hh | hh
          · simp [hh]
          · rw [div_eq_iff (pow_ne_zero 2 hr)]
            simp only at hh
            rw [hh]; ring

/-- C106, full statement refuted: "the velocity at the centre is tangent to the path". A plasmoid ejected in flat space, accepted by every
setter: when its radius has doubled its velocity is no longer that of the path. -/
theorem plasmoid_helical_wrong (s : Sphere) : ∃ p1 p2 p3 : Plasmoid,
    ({ Plasmoid.new s with metric := some ⟨.spherical, flatAt, fun _ => 0⟩ } : Plasmoid).initPosition [0, 10, Real.pi / 2, 0] = .ok p1 ∧
    p1.initVelocity [1 / 10, 0, 1 / 40] = .ok p2 ∧ p2.motionType "Helical" = .ok p3 ∧
    ∃ c w, p3.path 100 = .ok c ∧ p3.getVelocity (event 100 c) = .ok w ∧ IsObserver (flatAt (event 100 c)) w ∧ ¬ Follows p3.path 100 w := by
  have hn : ¬ scalarProd (flatAt ![0, 10, Real.pi / 2, 0]) ![1, 1 / 10, 0, 1 / 40] ![1, 1 / 10, 0, 1 / 40] ≥ 0 := by
    rw [scalarProd_eq, sp_flat]; simp; norm_num
  let p3 : Plasmoid := { Plasmoid.new s with
    metric := some ⟨.spherical, flatAt, fun _ => 0⟩, pos := some ![0, 10, Real.pi / 2, 0], posSet := true,
    vel := some ![1, 1 / 10, 0, 1 / 40], flag := .helical }
  obtain ⟨path, h1, h2, h3, -, -, h6⟩ := plasmoid_helical_partial p3 _ rfl rfl ![0, 10, Real.pi / 2, 0] ![1, 1 / 10, 0, 1 / 40] rfl rfl
    (by norm_num) (by norm_num) 100 (by norm_num)
  have h2' : (path 100).1 = 20 := by rw [h2]; norm_num
  have h3' : (path 100).2.1 = Real.pi / 2 := h3
  obtain ⟨w, g1, g2, g3⟩ := h6 (by
    show sp (flatAt (event 100 (path 100))) _ _ < 0
    rw [sp_flat]
    simp [event, h2', h3']
    try norm_num)
  refine ⟨_, { Plasmoid.new s with
    metric := some ⟨.spherical, flatAt, fun _ => 0⟩, pos := some ![0, 10, Real.pi / 2, 0], posSet := true,
    vel := some ![1, 1 / 10, 0, 1 / 40] }, p3, rfl, ?_, ?_, path 100, w, h1.self_of_nhds, g1, g2, ?_⟩
  · simp only [Plasmoid.initVelocity, if_neg hn]
    rfl
  · simp [Plasmoid.motionType, p3]
  · rw [g3, h2']
    norm_num
    simp

/-- C106, equatorial motion: for a position on the equator and a circular velocity that depends on the radius and the colatitude only, the
centre turns on a circle, and the velocity at the centre is tangent to this path. -/
theorem plasmoid_equatorial_partial (p : Plasmoid) (m : Met) (hm : p.metric = some m) (hf : p.flag = .equatorial) (c : Vec)
    (hp : p.pos = some c) (hc : c 2 = Real.pi / 2) (ha : Axial m.circ) (h0 : m.circ c 0 ≠ 0) (hcirc : m.circ c 1 = 0 ∧ m.circ c 2 = 0) (t : ℝ) :
    ∃ path : ℝ → P3, (∀ s, p.path s = .ok (path s)) ∧ path (c 0) = (c 1, c 2, c 3) ∧
      p.getCartesian t = .ok (place .spherical (event t (path t))) ∧
      ∃ w, p.getVelocity (event t (path t)) = .ok w ∧ w = m.circ (event t (path t)) ∧ Follows p.path t w := by
  have hq : ∀ s, p.path s = .ok (c 1, Real.pi / 2, c 3 + m.circ c 3 / m.circ c 0 * (s - c 0)) := fun s => by
    simp only [Plasmoid.path, hf, hp, Plasmoid.getVelocity, hm, bind, quot_ne h0]
  refine ⟨_, hq, ?_, ?_, m.circ (event t (c 1, Real.pi / 2, c 3 + m.circ c 3 / m.circ c 0 * (t - c 0))), ?_, rfl, ?_⟩
  · simp [hc]
  · simp only [Plasmoid.getCartesian, hq, bind]
    simp [cartesian, place, event]
  · simp only [Plasmoid.getVelocity, hm, hf]
  · have e : m.circ (event t (c 1, Real.pi / 2, c 3 + m.circ c 3 / m.circ c 0 * (t - c 0))) = m.circ c :=
      ha _ _ (by simp [event]) (by simp [event, hc])
    rw [e]
    refine ⟨_, Filter.Eventually.of_forall hq, h0, ?_, ?_, hasDerivAt_lin ..⟩
    · rw [hcirc.1, zero_div]; exact hasDerivAt_const ..
    · rw [hcirc.2, zero_div]; exact hasDerivAt_const ..

/-- C106, full statement refuted: "a plasmoid whose properties have been set may be drawn". Whatever the properties set, it is nowhere
and crossing it is an error: its motion and its radius are not properties. -/
theorem plasmoid_unset_wrong (s : Sphere) (l : List PlasmoidCall) (p : Plasmoid) (h : (Plasmoid.new s).calls l = some p) (t : ℝ) :
    p.getCartesian t = .throws ∧ (∀ x, p.getVelocity x = .throws) ∧ ∀ q, p.impact t ≠ .ok q := by
  have key : ∀ (l : List PlasmoidCall) (p q : Plasmoid), p.flag = .none ∧ p.vary = .none → p.calls l = some q →
      q.flag = .none ∧ q.vary = .none := by
    intro l
    induction l with
    | nil => intro p q hp h; simp only [Plasmoid.calls, List.foldlM_nil, Option.pure_def, Option.some.injEq] at h; exact h ▸ hp
    | cons c l ih =>
      intro p q hp h
      simp only [Plasmoid.calls, List.foldlM_cons, Option.bind_eq_bind, Option.bind_eq_some_iff] at h
      obtain ⟨p', h1, h2⟩ := h
      refine ih p' q ?_ h2
      rcases c with v | v | r | r | m
      · rcases v with _ | ⟨a, _ | ⟨b, _ | ⟨c, _ | ⟨d, v⟩⟩⟩⟩ <;> simp [Plasmoid.call, Plasmoid.initPosition] at h1
        exact h1 ▸ hp
      · simp only [Plasmoid.call, Plasmoid.initVelocity] at h1
        split at h1 <;> rename_i x e
        · split at e
          · cases e
          · split at e
            · split at e
              · cases e
              · split at e
                · cases e
                · split at e
                  · cases e
                  · injection e with e
                    injection h1 with h1
                    rw [← h1, ← e]; exact hp
            · cases e
        · injection h1 with h1
          split at e
          · injection e with e; rw [← h1, ← e]; exact hp
          · split at e
            · split at e
              · injection e with e; rw [← h1, ← e]; exact hp
              · split at e
                · cases e
                · split at e
                  · injection e with e; rw [← h1, ← e]; exact hp
                  · cases e
            · cases e
        · cases h1
      · simp only [Plasmoid.call, Plasmoid.setRadiusMax] at h1
        by_cases hr : r < 0.2
        · simp only [if_pos hr] at h1; injection h1 with h1; exact h1 ▸ hp
        · simp only [if_neg hr] at h1; injection h1 with h1; exact h1 ▸ hp
      · simp only [Plasmoid.call] at h1; injection h1 with h1; exact h1 ▸ hp
      · simp only [Plasmoid.call] at h1; injection h1 with h1; exact h1 ▸ hp
  obtain ⟨h1, h2⟩ := key l _ p ⟨rfl, rfl⟩ h
  refine ⟨?_, fun x => ?_, fun q => ?_⟩
  · simp only [Plasmoid.getCartesian, Plasmoid.path, h1, bind]
  · rcases e : p.metric <;> simp only [Plasmoid.getVelocity, e, h1]
  · rcases e : p.pos <;> simp only [Plasmoid.impact, e, h2] <;> simp

/-- C106: the radius when a photon comes near at the date `t`: the maximum one, or one that grows uniformly from 0.4 since the initial
date; the limits of the sphere follow it. -/
theorem plasmoid_radius (p : Plasmoid) (c : Vec) (hp : p.pos = some c) (t : ℝ) :
    (p.vary = .constant → ∃ q, p.impact t = .ok q ∧ q.sphere.radius = p.radiusMax ∧ q.sphere.critical = p.radiusMax ^ 2) ∧
    (p.vary = .varying → ∃ q, p.impact t = .ok q ∧ q.sphere.radius = 4 / 10 + 1 / 1000 * max 0 (t - c 0) ∧
      q.sphere.critical = q.sphere.radius ^ 2) := by
  constructor
  · intro h
    refine ⟨p.setRadius p.radiusMax, ?_, rfl, ?_⟩
    · simp only [Plasmoid.impact, hp, h]
    · simp [Plasmoid.setRadius, Sphere.setRadius, sq]
  · intro h
    by_cases ht : t ≤ c 0
    · refine ⟨p.setRadius 0.4, ?_, ?_, ?_⟩
      · simp only [Plasmoid.impact, hp, h, if_pos ht]
      · rw [max_eq_left (by linarith)]
        simp [Plasmoid.setRadius, Sphere.setRadius]; norm_num
      · simp [Plasmoid.setRadius, Sphere.setRadius, sq]
    · refine ⟨p.setRadius (0.4 + 0.001 * (t - c 0)), ?_, ?_, ?_⟩
      · simp only [Plasmoid.impact, hp, h, if_neg ht]
      · rw [max_eq_right (by linarith)]
        simp [Plasmoid.setRadius, Sphere.setRadius]; norm_num
      · simp [Plasmoid.setRadius, Sphere.setRadius, sq]

/-- C106, full statement refuted: "the radius is at most `RadiusMax`". Whatever the maximum, it is exceeded. -/
theorem plasmoid_radius_wrong (p : Plasmoid) (c : Vec) (hp : p.pos = some c) (h : p.vary = .varying) :
    ∃ T, ∀ t > T, ∃ q, p.impact t = .ok q ∧ q.radiusMax = p.radiusMax ∧ q.radiusMax < q.sphere.radius := by
  refine ⟨c 0 + 1000 * |p.radiusMax|, fun t ht => ?_⟩
  obtain ⟨q, h1, h2, -⟩ := (plasmoid_radius p c hp t).2 h
  have hr : q.radiusMax = p.radiusMax := by
    simp only [Plasmoid.impact, hp, h] at h1
    split at h1 <;> (injection h1 with h1; rw [← h1]; rfl)
  refine ⟨q, h1, hr, ?_⟩
  rw [h2, hr, max_eq_right (by have := abs_nonneg p.radiusMax; linarith)]
  have := le_abs_self p.radiusMax
  linarith

/-- C106, full statement refuted: "the radius set is the radius used". It is forgotten at the first photon. -/
theorem plasmoid_set_radius_wrong (p : Plasmoid) (c : Vec) (hp : p.pos = some c) (hv : p.vary ≠ .none) (r t : ℝ) :
    ∃ q, (p.setRadius r).impact t = .ok q ∧ p.impact t = .ok q := by
  rcases e : p.vary
  · exact absurd e hv
  · refine ⟨p.setRadius p.radiusMax, ?_, ?_⟩ <;> simp only [Plasmoid.impact, Plasmoid.setRadius, Sphere.setRadius, hp, e]
  · by_cases ht : t ≤ c 0
    · refine ⟨p.setRadius 0.4, ?_, ?_⟩ <;> simp only [Plasmoid.impact, Plasmoid.setRadius, Sphere.setRadius, hp, e, if_pos ht]
    · refine ⟨p.setRadius (0.4 + 0.001 * (t - c 0)), ?_, ?_⟩ <;>
        simp only [Plasmoid.impact, Plasmoid.setRadius, Sphere.setRadius, hp, e, if_neg ht]

/-- C106: a maximum below 0.2 is refused, though the radius starts from 0.4; every other one is taken. -/
theorem plasmoid_radiusMax (p : Plasmoid) (r : ℝ) :
    (r < 2 / 10 → p.setRadiusMax r = .throws p) ∧ (2 / 10 ≤ r → ∃ q, p.setRadiusMax r = .ok q ∧ q.radiusMax = r) := by
  constructor
  · intro h
    rw [Plasmoid.setRadiusMax, if_pos (by norm_num at h ⊢; exact h)]
  · intro h
    exact ⟨_, by rw [Plasmoid.setRadiusMax, if_neg (by norm_num at h ⊢; exact h)], rfl⟩

/-- A plasmoid of which the radius grows: at the date 1000 it is 1.4 though the maximum is 1. -/
example (s : Sphere) : ∃ q, ({ Plasmoid.new s with pos := some 0, vary := .varying } : Plasmoid).impact 1000 = .ok q ∧
    q.sphere.radius = 14 / 10 ∧ q.radiusMax = 1 := by
  obtain ⟨q, h1, h2, -⟩ := (plasmoid_radius { Plasmoid.new s with pos := some 0, vary := .varying } 0 rfl 1000).2 rfl
  refine ⟨q, h1, ?_, ?_⟩
  · rw [h2]; norm_num
  · simp only [Plasmoid.impact] at h1
    split at h1 <;> (injection h1 with h1; rw [← h1]; rfl)

end Gyoto.Moving
