import Verif.Lemmas.Moving
import Mathlib.Analysis.SpecialFunctions.ExpDeriv
import Mathlib.Analysis.SpecialFunctions.Trigonometric.Deriv
import Mathlib.Analysis.SpecialFunctions.Trigonometric.ArctanDeriv
import Mathlib.Analysis.Calculus.Deriv.Inv
import Mathlib.Analysis.Real.Pi.Bounds

/-!
# C105: where a `Blob` is and how fast it moves
-/

namespace Gyoto.Moving

open Gyoto.MetricAlg Gyoto.Paths Gyoto.Spacetime
open Gyoto.Transfer (Out)
open Gyoto.USphere (Kind P3)

private theorem sin_two_arctan (x : ℝ) : Real.sin (2 * Real.arctan x) = 2 * x / (1 + x ^ 2) := by
  rw [Real.sin_two_mul, Real.sin_arctan, Real.cos_arctan]
  have h : 0 < 1 + x ^ 2 := by positivity
  have hs : √(1 + x ^ 2) * √(1 + x ^ 2) = 1 + x ^ 2 := Real.mul_self_sqrt h.le
  have h0 : √(1 + x ^ 2) ≠ 0 := (Real.sqrt_pos.2 h).ne'
  generalize √(1 + x ^ 2) = q at hs h0
  rw [← hs]; field_simp

private theorem cos_two_arctan (x : ℝ) : Real.cos (2 * Real.arctan x) = (1 - x ^ 2) / (1 + x ^ 2) := by
  rw [Real.cos_two_mul, Real.cos_arctan]
  have h : 0 < 1 + x ^ 2 := by positivity
  have hs : √(1 + x ^ 2) ^ 2 = 1 + x ^ 2 := Real.sq_sqrt h.le
  rw [div_pow, hs]
  field_simp
  ring

/-- The end of `getVelocity`: what `normalizeFourVel` gives for a motion slower than light. -/
private theorem finish (b : Blob) (m : Met) (hm : b.metric = some m) (x : Vec) (p q r : ℝ) (hr : b.rate x = .ok ![1, p, q, r])
    (h : sp (m.g x) ![1, p, q, r] ![1, p, q, r] < 0) :
    ∃ u, b.getVelocity x = .ok u ∧ IsObserver (m.g x) u ∧ u 1 / u 0 = p ∧ u 2 / u 0 = q ∧ u 3 / u 0 = r := by
  obtain ⟨u, h1, h2, e1, e2, e3⟩ := observer_of_slow _ p q r h
  have h0 := h2.future.ne'
  refine ⟨u, ?_, h2, ?_, ?_, ?_⟩
  · simp only [Blob.getVelocity, hm, hr, bind, h1]
  · rw [e1]; field_simp
  · rw [e2]; field_simp
  · rw [e3]; field_simp

/-- C105, equatorial motion: the centre turns uniformly on a circle of the equator; at the centre the velocity is that of an observer
who follows this path. -/
theorem blob_equatorial (b : Blob) (m : Met) (hm : b.metric = some m) (hk : b.kind = .equatorial) (t : ℝ) :
    ∃ path : ℝ → P3, (∀ s, path s = (b.c 1, Real.pi / 2, b.c 3 + b.v 2 * (s - b.c 0))) ∧ (∀ s, b.path s = .ok (path s)) ∧
      b.getCartesian t = .ok (place .spherical (event t (path t))) ∧
      (sp (m.g (event t (path t))) ![1, 0, 0, b.v 2] ![1, 0, 0, b.v 2] < 0 →
        ∃ u, b.getVelocity (event t (path t)) = .ok u ∧ IsObserver (m.g (event t (path t))) u ∧ Follows b.path t u) := by
  have hp : ∀ s, b.path s = .ok (b.c 1, Real.pi / 2, b.c 3 + b.v 2 * (s - b.c 0)) := fun s => by simp only [Blob.path, hk]
  refine ⟨_, fun _ => rfl, hp, ?_, fun h => ?_⟩
  · simp [Blob.getCartesian, hp, bind, cartesian, place, event]
  · obtain ⟨u, h1, h2, e1, e2, e3⟩ := finish b m hm _ 0 0 (b.v 2) (by simp only [Blob.rate, hk]) h
    refine ⟨u, h1, h2, _, Filter.Eventually.of_forall hp, h2.future.ne', ?_, ?_, ?_⟩
    · rw [e1]; exact hasDerivAt_const ..
    · rw [e2]; exact hasDerivAt_const ..
    · rw [e3]; exact hasDerivAt_lin ..

/-- C105, motion on a cone: the radius grows uniformly, the colatitude is kept, and the longitude turns with a constant
`r² dphi/dt`; at the centre the velocity is that of an observer who follows this path. -/
theorem blob_conical (b : Blob) (m : Met) (hm : b.metric = some m) (hk : b.kind = .conical) (hv : b.v 0 ≠ 0) (hc : b.c 1 ≠ 0) (t : ℝ)
    (hr : b.c 1 + b.v 0 * (t - b.c 0) ≠ 0) :
    ∃ path : ℝ → P3, (∀ᶠ s in nhds t, b.path s = .ok (path s)) ∧ path t = ((path t).1, b.c 2, (path t).2.2) ∧
      (path t).1 = b.c 1 + b.v 0 * (t - b.c 0) ∧
      HasDerivAt (fun s => (path s).2.2) (b.c 1 ^ 2 * b.v 2 / (path t).1 ^ 2) t ∧
      b.getCartesian t = .ok (place .spherical (event t (path t))) ∧
      (sp (m.g (event t (path t))) ![1, b.v 0, 0, b.c 1 ^ 2 * b.v 2 / (path t).1 ^ 2]
          ![1, b.v 0, 0, b.c 1 ^ 2 * b.v 2 / (path t).1 ^ 2] < 0 →
        ∃ u, b.getVelocity (event t (path t)) = .ok u ∧ IsObserver (m.g (event t (path t))) u ∧ Follows b.path t u) := by
  have hp : ∀ s, b.c 1 + b.v 0 * (s - b.c 0) ≠ 0 → b.path s = .ok (b.c 1 + b.v 0 * (s - b.c 0), b.c 2,
      b.c 3 + b.c 1 * b.c 1 * b.v 2 / b.v 0 * (1 / b.c 1 - 1 / (b.c 1 + b.v 0 * (s - b.c 0)))) := fun s hs => by
    simp only [Blob.path, hk, quot_ne hv, quot_ne hc, quot_ne hs, bind]
  have hl : HasDerivAt (fun s => b.c 1 + b.v 0 * (s - b.c 0)) (b.v 0) t := hasDerivAt_lin ..
  have hev : ∀ᶠ s in nhds t, b.path s = .ok (b.c 1 + b.v 0 * (s - b.c 0), b.c 2,
      b.c 3 + b.c 1 * b.c 1 * b.v 2 / b.v 0 * (1 / b.c 1 - 1 / (b.c 1 + b.v 0 * (s - b.c 0)))) :=
    (hl.continuousAt.eventually_ne hr).mono hp
  have hd : HasDerivAt (fun s => b.c 3 + b.c 1 * b.c 1 * b.v 2 / b.v 0 * (1 / b.c 1 - 1 / (b.c 1 + b.v 0 * (s - b.c 0))))
      (b.c 1 ^ 2 * b.v 2 / (b.c 1 + b.v 0 * (t - b.c 0)) ^ 2) t := by
    have := (((hl.inv hr).const_sub (1 / b.c 1)).const_mul (b.c 1 * b.c 1 * b.v 2 / b.v 0)).const_add (b.c 3)
    refine (this.congr_deriv ?_).congr_of_eventuallyEq (Filter.Eventually.of_forall fun s => ?_)
    · field_simp
    · simp only [one_div, Pi.inv_apply]
  refine ⟨_, hev, rfl, rfl, hd, ?_, fun h => ?_⟩
  · simp only [Blob.getCartesian, hp t hr, bind]
    simp [cartesian, place, event]
  · obtain ⟨u, h1, h2, e1, e2, e3⟩ := finish b m hm _ (b.v 0) 0 (b.c 1 ^ 2 * b.v 2 / (b.c 1 + b.v 0 * (t - b.c 0)) ^ 2) (by
      simp only [Blob.rate, hk]
      rw [quot_ne (by simpa [event] using hr)]
      simp only [bind, event]
      congr 2
      simp
      ring) h
    refine ⟨u, h1, h2, _, hev, h2.future.ne', ?_, ?_, ?_⟩
    · rw [e1]; exact hl
    · rw [e2]; exact hasDerivAt_const ..
    · rw [e3]; exact hd

/-- C105, motion on a cylinder: in Cartesian coordinates the centre turns uniformly on a circle and its height is `-r₀ sinh(ω t)`; at the
centre the velocity is that of an observer who follows this path. -/
theorem blob_cylindrical (b : Blob) (m : Met) (hm : b.metric = some m) (hk : b.kind = .cylindrical) (hc : b.c 1 ≠ 0) (t : ℝ) :
    ∃ path : ℝ → P3, (∀ s, b.path s = .ok (path s)) ∧
      b.getCartesian t = .ok (b.c 1 * Real.cos (b.c 3 + b.v 2 * (t - b.c 0)), b.c 1 * Real.sin (b.c 3 + b.v 2 * (t - b.c 0)),
        -b.c 1 * Real.sinh (b.v 1 * (t - b.c 0))) ∧
      ∃ dr dth, HasDerivAt (fun s => (path s).1) dr t ∧ HasDerivAt (fun s => (path s).2.1) dth t ∧
      (sp (m.g (event t (path t))) ![1, dr, dth, b.v 2] ![1, dr, dth, b.v 2] < 0 →
        ∃ u, b.getVelocity (event t (path t)) = .ok u ∧ IsObserver (m.g (event t (path t))) u ∧ Follows b.path t u) := by
  have hp : ∀ s, b.path s = .ok (b.c 1 / 2 * (Real.exp (b.v 1 * (s - b.c 0)) + Real.exp (-(b.v 1 * (s - b.c 0)))),
      2 * Real.arctan (Real.exp (b.v 1 * (s - b.c 0))), b.c 3 + b.v 2 * (s - b.c 0)) := fun s => by simp only [Blob.path, hk]
  have hl : HasDerivAt (fun s => b.v 1 * (s - b.c 0)) (b.v 1) t := by
    simpa using ((hasDerivAt_id t).sub_const (b.c 0)).const_mul (b.v 1)
  have hE : Real.exp (-(b.v 1 * (t - b.c 0))) = (Real.exp (b.v 1 * (t - b.c 0)))⁻¹ := Real.exp_neg _
  have h0 : 0 < Real.exp (b.v 1 * (t - b.c 0)) := Real.exp_pos _
  have hd1 : HasDerivAt (fun s => b.c 1 / 2 * (Real.exp (b.v 1 * (s - b.c 0)) + Real.exp (-(b.v 1 * (s - b.c 0)))))
      (b.c 1 * b.v 1 / 2 * (Real.exp (b.v 1 * (t - b.c 0)) - Real.exp (-(b.v 1 * (t - b.c 0))))) t :=
    ((hl.exp.add hl.neg.exp).const_mul (b.c 1 / 2)).congr_deriv (by simp only [Pi.neg_apply]; ring)
  have hd2 : HasDerivAt (fun s => 2 * Real.arctan (Real.exp (b.v 1 * (s - b.c 0))))
      (b.c 1 / (b.c 1 / 2 * (Real.exp (b.v 1 * (t - b.c 0)) + Real.exp (-(b.v 1 * (t - b.c 0))))) * b.v 1) t := by
    refine (hl.exp.arctan.const_mul 2).congr_deriv ?_
    rw [hE]
    generalize Real.exp (b.v 1 * (t - b.c 0)) = E at h0
    field_simp
    ring
  refine ⟨_, hp, ?_, _, _, hd1, hd2, fun h => ?_⟩
  · simp only [Blob.getCartesian, hp, bind, cartesian, sin_two_arctan, cos_two_arctan, Real.sinh_eq, hE]
    generalize Real.exp (b.v 1 * (t - b.c 0)) = E at h0
    congr 1
    refine Prod.ext ?_ (Prod.ext ?_ ?_) <;> simp only <;> field_simp <;> ring
  · have hr : b.c 1 / 2 * (Real.exp (b.v 1 * (t - b.c 0)) + Real.exp (-(b.v 1 * (t - b.c 0)))) ≠ 0 := by positivity
    obtain ⟨u, h1, h2, e1, e2, e3⟩ := finish b m hm _ _ _ _ (by
      simp only [Blob.rate, hk]
      rw [quot_ne (by simpa [event] using hr)]
      simp only [bind, event]
      rfl) h
    refine ⟨u, h1, h2, _, Filter.Eventually.of_forall hp, h2.future.ne', ?_, ?_, ?_⟩
    · rw [e1]; exact hd1
    · rw [e2]; exact hd2
    · rw [e3]; exact hasDerivAt_lin ..

/-- C105, full statement refuted: "the velocity is that of an observer". A blob told to move faster than light is accepted, and its
four-velocity is zero. -/
theorem blob_fast_wrong : ∃ b1 b2 : Blob,
    ({ Blob.new with metric := some ⟨.spherical, flatAt, fun _ => 0⟩ } : Blob).init4Coord [0, 10, Real.pi / 2, 0] = .ok b1 ∧
    b1.init3Velo [0, 0, 1 / 5] = .ok b2 ∧ b2.path 0 = .ok (10, Real.pi / 2, 0) ∧
    b2.getVelocity (event 0 (10, Real.pi / 2, 0)) = .ok 0 := by
  refine ⟨⟨![0, 10, Real.pi / 2, 0], 0, .equatorial, some ⟨.spherical, flatAt, fun _ => 0⟩⟩,
    ⟨![0, 10, Real.pi / 2, 0], ![0, 0, 1 / 5], .equatorial, some ⟨.spherical, flatAt, fun _ => 0⟩⟩, ?_, rfl, ?_, ?_⟩
  · simp [Blob.init4Coord, Blob.new]
  · simp [Blob.path]
  · have : normalizeFourVel (flatAt (event 0 (10, Real.pi / 2, 0))) ![1, 0, 0, 1 / 5] = some 0 := by
      refine normalize_fast _ _ (by simp) ?_
      rw [sp_flat]
      simp [event]
      norm_num
    simp only [Blob.getVelocity, Blob.rate, bind]
    have e : (![0, 0, 1 / 5] : Fin 3 → ℝ) 2 = 1 / 5 := rfl
    rw [e, this]

/-- C105: at the initial date the centre is at the initial position, for a blob on a cone or one that starts on the equator. -/
theorem blob_start_partial (b : Blob) (h : (b.kind = .conical ∧ b.v 0 ≠ 0 ∧ b.c 1 ≠ 0) ∨ (b.kind ≠ .conical ∧ b.c 2 = Real.pi / 2)) :
    b.path (b.c 0) = .ok (b.c 1, b.c 2, b.c 3) := by
  rcases h with ⟨hk, hv, hc⟩ | ⟨hk, hc⟩
  · have : b.c 1 + b.v 0 * (b.c 0 - b.c 0) ≠ 0 := by simpa using hc
    simp only [Blob.path, hk, quot_ne hv, quot_ne hc, quot_ne this, bind]
    simp
  · rcases e : b.kind
    · simp only [Blob.path, e, hc]; simp
    · exact absurd e hk
    · simp only [Blob.path, e, hc]; simp; exact ⟨by ring, by ring⟩

/-- C105, full statement refuted: "at the initial date the centre is at the initial position". The kind of motion may be changed after the
position has been accepted. -/
theorem blob_start_wrong : ∃ b1 b2 b3 : Blob, Blob.new.motionType "HelicalConical" = .ok b1 ∧ b1.init4Coord [0, 10, 1, 0] = .ok b2 ∧
    b2.motionType "Equatorial" = .ok b3 ∧ b3.c = ![0, 10, 1, 0] ∧ b3.path 0 = .ok (10, Real.pi / 2, 0) ∧ Real.pi / 2 ≠ 1 := by
  refine ⟨{ Blob.new with kind := .conical }, { Blob.new with kind := .conical, c := ![0, 10, 1, 0] },
    { Blob.new with kind := .equatorial, c := ![0, 10, 1, 0] }, ?_, ?_, ?_, rfl, ?_, ?_⟩
  · simp [Blob.motionType]
  · simp [Blob.init4Coord]
  · simp [Blob.motionType]
  · simp [Blob.path]
  · have := Real.pi_gt_three; linarith

/-- C105, full statement refuted: "the derivatives of the position may be asked for". An array that nothing has written is read. -/
theorem blob_derivatives_wrong (b : Blob) (t : ℝ) (c : P3) (h : b.path t = .ok c) : b.getDerivatives t = .ub := by
  simp only [Blob.getDerivatives, h, bind]

/-- C105: a blob written to XML is read back as it was if its initial position is on the equator, and cannot be read otherwise. -/
theorem blob_read_partial (b : Blob) :
    (b.c 2 = Real.pi / 2 → Blob.read b.write { Blob.new with metric := b.metric } = .ok b) ∧
    (b.c 2 ≠ Real.pi / 2 → ∃ b', Blob.read b.write { Blob.new with metric := b.metric } = .throws b') := by
  have e4 : (![b.c 0, b.c 1, b.c 2, b.c 3] : Vec) = b.c := by funext i; fin_cases i <;> rfl
  have e3 : (![b.v 0, b.v 1, b.v 2] : Fin 3 → ℝ) = b.v := by funext i; fin_cases i <;> rfl
  constructor
  · intro h
    obtain ⟨c, v, k, m⟩ := b
    simp only at e4 e3 h
    rcases k <;> simp [Blob.read, Blob.write, Blob.init4Coord, Blob.init3Velo, Blob.motionType, Blob.new, Motion.name, h, e3] <;>
      rw [← h, e4]
  · intro h
    refine ⟨{ Blob.new with metric := b.metric, c := ![b.c 0, b.c 1, b.c 2, b.c 3] }, ?_⟩
    simp only [Blob.read, Blob.write, Blob.init4Coord]
    rw [if_pos ⟨.inr rfl, h⟩]

/-- C105, full statement refuted: "a blob written to XML may be read back". A blob on a cone, accepted by every setter, is refused by the
reader, because its position is read before its kind of motion. -/
theorem blob_read_wrong : ∃ b1 b2 b3 : Blob, Blob.new.motionType "HelicalConical" = .ok b1 ∧ b1.init4Coord [0, 10, 1, 0] = .ok b2 ∧
    b2.init3Velo [1 / 10, 0, 1 / 100] = .ok b3 ∧ ∃ b', Blob.read b3.write Blob.new = .throws b' := by
  refine ⟨{ Blob.new with kind := .conical }, { Blob.new with kind := .conical, c := ![0, 10, 1, 0] },
    { Blob.new with kind := .conical, c := ![0, 10, 1, 0], v := ![1 / 10, 0, 1 / 100] }, ?_, ?_, rfl, ?_⟩
  · simp [Blob.motionType]
  · simp [Blob.init4Coord]
  · refine (blob_read_partial _).2 ?_
    show (1 : ℝ) ≠ Real.pi / 2
    have := Real.pi_gt_three
    intro h; linarith

/-- The hypotheses hold for a blob ejected on a cone in flat space. -/
example : ∃ (b : Blob) (u : Vec), b.kind = .conical ∧ b.path 10 = .ok (11, 1, 1 / 11) ∧
    b.getVelocity (event 10 (11, 1, 1 / 11)) = .ok u ∧ 0 < u 1 := by
  let b : Blob := ⟨![0, 10, 1, 0], ![1 / 10, 0, 1 / 100], .conical, some ⟨.spherical, flatAt, fun _ => 0⟩⟩
  obtain ⟨path, h1, h2, h3, -, -, h6⟩ := blob_conical b _ rfl rfl (by norm_num [b]) (by norm_num [b]) 10 (by norm_num [b])
  have hp : b.path 10 = .ok (11, 1, 1 / 11) := by
    have e1 : b.v 0 = 1 / 10 := rfl
    have e2 : b.c 1 = 10 := rfl
    have e3 : b.v 2 = 1 / 100 := rfl
    have e4 : b.c 0 = 0 := rfl
    have e5 : b.c 2 = 1 := rfl
    have e6 : b.c 3 = 0 := rfl
    have e7 : b.kind = .conical := rfl
    simp only [Blob.path, e7, e1, e2, e3, e4, e5, e6, quot, bind]
    norm_num
  have hq : path 10 = (11, 1, 1 / 11) := by
    have := h1.self_of_nhds
    rw [hp] at this
    injection this with this
    exact this.symm
  rw [hq] at h6
  obtain ⟨u, g1, g2, g3⟩ := h6 (by
    have e1 : b.v 0 = 1 / 10 := rfl
    have e2 : b.c 1 = 10 := rfl
    have e3 : b.v 2 = 1 / 100 := rfl
    rw [e1, e2, e3]
    show sp (flatAt (event 10 (11, 1, 1 / 11))) _ _ < 0
    rw [sp_flat]
    have := Real.sin_sq_le_one 1
    simp [event]
    norm_num
    nlinarith)
  refine ⟨b, u, rfl, hp, g1, ?_⟩
  have ht := (Follows.iff h1).1 g3
  have h1' : HasDerivAt (fun s => (path s).1) (1 / 10) 10 := by
    have : HasDerivAt (fun s => (10 : ℝ) + 1 / 10 * (s - 0)) (1 / 10) 10 := hasDerivAt_lin ..
    refine this.congr_of_eventuallyEq ?_
    have hc : ContinuousAt (fun s : ℝ => (10 : ℝ) + 1 / 10 * (s - 0)) 10 := this.continuousAt
    filter_upwards [h1, hc.eventually_ne (show (10 : ℝ) + 1 / 10 * (10 - 0) ≠ 0 by norm_num)] with s hs hs'
    have e1 : b.v 0 = 1 / 10 := rfl
    have e2 : b.c 1 = 10 := rfl
    have e4 : b.c 0 = 0 := rfl
    have e7 : b.kind = .conical := rfl
    simp only [Blob.path, e7, e1, e2, e4, quot_ne hs', quot_ne (show (10 : ℝ) ≠ 0 by norm_num), quot_ne (show (1 / 10 : ℝ) ≠ 0 by norm_num),
      bind] at hs
    injection hs with hs
    rw [← hs]
  have := ht.one.unique h1'
  have h0 := g2.future
  rw [div_eq_iff h0.ne'] at this
  rw [this]; positivity

end Gyoto.Moving
