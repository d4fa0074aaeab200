import Verif.Model.Extent
import Verif.Props.UniformSphere
import Mathlib.Analysis.SpecialFunctions.Complex.Arg
import Mathlib.Tactic.NormNum
import Mathlib.Tactic.Linarith
import Mathlib.Tactic.LinearCombination

/-!
# C97: photons look for objects where these are
-/

namespace Gyoto.Extent

open Gyoto.USphere Real

/-- The point of space with the given coordinates. -/
noncomputable def place (k : Kind) (c : P3) : P3 :=
  match k with
  | .cartesian => c
  | .spherical => ofSpherical c.1 c.2.1 c.2.2

/-- Coordinates that a photon can have. -/
def Valid (k : Kind) (c : P3) : Prop :=
  match k with
  | .cartesian => True
  | .spherical => 0 ≤ c.1 ∧ 0 ≤ sin c.2.1

theorem place_norm {k : Kind} {c : P3} (hc : Valid k c) : (place k c).1 ^ 2 + (place k c).2.1 ^ 2 + (place k c).2.2 ^ 2 = rr k c ^ 2 ∧ 0 ≤ rr k c := by
  cases k with
  | cartesian =>
    refine ⟨?_, sqrt_nonneg _⟩
    simp only [place, rr]
    rw [sq_sqrt (by nlinarith [mul_self_nonneg c.1, mul_self_nonneg c.2.1, mul_self_nonneg c.2.2])]
    ring
  | spherical =>
    refine ⟨?_, hc.1⟩
    simp only [place, rr, ofSpherical]
    have h1 := sin_sq_add_cos_sq c.2.1
    have h2 := sin_sq_add_cos_sq c.2.2
    linear_combination c.1 ^ 2 * sin c.2.1 ^ 2 * h2 + c.1 ^ 2 * h1

/-! ## The torus -/

/-- The point of angle `φ` of the circle of radius `c` in the equatorial plane. -/
noncomputable def circle (c φ : ℝ) : P3 := (c * cos φ, c * sin φ, 0)

/-- `operator()` of the torus is the square of the distance to the circle of the large radius. -/
theorem torus_distance (t : Torus) (hc : 0 ≤ t.c) {k : Kind} {p : P3} (hp : Valid k p) :
    IsLeast (Set.range fun φ => dist2 (place k p) (circle t.c φ)) (t.value k p) := by
  -- the value from the place
  have hval : t.value k p = (√((place k p).1 ^ 2 + (place k p).2.1 ^ 2) - t.c) ^ 2 + (place k p).2.2 ^ 2 := by
    cases k with
    | cartesian =>
      simp only [Torus.value, place, sq]
    | spherical =>
      have e : (place .spherical p).1 ^ 2 + (place .spherical p).2.1 ^ 2 = (p.1 * sin p.2.1) ^ 2 := by
        simp only [place, ofSpherical]
        linear_combination (p.1 * sin p.2.1) ^ 2 * sin_sq_add_cos_sq p.2.2
      rw [e, sqrt_sq (mul_nonneg hp.1 hp.2)]
      simp only [Torus.value, place, ofSpherical]
      ring
  rw [hval]
  generalize place k p = q
  obtain ⟨ρ, hρ⟩ : ∃ ρ, ρ = √(q.1 ^ 2 + q.2.1 ^ 2) := ⟨_, rfl⟩
  have hρ0 : 0 ≤ ρ := hρ ▸ sqrt_nonneg _
  have hρ2 : ρ ^ 2 = q.1 ^ 2 + q.2.1 ^ 2 := by
    rw [hρ, sq_sqrt (by positivity)]
  rw [← hρ]
  have hd : ∀ φ, dist2 q (circle t.c φ) = ρ ^ 2 + t.c ^ 2 - 2 * t.c * (q.1 * cos φ + q.2.1 * sin φ) + q.2.2 ^ 2 := by
    intro φ
    simp only [dist2, circle]
    linear_combination t.c ^ 2 * sin_sq_add_cos_sq φ - hρ2
  constructor
  · refine ⟨Complex.arg ⟨q.1, q.2.1⟩, ?_⟩
    have hn : ‖(⟨q.1, q.2.1⟩ : ℂ)‖ = ρ := by
      rw [Complex.norm_def, Complex.normSq_mk, hρ]
      congr 1
      ring
    have e1 := Complex.norm_mul_cos_arg ⟨q.1, q.2.1⟩
    have e2 := Complex.norm_mul_sin_arg ⟨q.1, q.2.1⟩
    rw [hn] at e1 e2
    simp only at e1 e2
    show dist2 q (circle t.c _) = _
    rw [hd]
    have hs := sin_sq_add_cos_sq (Complex.arg ⟨q.1, q.2.1⟩)
    generalize cos (Complex.arg ⟨q.1, q.2.1⟩) = C at *
    generalize sin (Complex.arg ⟨q.1, q.2.1⟩) = S at *
    rw [← e1, ← e2]
    linear_combination -2 * t.c * ρ * hs
  · rintro _ ⟨φ, rfl⟩
    show _ ≤ dist2 q (circle t.c φ)
    rw [hd]
    have hcs : q.1 * cos φ + q.2.1 * sin φ ≤ ρ := by
      have h2 : (q.1 * cos φ + q.2.1 * sin φ) ^ 2 ≤ ρ ^ 2 := by
        have : ρ ^ 2 - (q.1 * cos φ + q.2.1 * sin φ) ^ 2 = (q.1 * sin φ - q.2.1 * cos φ) ^ 2 := by
          linear_combination hρ2 - (q.1 ^ 2 + q.2.1 ^ 2) * sin_sq_add_cos_sq φ
        nlinarith [sq_nonneg (q.1 * sin φ - q.2.1 * cos φ)]
      exact (le_abs_self _).trans (abs_le_of_sq_le_sq h2 hρ0)
    nlinarith [mul_le_mul_of_nonneg_left hcs hc]

/-- Two points of the space at distance `d` from each other: the one is not farther than the other and `d`. -/
theorem far_le {a b : P3} {ra rb d : ℝ} (ha : a.1 ^ 2 + a.2.1 ^ 2 + a.2.2 ^ 2 = ra ^ 2) (hb : b.1 ^ 2 + b.2.1 ^ 2 + b.2.2 ^ 2 = rb ^ 2)
    (hrb : 0 ≤ rb) (hd : 0 ≤ d) (h : dist2 a b ≤ d ^ 2) : ra ≤ rb + d := by
  have h2 : ra ^ 2 ≤ (rb + d) ^ 2 := by
    -- Cauchy–Schwarz for `b` and `a - b`
    have hcs : ((a.1 - b.1) * b.1 + (a.2.1 - b.2.1) * b.2.1 + (a.2.2 - b.2.2) * b.2.2) ^ 2 ≤ (d * rb) ^ 2 := by
      have h1 : ((a.1 - b.1) * b.1 + (a.2.1 - b.2.1) * b.2.1 + (a.2.2 - b.2.2) * b.2.2) ^ 2 ≤ dist2 a b * rb ^ 2 := by
        rw [← hb]
        simp only [dist2]
        nlinarith [sq_nonneg ((a.1 - b.1) * b.2.1 - (a.2.1 - b.2.1) * b.1), sq_nonneg ((a.1 - b.1) * b.2.2 - (a.2.2 - b.2.2) * b.1),
          sq_nonneg ((a.2.1 - b.2.1) * b.2.2 - (a.2.2 - b.2.2) * b.2.1)]
      calc _ ≤ dist2 a b * rb ^ 2 := h1
        _ ≤ d ^ 2 * rb ^ 2 := mul_le_mul_of_nonneg_right h (sq_nonneg _)
        _ = (d * rb) ^ 2 := by ring
    have hcs' := (le_abs_self _).trans (abs_le_of_sq_le_sq hcs (mul_nonneg hd hrb))
    have e : ra ^ 2 = dist2 a b + 2 * ((a.1 - b.1) * b.1 + (a.2.1 - b.2.1) * b.2.1 + (a.2.2 - b.2.2) * b.2.2) + rb ^ 2 := by
      simp only [dist2]
      linear_combination -ha + hb
    rw [e]
    nlinarith
  exact (le_abs_self _).trans (abs_le_of_sq_le_sq h2 (by positivity))

/-- The settings of a torus after any calls that do not ask `rMax()`: `rMax()` then asks for all points of the torus, however often it is called.
What is missing is a setting after a call of `rMax()`: see `torus_stale_wrong`. -/
theorem torus_asked_partial (calls : List TCall) (hr : TCall.rMax ∉ calls) (n : ℕ) {t : Torus}
    (ht : t = (calls ++ List.replicate (n + 1) TCall.rMax).foldl Torus.call .new) (hc : 0 ≤ t.c) (ha : 0 < t.critical) {k : Kind} {p : P3}
    (hp : Valid k p) (hin : t.value k p ≤ t.critical) : asked t.rmax (rr k p) := by
  -- the cache is empty before
  have h0 : ∀ (calls : List TCall) (t0 : Torus), TCall.rMax ∉ calls → t0.rmax = none → (calls.foldl Torus.call t0).rmax = none := by
    intro calls
    induction calls with
    | nil => exact fun _ _ h => h
    | cons c cs ih =>
      intro t0 h h0
      refine ih _ (fun h' => h (by simp [h'])) ?_
      cases c with
      | large c => exact h0
      | small a => exact h0
      | rMax => exact absurd (by simp) h
  obtain ⟨t1, h1⟩ : ∃ t1, t1 = calls.foldl Torus.call .new := ⟨_, rfl⟩
  have hn : t1.rmax = none := h1 ▸ h0 calls .new hr rfl
  have hrep : ∀ m, (List.replicate (m + 1) TCall.rMax).foldl Torus.call t1 = { t1 with rmax := some (3 * (t1.c + √t1.critical)) } := by
    intro m
    induction m with
    | zero => simp [Torus.call, Torus.rMax, hn]
    | succ m ih =>
      rw [List.replicate_succ', List.foldl_append, ih]
      simp [Torus.call, Torus.rMax]
  rw [List.foldl_append, ← h1, hrep] at ht
  subst ht
  simp only [asked]
  simp only at hc ha hin
  obtain ⟨φ, hφ⟩ := (torus_distance t1 hc hp).1
  obtain ⟨hnorm, hrr⟩ := place_norm hp
  have hcirc : (circle t1.c φ).1 ^ 2 + (circle t1.c φ).2.1 ^ 2 + (circle t1.c φ).2.2 ^ 2 = t1.c ^ 2 := by
    simp only [circle]
    linear_combination t1.c ^ 2 * sin_sq_add_cos_sq φ
  have hv : t1.value k p ≤ √t1.critical ^ 2 := by
    rw [sq_sqrt ha.le]
    exact hin
  have := far_le hnorm hcirc hc (sqrt_nonneg t1.critical) ((show dist2 _ _ = _ from hφ).le.trans hv)
  have hpos := sqrt_pos.mpr ha
  linarith

/-- The distance that was asked once is kept: a torus made larger after `rMax()` was called is not looked for where it is. -/
theorem torus_stale_wrong :
    ∃ (t : Torus) (p : P3), t = [TCall.rMax, .large 100].foldl Torus.call .new ∧ t.value .cartesian p ≤ t.critical ∧ ¬ asked t.rMax.rmax (rr .cartesian p) := by
  refine ⟨_, (100, 0, 0), rfl, ?_, ?_⟩
  · have : √((100 : ℝ) * 100) = 100 := sqrt_mul_self (by norm_num)
    simp [Torus.call, Torus.rMax, Torus.new, Torus.largeRadius, Torus.value, this]
    norm_num
  · have h1 : √((100 : ℝ) * 100) = 100 := sqrt_mul_self (by norm_num)
    have h2 : √(0.25 : ℝ) = 0.5 := by
      rw [show (0.25 : ℝ) = 0.5 * 0.5 by norm_num]
      exact sqrt_mul_self (by norm_num)
    simp [Torus.call, Torus.rMax, Torus.new, Torus.largeRadius, asked, rr, h1, h2]
    norm_num

/-- The step of a photon is a tenth of the distance to the circle, not less than a tenth of the small radius. -/
theorem torus_deltaMax (t : Torus) (k : Kind) (p : P3) : t.deltaMax k p = max (√(t.value k p)) t.getSmall / 10 := by
  unfold Torus.deltaMax Torus.getSmall
  simp only
  split_ifs with h
  · rw [max_eq_right (sqrt_le_sqrt h.le)]
    norm_num
    ring
  · rw [max_eq_left (sqrt_le_sqrt (not_lt.mp h))]
    norm_num
    ring

/-- The radius that was set is read, and the safety value is not below the critical one. -/
theorem torus_small (t : Torus) {a : ℝ} (ha : 0 ≤ a) :
    (t.smallRadius a).getSmall = a ∧ (t.smallRadius a).c = t.c ∧ (t.smallRadius a).critical ≤ (t.smallRadius a).safety := by
  refine ⟨sqrt_mul_self ha, rfl, ?_⟩
  simp only [Torus.smallRadius]
  nlinarith [mul_self_nonneg a]

/-- The velocity is taken at the projection of the point on the equatorial plane. -/
theorem torus_velocity {k : Kind} (p : P3) :
    (place k (Torus.velocityAt k p)).1 = (place k p).1 ∧ (place k (Torus.velocityAt k p)).2.1 = (place k p).2.1 ∧
      (place k (Torus.velocityAt k p)).2.2 = 0 := by
  cases k with
  | cartesian => exact ⟨rfl, rfl, rfl⟩
  | spherical =>
    have e : π * 0.5 = π / 2 := by
      norm_num
      ring
    simp [place, Torus.velocityAt, ofSpherical, e]

/-! ## The fixed star -/

/-- A fixed star of the given members, before `rMax()` is asked. -/
def Fixed.Fresh (f : Fixed) : Prop := f.sphere.rmax = none

/-- The same for a fixed star, whose place, radius and metric are set by any calls. -/
theorem fixed_asked_partial (f0 : Fixed) (h0 : f0.Fresh) (hc0 : f0.sphere.critical = f0.sphere.radius ^ 2) (calls : List FCall) (hr : FCall.rMax ∉ calls)
    (n : ℕ) {f : Fixed} (hf : f = (calls ++ List.replicate (n + 1) FCall.rMax).foldl Fixed.call f0) (ha : 0 < f.sphere.radius)
    (hpos : f.kind = .spherical → 0 ≤ f.pos.1) {p : P3} (hp : Valid f.kind p) {v : ℝ} (hv : f.value p = some v) (hin : v ≤ f.sphere.critical) :
    asked f.sphere.rmax (rr f.kind p) := by
  have hcalls : ∀ (calls : List FCall) (f0 : Fixed), FCall.rMax ∉ calls → f0.sphere.rmax = none → f0.sphere.critical = f0.sphere.radius ^ 2 →
      (calls.foldl Fixed.call f0).sphere.rmax = none ∧
        (calls.foldl Fixed.call f0).sphere.critical = (calls.foldl Fixed.call f0).sphere.radius ^ 2 := by
    intro calls
    induction calls with
    | nil => exact fun _ _ h h' => ⟨h, h'⟩
    | cons c cs ih =>
      intro f0 h h0 hc
      have hs : ∀ r, (f0.sphere.setRadius r).critical = (f0.sphere.setRadius r).radius ^ 2 := fun r => by
        rw [(radius_values f0.sphere r).1, (radius_values f0.sphere r).2.1]
      refine ih _ (fun h' => h (by simp [h'])) ?_ ?_
      · cases c with
        | position v =>
          simp only [Fixed.call, Fixed.position]
          split
          · exact h0
          · exact h0
        | radius r => exact h0
        | metric k => exact h0
        | rMax => exact absurd (by simp) h
      · cases c with
        | position v =>
          simp only [Fixed.call, Fixed.position]
          split
          · exact hs _
          · exact hc
        | radius r => exact hs _
        | metric k => exact hs _
        | rMax => exact absurd (by simp) h
  obtain ⟨f1, h1⟩ : ∃ f1, f1 = calls.foldl Fixed.call f0 := ⟨_, rfl⟩
  obtain ⟨hn, hcrit⟩ := hcalls calls f0 hr h0 hc0
  rw [← h1] at hn hcrit
  have hrep : ∀ m, (List.replicate (m + 1) FCall.rMax).foldl Fixed.call f1 = f1.rMax := by
    intro m
    induction m with
    | zero => simp [Fixed.call]
    | succ m ih =>
      rw [List.replicate_succ', List.foldl_append, ih]
      simp [Fixed.call, Fixed.rMax, hn]
  rw [List.foldl_append, ← h1, hrep] at hf
  have hfe : f.kind = f1.kind ∧ f.pos = f1.pos ∧ f.sphere.radius = f1.sphere.radius ∧ f.sphere.critical = f1.sphere.critical := by
    rw [hf]
    simp [Fixed.rMax, hn]
  obtain ⟨ek, ep, er, ec⟩ := hfe
  have hm : f.sphere.rmax = some (3 * (rr f.kind f.pos + f.sphere.radius)) := by
    rw [ek, ep, er, hf]
    rcases f1 with ⟨k, pos, s⟩
    cases k <;> simp only at hn <;> simp [Fixed.rMax, hn, rr]
  -- the centre
  have hcentre : f.centre.1 ^ 2 + f.centre.2.1 ^ 2 + f.centre.2.2 ^ 2 = rr f.kind f.pos ^ 2 ∧ 0 ≤ rr f.kind f.pos := by
    rcases hk : f.kind with _ | _
    · have := place_norm (k := .cartesian) (c := f.pos) trivial
      simp only [Fixed.centre, hk]
      exact this
    · refine ⟨?_, hpos hk⟩
      simp only [Fixed.centre, hk, rr]
      linear_combination f.pos.1 ^ 2 * sin f.pos.2.1 ^ 2 * sin_sq_add_cos_sq f.pos.2.2 + f.pos.1 ^ 2 * sin_sq_add_cos_sq f.pos.2.1
  obtain ⟨hnorm, -⟩ := place_norm hp
  have hval : v = dist2 (place f.kind p) f.centre := by
    unfold Fixed.value USphere.value at hv
    rw [if_neg (by simp)] at hv
    rw [← Option.some.inj hv]
    cases f.kind <;> rfl
  rw [hm]
  simp only [asked]
  have hd : dist2 (place f.kind p) f.centre ≤ f.sphere.radius ^ 2 := by
    rw [← hval, er, ← hcrit, ← ec]
    exact hin
  have := far_le hnorm hcentre.1 hcentre.2 ha.le hd
  linarith [hcentre.2]

/-- A fixed star that is moved after `rMax()` was called is not looked for where it is. -/
theorem fixed_stale_wrong (f : Fixed) (hf : f.Fresh) (hk : f.kind = .cartesian) (hp : f.pos = (10, 0, 0)) (hr : f.sphere.radius = 1) :
    ∃ f', f' = [FCall.rMax, .position [100, 0, 0]].foldl Fixed.call f ∧ f'.value (100, 0, 0) = some 0 ∧ 0 < f'.sphere.critical ∧
      ¬ asked f'.rMax.sphere.rmax (rr .cartesian (100, 0, 0)) := by
  rcases f with ⟨k, pos, s⟩
  simp only at hk hp hr
  simp only [Fixed.Fresh] at hf
  subst hk hp
  have h1 : √((100 : ℝ) * 100) = 100 := sqrt_mul_self (by norm_num)
  have h2 : √((10 : ℝ) * 10) = 10 := sqrt_mul_self (by norm_num)
  refine ⟨_, rfl, ?_, ?_, ?_⟩
  · simp [Fixed.call, Fixed.rMax, Fixed.position, hf, Fixed.value, USphere.value, Fixed.centre, dist2, photonPos]
  · simp [Fixed.call, Fixed.rMax, Fixed.position, hf, Sphere.setRadius, hr]
  · simp [Fixed.call, Fixed.rMax, Fixed.position, hf, Sphere.setRadius, hr, asked, rr, h1, h2]
    norm_num

/-! ## The star -/

theorem starLoop_ge (k : Kind) (ps : List P3) (m : ℝ) :
    m ≤ starLoop k ps m ∧ ∀ p ∈ ps, p.1 ≤ starLoop k ps m ∧ (k = .cartesian → p.2.1 ≤ starLoop k ps m ∧ p.2.2 ≤ starLoop k ps m) := by
  induction ps generalizing m with
  | nil => exact ⟨le_rfl, by simp⟩
  | cons q ps ih =>
    unfold starLoop
    have h1 : ∀ a b : ℝ, a ≤ (if b > a then b else a) ∧ b ≤ (if b > a then b else a) := fun a b => by
      split_ifs with h
      · exact ⟨h.le, le_rfl⟩
      · exact ⟨le_rfl, not_lt.mp h⟩
    cases k with
    | spherical =>
      simp only
      obtain ⟨i1, i2⟩ := ih (if q.1 > m then q.1 else m)
      refine ⟨(h1 m q.1).1.trans i1, fun p hp => ?_⟩
      rcases List.mem_cons.mp hp with rfl | hp
      · exact ⟨(h1 m _).2.trans i1, fun h => (by cases h)⟩
      · exact i2 p hp
    | cartesian =>
      simp only
      obtain ⟨a, ea⟩ : ∃ a, a = if q.1 > m then q.1 else m := ⟨_, rfl⟩
      obtain ⟨b, eb⟩ : ∃ b, b = if q.2.1 > a then q.2.1 else a := ⟨_, rfl⟩
      obtain ⟨c, ec⟩ : ∃ c, c = if q.2.2 > b then q.2.2 else b := ⟨_, rfl⟩
      rw [← ea, ← eb, ← ec]
      obtain ⟨i1, i2⟩ := ih c
      have a1 := h1 m q.1
      have a2 := h1 a q.2.1
      have a3 := h1 b q.2.2
      rw [← ea] at a1
      rw [← eb] at a2
      rw [← ec] at a3
      refine ⟨a1.1.trans (a2.1.trans (a3.1.trans i1)), fun p hp => ?_⟩
      rcases List.mem_cons.mp hp with rfl | hp
      · exact ⟨a1.2.trans (a2.1.trans (a3.1.trans i1)), fun _ => ⟨a2.2.trans (a3.1.trans i1), a3.2.trans i1⟩⟩
      · exact ⟨(i2 p hp).1, fun _ => (i2 p hp).2 rfl⟩

/-- Spherical coordinates: a star is looked for at all the places of the orbit that is computed when `rMax()` is first called, if its radius is less
than twice its distance to the origin there. -/
theorem star_spherical_partial {orbit : List P3} {i0 : ℕ} (hi : i0 < orbit.length) {q : P3} (hq : q ∈ orbit) (hq0 : 0 ≤ q.1) {radius : ℝ}
    (ha : 0 ≤ radius) (hsmall : radius < 2 * q.1) {p : P3} (hp : Valid .spherical p)
    (hin : dist2 (place .spherical p) (ofSpherical q.1 q.2.1 q.2.2) ≤ radius ^ 2) :
    asked (starRMax .spherical orbit i0 none) (rr .spherical p) := by
  simp only [starRMax, List.getElem?_eq_getElem hi, asked]
  obtain ⟨-, h2⟩ := starLoop_ge .spherical orbit orbit[i0].1
  have hnq : (ofSpherical q.1 q.2.1 q.2.2).1 ^ 2 + (ofSpherical q.1 q.2.1 q.2.2).2.1 ^ 2 + (ofSpherical q.1 q.2.1 q.2.2).2.2 ^ 2 = q.1 ^ 2 := by
    simp only [ofSpherical]
    linear_combination q.1 ^ 2 * sin q.2.1 ^ 2 * sin_sq_add_cos_sq q.2.2 + q.1 ^ 2 * sin_sq_add_cos_sq q.2.1
  have := far_le (place_norm hp).1 hnq hq0 ha hin
  linarith [(h2 q hq).1]

/-- Cartesian coordinates: the same, if the coordinate that is the largest in size, over the orbit, is positive, and the star is not larger than it. -/
theorem star_cartesian_partial {orbit : List P3} {i0 : ℕ} (hi : i0 < orbit.length) {A : ℝ} (hA0 : 0 < A)
    (hA : ∃ q ∈ orbit, A = q.1 ∨ A = q.2.1 ∨ A = q.2.2) (hall : ∀ q ∈ orbit, |q.1| ≤ A ∧ |q.2.1| ≤ A ∧ |q.2.2| ≤ A) {q : P3} (hq : q ∈ orbit) {radius : ℝ}
    (ha : 0 ≤ radius) (hsmall : radius ≤ A) {p : P3} (hin : dist2 p q ≤ radius ^ 2) :
    asked (starRMax .cartesian orbit i0 none) (rr .cartesian p) := by
  simp only [starRMax, List.getElem?_eq_getElem hi, asked]
  obtain ⟨-, h2⟩ := starLoop_ge .cartesian orbit orbit[i0].1
  have hL : A ≤ starLoop .cartesian orbit orbit[i0].1 := by
    obtain ⟨s, hs, e⟩ := hA
    obtain ⟨g1, g2⟩ := h2 s hs
    rcases e with rfl | rfl | rfl
    · exact g1
    · exact (g2 rfl).1
    · exact (g2 rfl).2
  obtain ⟨b1, b2, b3⟩ := hall q hq
  have hrq : rr .cartesian q ≤ 1.8 * A := by
    have : rr .cartesian q ^ 2 ≤ (1.8 * A) ^ 2 := by
      rw [← (place_norm (k := .cartesian) (c := q) trivial).1]
      simp only [place]
      nlinarith [sq_le_sq' (abs_le.mp b1).1 (abs_le.mp b1).2, sq_le_sq' (abs_le.mp b2).1 (abs_le.mp b2).2,
        sq_le_sq' (abs_le.mp b3).1 (abs_le.mp b3).2, sq_nonneg A]
    exact (le_abs_self _).trans (abs_le_of_sq_le_sq this (by positivity))
  obtain ⟨e1, e2⟩ := place_norm (k := .cartesian) (c := q) trivial
  have := far_le (place_norm (k := .cartesian) (c := p) trivial).1 e1 e2 ha hin
  linarith

/-- A star in the octant of the negative coordinates is looked for nowhere. -/
theorem star_negative_wrong : starRMax .cartesian [(-10, -20, -30)] 0 none = some (-30) ∧
    ∀ p : P3, ¬ asked (starRMax .cartesian [(-10, -20, -30)] 0 none) (rr .cartesian p) := by
  have h : starRMax .cartesian [(-10, -20, -30)] 0 none = some (-30) := by
    simp [starRMax, starLoop]
    norm_num
  refine ⟨h, fun p => ?_⟩
  rw [h]
  simp only [asked, rr, not_lt]
  exact le_trans (by norm_num) (sqrt_nonneg _)

/-- A star whose orbit is computed farther after the first call of `rMax()` is not looked for there: the first photon that is sent calls it, when
the orbit may be one point only. -/
theorem star_stale_wrong : ∃ m, starRMax .spherical [(10, π / 2, 0)] 0 none = some m ∧
    ∀ more, ¬ asked (starRMax .spherical (more ++ [(10, π / 2, 0)]) more.length (some m)) (rr .spherical (50, π / 2, 1)) := by
  refine ⟨30, ?_, fun more => ?_⟩
  · simp [starRMax, starLoop]
    norm_num
  · simp only [starRMax, asked, rr]
    norm_num

/-! ## Examples -/

/-- A torus of radii 10 and 2, in spherical coordinates. -/
example : asked ([TCall.large 10, .small 2, .rMax, .rMax].foldl Torus.call .new).rmax (rr .spherical (11, π / 2, 1)) := by
  have hs : √((2 : ℝ) * 2) = 2 := sqrt_mul_self (by norm_num)
  refine torus_asked_partial [.large 10, .small 2] (by simp) 1 rfl ?_ ?_ ⟨by norm_num, by simp⟩ ?_
  all_goals simp [Torus.call, Torus.rMax, Torus.new, Torus.largeRadius, Torus.smallRadius, Torus.value]
  norm_num

/-- A star of radius 1 at (0, 10, 0). -/
noncomputable def one : Fixed := ⟨.cartesian, (0, 10, 0), ⟨1, 1, 2, true, false, none, none, 0.1, 0.1, none⟩⟩

example : asked ([FCall.radius 2, .rMax].foldl Fixed.call one).sphere.rmax (rr .cartesian (1, 10, 1)) := by
  refine fixed_asked_partial one rfl (by simp [one]) [.radius 2] (by simp) 0 rfl ?_ ?_ trivial (v := 2) ?_ ?_
  all_goals simp [Fixed.call, Fixed.rMax, Fixed.radius, one, Sphere.setRadius, Fixed.value, USphere.value, Fixed.centre, dist2, photonPos]
  all_goals norm_num

example : (Torus.new.largeRadius 10).value .cartesian (6, 8, 1) = 1 := by
  have h : √((6 : ℝ) * 6 + 8 * 8) = 10 := by
    rw [show (6 : ℝ) * 6 + 8 * 8 = 10 * 10 by norm_num]
    exact sqrt_mul_self (by norm_num)
  simp [Torus.value, Torus.largeRadius, Torus.new, h]

example : asked (starRMax .cartesian [(-5, 0, 0), (0, 8, 0), (6, 0, 1)] 2 none) (rr .cartesian (-5, 0.5, 0)) :=
  star_cartesian_partial (A := 8) (by simp) (by norm_num) ⟨(0, 8, 0), by simp, by simp⟩ (by
    intro q hq
    simp only [List.mem_cons, List.not_mem_nil, or_false] at hq
    rcases hq with rfl | rfl | rfl <;> norm_num) (q := (-5, 0, 0)) (by simp) (radius := 1) (by norm_num) (by norm_num) (by
    simp only [dist2]
    norm_num)

end Gyoto.Extent
