import Verif.Lemmas.HotSpot

/-!
# C115: the equatorial hot spot
-/

namespace Gyoto.HotSpot

open Gyoto.MetricAlg Gyoto.KerrBL Gyoto.Spacetime Gyoto.Orbits
open Gyoto.Transfer (Out)
open Gyoto.USphere (Kind)

variable {s : Spot} {tt rr hh pp tp : ℝ} {ph p obj : Vec}

/-! ### The shape of the spot -/

/-- **C115.** In spherical coordinates an isotropic spot in the equatorial plane is a Gaussian of the distance to its centre, of width
`SpotRadSize`, cut at four widths; the frequency, the length, the photon and the angle of the beam do not matter. -/
theorem spot_profile (hk : s.kind = .spherical) (hθ : s.track (obj 0) 1 = Real.pi / 2) (hb : s.beaming = .isotropic) (nu ds : ℝ) :
    (planeDist (obj 1) (obj 3) (s.track (obj 0) 0) (s.track (obj 0) 2) < 4 * |s.size| →
      s.emission nu ds ph p obj =
        .ok (Real.exp (-planeDist (obj 1) (obj 3) (s.track (obj 0) 0) (s.track (obj 0) 2) ^ 2 / (2 * s.size ^ 2)))) ∧
    (4 * |s.size| ≤ planeDist (obj 1) (obj 3) (s.track (obj 0) 0) (s.track (obj 0) 2) → s.emission nu ds ph p obj = .ok 0) := by
  refine ⟨fun h => ?_, fun h => ?_⟩
  · unfold Spot.emission
    simp only
    rw [if_pos ((near_iff hk obj hθ).2 h), hb, d2_dist hk obj hθ, ← sq s.size]
  · unfold Spot.emission
    simp only
    rw [if_neg fun h' => not_lt.2 h ((near_iff hk obj hθ).1 h')]

/-- **C115.** Whatever the beaming there is nothing beyond four widths: a spot without size, which is the default, does not shine. -/
theorem spot_ends (hk : s.kind = .spherical) (hθ : s.track (obj 0) 1 = Real.pi / 2) (nu ds : ℝ)
    (h : 4 * |s.size| ≤ planeDist (obj 1) (obj 3) (s.track (obj 0) 0) (s.track (obj 0) 2)) : s.emission nu ds ph p obj = .ok 0 := by
  unfold Spot.emission
  simp only
  rw [if_neg fun h' => not_lt.2 h ((near_iff hk obj hθ).1 h')]

/-- **C115.** The spot is brightest at its centre, where it is 1, and jumps at its edge: inside, it is above `exp(-8)`. -/
theorem spot_bounds (hk : s.kind = .spherical) (hθ : s.track (obj 0) 1 = Real.pi / 2) (hb : s.beaming = .isotropic) (nu ds : ℝ)
    (h : planeDist (obj 1) (obj 3) (s.track (obj 0) 0) (s.track (obj 0) 2) < 4 * |s.size|) :
    ∃ e, s.emission nu ds ph p obj = .ok e ∧ Real.exp (-8) < e ∧ e ≤ 1 ∧
      (planeDist (obj 1) (obj 3) (s.track (obj 0) 0) (s.track (obj 0) 2) = 0 ↔ e = 1) := by
  refine ⟨_, (spot_profile hk hθ hb nu ds).1 h, ?_⟩
  have h0 := planeDist_nonneg (obj 1) (obj 3) (s.track (obj 0) 0) (s.track (obj 0) 2)
  generalize planeDist (obj 1) (obj 3) (s.track (obj 0) 0) (s.track (obj 0) 2) = d at *
  have hs : 0 < |s.size| := by linarith
  have hs2 : 0 < s.size ^ 2 := by rw [← sq_abs]; positivity
  have hd : d ^ 2 < 16 * s.size ^ 2 := by
    rw [← sq_abs s.size]
    nlinarith
  refine ⟨Real.exp_lt_exp.2 ?_, Real.exp_le_one_iff.2 ?_, ?_⟩
  · rw [lt_div_iff₀ (by positivity)]
    linarith
  · rw [div_nonpos_iff]
    right
    exact ⟨by nlinarith, by positivity⟩
  · rw [Real.exp_eq_one_iff, div_eq_zero_iff]
    constructor
    · intro h; left; rw [h]; norm_num
    · rintro (h | h)
      · have : d ^ 2 = 0 := by linarith
        exact pow_eq_zero_iff (two_ne_zero) |>.1 this
      · exact absurd h (by positivity)

/-- **C115.** Farther is fainter. -/
theorem spot_fainter (hk : s.kind = .spherical) (hb : s.beaming = .isotropic) (nu ds : ℝ) {obj' : Vec} {e e' : ℝ}
    (hθ : s.track (obj 0) 1 = Real.pi / 2) (hθ' : s.track (obj' 0) 1 = Real.pi / 2)
    (h : planeDist (obj 1) (obj 3) (s.track (obj 0) 0) (s.track (obj 0) 2) <
      planeDist (obj' 1) (obj' 3) (s.track (obj' 0) 0) (s.track (obj' 0) 2))
    (hin : planeDist (obj 1) (obj 3) (s.track (obj 0) 0) (s.track (obj 0) 2) < 4 * |s.size|)
    (he : s.emission nu ds ph p obj = .ok e) (he' : s.emission nu ds ph p obj' = .ok e') : e' < e := by
  have h1 := (spot_profile (ph := ph) (p := p) hk hθ hb nu ds).1 hin
  rw [h1] at he
  cases he
  have h0 := planeDist_nonneg (obj 1) (obj 3) (s.track (obj 0) 0) (s.track (obj 0) 2)
  by_cases hin' : planeDist (obj' 1) (obj' 3) (s.track (obj' 0) 0) (s.track (obj' 0) 2) < 4 * |s.size|
  · rw [(spot_profile (ph := ph) (p := p) hk hθ' hb nu ds).1 hin'] at he'
    cases he'
    generalize planeDist (obj 1) (obj 3) (s.track (obj 0) 0) (s.track (obj 0) 2) = d at *
    generalize planeDist (obj' 1) (obj' 3) (s.track (obj' 0) 0) (s.track (obj' 0) 2) = d' at *
    have hs : 0 < |s.size| := by linarith
    have hs2 : 0 < s.size ^ 2 := by rw [← sq_abs]; positivity
    apply Real.exp_lt_exp.2
    apply div_lt_div_of_pos_right _ (by positivity)
    nlinarith
  · rw [(spot_profile (ph := ph) (p := p) hk hθ' hb nu ds).2 (not_lt.1 hin')] at he'
    cases he'
    exact Real.exp_pos _

/-- **C115, refuted part.** With a metric in Cartesian coordinates `x` and `z` are taken for a radius and an angle: at the very centre of
the spot, what is emitted is that of a point at the distance `|y|`. -/
theorem cartesian_wrong (hk : s.kind = .cartesian) (hb : s.beaming = .isotropic) (nu ds : ℝ) (ht : ∀ i, obj i = s.centre (obj 0) i)
    (hz : obj 3 = 0) (hy : |obj 2| < 4 * |s.size|) :
    s.emission nu ds ph p obj = .ok (Real.exp (-(obj 2) ^ 2 / (2 * s.size ^ 2))) := by
  have h1 : s.track (obj 0) 0 = obj 1 := (ht 1).symm
  have h2 : s.track (obj 0) 1 = obj 2 := (ht 2).symm
  have e : s.d2 obj = obj 2 ^ 2 := by
    simp only [Spot.d2, hk, StarTrace.cart, Spot.centre, Matrix.cons_val_one, Matrix.cons_val_zero, Matrix.cons_val, h1, h2, hz,
      Real.cos_zero, Real.sin_zero]
    ring
  have hn : obj 2 ^ 2 < 16 * (s.size * s.size) := by
    rw [← sq_abs (obj 2), ← sq, ← sq_abs s.size]
    nlinarith [abs_nonneg (obj 2), abs_nonneg s.size]
  unfold Spot.emission
  simp only
  rw [e, if_pos hn, hb, ← sq s.size]

/-! ### The beam -/

/-- **C115.** When the velocity that the spot uses is that of gas at the place of the hit, beamed light goes as the square of the cosine of
its angle with the normal for the gas, or as the square of what the cosine lacks to 1. -/
theorem spot_beams (hk : s.kind = .spherical) (hθ : s.track (obj 0) 1 = Real.pi / 2) (h : Outside (s.g ph) tt rr hh pp tp)
    (hu : IsRotating (s.g ph) (s.getVelocity ph)) (hp : scalarProd (s.g ph) p p = 0)
    (he : scalarProd (s.g ph) p (s.getVelocity ph) ≠ 0) (nu ds : ℝ)
    (hin : planeDist (obj 1) (obj 3) (s.track (obj 0) 0) (s.track (obj 0) 2) < 4 * |s.size|) :
    ∃ c G, c = |scalarProd (s.g ph) (direction (s.g ph) (s.getVelocity ph) p) (poleward (s.g ph))| ∧ c ≤ 1 ∧
      G = Real.exp (-planeDist (obj 1) (obj 3) (s.track (obj 0) 0) (s.track (obj 0) 2) ^ 2 / (2 * s.size ^ 2)) ∧
      (s.beaming = .normal → s.emission nu ds ph p obj = .ok (c ^ 2 * G)) ∧
      (s.beaming = .radial → s.emission nu ds ph p obj = .ok ((1 - c) ^ 2 * G)) ∧
      (s.beaming = .constant → s.emission nu ds ph p obj = .ok 1) := by
  obtain ⟨h1, h2⟩ := cosalpha_eq h hu.r hu.theta ((scalarProd_eq _ _ _).trans hu.unit) hp he
  refine ⟨_, _, rfl, h2, rfl, fun hb => ?_, fun hb => ?_, fun hb => ?_⟩
  all_goals
    unfold Spot.emission
    simp only
    rw [if_pos ((near_iff hk obj hθ).2 hin), hb]
  · simp only
    rw [h1]
    simp only
    rw [d2_dist hk obj hθ, ← sq, ← sq s.size]
  · simp only
    rw [h1]
    simp only
    rw [d2_dist hk obj hθ, ← sq, ← sq s.size]

/-- **C115.** In Kerr's metric the velocity is right on the circle of the spot: that of the free orbit at the place of the hit. -/
theorem own_circle {a dir : ℝ} (hg : s.g = gmunu a) (hc : s.circ = fun c => kerrVel a c dir) {pos : Vec} (hr : 0 < pos 1)
    (hd : 0 < pos 1 * pos 1 - 2 * pos 1 + a * a) (hθ : pos 2 = Real.pi / 2) (hdir : dir = 1 ∨ dir = -1) (hs : KerrSlow a dir (pos 1))
    (h1 : s.track (pos 0) 0 = pos 1) (h2 : s.track (pos 0) 1 = Real.pi / 2) :
    IsRotating (s.g pos) (s.getVelocity pos) ∧ IsFree s.g pos (s.getVelocity pos) ∧ 0 < dir * s.getVelocity pos 3 := by
  have e : s.getVelocity pos = kerrVel a pos dir := by
    unfold Spot.getVelocity
    rw [hc]
    simp only [kerrVel, gmunu, Spot.centre, Matrix.cons_val_one, Matrix.cons_val_zero, Matrix.cons_val, h1, h2, hθ]
  rw [e, hg]
  exact kerr_circular hr hd.ne' hθ hdir hs

/-! ### Away from the circle of the centre -/

/-- The square of the speed of a rotation at Kepler's rate of the radius `r0`, seen at the radius `r1`, compared to `r0`. -/
theorem kepler_norm {r0 r1 : ℝ} (h0 : 0 < r0) (h1 : 0 < r1) (hne : r1 ≠ r0) : 3 / r0 < 2 / r1 + r1 ^ 2 / r0 ^ 3 := by
  have : 2 / r1 + r1 ^ 2 / r0 ^ 3 - 3 / r0 = (r1 - r0) ^ 2 * (r1 + 2 * r0) / (r1 * r0 ^ 3) := by
    field_simp
    ring
  have h2 : 0 < (r1 - r0) ^ 2 := by
    have : r1 - r0 ≠ 0 := sub_ne_zero.2 hne
    positivity
  have h3 : 0 < (r1 - r0) ^ 2 * (r1 + 2 * r0) / (r1 * r0 ^ 3) := by positivity
  linarith

/-- The velocity of a spot around a Schwarzschild black hole. -/
theorem schw_vel {r0 : ℝ} (h3 : 3 < r0) (hc : s.circ = fun c => kerrVel 0 c 1) {pos : Vec} (h1 : s.track (pos 0) 0 = r0)
    (h2 : s.track (pos 0) 1 = Real.pi / 2) :
    s.getVelocity pos = ![(√(1 - 3 / r0))⁻¹, 0, 0, 1 / √r0 ^ 3 * (√(1 - 3 / r0))⁻¹] := by
  have h0 : 0 < r0 := by linarith
  have hw : 0 < √r0 := Real.sqrt_pos.2 h0
  have hw2 : √r0 ^ 2 = r0 := Real.sq_sqrt h0.le
  have e1 : s.centre (pos 0) 1 = r0 := h1
  have e2 : s.centre (pos 0) 2 = Real.pi / 2 := h2
  have hp : 0 < √r0 ^ 3 - 3 * √r0 := by
    have : √r0 ^ 3 - 3 * √r0 = √r0 * (r0 - 3) := by linear_combination √r0 * hw2
    rw [this]
    exact mul_pos hw (by linarith)
  have hs : KerrSlow 0 1 r0 := by
    unfold KerrSlow
    linarith
  unfold Spot.getVelocity
  rw [hc]
  have hn := kerr_norm (a := 0) (dir := 1) (pos := s.centre (pos 0)) (by rw [e1]; exact h0) e2 (Or.inl rfl) (by rw [e1]; exact hs)
  have hneg := kerr_norm_neg (a := 0) (dir := 1) (pos := s.centre (pos 0)) (by rw [e1]; exact h0) e2 (Or.inl rfl) (by rw [e1]; exact hs)
  show kerrVel 0 (s.centre (pos 0)) 1 = _
  rw [kerr_eq (by rw [e1]; exact h0) e2]
  obtain ⟨f1, f2, f3⟩ := finish_ok hneg
  rw [hn, e1] at f3
  have hq : -(-(√r0 ^ 3 * (√r0 ^ 3 - 3 * √r0 + 2 * 0 * 1)) / (√r0 ^ 3 + 0 * 1) ^ 2) = 1 - 3 / r0 := by
    have : 3 / r0 = 3 / √r0 ^ 2 := by rw [hw2]
    rw [this]
    field_simp
    ring
  rw [hq] at f3
  rw [e1] at f1 f2 ⊢
  funext i
  fin_cases i
  · exact f3
  · exact f1.r
  · exact f1.theta
  · show finishVel _ _ 3 = _
    rw [f2, f3]
    norm_num

theorem throws_of_cosalpha (hcos : s.cosalpha ph p = .throws) (hk : s.kind = .spherical) (hθ : s.track (obj 0) 1 = Real.pi / 2)
    (hb : s.beaming = .normal ∨ s.beaming = .radial) (nu ds : ℝ)
    (hin : planeDist (obj 1) (obj 3) (s.track (obj 0) 0) (s.track (obj 0) 2) < 4 * |s.size|) : s.emission nu ds ph p obj = .throws := by
  unfold Spot.emission
  simp only
  rw [if_pos ((near_iff hk obj hθ).2 hin)]
  rcases hb with hb | hb <;> simp only [hb, hcos]

/-- **C115, refuted part.** Around a Schwarzschild black hole, everywhere off the circle of its centre, the velocity of the spot is not that of
an observer: it is too slow. Wherever it is still slower than light there are photons for which a beamed spot throws "cosalpha>1!". -/
theorem off_circle_wrong {r0 : ℝ} (h3 : 3 < r0) (hg : s.g = gmunu 0) (hc : s.circ = fun c => kerrVel 0 c 1) (h1 : s.track (ph 0) 0 = r0)
    (h2 : s.track (ph 0) 1 = Real.pi / 2) (hθ : ph 2 = Real.pi / 2) (hr : 2 < ph 1) (hne : ph 1 ≠ r0) :
    -1 < scalarProd (s.g ph) (s.getVelocity ph) (s.getVelocity ph) ∧
    (scalarProd (s.g ph) (s.getVelocity ph) (s.getVelocity ph) < 0 →
      ∃ p : Vec, scalarProd (s.g ph) p p = 0 ∧ 0 < p 0 ∧ scalarProd (s.g ph) p (s.getVelocity ph) < 0 ∧
        ∀ (nu ds : ℝ) (obj : Vec), s.kind = .spherical → s.track (obj 0) 1 = Real.pi / 2 → s.beaming = .normal ∨ s.beaming = .radial →
          planeDist (obj 1) (obj 3) (s.track (obj 0) 0) (s.track (obj 0) 2) < 4 * |s.size| → s.emission nu ds ph p obj = .throws) := by
  have h0 : 0 < r0 := by linarith
  have hr0 : 0 < ph 1 := by linarith
  have hw : 0 < √r0 := Real.sqrt_pos.2 h0
  have hw2 : √r0 ^ 2 = r0 := Real.sq_sqrt h0.le
  have hw6 : (1 / √r0 ^ 3) ^ 2 = 1 / r0 ^ 3 := by
    rw [div_pow, one_pow, ← pow_mul, show 3 * 2 = 2 * 3 by norm_num, pow_mul, hw2]
  have hq : 0 < 1 - 3 / r0 := by
    rw [sub_pos, div_lt_one h0]
    exact h3
  have hO := kerr_outside (a := 0) hr0 (by nlinarith) hθ
  have hv := schw_vel h3 hc h1 h2
  obtain ⟨q, hqe⟩ : ∃ q, q = 1 - 3 / r0 := ⟨_, rfl⟩
  obtain ⟨w, hwe⟩ : ∃ w, w = 1 / √r0 ^ 3 := ⟨_, rfl⟩
  obtain ⟨r, hre⟩ : ∃ r, r = ph 1 := ⟨_, rfl⟩
  rw [← hqe, ← hwe] at hv
  rw [← hqe] at hq
  rw [← hwe] at hw6
  rw [← hre] at hr0 hO hne
  have hwp : 0 < w := by rw [hwe]; positivity
  have hsq : 0 < √q := Real.sqrt_pos.2 hq
  have hsq2 : √q ^ 2 = q := Real.sq_sqrt hq.le
  obtain ⟨Q, hQ⟩ : ∃ Q, Q = 1 - 2 / r - r ^ 2 * w ^ 2 := ⟨_, rfl⟩
  have hQq : Q < q := by
    have := kepler_norm h0 hr0 hne
    rw [hQ, hqe, hw6]
    have e : r ^ 2 * (1 / r0 ^ 3) = r ^ 2 / r0 ^ 3 := by ring
    rw [e]
    linarith
  have hnorm : scalarProd (s.g ph) (s.getVelocity ph) (s.getVelocity ph) = -(Q / q) := by
    rw [hg, hO.eq, sp_circ, hv, hQ]
    simp only [Matrix.cons_val_one, Matrix.cons_val_zero, Matrix.cons_val]
    have hi : q⁻¹ = (√q)⁻¹ * (√q)⁻¹ := by rw [← mul_inv, ← sq, hsq2]
    rw [div_eq_mul_inv _ q, hi]
    ring
  rw [hnorm]
  refine ⟨by rw [neg_lt_neg_iff, div_lt_one hq]; exact hQq, fun hneg => ?_⟩
  have hQ0 : 0 < Q := by
    rw [neg_lt_zero, div_pos_iff] at hneg
    rcases hneg with h | h
    · exact h.1
    · linarith [h.2]
  have hsQ : 0 < √Q := Real.sqrt_pos.2 hQ0
  have hsQ2 : √Q ^ 2 = Q := Real.sq_sqrt hQ0.le
  have hpu : scalarProd (s.g ph) ![1, 0, √Q / r, w] (s.getVelocity ph) = -(Q / √q) := by
    rw [hg, hO.eq, sp_circ, hv, hQ]
    simp only [Matrix.cons_val_one, Matrix.cons_val_zero, Matrix.cons_val]
    field_simp
    ring
  refine ⟨![1, 0, √Q / r, w], ?_, one_pos, ?_, ?_⟩
  · rw [hg, hO.eq, sp_circ]
    simp only [Matrix.cons_val_one, Matrix.cons_val_zero, Matrix.cons_val]
    have : r ^ 2 * (√Q / r) * (√Q / r) = Q := by
      have e' : r ^ 2 * (√Q / r) * (√Q / r) = √Q ^ 2 := by field_simp
      rw [e', hsQ2]
    rw [this, hQ]
    ring
  · rw [hpu, neg_lt_zero]
    positivity
  · intro nu ds obj hk hθ' hb hin
    refine throws_of_cosalpha ?_ hk hθ' hb nu ds hin
    unfold Spot.cosalpha
    rw [hpu, abs_neg, abs_of_pos (by positivity)]
    have h22 : s.g ph 2 2 = r ^ 2 := by rw [hg, hO.eq]; rfl
    simp only [h22]
    rw [if_neg (by positivity), if_neg (not_lt.2 (by positivity)), if_pos]
    have e : 1 / (Q / √q) * √(r ^ 2) * |(![1, 0, √Q / r, w] : Vec) 2| = √q / √Q := by
      rw [Real.sqrt_sq hr0.le]
      have e' : ∀ z : ℝ, 0 < z → 1 / (z ^ 2 / √q) * r * (z / r) = √q / z := by
        intro z hz
        field_simp
      have := e' (√Q) hsQ
      rw [hsQ2] at this
      simp only [Matrix.cons_val]
      rw [abs_of_pos (by positivity)]
      exact this
    rw [e, abs_of_pos (by positivity), gt_iff_lt, one_lt_div hsQ]
    exact Real.sqrt_lt_sqrt hQ0.le hQq

/-! ### Transparency and parameters -/

/-- **C115.** Without polarisation the spot lets all the light of what is behind pass, whatever `OpticallyThin` says, and the spectrum adds
what `emission` gives. -/
theorem spot_transparent {Site : Type} (thin : Bool) (ul : ℝ) (e : ℝ → ℝ → Site → ℝ)
    (polar : (n : Nat) → (Fin n → ℝ) → ℝ → Site → Emission.Polar n) (k : Nat) (fl : Emission.Flags) (hfl : fl.radQ = false)
    (nu ds : ℝ) (x : Site) :
    Emission.transmission (impl thin ul e polar) (k + 2) fl nu ds x = some (1, fl) ∧
    ∀ (n : Nat) (nus : Fin n → ℝ), Emission.radiativeQ (impl thin ul e polar) (k + 1) fl n nus ds x =
      some ((fun i => e (nus i) ds x, fun _ => 1), fl) := by
  constructor
  · simp [Emission.transmission, impl, hfl, Emission.radiativeQ]
  · intro n nus
    simp [impl, Emission.radiativeQ]

/-- **C115.** The name of a beaming selects it again. -/
theorem beaming_name (b b' : Beaming) : parseBeaming b.name = some b' ↔ b = b' := by
  cases b <;> cases b' <;> decide

/-- **C115.** The old tags select the beaming of their name. The angle that comes with them has no effect on what is emitted. -/
theorem legacy_beaming (name : String) (x : ℝ) (hn : name = "NormalBeaming" ∨ name = "RadialBeaming") :
    ∃ s', s.legacy name x = some s' ∧ s'.beaming.name = name ∧ s'.size = s.size ∧
      ∀ (y nu ds : ℝ) (ph p obj : Vec), { s' with beamAngle := y }.emission nu ds ph p obj = s'.emission nu ds ph p obj := by
  rcases hn with rfl | rfl
  · exact ⟨{ s with beaming := .normal }, rfl, rfl, rfl, fun _ _ _ _ _ _ => rfl⟩
  · exact ⟨{ s with beaming := .radial, beamAngle := x }, rfl, rfl, rfl, fun _ _ _ _ _ _ => rfl⟩

/-! ### Examples -/

/-- A spot at `r = 6` on the `x` axis around a Schwarzschild black hole. -/
noncomputable def exSpot (b : Beaming) : Spot where
  kind := .spherical
  g := gmunu 0
  circ := fun c => kerrVel 0 c 1
  track := fun _ => ![6, Real.pi / 2, 0]
  size := 1
  beaming := b
  beamAngle := 0
  thin := false

/-- One radius from the centre, along the `x` axis: exp(-1/2). -/
example : (exSpot .isotropic).emission 1 1 0 0 ![0, 7, Real.pi / 2, 0] = .ok (Real.exp (-(1 / 2))) := by
  have hd : planeDist 7 0 6 0 = 1 := by
    unfold planeDist
    rw [show (7 * Real.cos 0 - 6 * Real.cos 0) ^ 2 + (7 * Real.sin 0 - 6 * Real.sin 0) ^ 2 = (1 : ℝ) by norm_num]
    exact Real.sqrt_one
  have h := (spot_profile (s := exSpot .isotropic) (ph := 0) (p := 0) (obj := ![0, 7, Real.pi / 2, 0]) rfl rfl rfl 1 1).1
    (show planeDist 7 0 6 0 < 4 * |1| by rw [hd]; norm_num)
  rw [h]
  show Out.ok (Real.exp (-planeDist 7 0 6 0 ^ 2 / (2 * 1 ^ 2))) = _
  rw [hd]
  norm_num

/-- Two thirds of a radius inside the circle of a spot of radius 1, there are photons for which it throws. -/
example : ∃ p : Vec, (exSpot .normal).emission 1 1 ![0, 16 / 3, Real.pi / 2, 0] p ![0, 16 / 3, Real.pi / 2, 0] = .throws := by
  obtain ⟨h1, h2⟩ := off_circle_wrong (s := exSpot .normal) (r0 := 6) (ph := ![0, 16 / 3, Real.pi / 2, 0]) (by norm_num) rfl rfl rfl rfl rfl
    (show (2 : ℝ) < 16 / 3 by norm_num) (show (16 / 3 : ℝ) ≠ 6 by norm_num)
  have hv := schw_vel (s := exSpot .normal) (r0 := 6) (pos := ![0, 16 / 3, Real.pi / 2, 0]) (by norm_num) rfl rfl rfl
  have hO := kerr_outside (a := 0) (pos := ![0, 16 / 3, Real.pi / 2, 0]) (show (0 : ℝ) < 16 / 3 by norm_num)
    (show (0 : ℝ) < 16 / 3 * (16 / 3) - 2 * (16 / 3) + 0 * 0 by norm_num) rfl
  obtain ⟨p, -, -, -, hp⟩ := h2 (by
    have e : (exSpot .normal).g ![0, 16 / 3, Real.pi / 2, 0] = gmunu 0 ![0, 16 / 3, Real.pi / 2, 0] := rfl
    rw [e, hO.eq, sp_circ, hv]
    simp only [Matrix.cons_val_one, Matrix.cons_val_zero, Matrix.cons_val]
    have h6 : (1 / √6 ^ 3 : ℝ) * (1 / √6 ^ 3) = 1 / 216 := by
      rw [div_mul_div_comm, ← pow_add, show 3 + 3 = 2 * 3 by norm_num, pow_mul, Real.sq_sqrt (by norm_num)]
      norm_num
    have hi : 0 < (√(1 - 3 / 6 : ℝ))⁻¹ := by
      apply inv_pos.2
      apply Real.sqrt_pos.2
      norm_num
    generalize (√(1 - 3 / 6 : ℝ))⁻¹ = i at *
    generalize (1 / √6 ^ 3 : ℝ) = w at *
    have : (-1 + 2 / (16 / 3 : ℝ)) * i * i + (16 / 3) ^ 2 * (w * i) * (w * i) = -((1 - 3 / 8) - (16 / 3) ^ 2 / 216) * (i * i) := by
      linear_combination (16 / 3 : ℝ) ^ 2 * i * i * h6
    have h3 : 0 < i * i := by positivity
    norm_num at this ⊢
    nlinarith)
  have hd : planeDist (16 / 3) 0 6 0 = 2 / 3 := by
    unfold planeDist
    rw [show (16 / 3 * Real.cos 0 - 6 * Real.cos 0) ^ 2 + (16 / 3 * Real.sin 0 - 6 * Real.sin 0) ^ 2 = ((2 / 3) ^ 2 : ℝ) by norm_num]
    exact Real.sqrt_sq (by norm_num)
  exact ⟨p, hp 1 1 ![0, 16 / 3, Real.pi / 2, 0] rfl rfl (Or.inl rfl)
    (show planeDist (16 / 3) 0 6 0 < 4 * |1| by rw [hd]; norm_num)⟩

/-- On the circle the velocity is right. -/
example : IsRotating (gmunu 0 ![0, 6, Real.pi / 2, 1]) ((exSpot .normal).getVelocity ![0, 6, Real.pi / 2, 1]) := by
  have hw : 0 < √(6 : ℝ) := Real.sqrt_pos.2 (by norm_num)
  have hw2 : √(6 : ℝ) ^ 2 = 6 := Real.sq_sqrt (by norm_num)
  refine (own_circle (s := exSpot .normal) (a := 0) (dir := 1) rfl rfl (pos := ![0, 6, Real.pi / 2, 1]) (show (0 : ℝ) < 6 by norm_num)
    (show (0 : ℝ) < 6 * 6 - 2 * 6 + 0 * 0 by norm_num) rfl (Or.inl rfl) ?_ rfl rfl).1
  show 0 < √(6 : ℝ) ^ 3 - 3 * √6 + 2 * 0 * 1
  nlinarith

end Gyoto.HotSpot
