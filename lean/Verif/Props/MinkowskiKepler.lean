import Verif.Lemmas.Kepler
import Verif.Lemmas.HotSpot

/-!
# C145: the Keplerian motion and the Keplerian observer of `Minkowski`
-/

namespace Gyoto.MinkowskiKepler

open Gyoto.MetricAlg

/-- The parts of `Obeys`, Cartesian coordinates, with the distance. -/
private theorem parts {γ : ℝ → State} {τ : ℝ} (h : Obeys diffCartesian γ τ) (ht : (γ τ).td ≠ 0) :
    ∃ T, 0 < dist (γ τ) ∧
    T = -(γ τ).td ^ 3 * ((γ τ).x * (γ τ).xd + (γ τ).y * (γ τ).yd + (γ τ).z * (γ τ).zd) / dist (γ τ) ^ 3 ∧
    HasDerivAt (fun s => (γ s).x) (γ τ).xd τ ∧ HasDerivAt (fun s => (γ s).y) (γ τ).yd τ ∧
    HasDerivAt (fun s => (γ s).z) (γ τ).zd τ ∧ HasDerivAt (fun s => (γ s).td) T τ ∧
    HasDerivAt (fun s => (γ s).xd) (-(γ τ).x * (γ τ).td ^ 2 / dist (γ τ) ^ 3 + T / (γ τ).td * (γ τ).xd) τ ∧
    HasDerivAt (fun s => (γ s).yd) (-(γ τ).y * (γ τ).td ^ 2 / dist (γ τ) ^ 3 + T / (γ τ).td * (γ τ).yd) τ ∧
    HasDerivAt (fun s => (γ s).zd) (-(γ τ).z * (γ τ).td ^ 2 / dist (γ τ) ^ 3 + T / (γ τ).td * (γ τ).zd) τ := by
  obtain ⟨d, hd, _, hx, hy, hz, htd, hxd, hyd, hzd⟩ := h
  obtain ⟨hD, _, ex, ey, ez, et, exd, eyd, ezd⟩ := diffCartesian_eq hd ht
  rw [ex] at hx
  rw [ey] at hy
  rw [ez] at hz
  rw [exd] at hxd
  rw [eyd] at hyd
  rw [ezd] at hzd
  exact ⟨d.td, hD, et, hx, hy, hz, htd, hxd, hyd, hzd⟩

/-- **C145.** Newton's law in Cartesian coordinates: along the motion the derivative of `dx/dt` with respect to proper time is that of `t`
times `-x/r³`, for the three coordinates. -/
theorem newton_ok {γ : ℝ → State} {τ : ℝ} (h : Obeys diffCartesian γ τ) (ht : (γ τ).td ≠ 0) :
    HasDerivAt (fun s => (γ s).t) (γ τ).td τ ∧
    HasDerivAt (fun s => (γ s).xd / (γ s).td) ((γ τ).td * (-(γ τ).x / dist (γ τ) ^ 3)) τ ∧
    HasDerivAt (fun s => (γ s).yd / (γ s).td) ((γ τ).td * (-(γ τ).y / dist (γ τ) ^ 3)) τ ∧
    HasDerivAt (fun s => (γ s).zd / (γ s).td) ((γ τ).td * (-(γ τ).z / dist (γ τ) ^ 3)) τ := by
  have h0 : HasDerivAt (fun s => (γ s).t) (γ τ).td τ := by
    obtain ⟨d, hd, h1, _⟩ := h
    rw [(diffCartesian_eq hd ht).2.1] at h1
    exact h1
  obtain ⟨T, hD, _, _, _, _, htd, hxd, hyd, hzd⟩ := parts h ht
  refine ⟨h0, ?_, ?_, ?_⟩
  · refine (hxd.div htd ht).congr_deriv ?_
    field_simp
    ring
  · refine (hyd.div htd ht).congr_deriv ?_
    field_simp
    ring
  · refine (hzd.div htd ht).congr_deriv ?_
    field_simp
    ring

/-- **C145.** The norm of the velocity: `(norm + 1) / (dt/dτ)²` is a constant of the motion, so a velocity of norm -1 keeps it. -/
theorem norm_ok {γ : ℝ → State} (h : ∀ τ, Obeys diffCartesian γ τ) (ht : ∀ τ, (γ τ).td ≠ 0) :
    (∀ τ τ', (norm2 (γ τ) + 1) / (γ τ).td ^ 2 = (norm2 (γ τ') + 1) / (γ τ').td ^ 2) ∧
    (∀ τ τ', norm2 (γ τ) = -1 → norm2 (γ τ') = -1) := by
  have key : ∀ τ, HasDerivAt (fun s => (norm2 (γ s) + 1) / (γ s).td ^ 2) 0 τ := by
    intro τ
    obtain ⟨T, hD, eT, _, _, _, htd, hxd, hyd, hzd⟩ := parts (h τ) (ht τ)
    have ht := ht τ
    have hn : HasDerivAt (fun s => norm2 (γ s) + 1) _ τ :=
      ((((htd.pow 2).neg.add (hxd.pow 2)).add (hyd.pow 2)).add (hzd.pow 2)).add_const 1
    refine (hn.div (htd.pow 2) (pow_ne_zero 2 ht)).congr_deriv ?_
    simp only [norm2, Pi.pow_apply, Nat.cast_ofNat, Nat.add_one_sub_one, pow_one, Pi.add_apply, Pi.neg_apply]
    rw [eT]
    generalize (γ τ).td = td at *
    generalize dist (γ τ) = D at *
    field_simp
    ring
  have hc : ∀ τ τ', (norm2 (γ τ) + 1) / (γ τ).td ^ 2 = (norm2 (γ τ') + 1) / (γ τ').td ^ 2 :=
    fun τ τ' => is_const_of_deriv_eq_zero (fun s => (key s).differentiableAt) (fun s => (key s).deriv) τ τ'
  refine ⟨hc, fun τ τ' hm => ?_⟩
  have := hc τ' τ
  rw [hm, neg_add_cancel, zero_div, div_eq_zero_iff] at this
  rcases this with h' | h'
  · linarith
  · exact absurd h' (pow_ne_zero 2 (ht τ'))

/-- **C145.** Newton's angular momentum is a constant of the motion. -/
theorem momentum_ok {γ : ℝ → State} (h : ∀ τ, Obeys diffCartesian γ τ) (ht : ∀ τ, (γ τ).td ≠ 0) (τ τ' : ℝ) :
    momentum (γ τ) = momentum (γ τ') := by
  have key : ∀ τ, HasDerivAt (fun s => (momentum (γ s)).1) 0 τ ∧ HasDerivAt (fun s => (momentum (γ s)).2.1) 0 τ ∧
      HasDerivAt (fun s => (momentum (γ s)).2.2) 0 τ := by
    intro τ
    obtain ⟨T, hD, _, hx, hy, hz, _⟩ := parts (h τ) (ht τ)
    obtain ⟨_, vx, vy, vz⟩ := newton_ok (h τ) (ht τ)
    have ht := ht τ
    refine ⟨?_, ?_, ?_⟩
    · refine ((hy.mul vz).sub (hz.mul vy)).congr_deriv ?_
      field_simp
      ring
    · refine ((hz.mul vx).sub (hx.mul vz)).congr_deriv ?_
      field_simp
      ring
    · refine ((hx.mul vy).sub (hy.mul vx)).congr_deriv ?_
      field_simp
      ring
  refine Prod.ext ?_ (Prod.ext ?_ ?_)
  · exact is_const_of_deriv_eq_zero (fun s => (key s).1.differentiableAt) (fun s => (key s).1.deriv) τ τ'
  · exact is_const_of_deriv_eq_zero (fun s => (key s).2.1.differentiableAt) (fun s => (key s).2.1.deriv) τ τ'
  · exact is_const_of_deriv_eq_zero (fun s => (key s).2.2.differentiableAt) (fun s => (key s).2.2.deriv) τ τ'

/-- **C145.** Newton's energy is a constant of the motion. -/
theorem energy_ok {γ : ℝ → State} (h : ∀ τ, Obeys diffCartesian γ τ) (ht : ∀ τ, (γ τ).td ≠ 0) (τ τ' : ℝ) :
    energy (γ τ) = energy (γ τ') := by
  have key : ∀ τ, HasDerivAt (fun s => energy (γ s)) 0 τ := by
    intro τ
    obtain ⟨T, hD, _, hx, hy, hz, _⟩ := parts (h τ) (ht τ)
    obtain ⟨_, vx, vy, vz⟩ := newton_ok (h τ) (ht τ)
    have ht := ht τ
    have hn : (γ τ).x ^ 2 + (γ τ).y ^ 2 + (γ τ).z ^ 2 ≠ 0 := by
      intro e
      have e' : dist (γ τ) = 0 := by rw [dist, e, Real.sqrt_zero]
      exact hD.ne' e'
    have hd : HasDerivAt (fun s => dist (γ s)) _ τ := (((hx.pow 2).add (hy.pow 2)).add (hz.pow 2)).sqrt hn
    refine (((((vx.pow 2).add (vy.pow 2)).add (vz.pow 2)).div_const 2).sub
      ((hasDerivAt_const τ (1 : ℝ)).div hd hD.ne')).congr_deriv ?_
    simp only [Pi.pow_apply, Nat.cast_ofNat, Nat.add_one_sub_one, pow_one, Pi.add_apply]
    have e' : √((γ τ).x ^ 2 + (γ τ).y ^ 2 + (γ τ).z ^ 2) = dist (γ τ) := rfl
    rw [e']
    generalize (γ τ).td = td at *
    generalize dist (γ τ) = D at *
    field_simp
    ring
  exact is_const_of_deriv_eq_zero (fun s => (key s).differentiableAt) (fun s => (key s).deriv) τ τ'

/-- **C145.** Spherical coordinates, off the axis and with a colatitude between 0 and π: a motion that obeys the law of these coordinates
obeys, in Cartesian ones, that of Cartesian coordinates. -/
theorem spherical_partial {γ : ℝ → State} {τ : ℝ} (h : Obeys diffSpherical γ τ) (hr : 0 < (γ τ).x)
    (hs : 0 < Real.sin (γ τ).y) :
    Obeys diffCartesian (fun s => toCartesian (γ s)) τ := by
  obtain ⟨d, hd, dt, dr, dh, df, dtd, drd, dhd, dfd⟩ := h
  have hsc := Real.sin_sq_add_cos_sq (γ τ).y
  have hpq : Real.cos (γ τ).z ^ 2 + Real.sin (γ τ).z ^ 2 = 1 := Real.cos_sq_add_sin_sq _
  have hR : (toCartesian (γ τ)).x * (toCartesian (γ τ)).x + (toCartesian (γ τ)).y * (toCartesian (γ τ)).y
      + (toCartesian (γ τ)).z * (toCartesian (γ τ)).z = (γ τ).x ^ 2 := by
    simp only [toCartesian]
    linear_combination (γ τ).x ^ 2 * Real.sin (γ τ).y ^ 2 * hpq + (γ τ).x ^ 2 * hsc
  have hp : ((toCartesian (γ τ)).x * (toCartesian (γ τ)).x + (toCartesian (γ τ)).y * (toCartesian (γ τ)).y
      + (toCartesian (γ τ)).z * (toCartesian (γ τ)).z) ^ (1.5 : ℝ) = (γ τ).x * (γ τ).x * (γ τ).x := by
    rw [hR, pow15 (by positivity), Real.sqrt_sq hr.le]
    ring
  have hr' := hr.ne'
  have hs' := hs.ne'
  have h3 : (γ τ).x * (γ τ).x * (γ τ).x ≠ 0 := by positivity
  simp only [diffSpherical] at hd
  rw [if_neg h3] at hd
  obtain ⟨N, hN⟩ : ∃ N, N = newton (toCartesian (γ τ)) ((γ τ).x * (γ τ).x * (γ τ).x) := ⟨_, rfl⟩
  rw [← hN] at hd
  obtain ⟨T, X, Y, Z⟩ := N
  have hb := back_eq (rd := (γ τ).xd) (hd := (γ τ).yd) (fd := (γ τ).zd) (X := X) (Y := Y) (Z := Z) (t := (γ τ).t) (td := (γ τ).td)
    hr hs hsc hpq
  have hb' : back (γ τ).x (γ τ).xd (toCartesian (γ τ)) X Y Z = _ := hb
  rw [hb'] at hd
  injection hd with hd
  subst hd
  simp only at dt dr dh df dtd drd dhd dfd
  refine ⟨{ t := (γ τ).td, x := (toCartesian (γ τ)).xd, y := (toCartesian (γ τ)).yd, z := (toCartesian (γ τ)).zd
            td := T, xd := X, yd := Y, zd := Z }, ?_, dt, ?_, ?_, ?_, dtd, ?_, ?_, ?_⟩
  · simp only [diffCartesian]
    rw [hp, if_neg h3, ← hN]
    rfl
  · refine ((dr.mul dh.sin).mul df.cos).congr_deriv ?_
    simp only [toCartesian, Pi.mul_apply]
    ring
  · refine ((dr.mul dh.sin).mul df.sin).congr_deriv ?_
    simp only [toCartesian, Pi.mul_apply]
    ring
  · refine (dr.mul dh.cos).congr_deriv ?_
    simp only [toCartesian]
    ring
  · refine (((((drd.mul dh.sin).mul df.cos).add (((dr.mul dhd).mul dh.cos).mul df.cos))).sub
      (((dr.mul dfd).mul dh.sin).mul df.sin)).congr_deriv ?_
    simp only [Pi.mul_apply]
    field_simp
    linear_combination (X * Real.cos (γ τ).z ^ 2 + Y * Real.cos (γ τ).z * Real.sin (γ τ).z + (γ τ).x * Real.sin (γ τ).y * Real.cos (γ τ).z * (γ τ).zd ^ 2) * hsc + X * hpq
  · refine (((((drd.mul dh.sin).mul df.sin).add (((dr.mul dhd).mul dh.cos).mul df.sin))).add
      (((dr.mul dfd).mul dh.sin).mul df.cos)).congr_deriv ?_
    simp only [Pi.mul_apply]
    field_simp
    linear_combination (X * Real.cos (γ τ).z * Real.sin (γ τ).z + Y * Real.sin (γ τ).z ^ 2 + (γ τ).x * Real.sin (γ τ).y * Real.sin (γ τ).z * (γ τ).zd ^ 2) * hsc + Y * hpq
  · refine ((drd.mul dh.cos).sub ((dr.mul dhd).mul dh.sin)).congr_deriv ?_
    simp only [Pi.mul_apply]
    field_simp
    linear_combination Z * hsc

/-- **C145.** The law refuses (`diff` returns 1) at the centre and nowhere else. -/
theorem centre_iff (s : State) :
    (diffCartesian s = none ↔ s.x = 0 ∧ s.y = 0 ∧ s.z = 0) ∧ (diffSpherical s = none ↔ s.x = 0) := by
  have hn : 0 ≤ s.x * s.x + s.y * s.y + s.z * s.z := by
    have := mul_self_nonneg s.x
    have := mul_self_nonneg s.y
    have := mul_self_nonneg s.z
    linarith
  constructor
  · simp only [diffCartesian]
    by_cases h : (s.x * s.x + s.y * s.y + s.z * s.z) ^ (1.5 : ℝ) = 0
    · rw [if_pos h]
      have h0 : s.x * s.x + s.y * s.y + s.z * s.z = 0 := (Real.rpow_eq_zero hn (by norm_num)).1 h
      refine ⟨fun _ => ?_, fun _ => rfl⟩
      have h1 := mul_self_nonneg s.x
      have h2 := mul_self_nonneg s.y
      have h3 := mul_self_nonneg s.z
      exact ⟨mul_self_eq_zero.1 (by linarith), mul_self_eq_zero.1 (by linarith), mul_self_eq_zero.1 (by linarith)⟩
    · rw [if_neg h]
      refine ⟨fun h' => absurd h' (by simp), fun ⟨h1, h2, h3⟩ => absurd ?_ h⟩
      rw [h1, h2, h3, mul_zero, add_zero, add_zero, Real.zero_rpow (by norm_num)]
  · simp only [diffSpherical]
    by_cases h : s.x * s.x * s.x = 0
    · rw [if_pos h]
      refine ⟨fun _ => ?_, fun _ => rfl⟩
      simpa using h
    · rw [if_neg h]
      refine ⟨fun h' => absurd h' (by simp), fun h1 => absurd ?_ h⟩
      rw [h1, mul_zero]

private theorem cartesian_of {s : State} {r3 : ℝ} (h : (s.x * s.x + s.y * s.y + s.z * s.z) ^ (1.5 : ℝ) = r3) (h0 : r3 ≠ 0) :
    diffCartesian s = some { t := s.td, x := s.xd, y := s.yd, z := s.zd, td := (newton s r3).1, xd := (newton s r3).2.1,
                             yd := (newton s r3).2.2.1, zd := (newton s r3).2.2.2 } := by
  subst h
  exact if_neg h0

/-- The circular motion of radius `R`, of angular velocity `w`, whose time runs as `k` times proper time. -/
noncomputable def round (R w k : ℝ) (τ : ℝ) : State :=
  { t := k * τ
    x := R * Real.cos (w * k * τ)
    y := R * Real.sin (w * k * τ)
    z := 0
    td := k
    xd := -(R * (w * k)) * Real.sin (w * k * τ)
    yd := R * (w * k) * Real.cos (w * k * τ)
    zd := 0 }

/-- **C145.** Kepler's third law: a circular motion obeys the law when the square of its angular velocity is the inverse of the cube of
its radius. -/
theorem kepler_third {R w k : ℝ} (hR : 0 < R) (hk : k ≠ 0) (hw : w ^ 2 * R ^ 3 = 1) (τ : ℝ) :
    Obeys diffCartesian (round R w k) τ := by
  have hcs := Real.cos_sq_add_sin_sq (w * k * τ)
  have hn : R * Real.cos (w * k * τ) * (R * Real.cos (w * k * τ)) + R * Real.sin (w * k * τ) * (R * Real.sin (w * k * τ)) + 0 * 0
      = R ^ 2 := by linear_combination R ^ 2 * hcs
  have hp : (R * Real.cos (w * k * τ) * (R * Real.cos (w * k * τ)) + R * Real.sin (w * k * τ) * (R * Real.sin (w * k * τ)) + 0 * 0)
      ^ (1.5 : ℝ) = R ^ 3 := by rw [hn, pow15 (by positivity), Real.sqrt_sq hR.le]
  have hl : HasDerivAt (fun s : ℝ => w * k * s) (w * k) τ := by simpa using (hasDerivAt_id τ).const_mul (w * k)
  have hs := hl.sin
  have hc := hl.cos
  refine ⟨{ t := k, x := -(R * (w * k)) * Real.sin (w * k * τ), y := R * (w * k) * Real.cos (w * k * τ), z := 0, td := 0
            xd := -(R * Real.cos (w * k * τ)) * (w * k) ^ 2, yd := -(R * Real.sin (w * k * τ)) * (w * k) ^ 2, zd := 0 },
    ?_, ?_, ?_, ?_, ?_, ?_, ?_, ?_, ?_⟩
  · have e0 : R * Real.cos (w * k * τ) * (-(R * (w * k)) * Real.sin (w * k * τ))
        + R * Real.sin (w * k * τ) * (R * (w * k) * Real.cos (w * k * τ)) + 0 * 0 = 0 := by ring
    rw [cartesian_of (s := round R w k τ) (r3 := R ^ 3) hp (by positivity)]
    simp only [round, newton]
    rw [e0]
    congr 1
    congr 1
    · simp
    · rw [mul_zero, zero_div, zero_mul, add_zero]
      field_simp
      linear_combination Real.cos (w * k * τ) * hw
    · rw [mul_zero, zero_div, zero_mul, add_zero]
      field_simp
      linear_combination Real.sin (w * k * τ) * hw
    · simp
  · simpa [round] using (hasDerivAt_id τ).const_mul k
  · exact (hc.const_mul R).congr_deriv (by ring)
  · exact (hs.const_mul R).congr_deriv (by ring)
  · exact hasDerivAt_const τ (0 : ℝ)
  · exact hasDerivAt_const τ k
  · exact (hs.const_mul _).congr_deriv (by ring)
  · exact (hc.const_mul _).congr_deriv (by ring)
  · exact hasDerivAt_const τ (0 : ℝ)

/-- The motion of radius 4 and of angular velocity 1/8, at norm -1 (`dt/dτ = 2/√3`), obeys the law. -/
example (τ : ℝ) : Obeys diffCartesian (round 4 (1 / 8) (2 / √3)) τ ∧ norm2 (round 4 (1 / 8) (2 / √3) τ) = -1 := by
  refine ⟨kepler_third (by norm_num) (by positivity) (by norm_num) τ, ?_⟩
  have h3 : (√3 : ℝ) ^ 2 = 3 := Real.sq_sqrt (by norm_num)
  have h3' : (√3 : ℝ) ≠ 0 := by positivity
  have hcs := Real.cos_sq_add_sin_sq (1 / 8 * (2 / √3) * τ)
  simp only [norm2, round]
  field_simp
  have hcs' : Real.cos (1 / 8 * (2 / √3) * τ) ^ 2 = 1 - Real.sin (1 / 8 * (2 / √3) * τ) ^ 2 := by linarith
  ring_nf at hcs' ⊢
  rw [hcs', h3]
  ring

/-- A motion through a state with given second derivatives. -/
private theorem through {f : State → Option State} {s d : State} (h : f s = some d) (h0 : d.t = s.td) (h1 : d.x = s.xd)
    (h2 : d.y = s.yd) (h3 : d.z = s.zd) : ∃ γ, γ 0 = s ∧ Obeys f γ 0 := by
  have lin : ∀ a b : ℝ, HasDerivAt (fun u : ℝ => a + b * u) b 0 := fun a b => by
    simpa using ((hasDerivAt_id (0 : ℝ)).const_mul b).const_add a
  refine ⟨fun u => { t := s.t + d.t * u, x := s.x + d.x * u, y := s.y + d.y * u, z := s.z + d.z * u
                     td := s.td + d.td * u, xd := s.xd + d.xd * u, yd := s.yd + d.yd * u, zd := s.zd + d.zd * u }, ?_, d, ?_,
    lin _ _, lin _ _, lin _ _, lin _ _, lin _ _, lin _ _, lin _ _, lin _ _⟩
  · simp
  · simpa using h

/-- **C145, wrong beyond the poles.** For a colatitude past 0 (which a step of the integrator reaches when it crosses the axis) the
derivative of the colatitude has the wrong sign: there is a motion, of norm -1, that obeys the law of spherical coordinates and does not
obey that of Cartesian ones.  What is proved instead: `spherical_partial`. -/
theorem pole_wrong : ∃ γ : ℝ → State, Obeys diffSpherical γ 0 ∧ norm2 (toCartesian (γ 0)) = -1 ∧
    ¬ Obeys diffCartesian (fun s => toCartesian (γ s)) 0 := by
  have hs : Real.sin (-(Real.pi / 2)) = -1 := by rw [Real.sin_neg, Real.sin_pi_div_two]
  have hc : Real.cos (-(Real.pi / 2)) = 0 := by rw [Real.cos_neg, Real.cos_pi_div_two]
  obtain ⟨s, es⟩ : ∃ s : State, s = ⟨0, 1, -(Real.pi / 2), 0, 2, 1, 1, 1⟩ := ⟨_, rfl⟩
  have ecart : toCartesian s = ⟨0, -1, 0, 0, 2, -1, -1, 1⟩ := by
    rw [es]
    simp only [toCartesian, hs, hc, Real.sin_zero, Real.cos_zero]
    norm_num
  obtain ⟨d, hd, hdt⟩ : ∃ d, diffSpherical s = some d ∧ d.t = s.td ∧ d.x = s.xd ∧ d.y = s.yd ∧ d.z = s.zd ∧ d.yd = 6 := by
    rcases hd : diffSpherical s with _ | d
    · have h0 := (centre_iff s).2.1 hd
      rw [es] at h0
      norm_num at h0
    refine ⟨d, rfl, ?_⟩
    simp only [diffSpherical] at hd
    rw [if_neg (by rw [es]; norm_num)] at hd
    injection hd with hd
    rw [ecart] at hd
    subst hd
    rw [es]
    simp only [newton, back]
    norm_num
  obtain ⟨h0, h1, h2, h3, h6⟩ := hdt
  obtain ⟨γ, hγ, ho⟩ := through hd h0 h1 h2 h3
  refine ⟨γ, ho, ?_, ?_⟩
  · rw [hγ, ecart]
    norm_num [norm2]
  · intro hc'
    obtain ⟨d', hd', _, _, _, _, _, _, _, hz⟩ := hc'
    obtain ⟨d'', hd'', _, dr, dh, _, _, drd, dhd, _⟩ := ho
    rw [hγ, hd] at hd''
    injection hd'' with e
    subst e
    have hz' := ((drd.mul dh.cos).sub ((dr.mul dhd).mul dh.sin))
    have := hz.unique hz'
    have ht : (toCartesian (γ 0)).td ≠ 0 := by rw [hγ, ecart]; norm_num
    have heq := diffCartesian_eq hd' ht
    rw [heq.2.2.2.2.2.2.2.2, heq.2.2.2.2.2.1] at this
    simp only [Pi.mul_apply] at this
    rw [hγ, ecart, h1, h2, h6, es] at this
    simp only [hs, hc, dist] at this
    norm_num at this

/-! ## The observer -/

/-- **C145.** The frame computed for a Keplerian observer: on the conditions of the code it is orthonormal, its velocity has norm -1 and
turns at `r^(-3/2)`, its first vector points against the motion, the second to the pole and the third to the centre. -/
theorem frame_ok {pos : Vec} {F : Frame} (h : keplerFrame pos = some F) :
    let g := Static.mkGmunu .spherical pos
    scalarProd g F.u F.u = -1 ∧ scalarProd g F.e1 F.e1 = 1 ∧ scalarProd g F.e2 F.e2 = 1 ∧ scalarProd g F.e3 F.e3 = 1 ∧
    scalarProd g F.u F.e1 = 0 ∧ scalarProd g F.u F.e2 = 0 ∧ scalarProd g F.u F.e3 = 0 ∧
    scalarProd g F.e1 F.e2 = 0 ∧ scalarProd g F.e1 F.e3 = 0 ∧ scalarProd g F.e2 F.e3 = 0 ∧
    F.u 3 = F.u 0 / (pos 1) ^ (1.5 : ℝ) ∧ 0 < F.u 0 ∧ F.e1 3 < 0 ∧ F.e2 2 < 0 ∧ F.e3 1 < 0 := by
  intro g
  simp only [keplerFrame] at h
  obtain ⟨r, hr⟩ : ∃ r, r = pos 1 := ⟨_, rfl⟩
  obtain ⟨P, hP⟩ : ∃ P, P = r * Real.sin (pos 2) * (r * Real.sin (pos 2)) := ⟨_, rfl⟩
  obtain ⟨w, hw⟩ : ∃ w, w = 1 / r ^ (1.5 : ℝ) := ⟨_, rfl⟩
  have hg : Static.mkGmunu .spherical pos = KerrBL.circ (-1) 1 (r * r) P 0 := by
    rw [hP, hr]
    rfl
  have h00 : KerrBL.circ (-1) 1 (r * r) P 0 0 0 = -1 := rfl
  have h11 : KerrBL.circ (-1) 1 (r * r) P 0 1 1 = 1 := rfl
  have h22 : KerrBL.circ (-1) 1 (r * r) P 0 2 2 = r * r := rfl
  have h33 : KerrBL.circ (-1) 1 (r * r) P 0 3 3 = P := rfl
  have hgg : g = KerrBL.circ (-1) 1 (r * r) P 0 := hg
  rw [hgg]
  rw [hg, h00, h11, h22, h33, ← hr, ← hw] at h
  by_cases c1 : -1 / (-1 + P * w * w) ≤ 0 ∨ (1 : ℝ) ≤ 0 ∨ r * r ≤ 0
  · rw [if_pos c1] at h
    exact absurd h (by simp)
  rw [if_neg c1] at h
  by_cases c2 : -1 * (P * w / -1) * (P * w / -1) + P ≤ 0
  · rw [if_pos c2] at h
    exact absurd h (by simp)
  rw [if_neg c2] at h
  push Not at c1 c2
  injection h with h
  subst h
  obtain ⟨u1, _, u3⟩ := c1
  have hut := Real.sq_sqrt u1.le
  have hf := Real.sq_sqrt c2.le
  have hh := Real.sq_sqrt u3.le
  have hut0 := Real.sqrt_pos.2 u1
  have hf0 := Real.sqrt_pos.2 c2
  have hh0 := Real.sqrt_pos.2 u3
  have hden : -1 + P * w * w ≠ 0 := by
    intro e
    rw [e, div_zero] at u1
    exact lt_irrefl _ u1
  generalize √(-1 / (-1 + P * w * w)) = ut at *
  generalize √(-1 * (P * w / -1) * (P * w / -1) + P) = f at *
  generalize √(r * r) = hs at *
  have hut' : ut ^ 2 * (-1 + P * w * w) = -1 := by rw [hut, div_mul_cancel₀ _ hden]
  have hff : f ^ 2 = P - P ^ 2 * w ^ 2 := by rw [hf]; ring
  simp only [HotSpot.sp_circ]
  have hf' := hf0.ne'
  have hh' := hh0.ne'
  refine ⟨?_, ?_, ?_, ?_, ?_, ?_, ?_, ?_, ?_, ?_, ?_, hut0, ?_, ?_, ?_⟩
  · simp only [Matrix.cons_val]
    linear_combination hut'
  · simp only [Matrix.cons_val]
    field_simp
    linear_combination -hff
  · simp only [Matrix.cons_val]
    field_simp
    linear_combination -hh
  · simp only [Matrix.cons_val]
    norm_num
  · simp only [Matrix.cons_val]
    ring
  · simp
  · simp
  · simp
  · simp
  · simp
  · show w * ut = ut / (pos 1) ^ (1.5 : ℝ)
    rw [hw, hr]
    ring
  · show -(1 / f) < 0
    have : 0 < 1 / f := by positivity
    linarith
  · show -1 / hs < 0
    exact div_neg_of_neg_of_pos (by norm_num) hh0
  · show -1 / √1 < 0
    norm_num

/-- **C145.** The conditions of the frame: outside the axis, and a speed less than that of light. -/
theorem frame_some {pos : Vec} (hr : 0 < pos 1) (hs : Real.sin (pos 2) ≠ 0) (hl : Real.sin (pos 2) ^ 2 < pos 1) :
    ∃ F, keplerFrame pos = some F := by
  obtain ⟨r, er⟩ : ∃ r, r = pos 1 := ⟨_, rfl⟩
  obtain ⟨P, hP⟩ : ∃ P, P = r * Real.sin (pos 2) * (r * Real.sin (pos 2)) := ⟨_, rfl⟩
  obtain ⟨w, hw⟩ : ∃ w, w = 1 / r ^ (1.5 : ℝ) := ⟨_, rfl⟩
  have hg : Static.mkGmunu .spherical pos = KerrBL.circ (-1) 1 (r * r) P 0 := by
    rw [hP, er]
    rfl
  have h00 : KerrBL.circ (-1) 1 (r * r) P 0 0 0 = -1 := rfl
  have h11 : KerrBL.circ (-1) 1 (r * r) P 0 1 1 = 1 := rfl
  have h22 : KerrBL.circ (-1) 1 (r * r) P 0 2 2 = r * r := rfl
  have h33 : KerrBL.circ (-1) 1 (r * r) P 0 3 3 = P := rfl
  rw [← er] at hr hl
  have hP0 : 0 < P := by
    rw [hP]
    exact mul_self_pos.2 (mul_ne_zero hr.ne' hs)
  have hw2 : w * w = 1 / r ^ 3 := by
    have h1 : √r ^ 2 = r := Real.sq_sqrt hr.le
    have h2 : √r ≠ 0 := (Real.sqrt_pos.2 hr).ne'
    rw [hw, pow15 hr.le]
    have h3 : r ^ 3 = √r ^ 6 := by
      calc r ^ 3 = (√r ^ 2) ^ 3 := by rw [h1]
        _ = √r ^ 6 := by ring
    rw [h3]
    field_simp
  have hlt : P * w * w < 1 := by
    rw [mul_assoc, hw2, hP, mul_one_div, div_lt_one (by positivity)]
    have h2 : 0 < r ^ 2 := by positivity
    calc r * Real.sin (pos 2) * (r * Real.sin (pos 2)) = r ^ 2 * Real.sin (pos 2) ^ 2 := by ring
      _ < r ^ 2 * r := mul_lt_mul_of_pos_left hl h2
      _ = r ^ 3 := by ring
  simp only [keplerFrame]
  rw [hg, h00, h11, h22, h33, ← er, ← hw]
  have c1 : ¬ (-1 / (-1 + P * w * w) ≤ 0 ∨ (1 : ℝ) ≤ 0 ∨ r * r ≤ 0) := by
    push Not
    exact ⟨div_pos_of_neg_of_neg (by norm_num) (by linarith), one_pos, mul_pos hr hr⟩
  have c2 : ¬ (-1 * (P * w / -1) * (P * w / -1) + P ≤ 0) := by
    push Not
    have h1 : -1 * (P * w / -1) * (P * w / -1) + P = P * (1 - P * w * w) := by ring
    rw [h1]
    exact mul_pos hP0 (by linarith)
  rw [if_neg c1, if_neg c2]
  exact ⟨_, rfl⟩

/-- **C145, wrong.** A Keplerian observer of the equatorial plane: the frame is computed, then the generic function asks for a circular
velocity that exists only with `Keplerian`, and throws. -/
theorem observer_wrong : ∃ pos : Vec, (∃ F, keplerFrame pos = some F) ∧ ∀ again, observerFrame false again pos = none := by
  have h := frame_some (pos := ![0, 4, Real.pi / 2, 0]) (by simp) (by simp) (by simp)
  refine ⟨_, h, fun again => ?_⟩
  obtain ⟨F, hF⟩ := h
  simp only [observerFrame, hF]
  rfl

end Gyoto.MinkowskiKepler
