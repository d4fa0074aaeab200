import Verif.Lemmas.DeformedTorus
import Mathlib.Analysis.Real.Pi.Bounds

/-!
# C121, C122: the deformed torus
-/

namespace Gyoto.DefTorus

open Gyoto.MetricAlg Gyoto.KerrBL Gyoto.Spacetime
open Gyoto.Transfer (Out)

/-! ## C121: the surface, and how it moves -/

/-- C121. The names of the seven kinds are read back; no other name is accepted. -/
theorem kind_names : (∀ p, parse (name p) = some p) ∧ ∀ k p, parse k = some p → name p = k := by
  refine ⟨fun p => by cases p <;> simp [name, parse], fun k p h => ?_⟩
  unfold parse at h
  split_ifs at h with h1 h2 h3 h4 h5 h6 h7 <;> (injection h with h; subst h; simp only [name, *])

example : parse (name .pureShear) = some .pureShear ∧ parse "rotation" = none := ⟨kind_names.1 _, by decide⟩

theorem grr_c (s : Torus) : gmunu s.a s.posc 1 1 = s.c ^ 2 / (s.c * s.c - 2 * s.c + s.a * s.a) := by
  rw [gmunu_11]
  show (s.c * s.c + s.a * s.a * (Real.cos (Real.pi / 2) * Real.cos (Real.pi / 2))) / (s.c * s.c - 2 * s.c + s.a * s.a) = _
  rw [Real.cos_pi_div_two]; ring

theorem ghh_c (s : Torus) : gmunu s.a s.posc 2 2 = s.c ^ 2 := by
  rw [gmunu_22]
  show s.c * s.c + s.a * s.a * (Real.cos (Real.pi / 2) * Real.cos (Real.pi / 2)) = _
  rw [Real.cos_pi_div_two]; ring

theorem sq_x {s : Torus} (hr : s.Ready) (r : ℝ) : (s.beta * s.c) ^ 2 * s.x r ^ 2 = gmunu s.a s.posc 1 1 * (r - s.c) ^ 2 := by
  have h0 : 0 ≤ gmunu s.a s.posc 1 1 := by
    rw [grr_c]; exact div_nonneg (sq_nonneg _) hr.2.1.le
  have h := Real.sq_sqrt h0
  have hb := hr.2.2.1
  have hc := hr.1.ne'
  rw [← h]
  unfold Torus.x
  field_simp

theorem sq_y {s : Torus} (hr : s.Ready) (θ : ℝ) : (s.beta * s.c) ^ 2 * s.y θ ^ 2 = gmunu s.a s.posc 2 2 * (Real.pi / 2 - θ) ^ 2 := by
  have h0 : 0 ≤ gmunu s.a s.posc 2 2 := by rw [ghh_c]; exact sq_nonneg _
  have h := Real.sq_sqrt h0
  have hb := hr.2.2.1
  have hc := hr.1.ne'
  rw [← h]
  unfold Torus.y
  field_simp

/-- C121. Where the deformation vanishes (`sin Ω t = 0`, and `cos Ω t = 1` for the rotation), or with `Eta` zero, the torus is the ellipse with
the semi-axes `Beta LargeRadius / ω` in proper lengths. -/
theorem ellipse {s : Torus} (hr : s.Ready) (pos : Vec)
    (h : s.kind ≠ .rotation ∧ s.eta = 0 ∨ Real.sin (s.Omega * pos 0) = 0 ∧ (s.kind = .rotation → Real.cos (s.Omega * pos 0) = 1)) :
    ∃ v, s.value pos = some v ∧ (v < 0 ↔
      s.omr2 * (s.c ^ 2 / (s.c * s.c - 2 * s.c + s.a * s.a) * (pos 1 - s.c) ^ 2) + s.omth2 * (s.c ^ 2 * (Real.pi / 2 - pos 2) ^ 2) <
        (s.beta * s.c) ^ 2) := by
  have hes : s.kind ≠ .rotation → s.eta * Real.sin (s.Omega * pos 0) = 0 := by
    rcases h with h | h
    · simp [h.2]
    · simp [h.1]
  have hsc : s.kind = .pureShear → s.scale (pos 0) ≠ 0 := by
    intro hk
    unfold Torus.scale
    rw [hes (by rw [hk]; simp)]; norm_num
  have hco : s.X (pos 0) (pos 1) (pos 2) = s.x (pos 1) ∧ s.Y (pos 0) (pos 1) (pos 2) = s.y (pos 2) := by
    rcases hk : s.kind
    case rotation =>
      rcases h with h | h
      · exact absurd hk h.1
      · simp [Torus.X, Torus.Y, Torus.coefs, hk, h.1, h.2 hk]
    all_goals
      have e := hes (by rw [hk]; simp)
      simp [Torus.X, Torus.Y, Torus.coefs, hk, e]
  refine ⟨_, if_pos ⟨hr, hsc⟩, ?_⟩
  unfold Torus.f
  rw [hco.1, hco.2, ← grr_c s, ← ghh_c s, ← sq_x hr, ← sq_y hr]
  have hp : 0 < (s.beta * s.c) ^ 2 := by
    have := mul_ne_zero hr.2.2.1 hr.1.ne'
    positivity
  generalize (s.beta * s.c) ^ 2 = K at *
  generalize s.x (pos 1) = x
  generalize s.y (pos 2) = y
  constructor
  · intro h
    nlinarith [mul_lt_mul_of_pos_left h hp]
  · intro h
    by_contra hn
    nlinarith [mul_le_mul_of_nonneg_left (not_lt.1 hn) hp.le]

/-- C121. The deformations other than the expansion keep the area of the section. -/
theorem area_kept {s : Torus} (t : ℝ) (h : s.kind ≠ .expansion) (h7 : s.kind = .pureShear → s.scale t ≠ 0) :
    (s.coefs t).a1 * (s.coefs t).b2 - (s.coefs t).a2 * (s.coefs t).b1 = 1 := by
  have sc := Real.sin_sq_add_cos_sq (s.Omega * t)
  unfold Torus.scale at h7
  rcases hk : s.kind <;> simp only [Torus.coefs, hk]
  case rotation => linear_combination sc
  case expansion => exact absurd hk h
  case pureShear =>
    have := h7 hk
    field_simp; ring
  all_goals ring

/-- C121, full statement refuted: "the gas moves with the surface". For every kind, place and date the rate of the function for the gas is twice
its rate at a fixed place: the surface is carried by the opposite of the motion of the gas. -/
theorem opposite_wrong {s : Torus} (hr : s.Ready) (t r θ : ℝ) (h : s.kind = .pureShear ∨ s.kind = .expansion → s.scale t ≠ 0) :
    CarriedBy s.f t r θ (-(s.drift t r θ).1) (-(s.drift t r θ).2) ∧
    ∃ d, RateAlong s.f t r θ 0 0 d ∧ RateAlong s.f t r θ (s.drift t r θ).1 (s.drift t r θ).2 (2 * d) := by
  have R := rate s t fun e => h (Or.inl e)
  obtain ⟨e1, e2⟩ := drift_spec hr t r θ h
  refine ⟨?_, _, rate_f R r θ 0 0, ?_⟩
  · have q := rate_f R r θ (-(s.drift t r θ).1) (-(s.drift t r θ).2)
    have z1 : s.dX (s.dcoefs t) t r θ (-(s.drift t r θ).1) (-(s.drift t r θ).2) = 0 := by
      unfold Torus.dX; linear_combination -e1
    have z2 : s.dY (s.dcoefs t) t r θ (-(s.drift t r θ).1) (-(s.drift t r θ).2) = 0 := by
      unfold Torus.dY; linear_combination -e2
    rw [z1, z2] at q
    simpa [CarriedBy] using q
  · have q := rate_f R r θ (s.drift t r θ).1 (s.drift t r θ).2
    have z1 : s.dX (s.dcoefs t) t r θ (s.drift t r θ).1 (s.drift t r θ).2 = 2 * s.dX (s.dcoefs t) t r θ 0 0 := by
      unfold Torus.dX; linear_combination e1
    have z2 : s.dY (s.dcoefs t) t r θ (s.drift t r θ).1 (s.drift t r θ).2 = 2 * s.dY (s.dcoefs t) t r θ 0 0 := by
      unfold Torus.dY; linear_combination e2
    rw [z1, z2] at q
    unfold RateAlong at q ⊢
    exact q.congr_deriv (by ring)

theorem ready_new {a : ℝ} (ha : 0 ≤ a) : (Torus.new a).Ready := by
  refine ⟨by norm_num [Torus.new], ?_, by norm_num [Torus.new], ?_⟩
  · show (0 : ℝ) < 10.8 * 10.8 - 2 * 10.8 + a * a
    nlinarith
  · show (10.8 : ℝ) ^ (1.5 : ℝ) + a ≠ 0
    have : (0 : ℝ) < (10.8 : ℝ) ^ (1.5 : ℝ) := Real.rpow_pos_of_pos (by norm_num) _
    positivity

/-- C121, full statement refuted, for a new torus around a Schwarzschild black hole: at the date 0 the gas moves with the surface at no radius but
that of the centre. -/
theorem new_moves_wrong (r θ : ℝ) (h : r ≠ 10.8) :
    ¬ CarriedBy (Torus.new 0).f 0 r θ ((Torus.new 0).drift 0 r θ).1 ((Torus.new 0).drift 0 r θ).2 := by
  have hr := ready_new le_rfl
  have hk : (Torus.new 0).kind = .radialTranslation := rfl
  have R := rate (Torus.new 0) 0 (by rw [hk]; simp)
  obtain ⟨e1, e2⟩ := drift_spec hr 0 r θ (by rw [hk]; simp)
  intro hc
  have q := rate_f R r θ ((Torus.new 0).drift 0 r θ).1 ((Torus.new 0).drift 0 r θ).2
  have u := HasDerivAt.unique hc q
  have z1 : (Torus.new 0).dX ((Torus.new 0).dcoefs 0) 0 r θ ((Torus.new 0).drift 0 r θ).1 ((Torus.new 0).drift 0 r θ).2 = 2 * (0.01 * (Torus.new 0).Omega) := by
    unfold Torus.dX
    rw [e1]
    simp only [Torus.dcoefs, hk, mul_zero, Real.cos_zero, zero_mul]
    simp only [Torus.new]; ring
  have z2 : (Torus.new 0).dY ((Torus.new 0).dcoefs 0) 0 r θ ((Torus.new 0).drift 0 r θ).1 ((Torus.new 0).drift 0 r θ).2 = 0 := by
    unfold Torus.dY
    rw [e2]
    simp [Torus.dcoefs, hk]
  have z3 : (Torus.new 0).X 0 r θ = (Torus.new 0).x r := by simp [Torus.X, Torus.coefs, hk]
  rw [z1, z2, z3] at u
  have hO : (Torus.new 0).Omega ≠ 0 := one_div_ne_zero hr.2.2.2
  have hx : (Torus.new 0).x r ≠ 0 := by
    intro h0
    have := sq_x hr r
    rw [h0, grr_c] at this
    have h1 : (r - (Torus.new 0).c) ^ 2 ≠ 0 := pow_ne_zero 2 (sub_ne_zero.2 h)
    have h2 : (Torus.new 0).c ^ 2 / ((Torus.new 0).c * (Torus.new 0).c - 2 * (Torus.new 0).c + (Torus.new 0).a * (Torus.new 0).a) ≠ 0 :=
      div_ne_zero (pow_ne_zero 2 hr.1.ne') hr.2.1.ne'
    exact mul_ne_zero h2 h1 (by rw [← this]; ring)
  have ho : (Torus.new 0).omr2 ≠ 0 := by
    show (1 : ℝ) - 6 / 10.8 + 8 * 0 * 10.8 ^ (-1.5 : ℝ) - 3 * 0 * 0 / (10.8 * 10.8) ≠ 0
    rw [mul_zero, zero_mul]; norm_num
  have : 2 * ((Torus.new 0).omr2 * (Torus.new 0).x r * (2 * (0.01 * (Torus.new 0).Omega))) ≠ 0 :=
    mul_ne_zero two_ne_zero (mul_ne_zero (mul_ne_zero ho hx) (mul_ne_zero two_ne_zero (mul_ne_zero (by norm_num) hO)))
  exact this (by rw [mul_zero, add_zero] at u; exact u.symm)

/-- C121, full statement refuted: "the torus is bounded". A centre where circular orbits are not stable is accepted, and then the whole equatorial
plane is inside. -/
theorem unstable_wrong {s : Torus} (hr : s.Ready) (hk : s.kind = .radialTranslation) (ho : s.omr2 ≤ 0) (t r φ : ℝ) :
    ∃ v, s.value ![t, r, Real.pi / 2, φ] = some v ∧ v < 0 := by
  refine ⟨_, if_pos ⟨hr, by rw [hk]; simp⟩, ?_⟩
  show s.f t r (Real.pi / 2) < 0
  have hy : s.Y t r (Real.pi / 2) = 0 := by simp [Torus.Y, Torus.coefs, hk, y_eq]
  unfold Torus.f
  rw [hy]
  nlinarith [mul_self_nonneg (s.X t r (Real.pi / 2))]

/-- Such a torus: five gravitational radii from a Schwarzschild black hole. -/
example (t r φ : ℝ) : ∃ v, ({ Torus.new 0 with c := 5 } : Torus).value ![t, r, Real.pi / 2, φ] = some v ∧ v < 0 := by
  refine unstable_wrong ⟨by norm_num, by norm_num [Torus.new], by norm_num [Torus.new], ?_⟩ rfl ?_ t r φ
  · show (5 : ℝ) ^ (1.5 : ℝ) + 0 ≠ 0
    have : (0 : ℝ) < (5 : ℝ) ^ (1.5 : ℝ) := Real.rpow_pos_of_pos (by norm_num) _
    positivity
  · show (1 : ℝ) - 6 / 5 + 8 * 0 * 5 ^ (-1.5 : ℝ) - 3 * 0 * 0 / (5 * 5) ≤ 0
    rw [mul_zero, zero_mul]; norm_num

/-- C121, full statement refuted: "what is refused leaves the torus as it was, and what is accepted can be drawn". A `Beta` that is refused is kept;
zero is accepted and then there is no surface. -/
theorem beta_wrong (s : Torus) :
    (∀ v, v ≥ 1 → (s.setBeta v).2 = true ∧ (s.setBeta v).1.beta = v) ∧
    (s.setBeta 0).2 = false ∧ ∀ pos, (s.setBeta 0).1.value pos = none := by
  refine ⟨fun v hv => ⟨by simp [Torus.setBeta, hv], rfl⟩, by simp [Torus.setBeta], fun pos => if_neg fun h => h.1.2.2.1 rfl⟩

/-- C121, `Beta`: what is accepted is below one, and is set. -/
theorem beta_partial (s : Torus) (v : ℝ) (h : (s.setBeta v).2 = false) : v < 1 ∧ (s.setBeta v).1.beta = v := by
  simp only [Torus.setBeta, decide_eq_false_iff_not, not_le] at h
  exact ⟨by linarith [h], rfl⟩

/-! ## C122: the velocity of the gas -/

/-- The metric and its inverse. -/
structure Inv (g up : Tensor) : Prop where
  e1 : up 0 0 * g 0 0 + up 0 3 * g 0 3 = 1
  e2 : up 0 0 * g 0 3 + up 0 3 * g 3 3 = 0
  e3 : up 0 3 * g 0 0 + up 3 3 * g 0 3 = 0
  e4 : up 0 3 * g 0 3 + up 3 3 * g 3 3 = 1
  e5 : up 1 1 * g 1 1 = 1
  e6 : up 2 2 * g 2 2 = 1

theorem inv {a : ℝ} {pos : Vec} (hs : pos 1 * pos 1 + a * a * (Real.cos (pos 2) * Real.cos (pos 2)) ≠ 0)
    (hd : pos 1 * pos 1 - 2 * pos 1 + a * a ≠ 0) (hsin : Real.sin (pos 2) ≠ 0) : Inv (gmunu a pos) (gmunuUp a pos) := by
  have h := up_inverse hs hd hsin
  have k (i j : Fin 4) : ∑ m, gmunuUp a pos i m * gmunu a pos m j = (1 : Matrix (Fin 4) (Fin 4) ℝ) i j := by
    rw [← h]; rfl
  have k00 := k 0 0
  have k03 := k 0 3
  have k30 := k 3 0
  have k33 := k 3 3
  have k11 := k 1 1
  have k22 := k 2 2
  clear k h
  unfold gmunuUp gmunu at *
  dsimp only at *
  rw [Fin.sum_univ_four] at *
  simp only [circ00, circ01, circ02, circ03, circ10, circ11, circ12, circ13, circ20, circ21, circ22, circ23, circ30, circ31, circ32, circ33,
    mul_zero, zero_mul, add_zero, zero_add, Matrix.one_apply_eq] at *
  have n1 : (1 : Matrix (Fin 4) (Fin 4) ℝ) 0 3 = 0 := Matrix.one_apply_ne (by decide)
  have n2 : (1 : Matrix (Fin 4) (Fin 4) ℝ) 3 0 = 0 := Matrix.one_apply_ne (by decide)
  rw [n1] at k03
  rw [n2] at k30
  exact ⟨k00, k03, k30, k33, k11, k22⟩

theorem lower_0 {a : ℝ} {pos v : Vec} : lower (gmunu a pos) v 0 = gmunu a pos 0 0 * v 0 + gmunu a pos 0 3 * v 3 := by
  unfold lower
  rw [Fin.sum_univ_four]
  show gmunu a pos 0 0 * v 0 + 0 * v 1 + 0 * v 2 + gmunu a pos 0 3 * v 3 = _
  ring

theorem lower_3 {a : ℝ} {pos v : Vec} : lower (gmunu a pos) v 3 = gmunu a pos 0 3 * v 0 + gmunu a pos 3 3 * v 3 := by
  unfold lower
  rw [Fin.sum_univ_four]
  show gmunu a pos 0 3 * v 0 + 0 * v 1 + 0 * v 2 + gmunu a pos 3 3 * v 3 = _
  ring

/-- What the code has computed when it returns. -/
theorem get_ok {s : Torus} {pos v : Vec} (h : s.getVelocity pos = .ok v) :
    s.Ready ∧ Inv (gmunu s.a pos) (gmunuUp s.a pos) ∧ s.denom pos < 0 ∧ ∃ ut, ut < 0 ∧ ut ^ 2 * s.denom pos = -1 ∧
      v 0 = ut * (gmunuUp s.a pos 0 0 - s.lc * gmunuUp s.a pos 0 3) ∧ v 1 = (s.drift (pos 0) (pos 1) (pos 2)).1 * v 0 ∧
      v 2 = (s.drift (pos 0) (pos 1) (pos 2)).2 * v 0 ∧ v 3 = ut * (gmunuUp s.a pos 0 3 - s.lc * gmunuUp s.a pos 3 3) := by
  simp only [Torus.getVelocity] at h
  by_cases hc : ¬ s.Ready ∨ (s.kind = .pureShear ∨ s.kind = .expansion) ∧ s.scale (pos 0) = 0 ∨
      s.Omega * gmunu s.a s.posc 0 3 + gmunu s.a s.posc 0 0 = 0 ∨ Real.sin (pos 2) = 0 ∨
      pos 1 * pos 1 - 2 * pos 1 + s.a * s.a = 0 ∨ pos 1 * pos 1 + s.a * s.a * (Real.cos (pos 2) * Real.cos (pos 2)) = 0 ∨ s.denom pos = 0
  · rw [if_pos hc] at h; cases h
  rw [if_neg hc] at h
  by_cases hn : -1 / s.denom pos < 0
  · rw [if_pos hn] at h; cases h
  rw [if_neg hn] at h
  injection h with h
  push Not at hc
  obtain ⟨h1, -, -, h2, h3, h4, h5⟩ := hc
  have hd : s.denom pos < 0 := by
    rcases lt_or_gt_of_ne h5 with g | g
    · exact g
    · exact absurd (div_neg_of_neg_of_pos (by norm_num) g) hn
  have hp : 0 < -1 / s.denom pos := div_pos_of_neg_of_neg (by norm_num) hd
  refine ⟨h1, inv h4 h3 h2, hd, -√(-1 / s.denom pos), neg_lt_zero.2 (Real.sqrt_pos.2 hp), ?_, ?_, ?_, ?_, ?_⟩
  · rw [neg_sq, Real.sq_sqrt hp.le]; field_simp
  · rw [← h]; simp only [Matrix.cons_val]; ring
  · rw [← h]; rfl
  · rw [← h]; rfl
  · rw [← h]; simp only [Matrix.cons_val]; ring

/-- C122. Whatever the deformation, the gas has the angular momentum per energy of the circular orbit at the centre, a positive energy, and the
poloidal velocity of the deformation. -/
theorem momentum {s : Torus} {pos v : Vec} (h : s.getVelocity pos = .ok v) :
    lower (gmunu s.a pos) v 0 < 0 ∧ lower (gmunu s.a pos) v 3 = -s.lc * lower (gmunu s.a pos) v 0 ∧
    v 1 = (s.drift (pos 0) (pos 1) (pos 2)).1 * v 0 ∧ v 2 = (s.drift (pos 0) (pos 1) (pos 2)).2 * v 0 := by
  obtain ⟨-, i, -, ut, hu, -, v0, v1, v2, v3⟩ := get_ok h
  have e : lower (gmunu s.a pos) v 0 = ut := by
    rw [lower_0, v0, v3]; linear_combination ut * i.e1 - ut * s.lc * i.e3
  refine ⟨by rw [e]; exact hu, ?_, v1, v2⟩
  rw [e, lower_3, v0, v3]
  linear_combination ut * i.e2 - ut * s.lc * i.e4

/-- C122, the exact norm of the velocity. -/
theorem norm_eq {s : Torus} {pos v : Vec} (h : s.getVelocity pos = .ok v) :
    let up := gmunuUp s.a pos
    let d := s.drift (pos 0) (pos 1) (pos 2)
    sp (gmunu s.a pos) v v = -1 + lower (gmunu s.a pos) v 0 ^ 2 *
      (d.1 ^ 2 * ((up 0 0 - s.lc * up 0 3) ^ 2 * gmunu s.a pos 1 1 - up 1 1) +
       d.2 ^ 2 * ((up 0 0 - s.lc * up 0 3) ^ 2 * gmunu s.a pos 2 2 - up 2 2)) := by
  intro up d
  obtain ⟨-, i, -, ut, hu, hn, v0, v1, v2, v3⟩ := get_ok h
  have e : lower (gmunu s.a pos) v 0 = ut := by
    rw [lower_0, v0, v3]; linear_combination ut * i.e1 - ut * s.lc * i.e3
  have e3 : lower (gmunu s.a pos) v 3 = -s.lc * ut := by
    rw [lower_3, v0, v3]; linear_combination ut * i.e2 - ut * s.lc * i.e4
  have hsp : sp (gmunu s.a pos) v v = v 0 * lower (gmunu s.a pos) v 0 + v 3 * lower (gmunu s.a pos) v 3 +
      gmunu s.a pos 1 1 * v 1 ^ 2 + gmunu s.a pos 2 2 * v 2 ^ 2 := by
    rw [sp_eq, lower_0, lower_3]; ring
  rw [hsp, e, e3, v1, v2]
  unfold Torus.denom at hn
  simp only at hn
  show _ = -1 + ut ^ 2 * ((s.drift (pos 0) (pos 1) (pos 2)).1 ^ 2 * ((gmunuUp s.a pos 0 0 - s.lc * gmunuUp s.a pos 0 3) ^ 2 * _ - gmunuUp s.a pos 1 1) +
    (s.drift (pos 0) (pos 1) (pos 2)).2 ^ 2 * ((gmunuUp s.a pos 0 0 - s.lc * gmunuUp s.a pos 0 3) ^ 2 * _ - gmunuUp s.a pos 2 2))
  rw [v3, v0]
  linear_combination hn

/-- C122 holds where the deformation does not move the gas: there the velocity is a unit vector. -/
theorem unit_partial {s : Torus} {pos v : Vec} (h : s.getVelocity pos = .ok v) (hd : s.drift (pos 0) (pos 1) (pos 2) = 0) :
    sp (gmunu s.a pos) v v = -1 ∧ v 1 = 0 ∧ v 2 = 0 := by
  have e := norm_eq h
  obtain ⟨-, -, v1, v2⟩ := momentum h
  simp only [hd, Prod.fst_zero, Prod.snd_zero] at e v1 v2
  refine ⟨by rw [e]; ring, by rw [v1, zero_mul], by rw [v2, zero_mul]⟩

/-- C122. Out of the ergosphere the gas moves to the future. -/
theorem future {s : Torus} {pos v : Vec} (h : s.getVelocity pos = .ok v) (hr : 0 < pos 1) (hd : 0 < pos 1 * pos 1 - 2 * pos 1 + s.a * s.a)
    (he : gmunu s.a pos 0 0 < 0) : 0 < v 0 := by
  have hsin : Real.sin (pos 2) ≠ 0 := by
    intro h0
    simp only [Torus.getVelocity] at h
    rw [if_pos (by simp [h0])] at h
    cases h
  obtain ⟨o, hpp, -, -⟩ := JetFlow.kerr_out hr hd hsin
  obtain ⟨-, i, hden, ut, hu, hn, v0, -, -, -⟩ := get_ok h
  have hM : gmunuUp s.a pos 0 0 + s.lc * s.lc * gmunuUp s.a pos 3 3 - 2 * s.lc * gmunuUp s.a pos 0 3 < 0 := by
    unfold Torus.denom at hden
    simp only at hden
    have p1 : 0 < gmunuUp s.a pos 1 1 := by
      rcases lt_trichotomy (gmunuUp s.a pos 1 1) 0 with q | q | q
      · nlinarith [i.e5, o.rr]
      · have := i.e5; rw [q, zero_mul] at this; norm_num at this
      · exact q
    have p2 : 0 < gmunuUp s.a pos 2 2 := by
      rcases lt_trichotomy (gmunuUp s.a pos 2 2) 0 with q | q | q
      · nlinarith [i.e6, o.hh]
      · have := i.e6; rw [q, zero_mul] at this; norm_num at this
      · exact q
    have q1 := mul_nonneg (mul_self_nonneg (s.drift (pos 0) (pos 1) (pos 2)).1) p1.le
    have q2 := mul_nonneg (mul_self_nonneg (s.drift (pos 0) (pos 1) (pos 2)).2) p2.le
    linarith
  have hdet := o.det
  obtain ⟨e1, e2, e3, e4, -, -⟩ := i
  generalize gmunuUp s.a pos 0 0 = A at *
  generalize gmunuUp s.a pos 0 3 = B at *
  generalize gmunuUp s.a pos 3 3 = C at *
  generalize gmunu s.a pos 0 0 = tt at *
  generalize gmunu s.a pos 0 3 = tp at *
  generalize gmunu s.a pos 3 3 = pp at *
  generalize s.lc = l at *
  have a1 : A * (tt * pp - tp ^ 2) = pp := by linear_combination pp * e1 - tp * e2
  have a2 : B * (tt * pp - tp ^ 2) = -tp := by linear_combination pp * e3 - tp * e4
  have a3 : C * (tt * pp - tp ^ 2) = tt := by linear_combination tt * e4 - tp * e3
  have m : 0 < pp + 2 * l * tp + l ^ 2 * tt := by
    have := mul_pos_of_neg_of_neg hM hdet
    have e : (A + l * l * C - 2 * l * B) * (tt * pp - tp ^ 2) = pp + 2 * l * tp + l ^ 2 * tt := by
      linear_combination a1 + l * l * a3 - 2 * l * a2
    rw [← e]; exact this
  have k : 0 < pp + l * tp := by
    rcases le_or_gt 0 (l * tp) with q | q
    · linarith
    · nlinarith [mul_nonneg (sq_nonneg l) (neg_nonneg.2 he.le)]
  have k2 : A - l * B < 0 := by
    by_contra hcon
    have := mul_nonpos_of_nonneg_of_nonpos (not_lt.1 hcon) hdet.le
    have e : (A - l * B) * (tt * pp - tp ^ 2) = pp + l * tp := by linear_combination a1 - l * a2
    linarith
  rw [v0]
  exact mul_pos_of_neg_of_neg hu k2

/-- C122, full statement refuted: "the velocity is a unit vector". Around a Schwarzschild black hole it is one only where the deformation does not
move the gas; everywhere else its square is above -1. -/
theorem norm_wrong {s : Torus} {pos v : Vec} (ha : s.a = 0) (hr : 2 < pos 1) (h : s.getVelocity pos = .ok v) :
    -1 ≤ sp (gmunu s.a pos) v v ∧ (sp (gmunu s.a pos) v v = -1 ↔ s.drift (pos 0) (pos 1) (pos 2) = 0) := by
  have e := norm_eq h
  have hl := (momentum h).1
  have hr0 : (0 : ℝ) < pos 1 := by linarith
  have g1 : gmunu s.a pos 1 1 = pos 1 / (pos 1 - 2) := by
    rw [gmunu_11, ha]
    have : pos 1 - 2 ≠ 0 := by linarith
    have : pos 1 * pos 1 - 2 * pos 1 + 0 * 0 = pos 1 * (pos 1 - 2) := by ring
    rw [this]; field_simp; ring
  have g2 : gmunu s.a pos 2 2 = pos 1 ^ 2 := by rw [gmunu_22, ha]; ring
  have hp2 : pos 1 - 2 ≠ 0 := by linarith
  have u0 : gmunuUp s.a pos 0 0 = -(pos 1 / (pos 1 - 2)) := by
    show -((pos 1 * pos 1 + s.a * s.a) * (pos 1 * pos 1 + s.a * s.a) - s.a * s.a * (pos 1 * pos 1 - 2 * pos 1 + s.a * s.a) * _) /
      ((pos 1 * pos 1 - 2 * pos 1 + s.a * s.a) * (pos 1 * pos 1 + s.a * s.a * _)) = _
    rw [ha]
    have : pos 1 * pos 1 - 2 * pos 1 + 0 * 0 = pos 1 * (pos 1 - 2) := by ring
    rw [this]; simp only [zero_mul, mul_zero, add_zero, sub_zero]; field_simp
  have u3 : gmunuUp s.a pos 0 3 = 0 := by
    show -2 * s.a * pos 1 / _ = 0
    rw [ha]; simp
  have u1 : gmunuUp s.a pos 1 1 = (pos 1 - 2) / pos 1 := by
    show (pos 1 * pos 1 - 2 * pos 1 + s.a * s.a) / (pos 1 * pos 1 + s.a * s.a * _) = _
    rw [ha]; simp only [zero_mul, add_zero]; field_simp
  have u2 : gmunuUp s.a pos 2 2 = 1 / pos 1 ^ 2 := by
    show 1 / (pos 1 * pos 1 + s.a * s.a * _) = _
    rw [ha]; simp only [zero_mul, add_zero, sq]
  simp only at e
  rw [g1, g2, u0, u1, u2, u3, mul_zero, sub_zero] at e
  have k1 : 0 < (-(pos 1 / (pos 1 - 2))) ^ 2 * (pos 1 / (pos 1 - 2)) - (pos 1 - 2) / pos 1 := by
    have q : 1 < pos 1 / (pos 1 - 2) := by rw [lt_div_iff₀ (by linarith)]; linarith
    have q2 : (pos 1 - 2) / pos 1 < 1 := by rw [div_lt_one hr0]; linarith
    nlinarith [mul_pos (by linarith : (0:ℝ) < pos 1 / (pos 1 - 2) - 1) (by linarith : (0:ℝ) < pos 1 / (pos 1 - 2)),
      mul_pos (mul_pos (by linarith : (0:ℝ) < pos 1 / (pos 1 - 2) - 1) (by linarith : (0:ℝ) < pos 1 / (pos 1 - 2))) (by linarith : (0:ℝ) < pos 1 / (pos 1 - 2))]
  have k2 : 0 < (-(pos 1 / (pos 1 - 2))) ^ 2 * pos 1 ^ 2 - 1 / pos 1 ^ 2 := by
    have q : 1 < pos 1 / (pos 1 - 2) := by rw [lt_div_iff₀ (by linarith)]; linarith
    have q1 : 1 / pos 1 ^ 2 < 1 := by rw [div_lt_one (by positivity)]; nlinarith
    have q2 : 1 < (pos 1 / (pos 1 - 2)) ^ 2 := by nlinarith
    have q3 : 1 < pos 1 ^ 2 := by nlinarith
    rw [neg_sq]
    nlinarith
  generalize (-(pos 1 / (pos 1 - 2))) ^ 2 * (pos 1 / (pos 1 - 2)) - (pos 1 - 2) / pos 1 = K1 at *
  generalize (-(pos 1 / (pos 1 - 2))) ^ 2 * pos 1 ^ 2 - 1 / pos 1 ^ 2 = K2 at *
  have hl2 : 0 < lower (gmunu s.a pos) v 0 ^ 2 := by
    have := hl.ne
    positivity
  generalize lower (gmunu s.a pos) v 0 ^ 2 = L at *
  generalize s.drift (pos 0) (pos 1) (pos 2) = dd at *
  obtain ⟨d1, d2⟩ := dd
  dsimp only at e
  have p1 : 0 ≤ d1 ^ 2 * K1 := by positivity
  have p2 : 0 ≤ d2 ^ 2 * K2 := by positivity
  rw [e]
  refine ⟨by nlinarith, ⟨fun hh => ?_, fun hh => ?_⟩⟩
  · have z : d1 ^ 2 * K1 + d2 ^ 2 * K2 = 0 := by
      have : L * (d1 ^ 2 * K1 + d2 ^ 2 * K2) = 0 := by linarith
      rcases mul_eq_zero.1 this with q | q
      · exact absurd q hl2.ne'
      · exact q
    have z1 : d1 ^ 2 * K1 = 0 := by linarith
    have z2 : d2 ^ 2 * K2 = 0 := by linarith
    have w1 : d1 = 0 := by
      rcases mul_eq_zero.1 z1 with q | q
      · exact pow_eq_zero_iff two_ne_zero |>.1 q
      · exact absurd q k1.ne'
    have w2 : d2 = 0 := by
      rcases mul_eq_zero.1 z2 with q | q
      · exact pow_eq_zero_iff two_ne_zero |>.1 q
      · exact absurd q k2.ne'
    rw [w1, w2]; rfl
  · injection hh with h1 h2
    rw [h1, h2]; ring

/-- A velocity around the axis with the angular momentum of the torus is the one returned where the deformation does not move the gas. -/
theorem rot_velocity {s : Torus} {pos u : Vec} (hr : s.Ready) (hsc : s.kind = .pureShear ∨ s.kind = .expansion → s.scale (pos 0) ≠ 0)
    (hO : s.Omega * gmunu s.a s.posc 0 3 + gmunu s.a s.posc 0 0 ≠ 0) (hS : pos 1 * pos 1 + s.a * s.a * (Real.cos (pos 2) * Real.cos (pos 2)) ≠ 0)
    (hD : pos 1 * pos 1 - 2 * pos 1 + s.a * s.a ≠ 0) (hsin : Real.sin (pos 2) ≠ 0) (hd : s.drift (pos 0) (pos 1) (pos 2) = 0)
    (hu : IsRotating (gmunu s.a pos) u) (h0 : lower (gmunu s.a pos) u 0 < 0)
    (h3 : lower (gmunu s.a pos) u 3 = -s.lc * lower (gmunu s.a pos) u 0) : s.getVelocity pos = .ok u := by
  have i := inv hS hD hsin
  have hun := hu.unit
  have hsp : sp (gmunu s.a pos) u u = u 0 * lower (gmunu s.a pos) u 0 + u 3 * lower (gmunu s.a pos) u 3 := by
    rw [sp_eq, lower_0, lower_3, hu.r, hu.theta]; ring
  rw [hsp] at hun
  have e0 : u 0 = gmunuUp s.a pos 0 0 * lower (gmunu s.a pos) u 0 + gmunuUp s.a pos 0 3 * lower (gmunu s.a pos) u 3 := by
    rw [lower_0, lower_3]; linear_combination (-u 0) * i.e1 - u 3 * i.e2
  have e3 : u 3 = gmunuUp s.a pos 0 3 * lower (gmunu s.a pos) u 0 + gmunuUp s.a pos 3 3 * lower (gmunu s.a pos) u 3 := by
    rw [lower_0, lower_3]; linear_combination (-u 0) * i.e3 - u 3 * i.e4
  rw [h3] at e0 e3 hun
  have hden : lower (gmunu s.a pos) u 0 ^ 2 * s.denom pos = -1 := by
    unfold Torus.denom
    simp only [hd, Prod.fst_zero, Prod.snd_zero]
    rw [e0, e3] at hun
    linear_combination hun
  generalize lower (gmunu s.a pos) u 0 = ut at *
  have hd0 : s.denom pos ≠ 0 := by
    intro h; rw [h, mul_zero] at hden; norm_num at hden
  have hq : -1 / s.denom pos = ut ^ 2 := by rw [← hden]; field_simp
  have hroot : √(-1 / s.denom pos) = -ut := by rw [hq, ← neg_sq, Real.sqrt_sq (by linarith)]
  simp only [Torus.getVelocity]
  rw [if_neg (by push Not; exact ⟨hr, hsc, hO, hsin, hD, hS, hd0⟩), if_neg (by rw [hq]; exact not_lt.2 (sq_nonneg _)), hroot, hd]
  congr 1
  funext j
  fin_cases j
  · show gmunuUp s.a pos 0 0 * -(-ut) + gmunuUp s.a pos 0 3 * (-s.lc * -(-ut)) = u 0
    rw [e0]; ring
  · show (0 : ℝ) * _ = u 1
    rw [hu.r, zero_mul]
  · show (0 : ℝ) * _ = u 2
    rw [hu.theta, zero_mul]
  · show gmunuUp s.a pos 3 3 * (-s.lc * -(-ut)) + gmunuUp s.a pos 0 3 * -(-ut) = u 3
    rw [e3]; ring

/-- The circular orbit at the centre, with `w` the root of the radius. -/
structure Centre (s : Torus) (u : Vec) (w : ℝ) : Prop where
  pos : 0 < w
  c : s.c = w ^ 2
  sum : 0 < w ^ 3 + s.a
  slow : 0 < w ^ 3 - 2 * w + s.a
  omega : s.Omega = 1 / (w ^ 3 + s.a)
  pow : s.c ^ (-1.5 : ℝ) = 1 / w ^ 3
  rot : IsRotating (gmunu s.a s.posc) u
  u3 : u 3 ≠ 0
  low0 : lower (gmunu s.a s.posc) u 0 = -(w ^ 3 - 2 * w + s.a) * u 3
  low3 : lower (gmunu s.a s.posc) u 3 = (w ^ 4 - 2 * s.a * w + s.a ^ 2) * u 3
  up3 : 0 < u 3
  gtt : gmunu s.a s.posc 0 0 = -1 + 2 / w ^ 2
  gtp : gmunu s.a s.posc 0 3 = -2 * s.a / w ^ 2
  gpp : gmunu s.a s.posc 3 3 = w ^ 4 + s.a ^ 2 + 2 * s.a ^ 2 / w ^ 2
  grr : gmunu s.a s.posc 1 1 = w ^ 4 / (w ^ 4 - 2 * w ^ 2 + s.a ^ 2)
  delta : 0 < w ^ 4 - 2 * w ^ 2 + s.a ^ 2

theorem centre_data {s : Torus} (hr : s.Ready) (ha : s.a ≤ 1) (h1 : 1 < s.c) (hs : Orbits.KerrSlow s.a 1 s.c) :
    Centre s (Orbits.kerrVel s.a s.posc 1) (√s.c) := by
  have hw : 0 < √s.c := Real.sqrt_pos.2 hr.1
  have hwr : s.c = √s.c ^ 2 := (Real.sq_sqrt hr.1.le).symm
  have hw1 : 1 < √s.c := by rw [Real.lt_sqrt (by norm_num)]; linarith
  have hk := hs
  unfold Orbits.KerrSlow at hk
  have hsum := Orbits.omega_pos hw (Or.inl rfl) hk
  rw [mul_one] at hsum
  have hO : s.Omega = 1 / (√s.c ^ 3 + s.a) := by
    unfold Torus.Omega; rw [Orbits.pow_three_half hr.1.le]
  have hpw : s.c ^ (-1.5 : ℝ) = 1 / √s.c ^ 3 := by
    rw [show (-1.5 : ℝ) = -(1.5 : ℝ) by norm_num, Real.rpow_neg hr.1.le, Orbits.pow_three_half hr.1.le, one_div]
  have hslow : 0 < √s.c ^ 3 - 2 * √s.c + s.a := by linarith
  have hc := Orbits.kerr_circular (a := s.a) (dir := 1) (pos := s.posc) hr.1 hr.2.1.ne' rfl (Or.inl rfl) hs
  have hu3 : Orbits.kerrVel s.a s.posc 1 3 = 1 / (√s.c ^ 3 + s.a) * Orbits.kerrVel s.a s.posc 1 0 := by
    have := (Orbits.finish_ok (Orbits.kerr_norm_neg (a := s.a) (dir := 1) (pos := s.posc) hr.1 rfl (Or.inl rfl) hs)).2.1
    rw [Orbits.kerr_eq (pos := s.posc) hr.1 rfl]
    rw [this]
    show 1 / (1 * √s.c ^ 3 + s.a) * _ = _
    rw [one_mul]
  have h3 := hc.2.2
  rw [one_mul] at h3
  have hu0 : Orbits.kerrVel s.a s.posc 1 0 = (√s.c ^ 3 + s.a) * Orbits.kerrVel s.a s.posc 1 3 := by
    rw [hu3]; field_simp
  have g0 : gmunu s.a s.posc 0 0 = -1 + 2 / √s.c ^ 2 := by
    rw [gmunu_00]
    show -1 + 2 * s.c / (s.c * s.c + s.a * s.a * (Real.cos (Real.pi / 2) * Real.cos (Real.pi / 2))) = _
    rw [Real.cos_pi_div_two, ← hwr]
    have := hr.1.ne'
    field_simp; ring
  have g3 : gmunu s.a s.posc 0 3 = -2 * s.a / √s.c ^ 2 := by
    rw [gmunu_03]
    show -2 * s.a * s.c * (Real.sin (Real.pi / 2) * Real.sin (Real.pi / 2)) / (s.c * s.c + s.a * s.a * (Real.cos (Real.pi / 2) * Real.cos (Real.pi / 2))) = _
    rw [Real.cos_pi_div_two, Real.sin_pi_div_two, ← hwr]
    have := hr.1.ne'
    rw [show s.c * s.c + s.a * s.a * (0 * 0) = s.c * s.c by ring]
    field_simp
  have g33 : gmunu s.a s.posc 3 3 = √s.c ^ 4 + s.a ^ 2 + 2 * s.a ^ 2 / √s.c ^ 2 := by
    rw [gmunu_33]
    show (s.c * s.c + s.a * s.a + 2 * s.c * (s.a * s.a) * (Real.sin (Real.pi / 2) * Real.sin (Real.pi / 2)) /
      (s.c * s.c + s.a * s.a * (Real.cos (Real.pi / 2) * Real.cos (Real.pi / 2)))) * (Real.sin (Real.pi / 2) * Real.sin (Real.pi / 2)) = _
    rw [Real.cos_pi_div_two, Real.sin_pi_div_two, show √s.c ^ 4 = (√s.c ^ 2) ^ 2 by ring, ← hwr]
    have := hr.1.ne'
    rw [show s.c * s.c + s.a * s.a * (0 * 0) = s.c * s.c by ring]
    field_simp
  have hdel : 0 < √s.c ^ 4 - 2 * √s.c ^ 2 + s.a ^ 2 := by
    rw [show √s.c ^ 4 = (√s.c ^ 2) ^ 2 by ring, ← hwr]; linarith [hr.2.1, sq s.c, sq s.a]
  refine ⟨hw, hwr, hsum, hslow, hO, hpw, hc.1, h3.ne', ?_, ?_, h3, g0, g3, g33, ?_, hdel⟩
  · rw [lower_0, hu0, g0, g3]
    have := hw.ne'
    field_simp; ring
  · rw [lower_3, hu0, g3, g33]
    have := hw.ne'
    field_simp; ring
  · rw [grr_c, show √s.c ^ 4 = (√s.c ^ 2) ^ 2 by ring, ← hwr]
    congr 1; ring

/-- The angular momentum per energy of the torus. -/
theorem Centre.lc {s : Torus} {u : Vec} {w : ℝ} (h : Centre s u w) :
    s.Omega * gmunu s.a s.posc 0 3 + gmunu s.a s.posc 0 0 = -(w ^ 3 - 2 * w + s.a) / (w ^ 3 + s.a) ∧
    s.lc = (w ^ 4 - 2 * s.a * w + s.a ^ 2) / (w ^ 3 - 2 * w + s.a) := by
  have h1 := h.pos.ne'
  have h2 := h.sum.ne'
  have h3 := h.slow.ne'
  have e : s.Omega * gmunu s.a s.posc 0 3 + gmunu s.a s.posc 0 0 = -(w ^ 3 - 2 * w + s.a) / (w ^ 3 + s.a) := by
    rw [h.omega, h.gtp, h.gtt]; field_simp; ring
  refine ⟨e, ?_⟩
  unfold Torus.lc
  rw [e]
  have e2 : s.Omega * gmunu s.a s.posc 3 3 + gmunu s.a s.posc 0 3 = (w ^ 4 - 2 * s.a * w + s.a ^ 2) / (w ^ 3 + s.a) := by
    rw [h.omega, h.gtp, h.gpp]; field_simp; ring
  rw [e2]
  field_simp

/-- C122. At the centre, but for a translation, the gas is on the free circular orbit in the direction of increasing longitudes; so it is for any
kind but the rotation if `Eta` is zero. -/
theorem centre {s : Torus} (hr : s.Ready) (ha : s.a ≤ 1) (h1 : 1 < s.c) (hs : Orbits.KerrSlow s.a 1 s.c) (t φ : ℝ)
    (hsc : s.kind = .pureShear ∨ s.kind = .expansion → s.scale t ≠ 0)
    (hk : s.eta = 0 ∨ s.kind ≠ .radialTranslation ∧ s.kind ≠ .verticalTranslation) :
    ∃ u, s.getVelocity ![t, s.c, Real.pi / 2, φ] = .ok u ∧ IsRotating (gmunu s.a ![t, s.c, Real.pi / 2, φ]) u ∧
      IsFree (gmunu s.a) ![t, s.c, Real.pi / 2, φ] u ∧ 0 < u 3 := by
  have C := centre_data hr ha h1 hs
  have hc := Orbits.kerr_circular (a := s.a) (dir := 1) (pos := ![t, s.c, Real.pi / 2, φ]) hr.1 hr.2.1.ne' rfl (Or.inl rfl) hs
  rw [one_mul] at hc
  refine ⟨Orbits.kerrVel s.a ![t, s.c, Real.pi / 2, φ] 1, ?_, hc⟩
  obtain ⟨l1, l2⟩ := C.lc
  have hpos := C.pos
  refine rot_velocity hr hsc ?_ ?_ ?_ ?_ ?_ hc.1 ?_ ?_
  · rw [l1]; exact div_ne_zero (neg_ne_zero.2 C.slow.ne') C.sum.ne'
  · show s.c * s.c + s.a * s.a * (Real.cos (Real.pi / 2) * Real.cos (Real.pi / 2)) ≠ 0
    rw [Real.cos_pi_div_two, mul_zero, mul_zero, add_zero]; exact mul_ne_zero hr.1.ne' hr.1.ne'
  · exact hr.2.1.ne'
  · show Real.sin (Real.pi / 2) ≠ 0
    rw [Real.sin_pi_div_two]; exact one_ne_zero
  · show s.drift t s.c (Real.pi / 2) = 0
    have zx : s.x s.c = 0 := by rw [x_eq, sub_self, mul_zero]
    have zy : s.y (Real.pi / 2) = 0 := by rw [y_eq, sub_self, mul_zero]
    unfold Torus.drift
    rw [zx, zy]
    rcases hk with hk | hk
    · rcases hkk : s.kind <;> simp [hk]
    · rcases hkk : s.kind <;> simp [hkk] at hk ⊢
  · have := C.low0
    show lower (gmunu s.a s.posc) (Orbits.kerrVel s.a s.posc 1) 0 < 0
    rw [this]
    nlinarith [mul_pos C.slow C.up3]
  · show lower (gmunu s.a s.posc) (Orbits.kerrVel s.a s.posc 1) 3 = -s.lc * lower (gmunu s.a s.posc) (Orbits.kerrVel s.a s.posc 1) 0
    rw [C.low0, C.low3, l2]
    have := C.slow.ne'
    generalize √s.c ^ 3 - 2 * √s.c + s.a = D at *
    field_simp

theorem Oscillates_congr {V W : ℝ → ℝ} {m c w2 : ℝ} (h : ∀ᶠ x in nhds c, V x = W x) (hW : Oscillates W m c w2) : Oscillates V m c w2 := by
  obtain ⟨W', a, b, d⟩ := hW
  refine ⟨W', ?_, b, d⟩
  filter_upwards [a, h.eventually_nhds] with x hx hv
  exact hx.congr_of_eventuallyEq hv

/-- C122. `omr2` is the square of the radial epicyclic frequency: the gas at the centre, when pushed inward or outward with its energy and angular
momentum, oscillates with the pulsation `√omr2` times its angular velocity. -/
theorem radial_frequency {s : Torus} (hr : s.Ready) (ha : s.a ≤ 1) (h1 : 1 < s.c) (hs : Orbits.KerrSlow s.a 1 s.c) :
    let u := Orbits.kerrVel s.a s.posc 1
    Oscillates (fun r => freePotential (gmunuUp s.a ![0, r, Real.pi / 2, 0]) (lower (gmunu s.a s.posc) u 0) (lower (gmunu s.a s.posc) u 3))
      (gmunu s.a s.posc 1 1) s.c (s.omr2 * u 3 ^ 2) := by
  intro u
  have C : Centre s u (√s.c) := centre_data hr ha h1 hs
  have hcp := hr.1
  have hpi : Real.cos (Real.pi / 2) = 0 := Real.cos_pi_div_two
  have hps : Real.sin (Real.pi / 2) = 1 := Real.sin_pi_div_two
  unfold Torus.omr2
  rw [C.low0, C.low3, C.grr, C.pow]
  obtain ⟨hw, hcw, -, -, -, -, -, hu3, -, -, -, -, -, -, -, hdel⟩ := C
  generalize √s.c = w at *
  rw [hcw]
  generalize u 3 = k at *
  generalize s.a = a at *
  obtain ⟨D, hD⟩ : ∃ D, D = w ^ 3 - 2 * w + a := ⟨_, rfl⟩
  obtain ⟨L, hL⟩ : ∃ L, L = w ^ 4 - 2 * a * w + a ^ 2 := ⟨_, rfl⟩
  rw [← hD, ← hL]
  have key := quot_osc (P := fun r => k ^ 2 / 2 * (-D ^ 2 * r ^ 3 + (L ^ 2 - a ^ 2 * D ^ 2) * r - 2 * (L - a * D) ^ 2))
    (P' := fun r => k ^ 2 / 2 * (-3 * D ^ 2 * r ^ 2 + (L ^ 2 - a ^ 2 * D ^ 2))) (P2 := k ^ 2 / 2 * (-6 * D ^ 2 * w ^ 2))
    (Q := fun r => r ^ 3 - 2 * r ^ 2 + a ^ 2 * r) (Q' := fun r => 3 * r ^ 2 - 4 * r + a ^ 2) (Q2 := 6 * w ^ 2 - 4)
    (m := w ^ 4 / (w ^ 4 - 2 * w ^ 2 + a ^ 2)) (c := w ^ 2)
    (w2 := (1 - 6 / w ^ 2 + 8 * a * (1 / w ^ 3) - 3 * a * a / (w ^ 2 * w ^ 2)) * k ^ 2)
    (Filter.Eventually.of_forall fun x => by
      refine ((((((hasDerivAt_id x).pow 3).const_mul (-D ^ 2)).add ((hasDerivAt_id x).const_mul (L ^ 2 - a ^ 2 * D ^ 2))).sub_const
        (2 * (L - a * D) ^ 2)).const_mul (k ^ 2 / 2)).congr_deriv ?_
      simp only [id]; ring)
    (Filter.Eventually.of_forall fun x => by
      refine (((((hasDerivAt_id x).pow 3).sub (((hasDerivAt_id x).pow 2).const_mul 2))).add ((hasDerivAt_id x).const_mul (a ^ 2))).congr_deriv ?_
      simp only [id]; ring)
    (by
      refine (((((hasDerivAt_id (w ^ 2)).pow 2).const_mul (-3 * D ^ 2)).add_const (L ^ 2 - a ^ 2 * D ^ 2)).const_mul (k ^ 2 / 2)).congr_deriv ?_
      simp only [id]; ring)
    (by
      refine (((((hasDerivAt_id (w ^ 2)).pow 2).const_mul 3).sub ((hasDerivAt_id (w ^ 2)).const_mul 4)).add_const (a ^ 2)).congr_deriv ?_
      simp only [id]; ring)
    (by
      show (w ^ 2) ^ 3 - 2 * (w ^ 2) ^ 2 + a ^ 2 * w ^ 2 ≠ 0
      have : (w ^ 2) ^ 3 - 2 * (w ^ 2) ^ 2 + a ^ 2 * w ^ 2 = w ^ 2 * (w ^ 4 - 2 * w ^ 2 + a ^ 2) := by ring
      rw [this]; exact mul_ne_zero (by positivity) hdel.ne')
    (by
      rw [hD, hL]; ring)
    (by
      rw [hD, hL]
      have := hdel.ne'
      have := hw.ne'
      field_simp
      ring)
  refine Oscillates_congr ?_ key
  have hne : ∀ᶠ x in nhds (w ^ 2), x ≠ 0 := continuousAt_id.eventually_ne (pow_pos hw 2).ne'
  have hne2 : ∀ᶠ x in nhds (w ^ 2), x ^ 2 - 2 * x + a ^ 2 ≠ 0 := by
    have hc : ContinuousAt (fun x : ℝ => x ^ 2 - 2 * x + a ^ 2) (w ^ 2) := by fun_prop
    refine hc.eventually_ne ?_
    have : (w ^ 2) ^ 2 - 2 * w ^ 2 + a ^ 2 = w ^ 4 - 2 * w ^ 2 + a ^ 2 := by ring
    simp only [this]; exact hdel.ne'
  filter_upwards [hne, hne2] with r h2 h3
  have t0 : gmunuUp a ![0, r, Real.pi / 2, 0] 0 0 = -(r ^ 3 + a ^ 2 * r + 2 * a ^ 2) / (r * (r ^ 2 - 2 * r + a ^ 2)) := by
    show -((r * r + a * a) * (r * r + a * a) - a * a * (r * r - 2 * r + a * a) * (Real.sin (Real.pi / 2) * Real.sin (Real.pi / 2))) /
      ((r * r - 2 * r + a * a) * (r * r + a * a * (Real.cos (Real.pi / 2) * Real.cos (Real.pi / 2)))) = _
    rw [hpi, hps, show r * r - 2 * r + a * a = r ^ 2 - 2 * r + a ^ 2 by ring, show r * r + a * a * (0 * 0) = r ^ 2 by ring]
    field_simp; ring
  have t3 : gmunuUp a ![0, r, Real.pi / 2, 0] 0 3 = -2 * a / (r * (r ^ 2 - 2 * r + a ^ 2)) := by
    show -2 * a * r / ((r * r + a * a * (Real.cos (Real.pi / 2) * Real.cos (Real.pi / 2))) * (r * r - 2 * r + a * a)) = _
    rw [hpi, show r * r - 2 * r + a * a = r ^ 2 - 2 * r + a ^ 2 by ring, show r * r + a * a * (0 * 0) = r ^ 2 by ring]
    field_simp
  have t33 : gmunuUp a ![0, r, Real.pi / 2, 0] 3 3 = (r - 2) / (r * (r ^ 2 - 2 * r + a ^ 2)) := by
    show (r * r - 2 * r + a * a - a * a * (Real.sin (Real.pi / 2) * Real.sin (Real.pi / 2))) /
      ((r * r + a * a * (Real.cos (Real.pi / 2) * Real.cos (Real.pi / 2))) * (r * r - 2 * r + a * a) * (Real.sin (Real.pi / 2) * Real.sin (Real.pi / 2))) = _
    rw [hpi, hps, show r * r - 2 * r + a * a = r ^ 2 - 2 * r + a ^ 2 by ring, show r * r + a * a * (0 * 0) = r ^ 2 by ring]
    field_simp; ring
  unfold freePotential
  rw [t0, t3, t33, show r ^ 3 - 2 * r ^ 2 + a ^ 2 * r = r * (r ^ 2 - 2 * r + a ^ 2) by ring]
  field_simp
  ring

/-- C122. `omth2` is the square of the vertical epicyclic frequency. -/
theorem vertical_frequency {s : Torus} (hr : s.Ready) (ha : s.a ≤ 1) (h1 : 1 < s.c) (hs : Orbits.KerrSlow s.a 1 s.c) :
    let u := Orbits.kerrVel s.a s.posc 1
    Oscillates (fun θ => freePotential (gmunuUp s.a ![0, s.c, θ, 0]) (lower (gmunu s.a s.posc) u 0) (lower (gmunu s.a s.posc) u 3))
      (gmunu s.a s.posc 2 2) (Real.pi / 2) (s.omth2 * u 3 ^ 2) := by
  intro u
  have C : Centre s u (√s.c) := centre_data hr ha h1 hs
  have hpi : Real.cos (Real.pi / 2) = 0 := Real.cos_pi_div_two
  have hps : Real.sin (Real.pi / 2) = 1 := Real.sin_pi_div_two
  unfold Torus.omth2
  rw [C.low0, C.low3, C.pow, ghh_c]
  obtain ⟨hw, hcw, -, -, -, -, -, hu3, -, -, -, -, -, -, -, hdel⟩ := C
  generalize √s.c = w at *
  rw [hcw]
  generalize u 3 = k at *
  generalize s.a = a at *
  obtain ⟨D, hD⟩ : ∃ D, D = w ^ 3 - 2 * w + a := ⟨_, rfl⟩
  obtain ⟨L, hL⟩ : ∃ L, L = w ^ 4 - 2 * a * w + a ^ 2 := ⟨_, rfl⟩
  obtain ⟨E, hE⟩ : ∃ E, E = w ^ 4 - 2 * w ^ 2 + a ^ 2 := ⟨_, rfl⟩
  rw [← hD, ← hL]
  rw [← hE] at hdel
  have hE0 := hdel.ne'
  obtain ⟨A, hA⟩ : ∃ A, A = -D ^ 2 * (w ^ 4 + a ^ 2) ^ 2 + 4 * L * D * a * w ^ 2 - L ^ 2 * a ^ 2 := ⟨_, rfl⟩
  have hs0 : ∀ᶠ x in nhds (Real.pi / 2), Real.sin x ≠ 0 := Real.continuous_sin.continuousAt.eventually_ne (by rw [hps]; exact one_ne_zero)
  have dN {x : ℝ} (hx : Real.sin x ≠ 0) : HasDerivAt (fun θ => k ^ 2 / 2 * (A * Real.sin θ ^ 2 + D ^ 2 * a ^ 2 * E * Real.sin θ ^ 4 + L ^ 2 * E))
      (k ^ 2 / 2 * (2 * A * Real.sin x + 4 * D ^ 2 * a ^ 2 * E * Real.sin x ^ 3) * Real.cos x) x := by
    have h := Real.hasDerivAt_sin x
    refine (((((h.pow 2).const_mul A).add ((h.pow 4).const_mul (D ^ 2 * a ^ 2 * E))).add_const (L ^ 2 * E)).const_mul (k ^ 2 / 2)).congr_deriv ?_
    simp only [Nat.cast_ofNat, Nat.add_one_sub_one]; ring
  have dM (x : ℝ) : HasDerivAt (fun θ => E * Real.sin θ ^ 2 * (w ^ 4 + a ^ 2 * Real.cos θ ^ 2))
      (2 * E * Real.sin x * (w ^ 4 + a ^ 2 * Real.cos x ^ 2 - a ^ 2 * Real.sin x ^ 2) * Real.cos x) x := by
    have h := Real.hasDerivAt_sin x
    have h' := Real.hasDerivAt_cos x
    refine (((h.pow 2).const_mul E).mul (((h'.pow 2).const_mul (a ^ 2)).const_add (w ^ 4))).congr_deriv ?_
    simp only [Nat.cast_ofNat, Nat.add_one_sub_one, Pi.pow_apply]; ring
  have key := quot_osc (c := Real.pi / 2) (m := (w ^ 2) ^ 2)
    (w2 := (1 - 4 * a * (1 / w ^ 3) + 3 * a * a / (w ^ 2 * w ^ 2)) * k ^ 2)
    (P2 := -(k ^ 2 / 2 * (2 * A + 4 * D ^ 2 * a ^ 2 * E))) (Q2 := -(2 * E * (w ^ 4 - a ^ 2)))
    (hs0.mono fun x hx => dN hx) (Filter.Eventually.of_forall dM)
    (by
      have h := Real.hasDerivAt_sin (Real.pi / 2)
      have h' := Real.hasDerivAt_cos (Real.pi / 2)
      refine ((((h.const_mul (2 * A)).add ((h.pow 3).const_mul (4 * D ^ 2 * a ^ 2 * E))).const_mul (k ^ 2 / 2)).mul h').congr_deriv ?_
      simp only [Pi.add_apply, Pi.pow_apply, hpi, hps]; ring)
    (by
      have h := Real.hasDerivAt_sin (Real.pi / 2)
      have h' := Real.hasDerivAt_cos (Real.pi / 2)
      refine (((h.const_mul (2 * E)).mul ((((h'.pow 2).const_mul (a ^ 2)).const_add (w ^ 4)).sub ((h.pow 2).const_mul (a ^ 2)))).mul h').congr_deriv ?_
      simp only [Pi.sub_apply, Pi.pow_apply, Pi.mul_apply, hpi, hps]; ring)
    (by
      simp only [hpi, hps]
      have : E * 1 ^ 2 * (w ^ 4 + a ^ 2 * 0 ^ 2) = E * w ^ 4 := by ring
      rw [this]; positivity)
    (by simp only [hpi, hps]; ring)
    (by
      simp only [hpi, hps]
      rw [hA, hE, hD, hL]
      have := hw.ne'
      field_simp
      ring)
  refine Oscillates_congr ?_ key
  filter_upwards [hs0] with θ hθ
  have hS : w ^ 4 + a ^ 2 * Real.cos θ ^ 2 ≠ 0 := by positivity
  have e1 : w ^ 2 * w ^ 2 - 2 * w ^ 2 + a * a = E := by rw [hE]; ring
  have e2 : w ^ 2 * w ^ 2 + a * a * (Real.cos θ * Real.cos θ) = w ^ 4 + a ^ 2 * Real.cos θ ^ 2 := by ring
  have t0 : gmunuUp a ![0, w ^ 2, θ, 0] 0 0 = -((w ^ 4 + a ^ 2) ^ 2 - a ^ 2 * E * Real.sin θ ^ 2) / (E * (w ^ 4 + a ^ 2 * Real.cos θ ^ 2)) := by
    show -((w ^ 2 * w ^ 2 + a * a) * (w ^ 2 * w ^ 2 + a * a) - a * a * (w ^ 2 * w ^ 2 - 2 * w ^ 2 + a * a) * (Real.sin θ * Real.sin θ)) /
      ((w ^ 2 * w ^ 2 - 2 * w ^ 2 + a * a) * (w ^ 2 * w ^ 2 + a * a * (Real.cos θ * Real.cos θ))) = _
    rw [e1, e2]
    generalize w ^ 4 + a ^ 2 * Real.cos θ ^ 2 = S at *
    ring
  have t3 : gmunuUp a ![0, w ^ 2, θ, 0] 0 3 = -2 * a * w ^ 2 / (E * (w ^ 4 + a ^ 2 * Real.cos θ ^ 2)) := by
    show -2 * a * w ^ 2 / ((w ^ 2 * w ^ 2 + a * a * (Real.cos θ * Real.cos θ)) * (w ^ 2 * w ^ 2 - 2 * w ^ 2 + a * a)) = _
    rw [e1, e2]; ring
  have t33 : gmunuUp a ![0, w ^ 2, θ, 0] 3 3 = (E - a ^ 2 * Real.sin θ ^ 2) / (E * Real.sin θ ^ 2 * (w ^ 4 + a ^ 2 * Real.cos θ ^ 2)) := by
    show (w ^ 2 * w ^ 2 - 2 * w ^ 2 + a * a - a * a * (Real.sin θ * Real.sin θ)) /
      ((w ^ 2 * w ^ 2 + a * a * (Real.cos θ * Real.cos θ)) * (w ^ 2 * w ^ 2 - 2 * w ^ 2 + a * a) * (Real.sin θ * Real.sin θ)) = _
    rw [e1, e2]; ring
  unfold freePotential
  rw [t0, t3, t33, hA]
  generalize w ^ 4 + a ^ 2 * Real.cos θ ^ 2 = S at *
  generalize Real.sin θ = q at *
  field_simp
  ring

/-- The new torus around a Schwarzschild black hole is on a slow orbit. -/
theorem slow_new : Orbits.KerrSlow 0 1 (Torus.new 0).c := by
  show 0 < √10.8 ^ 3 - 3 * √10.8 + 2 * 0 * 1
  have h1 : (0 : ℝ) < √10.8 := Real.sqrt_pos.2 (by norm_num)
  have h2 : √10.8 ^ 2 = (10.8 : ℝ) := Real.sq_sqrt (by norm_num)
  nlinarith

/-- The frequencies are those of small oscillations: for instance around a Schwarzschild black hole. -/
example : let s := Torus.new 0
    let u := Orbits.kerrVel s.a s.posc 1
    Oscillates (fun r => freePotential (gmunuUp s.a ![0, r, Real.pi / 2, 0]) (lower (gmunu s.a s.posc) u 0) (lower (gmunu s.a s.posc) u 3))
      (gmunu s.a s.posc 1 1) s.c (s.omr2 * u 3 ^ 2) :=
  radial_frequency (s := Torus.new 0) (ready_new le_rfl) zero_le_one (by norm_num [Torus.new]) slow_new

/-- The expanding torus has at its centre the velocity of the circular orbit. -/
example (φ : ℝ) : ∃ u, ({ Torus.new 0 with kind := .expansion } : Torus).getVelocity ![0, 10.8, Real.pi / 2, φ] = .ok u ∧
    IsFree (gmunu 0) ![0, 10.8, Real.pi / 2, φ] u := by
  obtain ⟨u, a, -, b, -⟩ := centre (s := { Torus.new 0 with kind := .expansion }) (ready_new le_rfl) zero_le_one (by norm_num [Torus.new]) slow_new 0 φ
    (by simp [Torus.scale]) (Or.inr ⟨by simp, by simp⟩)
  exact ⟨u, a, b⟩

/-- A new torus around a Schwarzschild black hole has at its centre, at the date 0, a velocity that is not a unit vector. -/
theorem new_norm_wrong : ∃ v, (Torus.new 0).getVelocity ![0, 10.8, Real.pi / 2, 0] = .ok v ∧
    sp (gmunu 0 ![0, 10.8, Real.pi / 2, 0]) v v ≠ -1 := by
  have hr := ready_new le_rfl
  have C := centre_data hr zero_le_one (by norm_num [Torus.new]) slow_new
  obtain ⟨l1, l2⟩ := C.lc
  have hc : √(Torus.new 0).c ^ 2 = 10.8 := by rw [← C.c]; rfl
  have ha : (Torus.new 0).a = 0 := rfl
  have hO : (Torus.new 0).Omega ^ 2 = 1 / 10.8 ^ 3 := by
    rw [C.omega, ha, add_zero, div_pow, one_pow, ← hc]; ring
  have hl : (Torus.new 0).lc ^ 2 = 10.8 ^ 3 / 8.8 ^ 2 := by
    have h1 := C.pos.ne'
    have e : √(Torus.new 0).c ^ 3 - 2 * √(Torus.new 0).c = √(Torus.new 0).c * 8.8 := by
      have : √(Torus.new 0).c ^ 3 = √(Torus.new 0).c * √(Torus.new 0).c ^ 2 := by ring
      rw [this, hc]; ring
    rw [l2, ha, mul_zero, zero_mul, sub_zero, add_zero, e, ← hc]
    field_simp
    ring
  have hdr : (Torus.new 0).drift 0 10.8 (Real.pi / 2) =
      (10.8 / √(gmunu 0 (Torus.new 0).posc 1 1) * 0.01 * 0.01 * (Torus.new 0).Omega, 0) := by
    show ((Torus.new 0).c / √(gmunu 0 (Torus.new 0).posc 1 1) * 0.01 * 0.01 * (Torus.new 0).Omega * Real.cos ((Torus.new 0).Omega * 0), (0 : ℝ)) = _
    rw [mul_zero, Real.cos_zero, mul_one]; rfl
  have hgr : gmunu 0 (Torus.new 0).posc 1 1 = 10.8 / 8.8 := by
    have := grr_c (Torus.new 0)
    rw [ha] at this
    rw [this]
    show (10.8 : ℝ) ^ 2 / (10.8 * 10.8 - 2 * 10.8 + 0 * 0) = _
    norm_num
  have hp2 := Real.cos_pi_div_two
  have u0 : gmunuUp 0 ![0, 10.8, Real.pi / 2, 0] 0 0 = -(10.8 / 8.8) := by
    show -(((10.8 : ℝ) * 10.8 + 0 * 0) * (10.8 * 10.8 + 0 * 0) - 0 * 0 * (10.8 * 10.8 - 2 * 10.8 + 0 * 0) * _) /
      ((10.8 * 10.8 - 2 * 10.8 + 0 * 0) * (10.8 * 10.8 + 0 * 0 * _)) = _
    simp only [zero_mul]; norm_num
  have u3 : gmunuUp 0 ![0, 10.8, Real.pi / 2, 0] 0 3 = 0 := by
    show -2 * (0 : ℝ) * 10.8 / _ = 0
    simp
  have u33 : gmunuUp 0 ![0, 10.8, Real.pi / 2, 0] 3 3 = 1 / 10.8 ^ 2 := by
    show ((10.8 : ℝ) * 10.8 - 2 * 10.8 + 0 * 0 - 0 * 0 * _) / ((10.8 * 10.8 + 0 * 0 * _) * (10.8 * 10.8 - 2 * 10.8 + 0 * 0) *
      (Real.sin (Real.pi / 2) * Real.sin (Real.pi / 2))) = _
    rw [Real.sin_pi_div_two]; simp only [zero_mul]; norm_num
  have u1 : gmunuUp 0 ![0, 10.8, Real.pi / 2, 0] 1 1 = 8.8 / 10.8 := by
    show ((10.8 : ℝ) * 10.8 - 2 * 10.8 + 0 * 0) / (10.8 * 10.8 + 0 * 0 * _) = _
    simp only [zero_mul]; norm_num
  have hden : (Torus.new 0).denom ![0, 10.8, Real.pi / 2, 0] < 0 := by
    show gmunuUp 0 ![0, 10.8, Real.pi / 2, 0] 0 0 + (Torus.new 0).lc * (Torus.new 0).lc * gmunuUp 0 ![0, 10.8, Real.pi / 2, 0] 3 3 -
      2 * (Torus.new 0).lc * gmunuUp 0 ![0, 10.8, Real.pi / 2, 0] 0 3 +
      ((Torus.new 0).drift 0 10.8 (Real.pi / 2)).1 * ((Torus.new 0).drift 0 10.8 (Real.pi / 2)).1 * gmunuUp 0 ![0, 10.8, Real.pi / 2, 0] 1 1 +
      ((Torus.new 0).drift 0 10.8 (Real.pi / 2)).2 * ((Torus.new 0).drift 0 10.8 (Real.pi / 2)).2 * _ < 0
    rw [hdr, u0, u3, u33, u1]
    have e1 : (Torus.new 0).lc * (Torus.new 0).lc = 10.8 ^ 3 / 8.8 ^ 2 := by rw [← hl]; ring
    have e2 : 10.8 / √(gmunu 0 (Torus.new 0).posc 1 1) * 0.01 * 0.01 * (Torus.new 0).Omega *
        (10.8 / √(gmunu 0 (Torus.new 0).posc 1 1) * 0.01 * 0.01 * (Torus.new 0).Omega) =
        10.8 ^ 2 / √(gmunu 0 (Torus.new 0).posc 1 1) ^ 2 * 0.01 ^ 4 * (Torus.new 0).Omega ^ 2 := by ring
    rw [e1, e2, Real.sq_sqrt (by rw [hgr]; norm_num), hgr, hO]
    norm_num
  have hok : ∃ v, (Torus.new 0).getVelocity ![0, 10.8, Real.pi / 2, 0] = .ok v := by
    simp only [Torus.getVelocity]
    rw [if_neg, if_neg]
    · exact ⟨_, rfl⟩
    · exact not_lt.2 (div_pos_of_neg_of_neg (by norm_num) hden).le
    · push Not
      refine ⟨hr, by simp [Torus.new], ?_, ?_, ?_, ?_, hden.ne⟩
      · rw [l1]; exact div_ne_zero (neg_ne_zero.2 C.slow.ne') C.sum.ne'
      · show Real.sin (Real.pi / 2) ≠ 0
        rw [Real.sin_pi_div_two]; exact one_ne_zero
      · show (10.8 : ℝ) * 10.8 - 2 * 10.8 + 0 * 0 ≠ 0
        norm_num
      · show (10.8 : ℝ) * 10.8 + 0 * 0 * _ ≠ 0
        simp only [zero_mul]; norm_num
  obtain ⟨v, hv⟩ := hok
  refine ⟨v, hv, fun hn => ?_⟩
  have := ((norm_wrong rfl (by show (2 : ℝ) < 10.8; norm_num) hv).2.1 hn)
  have e : (Torus.new 0).drift 0 10.8 (Real.pi / 2) = 0 := this
  rw [hdr, Prod.ext_iff] at e
  have e1 : 10.8 / √(gmunu 0 (Torus.new 0).posc 1 1) * 0.01 * 0.01 * (Torus.new 0).Omega = 0 := e.1
  have hO0 : (Torus.new 0).Omega ≠ 0 := one_div_ne_zero hr.2.2.2
  have hg0 : √(gmunu 0 (Torus.new 0).posc 1 1) ≠ 0 := (Real.sqrt_pos.2 (by rw [hgr]; norm_num)).ne'
  exact mul_ne_zero (mul_ne_zero (mul_ne_zero (div_ne_zero (by norm_num) hg0) (by norm_num)) (by norm_num)) hO0 e1

end Gyoto.DefTorus
