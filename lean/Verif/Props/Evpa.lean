import Verif.Model.Evpa
import Verif.Props.Three1
import Verif.Props.Camera
import Mathlib.Tactic.LinearCombination
import Mathlib.Tactic.FieldSimp

/-!
# C51: polarisation angle in the emitter's frame

The specification does not follow the code's projections: the returned angle `χ` is judged by the vector
`cos χ North + sin χ East` it stands for, which must be a unit vector of the emitter's rest frame, orthogonal to the light ray and to
the magnetic field (or, when the electric field is given, in the plane of the ray and the field).
-/

namespace Gyoto.Evpa

open Gyoto.MetricAlg Gyoto.Camera

/-- A light ray `k` with an exactly transported polarisation basis, seen by an emitter of four-velocity `u`. -/
structure Setting (g : Tensor) (k ephi etheta u : Vec) : Prop where
  symm : g.IsSymm
  null : sp g k k = 0
  seen : sp g k u ≠ 0
  timelike : sp g u u < 0
  pp : sp g ephi ephi = 1
  tt : sp g etheta etheta = 1
  pt : sp g ephi etheta = 0
  pk : sp g ephi k = 0
  tk : sp g etheta k = 0

/-- The direction of the sky `e` as seen by the emitter: the vector orthogonal to `u` that differs from `e` along the ray. -/
noncomputable def seenAs (g : Tensor) (k u e : Vec) : Vec := e - (sp g e u / sp g k u) • k

/-- Direction at position angle `χ`, counted from north (`etheta`) to east (opposite to west, `ephi`). -/
noncomputable def direction (g : Tensor) (k u ephi etheta : Vec) (chi : ℝ) : Vec :=
  Real.cos chi • seenAs g k u etheta - Real.sin chi • seenAs g k u ephi

/-! ### The pieces -/

theorem seen_u {g : Tensor} {k u : Vec} (h : sp g k u ≠ 0) (e : Vec) : sp g (seenAs g k u e) u = 0 := by
  unfold seenAs
  rw [sp_sub_left, sp_smul_left]
  field_simp
  ring

theorem seen_k {g : Tensor} {k u e : Vec} (h0 : sp g k k = 0) (h : sp g e k = 0) : sp g (seenAs g k u e) k = 0 := by
  unfold seenAs
  rw [sp_sub_left, sp_smul_left, h0, h]
  ring

theorem seen_seen {g : Tensor} (hg : g.IsSymm) {k u e e' : Vec} (h0 : sp g k k = 0) (h : sp g e k = 0) (h' : sp g e' k = 0) :
    sp g (seenAs g k u e) (seenAs g k u e') = sp g e e' := by
  unfold seenAs
  rw [sp_sub_left, sp_sub_right, sp_sub_right, sp_smul_left, sp_smul_left, sp_smul_right, sp_smul_right, h0, h, sp_comm hg k e', h']
  ring

theorem prime_eq {g : Tensor} {k u : Vec} (h : sp g k u ≠ 0) (e : Vec) : prime g e k u = some (seenAs g k u e) := by
  unfold prime
  simp only [scalarProd_eq, if_neg h, Option.some.injEq]
  funext i
  simp only [add, multiply, seenAs, Pi.sub_apply, Pi.smul_apply, smul_eq_mul]
  ring

theorem byNorm_some {g : Tensor} {v w : Vec} (h : byNorm g v = some w) :
    sp g v v ≠ 0 ∧ w = (1 / MetricAlg.norm g v) • v ∧ sp g w w = sgn (sp g v v) := Three1.normalise_some h

theorem byNorm_isSome {g : Tensor} {v : Vec} (h : sp g v v ≠ 0) : ∃ w, byNorm g v = some w := by
  have : MetricAlg.norm g v ≠ 0 := fun e => h ((norm_zero_iff g v).1 e)
  unfold byNorm MetricAlg.inv
  rw [if_neg this]
  exact ⟨_, rfl⟩

theorem norm_ne {g : Tensor} {v : Vec} (h : sp g v v ≠ 0) : MetricAlg.norm g v ≠ 0 := fun e => h ((norm_zero_iff g v).1 e)

theorem comb {a : ℝ} (ha : a ≠ 0) (c : ℝ) (v K : Vec) : ∃ α β : ℝ, α ≠ 0 ∧ a • (v - c • K) = α • v + β • K :=
  ⟨a, -(a * c), ha, by rw [smul_sub, smul_smul, neg_smul, sub_eq_add_neg]⟩

/-- The wave vector in the frame: a combination of `k` and `u`. -/
theorem wave_some {g : Tensor} {k u K : Vec} (h : waveInFrame g k u = some K) :
    (∃ a b : ℝ, a ≠ 0 ∧ K = a • k + b • u) := by
  unfold waveInFrame at h
  rw [Option.bind_eq_some_iff] at h
  obtain ⟨w, hw, hK⟩ := h
  obtain ⟨h0, rfl⟩ := project_some hw
  obtain ⟨h1, rfl, -⟩ := byNorm_some hK
  exact comb (one_div_ne_zero (norm_ne h1)) _ _ _

theorem wave_norm {g : Tensor} (hg : g.IsSymm) {k u K : Vec} (h0 : sp g k k = 0) (hu : sp g u u < 0) (hk : sp g k u ≠ 0)
    (h : waveInFrame g k u = some K) :
    sp g K K = 1 ∧ sp g K u = 0 ∧ sp g K k * sp g K k * -sp g u u = sp g k u * sp g k u := by
  unfold waveInFrame at h
  rw [Option.bind_eq_some_iff] at h
  obtain ⟨w, hw, hK⟩ := h
  obtain ⟨h1, rfl⟩ := project_some hw
  obtain ⟨h2, e2, h3⟩ := byNorm_some hK
  have hpos : sp g (k - (sp g u k / sp g u u) • u) (k - (sp g u k / sp g u u) • u) = sp g k u * sp g k u / -sp g u u := by
    rw [sp_sub_left, sp_sub_right, sp_sub_right, sp_smul_left, sp_smul_left, sp_smul_right, sp_smul_right, h0, sp_comm hg u k]
    field_simp
    ring
  have hp : 0 < sp g k u * sp g k u / -sp g u u := div_pos (mul_self_pos.2 hk) (by linarith)
  have hz : sp g (k - (sp g u k / sp g u u) • u) u = 0 := by
    rw [sp_sub_left, sp_smul_left, sp_comm hg u k]
    field_simp
    ring
  refine ⟨by rw [h3, hpos, sgn_pos hp], by rw [e2, sp_smul_left, hz, mul_zero], ?_⟩
  have hkk : sp g (k - (sp g u k / sp g u u) • u) k = sp g k u * sp g k u / -sp g u u := by
    rw [sp_sub_left, sp_smul_left, h0, sp_comm hg u k]
    field_simp
    ring
  have hn : MetricAlg.norm g (k - (sp g u k / sp g u u) • u) * MetricAlg.norm g (k - (sp g u k / sp g u u) • u) =
      sp g k u * sp g k u / -sp g u u := by
    rw [← hpos, ← abs_mul_abs_self, abs_norm, Real.mul_self_sqrt (abs_nonneg _), abs_of_pos (by rw [hpos]; exact hp)]
  have hn0 := norm_ne h2
  rw [e2, sp_smul_left, hkk]
  generalize MetricAlg.norm g (k - (sp g u k / sp g u u) • u) = n at hn hn0
  have hu' : -sp g u u ≠ 0 := by linarith
  have : sp g k u * sp g k u = n * n * -sp g u u := by rw [hn]; field_simp
  rw [this]
  field_simp

/-- The field in the frame: a combination of the field and `u`. -/
theorem field_some {g : Tensor} {f u v : Vec} (h : fieldInFrame g f u = some v) : ∃ a b : ℝ, a ≠ 0 ∧ v = a • f + b • u := by
  unfold fieldInFrame at h
  dsimp only at h
  by_cases h1 : MetricAlg.norm g f ≤ tol
  · rw [if_pos h1] at h; cases h
  · rw [if_neg h1] at h
    have hn : MetricAlg.norm g f ≠ 0 := fun e => h1 (by rw [e, tol]; norm_num)
    have ef : (fun i => f i / MetricAlg.norm g f) = (1 / MetricAlg.norm g f) • f := by
      funext i; simp only [Pi.smul_apply, smul_eq_mul]; ring
    rw [ef] at h
    by_cases h2 : |scalarProd g ((1 / MetricAlg.norm g f) • f) u| > 1e-6
    · rw [if_pos h2, Option.bind_eq_some_iff] at h
      obtain ⟨w, hw, h⟩ := h
      by_cases h3 : |MetricAlg.norm g w| ≤ tol
      · rw [if_pos h3] at h; cases h
      · rw [if_neg h3] at h
        obtain ⟨-, e1⟩ := project_some hw
        obtain ⟨h4, e2, -⟩ := byNorm_some h
        refine ⟨1 / MetricAlg.norm g w * (1 / MetricAlg.norm g f),
          -(1 / MetricAlg.norm g w * (sp g u ((1 / MetricAlg.norm g f) • f) / sp g u u)),
          mul_ne_zero (one_div_ne_zero (norm_ne h4)) (one_div_ne_zero hn), ?_⟩
        rw [e2, e1, smul_sub, smul_smul, smul_smul, neg_smul, sub_eq_add_neg, ← e1]
    · rw [if_neg h2] at h
      cases h
      exact ⟨1 / MetricAlg.norm g f, 0, one_div_ne_zero hn, by simp⟩

theorem screen_some {g : Tensor} {v K w : Vec} (h : fieldOnScreen g v K = some w) : ∃ a b : ℝ, a ≠ 0 ∧ w = a • v + b • K := by
  unfold fieldOnScreen at h
  rw [Option.bind_eq_some_iff] at h
  obtain ⟨x, hx, hw⟩ := h
  obtain ⟨-, rfl⟩ := project_some hx
  obtain ⟨h1, rfl, -⟩ := byNorm_some hw
  exact comb (one_div_ne_zero (norm_ne h1)) _ _ _

theorem angle_eq (n w : ℝ) (elec : Bool) {e chi : ℝ} (he : (if elec then -atan2 w n else -atan2 w n + Real.pi / 2) = e)
    (h : (if e > Real.pi / 2 then e - Real.pi else e) = chi) :
    angle n w elec = if chi > Real.pi / 2 ∨ chi < -(Real.pi / 2) then none else some chi := by
  unfold angle
  dsimp only
  rw [he, h]

/-- Angles: what part four returns, from the components `n` (north) and `w` (west) of the magnetic field. -/
theorem angle_magnetic (n w : ℝ) : ∃ chi, angle n w false = some chi ∧ -(Real.pi / 2) ≤ chi ∧ chi ≤ Real.pi / 2 ∧
    Real.cos chi * n = Real.sin chi * w ∧
    (n * n + w * w) * Real.sin (2 * chi) = 2 * n * w ∧ (n * n + w * w) * Real.cos (2 * chi) = w * w - n * n := by
  have hpi := Real.pi_pos
  obtain ⟨l, r⟩ : -Real.pi < atan2 w n ∧ atan2 w n ≤ Real.pi := Complex.arg_mem_Ioc _
  have hc := atan2_cos n w
  have hs := atan2_sin n w
  have hq : √(n * n + w * w) * √(n * n + w * w) = n * n + w * w :=
    Real.mul_self_sqrt (add_nonneg (mul_self_nonneg _) (mul_self_nonneg _))
  have ha := @angle_eq n w false
  simp only [Bool.false_eq_true, if_false] at ha
  generalize atan2 w n = a at l r hc hs ha
  have key : ∀ chi, (Real.cos chi = Real.sin a ∧ Real.sin chi = Real.cos a ∨ Real.cos chi = -Real.sin a ∧ Real.sin chi = -Real.cos a) →
      Real.cos chi * n = Real.sin chi * w ∧
      (n * n + w * w) * Real.sin (2 * chi) = 2 * n * w ∧ (n * n + w * w) * Real.cos (2 * chi) = w * w - n * n := by
    intro chi h
    rw [Real.sin_two_mul, Real.cos_two_mul', ← hq]
    generalize √(n * n + w * w) = s at hc hs
    subst hc
    subst hs
    rcases h with ⟨h1, h2⟩ | ⟨h1, h2⟩ <;> rw [h1, h2] <;> refine ⟨?_, ?_, ?_⟩ <;> ring
  by_cases h : -a + Real.pi / 2 > Real.pi / 2
  · refine ⟨-a + Real.pi / 2 - Real.pi, ?_, by linarith, by linarith, key _ (Or.inr ⟨?_, ?_⟩)⟩
    · rw [ha rfl (if_pos h), if_neg]
      rintro (h' | h') <;> linarith
    · rw [Real.cos_sub_pi, Real.cos_add_pi_div_two, Real.sin_neg, neg_neg]
    · rw [Real.sin_sub_pi, Real.sin_add_pi_div_two, Real.cos_neg]
  · refine ⟨-a + Real.pi / 2, ?_, by linarith, by linarith, key _ (Or.inl ⟨?_, ?_⟩)⟩
    · rw [ha rfl (if_neg h), if_neg]
      rintro (h' | h') <;> linarith
    · rw [Real.cos_add_pi_div_two, Real.sin_neg, neg_neg]
    · rw [Real.sin_add_pi_div_two, Real.cos_neg]

/-- The same for the electric field, when an angle is returned. -/
theorem angle_electric (n w chi : ℝ) (h : angle n w true = some chi) :
    -(Real.pi / 2) ≤ chi ∧ chi ≤ Real.pi / 2 ∧ Real.sin chi * n = -(Real.cos chi * w) := by
  have hc := atan2_cos n w
  have hs := atan2_sin n w
  have ha := @angle_eq n w true
  simp only [if_true] at ha
  generalize atan2 w n = a at hc hs ha
  have key : ∀ chi, (Real.cos chi = Real.cos a ∧ Real.sin chi = -Real.sin a ∨ Real.cos chi = -Real.cos a ∧ Real.sin chi = Real.sin a) →
      Real.sin chi * n = -(Real.cos chi * w) := by
    intro chi hh
    generalize √(n * n + w * w) = s at hc hs
    subst hc
    subst hs
    rcases hh with ⟨h1, h2⟩ | ⟨h1, h2⟩ <;> rw [h1, h2] <;> ring
  rw [ha rfl rfl] at h
  generalize hx : (if -a > Real.pi / 2 then -a - Real.pi else -a) = x at h
  by_cases hb : x > Real.pi / 2 ∨ x < -(Real.pi / 2)
  · rw [if_pos hb] at h; exact absurd h (by simp)
  · rw [if_neg hb, Option.some.injEq] at h
    subst h
    push Not at hb
    refine ⟨hb.2, hb.1, key _ ?_⟩
    split_ifs at hx with h1
    · right; rw [← hx, Real.cos_sub_pi, Real.sin_sub_pi, Real.cos_neg, Real.sin_neg, neg_neg]; exact ⟨rfl, rfl⟩
    · left; rw [← hx, Real.cos_neg, Real.sin_neg]; exact ⟨rfl, rfl⟩

/-- Finding: for the electric field, no angle is returned when its north component is negative and its
west component is not. -/
theorem angle_electric_none (n w : ℝ) (hn : n < 0) (hw : 0 ≤ w) : angle n w true = none := by
  have hpi := Real.pi_pos
  have h1 : Real.pi / 2 < atan2 w n := by
    by_contra h
    push Not at h
    have h0 : 0 ≤ atan2 w n := Complex.arg_nonneg_iff.2 hw
    have := Real.cos_nonneg_of_neg_pi_div_two_le_of_le (by linarith) h
    have hc := atan2_cos n w
    have : 0 ≤ √(n * n + w * w) * Real.cos (atan2 w n) := mul_nonneg (Real.sqrt_nonneg _) this
    linarith
  have ha := @angle_eq n w true
  simp only [if_true] at ha
  rw [ha rfl (if_neg (by linarith)), if_pos (Or.inr (by linarith))]

/-! ### The whole function -/

theorem basisOk_of {g : Tensor} {k ephi etheta u : Vec} (h : Setting g k ephi etheta u) : basisOk g k ephi etheta := by
  have ht : (0 : ℝ) ≤ tol := by unfold tol; norm_num
  unfold basisOk
  simp only [scalarProd_eq, h.pt, h.pk, h.tk, h.pp, h.tt, sub_self, abs_zero]
  rintro (h | h | h | h | h) <;> linarith

theorem seen_wave {g : Tensor} {k ephi etheta u K : Vec} (h : Setting g k ephi etheta u) (hK : waveInFrame g k u = some K) (e : Vec)
    (he : sp g e k = 0) : sp g (seenAs g k u e) K = 0 := by
  obtain ⟨a, b, -, rfl⟩ := wave_some hK
  rw [sp_add_right, sp_smul_right, sp_smul_right, seen_k h.null he, seen_u h.seen]
  ring

theorem primesOk_of {g : Tensor} {k ephi etheta u K : Vec} (h : Setting g k ephi etheta u) (hK : waveInFrame g k u = some K) :
    primesOk g (seenAs g k u ephi) (seenAs g k u etheta) K u := by
  have ht : (0 : ℝ) ≤ tol := by unfold tol; norm_num
  unfold primesOk
  simp only [scalarProd_eq, seen_wave h hK _ h.pk, seen_wave h hK _ h.tk, seen_u h.seen, seen_seen h.symm h.null h.pk h.pk,
    seen_seen h.symm h.null h.tk h.pk, seen_seen h.symm h.null h.tk h.tk, h.pp, h.tt, sp_comm h.symm etheta ephi, h.pt,
    (wave_norm h.symm h.null h.timelike h.seen hK).1, sub_self, abs_zero]
  constructor
  · rintro (h | h | h) <;> linarith
  · rintro (h | h | h | h | h) <;> linarith

/-- `getChi` when the basis is exact: what is left of it. -/
theorem getChi_eq {g : Tensor} {k ephi etheta u : Vec} (h : Setting g k ephi etheta u) (f : Vec) (elec : Bool) :
    getChi g 16 k ephi etheta f u elec =
      (waveInFrame g k u).bind fun K => (fieldInFrame g f u).bind fun v => (fieldOnScreen g v K).bind fun v =>
        angle (sp g v (seenAs g k u etheta)) (sp g v (seenAs g k u ephi)) elec := by
  unfold getChi
  rw [if_neg (by simp), if_neg (by simpa using basisOk_of h)]
  cases hK : waveInFrame g k u with
  | none => rfl
  | some K =>
    simp only [Option.bind_some, prime_eq h.seen, scalarProd_eq]
    congr 1
    funext v
    congr 1
    funext v
    rw [if_neg (by simpa using primesOk_of h hK)]

theorem direction_ok {g : Tensor} {k ephi etheta u : Vec} (h : Setting g k ephi etheta u) (chi : ℝ) :
    sp g (direction g k u ephi etheta chi) (direction g k u ephi etheta chi) = 1 ∧ sp g (direction g k u ephi etheta chi) u = 0 ∧
      sp g (direction g k u ephi etheta chi) k = 0 := by
  unfold direction
  refine ⟨?_, ?_, ?_⟩
  · simp only [sp_sub_left, sp_sub_right, sp_smul_left, sp_smul_right, seen_seen h.symm h.null h.pk h.pk,
      seen_seen h.symm h.null h.tk h.pk, seen_seen h.symm h.null h.tk h.tk, seen_seen h.symm h.null h.pk h.tk, h.pp, h.tt,
      sp_comm h.symm etheta ephi, h.pt]
    linear_combination Real.cos_sq_add_sin_sq chi
  · rw [sp_sub_left, sp_smul_left, sp_smul_left, seen_u h.seen, seen_u h.seen]; ring
  · rw [sp_sub_left, sp_smul_left, sp_smul_left, seen_k h.null h.tk, seen_k h.null h.pk]; ring

/-- A vector of the screen is orthogonal to the field iff it is to its projection. -/
theorem screen_field {g : Tensor} (hg : g.IsSymm) {k u f v w K P : Vec} (hK : waveInFrame g k u = some K)
    (hv : fieldInFrame g f u = some v) (hw : fieldOnScreen g v K = some w) (hu : sp g P u = 0) (hk : sp g P k = 0)
    (h : sp g w P = 0) : sp g P f = 0 := by
  obtain ⟨a, b, ha, rfl⟩ := wave_some hK
  obtain ⟨c, d, hc, rfl⟩ := field_some hv
  obtain ⟨x, y, hx, rfl⟩ := screen_some hw
  rw [sp_comm hg] at h
  simp only [sp_add_right, sp_smul_right, hu, hk, mul_zero, add_zero] at h
  rcases mul_eq_zero.1 h with h | h
  · exact absurd h hx
  · rcases mul_eq_zero.1 h with h | h
    · exact absurd h hc
    · exact h

/-- **C51**: the angle returned for a magnetic field lies in `[-π/2, π/2]`, and the direction it stands for is a unit vector of the
emitter's frame, orthogonal to the ray and to the field. -/
theorem chi_magnetic {g : Tensor} {k ephi etheta u : Vec} (h : Setting g k ephi etheta u) (f : Vec) (chi : ℝ)
    (hchi : getChi g 16 k ephi etheta f u false = some chi) :
    (-(Real.pi / 2) ≤ chi ∧ chi ≤ Real.pi / 2) ∧
    sp g (direction g k u ephi etheta chi) (direction g k u ephi etheta chi) = 1 ∧
    sp g (direction g k u ephi etheta chi) u = 0 ∧ sp g (direction g k u ephi etheta chi) k = 0 ∧
    sp g (direction g k u ephi etheta chi) f = 0 := by
  rw [getChi_eq h] at hchi
  simp only [Option.bind_eq_some_iff] at hchi
  obtain ⟨K, hK, v, hv, w, hw, hchi⟩ := hchi
  obtain ⟨chi', h1, h2, h3, h4, -⟩ := angle_magnetic (sp g w (seenAs g k u etheta)) (sp g w (seenAs g k u ephi))
  rw [hchi] at h1
  cases h1
  obtain ⟨d1, d2, d3⟩ := direction_ok h chi
  refine ⟨⟨h2, h3⟩, d1, d2, d3, screen_field h.symm hK hv hw d2 d3 ?_⟩
  unfold direction
  rw [sp_sub_right, sp_smul_right, sp_smul_right, h4, sub_self]

/-- **C51**: the angle returned for an electric field stands for a direction in the plane of the ray and the field: the
perpendicular direction of the screen is orthogonal to the field.  Partial: see `electric_wrong`. -/
theorem chi_electric_partial {g : Tensor} {k ephi etheta u : Vec} (h : Setting g k ephi etheta u) (f : Vec) (chi : ℝ)
    (hchi : getChi g 16 k ephi etheta f u true = some chi) :
    (-(Real.pi / 2) ≤ chi ∧ chi ≤ Real.pi / 2) ∧ sp g (direction g k u ephi etheta (chi + Real.pi / 2)) f = 0 := by
  rw [getChi_eq h] at hchi
  simp only [Option.bind_eq_some_iff] at hchi
  obtain ⟨K, hK, v, hv, w, hw, hchi⟩ := hchi
  obtain ⟨h2, h3, h4⟩ := angle_electric _ _ _ hchi
  obtain ⟨d1, d2, d3⟩ := direction_ok h (chi + Real.pi / 2)
  refine ⟨⟨h2, h3⟩, screen_field h.symm hK hv hw d2 d3 ?_⟩
  unfold direction
  rw [sp_sub_right, sp_smul_right, sp_smul_right, Real.cos_add_pi_div_two, Real.sin_add_pi_div_two]
  linarith

/-- **C51**: an angle is returned for every magnetic field of the emitter's frame that is strong enough and not along the ray. -/
theorem chi_magnetic_exists {g : Tensor} {k ephi etheta u : Vec} (h : Setting g k ephi etheta u) (f : Vec)
    (hfu : sp g f u = 0) (hf : 1e-6 < sp g f f) (hfk : sp g f f * (sp g k u * sp g k u) ≠ sp g f k * sp g f k * -sp g u u) :
    ∃ chi, getChi g 16 k ephi etheta f u false = some chi := by
  have hg := h.symm
  have hu : sp g u u ≠ 0 := h.timelike.ne
  -- the wave vector
  have hwv : ∃ K, waveInFrame g k u = some K := by
    unfold waveInFrame
    rw [project_eq k hu, Option.bind_some]
    apply byNorm_isSome
    have : sp g (k - (sp g u k / sp g u u) • u) (k - (sp g u k / sp g u u) • u) = sp g k u * sp g k u / -sp g u u := by
      rw [sp_sub_left, sp_sub_right, sp_sub_right, sp_smul_left, sp_smul_left, sp_smul_right, sp_smul_right, h.null, sp_comm hg u k]
      field_simp
      ring
    rw [this]
    exact (div_pos (mul_self_pos.2 h.seen) (by have := h.timelike; linarith)).ne'
  obtain ⟨K, hK⟩ := hwv
  -- the field
  have hff : 0 < sp g f f := by linarith [show (0 : ℝ) < 1e-6 by norm_num]
  have hn : MetricAlg.norm g f = √(sp g f f) := by
    unfold MetricAlg.norm
    simp only [scalarProd_eq]
    rw [sgn_pos hff, one_mul, abs_of_pos hff]
  have hn0 : MetricAlg.norm g f ≠ 0 := norm_ne hff.ne'
  have hv : fieldInFrame g f u = some ((1 / MetricAlg.norm g f) • f) := by
    unfold fieldInFrame
    dsimp only
    have ef : (fun i => f i / MetricAlg.norm g f) = (1 / MetricAlg.norm g f) • f := by
      funext i; simp only [Pi.smul_apply, smul_eq_mul]; ring
    rw [if_neg, ef, if_neg]
    · rw [scalarProd_eq, sp_smul_left, hfu, mul_zero, abs_zero]; norm_num
    · rw [hn, not_le]
      apply Real.lt_sqrt_of_sq_lt
      unfold tol
      calc ((1e-3 : ℝ)) ^ 2 = 1e-6 := by norm_num
        _ < _ := hf
  obtain ⟨k1, k2, k3⟩ := wave_norm hg h.null h.timelike h.seen hK
  -- its projection on the screen
  have hs : ∃ w, fieldOnScreen g ((1 / MetricAlg.norm g f) • f) K = some w := by
    unfold fieldOnScreen
    rw [project_eq _ (by rw [k1]; norm_num), Option.bind_some]
    apply byNorm_isSome
    rw [k1]
    have e : sp g ((1 / MetricAlg.norm g f) • f - (sp g K ((1 / MetricAlg.norm g f) • f) / 1) • K)
        ((1 / MetricAlg.norm g f) • f - (sp g K ((1 / MetricAlg.norm g f) • f) / 1) • K) =
        (1 / MetricAlg.norm g f) * (1 / MetricAlg.norm g f) * (sp g f f - sp g K f * sp g K f) := by
      rw [sp_sub_left, sp_sub_right, sp_sub_right]
      simp only [sp_smul_left, sp_smul_right, k1, sp_comm hg f K]
      ring
    rw [e]
    refine mul_ne_zero (mul_ne_zero (one_div_ne_zero hn0) (one_div_ne_zero hn0)) ?_
    intro e0
    apply hfk
    -- `K.f` in terms of `k.f`
    obtain ⟨a, b, ha, rfl⟩ := wave_some hK
    simp only [sp_add_left, sp_smul_left, sp_comm hg u f, hfu, mul_zero, add_zero] at e0 k2 k3 k1
    simp only [h.null, mul_zero, zero_add, sp_comm hg u k] at k3
    have hb : b = -(a * sp g k u / sp g u u) := by field_simp; linarith
    rw [sp_comm hg f k]
    have hku := h.seen
    have ha2 : a * a * (sp g k u * sp g k u) = -sp g u u := by
      subst hb
      have : (a * a * (sp g k u * sp g k u) + sp g u u) * (sp g k u * sp g k u) = 0 := by
        field_simp at k3
        rw [← k3]
        ring
      rcases mul_eq_zero.1 this with h | h
      · linarith
      · exact absurd h (mul_self_ne_zero.2 hku)
    have : sp g f f = a * a * (sp g k f * sp g k f) := by linarith
    rw [this, ← ha2]
    ring
  obtain ⟨w, hw⟩ := hs
  obtain ⟨chi, hchi, -⟩ := angle_magnetic (sp g w (seenAs g k u etheta)) (sp g w (seenAs g k u ephi))
  refine ⟨chi, ?_⟩
  rw [getChi_eq h, hK, Option.bind_some, hv, Option.bind_some, hw, Option.bind_some, hchi]

/-- **C51**: adding multiples of the wave vector to the basis does not change the angle. -/
theorem chi_gauge {g : Tensor} {k ephi etheta u : Vec} (h : Setting g k ephi etheta u) (f : Vec) (elec : Bool) (a b : ℝ) :
    getChi g 16 k (ephi + a • k) (etheta + b • k) f u elec = getChi g 16 k ephi etheta f u elec := by
  have hk : sp g k ephi = 0 := by rw [sp_comm h.symm]; exact h.pk
  have ht : sp g k etheta = 0 := by rw [sp_comm h.symm]; exact h.tk
  have h' : Setting g k (ephi + a • k) (etheta + b • k) u := by
    refine ⟨h.symm, h.null, h.seen, h.timelike, ?_, ?_, ?_, ?_, ?_⟩ <;>
      simp only [sp_add_left, sp_add_right, sp_smul_left, sp_smul_right, h.null, h.pp, h.tt, h.pt, h.pk, h.tk, hk, ht] <;> ring
  have e : ∀ (e : Vec) (c : ℝ), seenAs g k u (e + c • k) = seenAs g k u e := by
    intro e c
    have := h.seen
    funext i
    simp only [seenAs, sp_add_left, sp_smul_left, Pi.sub_apply, Pi.add_apply, Pi.smul_apply, smul_eq_mul]
    field_simp
    ring
  rw [getChi_eq h, getChi_eq h', e, e]

/-- **C51**: reversing the magnetic field does not change the sine and cosine of twice the angle. -/
theorem sinCos_reverse {g : Tensor} {k ephi etheta u : Vec} (h : Setting g k ephi etheta u) (f : Vec) :
    getSinCos2Chi g 16 k ephi etheta (-f) u false = getSinCos2Chi g 16 k ephi etheta f u false := by
  have hnorm : ∀ v : Vec, MetricAlg.norm g (-v) = MetricAlg.norm g v := by
    intro v
    unfold MetricAlg.norm
    simp only [scalarProd_eq]
    have : sp g (-v) (-v) = sp g v v := by
      rw [← neg_one_smul ℝ v, sp_smul_left, sp_smul_right]; ring
    rw [this]
  have hby : ∀ v : Vec, byNorm g (-v) = (byNorm g v).map (-·) := by
    intro v
    unfold byNorm
    rw [hnorm, Option.map_map]
    congr 1
    funext a i
    simp [multiply]
  have hproj : ∀ v x : Vec, project g (-v) x = (project g v x).map (-·) := by
    intro v x
    by_cases hx : sp g x x = 0
    · rw [project_none hx, project_none hx]; rfl
    · rw [project_eq _ hx, project_eq _ hx, Option.map_some, Option.some.injEq]
      have : sp g x (-v) = -sp g x v := by rw [← neg_one_smul ℝ v, sp_smul_right]; ring
      rw [this]
      funext i
      simp only [Pi.sub_apply, Pi.neg_apply, Pi.smul_apply, smul_eq_mul]
      ring
  have hscreen : ∀ v K : Vec, fieldOnScreen g (-v) K = (fieldOnScreen g v K).map (-·) := by
    intro v K
    unfold fieldOnScreen
    rw [hproj]
    cases project g v K with
    | none => rfl
    | some x => exact hby x
  have hfield : fieldInFrame g (-f) u = (fieldInFrame g f u).map (-·) := by
    unfold fieldInFrame
    dsimp only
    rw [hnorm]
    have ef : (fun i => (-f) i / MetricAlg.norm g f) = -fun i => f i / MetricAlg.norm g f := by
      funext i; simp only [Pi.neg_apply]; ring
    rw [ef]
    have es : |scalarProd g (-fun i => f i / MetricAlg.norm g f) u| = |scalarProd g (fun i => f i / MetricAlg.norm g f) u| := by
      simp only [scalarProd_eq]
      rw [← neg_one_smul ℝ, sp_smul_left, neg_one_mul, abs_neg]
    rw [es]
    by_cases h1 : MetricAlg.norm g f ≤ tol
    · rw [if_pos h1, if_pos h1]; rfl
    · rw [if_neg h1, if_neg h1]
      by_cases h2 : |scalarProd g (fun i => f i / MetricAlg.norm g f) u| > 1e-6
      · rw [if_pos h2, if_pos h2, hproj]
        cases project g (fun i => f i / MetricAlg.norm g f) u with
        | none => rfl
        | some x =>
          simp only [Option.map_some, Option.bind_some, hnorm]
          by_cases h3 : |MetricAlg.norm g x| ≤ tol
          · rw [if_pos h3, if_pos h3]; rfl
          · rw [if_neg h3, if_neg h3]; exact hby x
      · rw [if_neg h2, if_neg h2]; rfl
  have hang : ∀ n w : ℝ, (angle (-n) (-w) false).map (fun chi => (Real.sin (2 * chi), Real.cos (2 * chi))) =
      (angle n w false).map (fun chi => (Real.sin (2 * chi), Real.cos (2 * chi))) := by
    intro n w
    by_cases h0 : n * n + w * w = 0
    · have hn : n = 0 := by nlinarith [mul_self_nonneg n, mul_self_nonneg w]
      have hw : w = 0 := by nlinarith [mul_self_nonneg n, mul_self_nonneg w]
      subst hn; subst hw
      simp
    · obtain ⟨c1, h1, -, -, -, s1, t1⟩ := angle_magnetic n w
      obtain ⟨c2, h2, -, -, -, s2, t2⟩ := angle_magnetic (-n) (-w)
      rw [h1, h2]
      simp only [Option.map_some, Option.some.injEq, Prod.mk.injEq]
      exact ⟨mul_left_cancel₀ h0 (by linarith), mul_left_cancel₀ h0 (by linarith)⟩
  unfold getSinCos2Chi
  rw [getChi_eq h, getChi_eq h, hfield]
  cases waveInFrame g k u with
  | none => rfl
  | some K =>
    cases fieldInFrame g f u with
    | none => rfl
    | some v =>
      simp only [Option.map_some, Option.bind_some, hscreen]
      cases fieldOnScreen g v K with
      | none => rfl
      | some w =>
        have hneg : ∀ x y : Vec, sp g (-x) y = -sp g x y := fun x y => by
          rw [← neg_one_smul ℝ x, sp_smul_left]; ring
        simp only [Option.map_some, Option.bind_some, hneg]
        exact hang _ _

/-! ### Rotation of the Stokes emission coefficients -/

/-- **C51**: rotating keeps the total and the circular emission and the degree of linear polarisation, and turns the position angle
of a linear polarisation from `ψ` to `ψ + χ`. -/
theorem rotate_linear (jI l psi jV chi : ℝ) :
    rotateJsChi jI (l * Real.cos (2 * psi)) (l * Real.sin (2 * psi)) jV chi =
      ![jI, l * Real.cos (2 * (psi + chi)), l * Real.sin (2 * (psi + chi)), jV] := by
  unfold rotateJsChi rotateJs
  rw [show 2 * (psi + chi) = 2 * psi + 2 * chi by ring, Real.cos_add, Real.sin_add]
  funext i
  fin_cases i <;> simp <;> ring

/-- **C51**: the angle only matters modulo `π`. -/
theorem rotate_period (jI jQ jU jV chi : ℝ) : rotateJsChi jI jQ jU jV (chi + Real.pi) = rotateJsChi jI jQ jU jV chi := by
  unfold rotateJsChi
  rw [show 2 * (chi + Real.pi) = 2 * chi + 2 * Real.pi by ring, Real.sin_add_two_pi, Real.cos_add_two_pi]

/-! ### Example and finding -/

/-- Flat space, emitter at rest, light going along `z`, west along `x`, north along `y`. -/
theorem flat_setting : Setting flat ![1, 0, 0, 1] ![0, 1, 0, 0] ![0, 0, 1, 0] ![1, 0, 0, 0] := by
  refine ⟨flat_symm, ?_, ?_, ?_, ?_, ?_, ?_, ?_, ?_⟩ <;> simp [flat_sp]

/-- A field along `(1, 1, 1)/√3` gives an angle; the direction it stands for is orthogonal to the field. -/
example : ∃ chi, getChi flat 16 ![1, 0, 0, 1] ![0, 1, 0, 0] ![0, 0, 1, 0] ![0, 1, 1, 1] ![1, 0, 0, 0] false = some chi ∧
    -Real.sin chi + Real.cos chi = 0 := by
  obtain ⟨chi, h⟩ := chi_magnetic_exists flat_setting ![0, 1, 1, 1] (by simp [flat_sp]) (by simp [flat_sp]; norm_num)
    (by simp [flat_sp])
  obtain ⟨-, -, -, -, h'⟩ := chi_magnetic flat_setting _ _ h
  refine ⟨chi, h, ?_⟩
  simp [direction, seenAs, flat_sp] at h'
  linarith

/-- Finding: for every unit electric field on the screen whose north component is negative and whose west component is not, an
error is thrown instead of the angle of the opposite field, which describes the same polarisation. -/
theorem electric_wrong {g : Tensor} {k ephi etheta u f : Vec} (h : Setting g k ephi etheta u) (hf : sp g f f = 1)
    (hu : sp g f u = 0) (hk : sp g f k = 0) (hn : sp g f etheta < 0) (hw : 0 ≤ sp g f ephi) :
    getChi g 16 k ephi etheta f u true = none := by
  have hn1 : MetricAlg.norm g f = 1 := by
    unfold MetricAlg.norm
    simp only [scalarProd_eq]
    rw [hf, sgn_pos one_pos]
    norm_num
  have hv : fieldInFrame g f u = some f := by
    have ht : ¬(1 : ℝ) ≤ tol := by unfold tol; norm_num
    unfold fieldInFrame
    simp only [hn1, div_one, scalarProd_eq, hu, abs_zero]
    rw [if_neg ht, if_neg (by norm_num)]
  have hs : ∀ e, sp g f (seenAs g k u e) = sp g f e := by
    intro e
    unfold seenAs
    rw [sp_sub_right, sp_smul_right, hk, mul_zero, sub_zero]
  rw [getChi_eq h, hv]
  cases hK : waveInFrame g k u with
  | none => rfl
  | some K =>
    have hkf : sp g K f = 0 := by
      obtain ⟨a, b, -, rfl⟩ := wave_some hK
      rw [sp_add_left, sp_smul_left, sp_smul_left, sp_comm h.symm k f, sp_comm h.symm u f, hk, hu]; ring
    have hw' : fieldOnScreen g f K = some f := by
      unfold fieldOnScreen byNorm
      rw [project_eq _ (by rw [(wave_norm h.symm h.null h.timelike h.seen hK).1]; norm_num), Option.bind_some, hkf, zero_div,
        zero_smul, sub_zero, hn1]
      have : multiply f 1 = f := by funext i; simp [multiply]
      simp [inv, this]
    simp only [Option.bind_some, hw', hs]
    exact angle_electric_none _ _ hn hw

/-- A field pointing south: an error; the same pointing north: an angle. -/
example : getChi flat 16 ![1, 0, 0, 1] ![0, 1, 0, 0] ![0, 0, 1, 0] ![0, 0, -1, 0] ![1, 0, 0, 0] true = none :=
  electric_wrong flat_setting (by simp [flat_sp]) (by simp [flat_sp]) (by simp [flat_sp]) (by simp [flat_sp]) (by simp [flat_sp])

end Gyoto.Evpa
