import Verif.Lemmas.MetricAlg
import Mathlib.Analysis.Calculus.Deriv.Mul
import Mathlib.Analysis.Calculus.Deriv.Prod
import Mathlib.Analysis.Calculus.MeanValue
import Mathlib.LinearAlgebra.LinearIndependent.Basic
import Mathlib.Tactic.FinCases

/-!
# C22, C23, C24, C25, C45: vectors, velocities, frames and connection

Specification: `sp g u v = u · (g v)` with Mathlib's matrix–vector product (defined in `Verif.Lemmas.MetricAlg`).
-/

namespace Gyoto.MetricAlg

open Matrix

/-- Position of an 8-vector. -/
def posOf (c : Fin 8 → ℝ) : Vec := fun k => c ⟨k, by omega⟩
/-- Four-velocity of an 8-vector. -/
def velOf (c : Fin 8 → ℝ) : Vec := fun k => c ⟨4 + k, by omega⟩

/-- The four-velocity of `c` with another time component. -/
def withTime (c : Fin 8 → ℝ) (t : ℝ) : Vec := fun k => if k = 0 then t else velOf c k

theorem withTime_norm {g : Tensor} (hg : g.IsSymm) {coord : Fin 8 → ℝ} (t : ℝ) :
    sp g (withTime coord t) (withTime coord t) = g 0 0 * t ^ 2 +
      2 * (∑ i : Fin 3, g 0 i.succ * coord ⟨4 + i.succ, by simp; omega⟩) * t +
      ∑ i : Fin 3, ∑ j : Fin 3, g i.succ j.succ * coord ⟨4 + i.succ, by simp; omega⟩ *
        coord ⟨4 + j.succ, by simp; omega⟩ := by
  have h10 := hg.apply 0 1
  have h20 := hg.apply 0 2
  have h30 := hg.apply 0 3
  rw [← scalarProd_eq]
  simp only [scalarProd, Fin.sum_univ_four, Fin.sum_univ_three, withTime, velOf]
  simp [Fin.succ, h10, h20, h30]
  ring

/-- C22. -/
theorem nullify (gmunu : Vec → Tensor) (coord : Fin 8 → ℝ) (hg : (gmunu (posOf coord)).IsSymm)
    (ha : gmunu (posOf coord) 0 0 ≠ 0)
    (hex : ∃ t, sp (gmunu (posOf coord)) (withTime coord t) (withTime coord t) = 0) :
    ∃ c' tdot2, nullifyCoord gmunu coord = some (c', tdot2) ∧
      (∀ k, k ≠ 4 → c' k = coord k) ∧
      sp (gmunu (posOf c')) (velOf c') (velOf c') = 0 ∧
      (∀ t, sp (gmunu (posOf coord)) (withTime coord t) (withTime coord t) = 0 ↔ t = c' 4 ∨ t = tdot2) ∧
      (gmunu (posOf coord) 0 0 < 0 → tdot2 ≤ c' 4) := by
  obtain ⟨t0, ht0⟩ := hex
  have hq := withTime_norm hg (coord := coord)
  simp only [nullifyCoord]
  have hpos : (fun k : Fin 4 => coord ⟨k, by omega⟩) = posOf coord := rfl
  rw [hpos]
  generalize hgg : gmunu (posOf coord) = g at *
  generalize hbb : (∑ i : Fin 3, g 0 i.succ * coord ⟨4 + i.succ, by simp; omega⟩) = b at *
  generalize hcc : (∑ i : Fin 3, ∑ j : Fin 3, g i.succ j.succ * coord ⟨4 + i.succ, by simp; omega⟩ *
    coord ⟨4 + j.succ, by simp; omega⟩) = c at *
  have h0 := ht0
  rw [hq] at h0
  have hdisc : 0 ≤ b * b - g 0 0 * c := by
    have : b * b - g 0 0 * c = (g 0 0 * t0 + b) ^ 2 := by linear_combination -(g 0 0) * h0
    rw [this]; positivity
  rw [if_neg (by push Not; exact ⟨ha, hdisc⟩)]
  have hs : √(b * b - g 0 0 * c) * √(b * b - g 0 0 * c) = b * b - g 0 0 * c := Real.mul_self_sqrt hdisc
  have hs0 : 0 ≤ √(b * b - g 0 0 * c) := Real.sqrt_nonneg _
  generalize √(b * b - g 0 0 * c) = d at hs hs0 ⊢
  refine ⟨_, _, rfl, fun k hk => if_neg hk, ?_, ?_, ?_⟩
  · have e1 : posOf (fun k => if k = 4 then (-b - d) * (1 / g 0 0) else coord k) = posOf coord := by
      funext k; fin_cases k <;> rfl
    have e2 : velOf (fun k => if k = 4 then (-b - d) * (1 / g 0 0) else coord k) =
        withTime coord ((-b - d) * (1 / g 0 0)) := by
      funext k; fin_cases k <;> rfl
    rw [e1, e2, hgg, hq]
    field_simp
    linear_combination hs
  · intro t
    rw [hq, if_pos rfl]
    constructor
    · intro h
      have : (g 0 0 * t + b + d) * (g 0 0 * t + b - d) = 0 := by linear_combination g 0 0 * h - hs
      rcases mul_eq_zero.1 this with h | h
      · left; field_simp; linear_combination h
      · right; field_simp; linear_combination h
    · rintro (h | h) <;> subst h <;> field_simp <;> linear_combination hs
  · intro hneg
    rw [if_pos rfl]
    have : (1 / g 0 0) ≤ 0 := by rw [one_div]; exact (inv_neg''.2 hneg).le
    nlinarith

/-- C23, slower than light. -/
theorem normalize_unit (g : Tensor) (u : Vec) (hu : u 0 ≠ 0) (h : sp g u u < 0) :
    ∃ w, normalizeFourVel g u = some w ∧ sp g w w = -1 ∧ 0 < w 0 ∧ ∃ c : ℝ, w = c • u := by
  have hk : (Fin.cons 1 fun k : Fin 3 => u k.succ / u 0 : Vec) = (1 / u 0) • u := by
    funext k
    refine Fin.cases ?_ (fun k => ?_) k
    · simp [hu]
    · simp [div_eq_inv_mul]
  have hsum : sp g ((1 / u 0) • u) ((1 / u 0) • u) = sp g u u / (u 0) ^ 2 := by
    rw [sp_smul_left, sp_smul_right]; field_simp
  have hlt : sp g u u / (u 0) ^ 2 < 0 := div_neg_of_neg_of_pos h (by positivity)
  have ht : sysPrimeToTdot g (fun k : Fin 3 => u k.succ / u 0) = (√(-(sp g u u / (u 0) ^ 2)))⁻¹ := by
    simp only [sysPrimeToTdot]
    have e : (∑ i, ∑ j, g i j * (Fin.cons 1 fun k : Fin 3 => u k.succ / u 0 : Vec) i *
        (Fin.cons 1 fun k : Fin 3 => u k.succ / u 0 : Vec) j) = sp g u u / (u 0) ^ 2 := by
      rw [hk, ← hsum, ← scalarProd_eq]; rfl
    rw [e, if_neg (not_le.2 hlt)]
  simp only [normalizeFourVel, if_neg hu, ht]
  have hs0 : 0 < √(-(sp g u u / (u 0) ^ 2)) := Real.sqrt_pos.2 (by linarith)
  have hs : √(-(sp g u u / (u 0) ^ 2)) * √(-(sp g u u / (u 0) ^ 2)) = -(sp g u u / (u 0) ^ 2) :=
    Real.mul_self_sqrt (by linarith)
  generalize √(-(sp g u u / (u 0) ^ 2)) = s at hs hs0
  have hw : (Fin.cons s⁻¹ fun k : Fin 3 => u k.succ / u 0 * s⁻¹ : Vec) = (s⁻¹ / u 0) • u := by
    funext k
    refine Fin.cases ?_ (fun k => ?_) k
    · simp [hu]
    · simp only [Fin.cons_succ, Pi.smul_apply, smul_eq_mul]; ring
  refine ⟨_, rfl, ?_, ?_, _, hw⟩
  · rw [hw, sp_smul_left, sp_smul_right]
    have : sp g u u = -(s * s) * u 0 ^ 2 := by rw [hs]; field_simp
    rw [this]; field_simp
  · simp [hs0]

/-- C23, at the speed of light or faster. -/
theorem normalize_fast (g : Tensor) (u : Vec) (hu : u 0 ≠ 0) (h : 0 ≤ sp g u u) :
    normalizeFourVel g u = some 0 := by
  have hk : (Fin.cons 1 fun k : Fin 3 => u k.succ / u 0 : Vec) = (1 / u 0) • u := by
    funext k
    refine Fin.cases ?_ (fun k => ?_) k
    · simp [hu]
    · simp [div_eq_inv_mul]
  have hsum : sp g ((1 / u 0) • u) ((1 / u 0) • u) = sp g u u / (u 0) ^ 2 := by
    rw [sp_smul_left, sp_smul_right]; field_simp
  have ht : sysPrimeToTdot g (fun k : Fin 3 => u k.succ / u 0) = 0 := by
    simp only [sysPrimeToTdot]
    have e : (∑ i, ∑ j, g i j * (Fin.cons 1 fun k : Fin 3 => u k.succ / u 0 : Vec) i *
        (Fin.cons 1 fun k : Fin 3 => u k.succ / u 0 : Vec) j) = sp g u u / (u 0) ^ 2 := by
      rw [hk, ← hsum, ← scalarProd_eq]; rfl
    rw [e, if_pos (by positivity)]
  simp only [normalizeFourVel, if_neg hu, ht]
  congr 1
  funext k
  refine Fin.cases ?_ (fun k => ?_) k <;> simp

/-- C24: the projection exists when the second vector is not null; it is orthogonal to it, differs from the first vector
by a multiple of the second, and projecting again changes nothing. -/
theorem project_orthogonal (g : Tensor) (hg : g.IsSymm) (u v : Vec) :
    (sp g v v = 0 → project g u v = none) ∧
    (sp g v v ≠ 0 → ∃ w, project g u v = some w ∧ sp g w v = 0 ∧ (∃ c : ℝ, w = u + c • v) ∧ project g w v = some w) := by
  refine ⟨project_none, fun h => ⟨_, project_eq u h, ?_, ⟨-(sp g v u / sp g v v), ?_⟩, ?_⟩⟩
  · rw [sp_sub_left, sp_smul_left, sp_comm hg u v]; field_simp; ring
  · rw [neg_smul, sub_eq_add_neg]
  · rw [project_eq _ h, sp_sub_right, sp_smul_right]
    have : sp g v u - sp g v u / sp g v v * sp g v v = 0 := by field_simp; ring
    rw [this]; simp

/-- Mutually orthogonal vectors of norm ±1. -/
def Orthonormal4 (g : Tensor) (u0 u1 u2 u3 : Vec) : Prop :=
  (sp g u0 u1 = 0 ∧ sp g u0 u2 = 0 ∧ sp g u0 u3 = 0 ∧ sp g u1 u2 = 0 ∧ sp g u1 u3 = 0 ∧ sp g u2 u3 = 0) ∧
  ∀ u ∈ [u0, u1, u2, u3], sp g u u = 1 ∨ sp g u u = -1

theorem sgn_cases {x : ℝ} (h : x ≠ 0) : sgn x = 1 ∨ sgn x = -1 := by
  rcases lt_or_gt_of_ne h with h | h
  · exact .inr (sgn_neg h)
  · exact .inl (sgn_pos h)

/-- C24: orthonormalisation. -/
theorem gramSchmidt_orthonormal (g : Tensor) (u0 u1 u2 u3 : Vec) {r : Vec × Vec × Vec × Vec}
    (h : gramSchmidt g u0 u1 u2 u3 = some r) : Orthonormal4 g r.1 r.2.1 r.2.2.1 r.2.2.2 := by
  unfold gramSchmidt at h
  simp only [bind, Option.bind_eq_some_iff] at h
  obtain ⟨e0, h0, a1, h1, e1, h1', a2, h2, b2, h2', e2, h2'', a3, h3, b3, h3', c3, h3'', e3, h3''', hr⟩ := h
  have hr : r = (e0, e1, e2, e3) := by simpa [pure] using hr.symm
  subst hr
  obtain ⟨n0, q0, s0⟩ := unit_some h0
  obtain ⟨m0, q1⟩ := project_some h1
  obtain ⟨n1, q1', s1⟩ := unit_some h1'
  obtain ⟨-, q2⟩ := project_some h2
  obtain ⟨m1, q2'⟩ := project_some h2'
  obtain ⟨n2, q2'', s2⟩ := unit_some h2''
  obtain ⟨-, q3⟩ := project_some h3
  obtain ⟨-, q3'⟩ := project_some h3'
  obtain ⟨m2, q3''⟩ := project_some h3''
  obtain ⟨n3, q3''', s3⟩ := unit_some h3'''
  have o : ∀ (u v : Vec), sp g v v ≠ 0 → sp g v (u - (sp g v u / sp g v v) • v) = 0 := by
    intro u v hv
    rw [sp_sub_right, sp_smul_right]; field_simp; ring
  have o01 : sp g e0 e1 = 0 := by rw [q1', sp_smul_right, q1, o _ _ m0, mul_zero]
  have o0a2 : sp g e0 a2 = 0 := by rw [q2, o _ _ m0]
  have o0b2 : sp g e0 b2 = 0 := by rw [q2', sp_sub_right, sp_smul_right, o0a2, o01]; ring
  have o02 : sp g e0 e2 = 0 := by rw [q2'', sp_smul_right, o0b2, mul_zero]
  have o12 : sp g e1 e2 = 0 := by rw [q2'', sp_smul_right, q2', o _ _ m1, mul_zero]
  have o0a3 : sp g e0 a3 = 0 := by rw [q3, o _ _ m0]
  have o0b3 : sp g e0 b3 = 0 := by rw [q3', sp_sub_right, sp_smul_right, o0a3, o01]; ring
  have o1b3 : sp g e1 b3 = 0 := by rw [q3', o _ _ m1]
  have o0c3 : sp g e0 c3 = 0 := by rw [q3'', sp_sub_right, sp_smul_right, o0b3, o02]; ring
  have o1c3 : sp g e1 c3 = 0 := by rw [q3'', sp_sub_right, sp_smul_right, o1b3, o12]; ring
  have o03 : sp g e0 e3 = 0 := by rw [q3''', sp_smul_right, o0c3, mul_zero]
  have o13 : sp g e1 e3 = 0 := by rw [q3''', sp_smul_right, o1c3, mul_zero]
  have o23 : sp g e2 e3 = 0 := by rw [q3''', sp_smul_right, q3'', o _ _ m2, mul_zero]
  refine ⟨⟨o01, o02, o03, o12, o13, o23⟩, ?_⟩
  intro u hu
  simp only [List.mem_cons, List.not_mem_nil, or_false] at hu
  rcases hu with rfl | rfl | rfl | rfl
  · rw [s0]; exact sgn_cases n0
  · rw [s1]; exact sgn_cases n1
  · rw [s2]; exact sgn_cases n2
  · rw [s3]; exact sgn_cases n3

/-- `g` has Lorentzian signature with `u` timelike: `u` has negative norm and what is orthogonal to it positive norm. -/
def LorentzianAlong (g : Tensor) (u : Vec) : Prop :=
  g.IsSymm ∧ sp g u u < 0 ∧ ∀ w, w ≠ 0 → sp g u w = 0 → 0 < sp g w w

/-- C24, C45: for a Lorentzian metric, a timelike first vector and independent vectors, no intermediate vector is null and
the norms are -1, 1, 1, 1; the first vector only changes its length. -/
theorem gramSchmidt_lorentzian (g : Tensor) (u0 u1 u2 u3 : Vec) (hg : LorentzianAlong g u0)
    (hi : LinearIndependent ℝ ![u0, u1, u2, u3]) :
    ∃ e0 e1 e2 e3, gramSchmidt g u0 u1 u2 u3 = some (e0, e1, e2, e3) ∧ Orthonormal4 g e0 e1 e2 e3 ∧
      sp g e0 e0 = -1 ∧ sp g e1 e1 = 1 ∧ sp g e2 e2 = 1 ∧ sp g e3 e3 = 1 ∧
      (∃ c : ℝ, 0 < c ∧ e0 = c • u0) := by
  obtain ⟨hsym, hneg, hpos⟩ := hg
  have ne : ∀ a b c d : ℝ, a • u0 + b • u1 + c • u2 + d • u3 = 0 → a = 0 ∧ b = 0 ∧ c = 0 ∧ d = 0 := by
    intro a b c d h
    have := Fintype.linearIndependent_iff.1 hi ![a, b, c, d] (by simpa [Fin.sum_univ_four] using h)
    exact ⟨this 0, this 1, this 2, this 3⟩
  have o : ∀ (u v : Vec), sp g v v ≠ 0 → sp g v (u - (sp g v u / sp g v v) • v) = 0 := by
    intro u v hv
    rw [sp_sub_right, sp_smul_right]; field_simp; ring
  -- a non-zero vector orthogonal to `u0` can be normalised
  have un : ∀ w : Vec, w ≠ 0 → sp g u0 w = 0 → ∃ k : ℝ, k ≠ 0 ∧ unit g w = some (k • w) ∧ sp g (k • w) (k • w) = 1 := by
    intro w h1 h2
    have h3 := hpos w h1 h2
    refine ⟨1 / √|sp g w w|, one_div_ne_zero (Real.sqrt_pos.2 (abs_pos.2 h3.ne')).ne', unit_eq h3.ne', ?_⟩
    rw [sp_unit h3.ne', sgn_pos h3]
  obtain ⟨k0, hk0, e0, q0, s0⟩ : ∃ k : ℝ, 0 < k ∧ ∃ e0 : Vec, e0 = k • u0 ∧ unit g u0 = some e0 ∧ sp g e0 e0 = -1 :=
    ⟨1 / √|sp g u0 u0|, one_div_pos.2 (Real.sqrt_pos.2 (abs_pos.2 hneg.ne)), _, rfl, unit_eq hneg.ne, by
      rw [sp_unit hneg.ne, sgn_neg hneg]⟩
  obtain ⟨s0, n0⟩ := s0
  have to0 : ∀ w, sp g e0 w = 0 → sp g u0 w = 0 := by
    intro w hw
    rw [q0, sp_smul_left] at hw
    exact (mul_eq_zero.1 hw).resolve_left hk0.ne'
  have m0 : sp g e0 e0 ≠ 0 := by rw [n0]; norm_num
  -- u1
  obtain ⟨a1, ha1⟩ : ∃ a, a = u1 - (sp g e0 u1 / sp g e0 e0) • e0 := ⟨_, rfl⟩
  have o1 : sp g e0 a1 = 0 := by rw [ha1]; exact o _ _ m0
  have z1 : a1 ≠ 0 := by
    intro h
    rw [ha1, q0] at h
    have := ne (-(sp g (k0 • u0) u1 / sp g (k0 • u0) (k0 • u0) * k0)) 1 0 0 (by rw [← h]; module)
    exact one_ne_zero this.2.1
  obtain ⟨k1, hk1, un1, n1⟩ := un a1 z1 (to0 _ o1)
  obtain ⟨e1, he1⟩ : ∃ e, e = k1 • a1 := ⟨_, rfl⟩
  rw [← he1] at un1 n1
  have m1 : sp g e1 e1 ≠ 0 := by rw [n1]; norm_num
  have o01 : sp g e0 e1 = 0 := by rw [he1, sp_smul_right, o1, mul_zero]
  obtain ⟨p10, p11, hp1⟩ : ∃ p q : ℝ, e1 = p • u0 + q • u1 :=
    ⟨-(k1 * (sp g e0 u1 / sp g e0 e0) * k0), k1, by
      rw [he1, ha1]; generalize sp g e0 u1 / sp g e0 e0 = x; rw [q0]; module⟩
  -- u2
  obtain ⟨a2, ha2⟩ : ∃ a, a = u2 - (sp g e0 u2 / sp g e0 e0) • e0 := ⟨_, rfl⟩
  obtain ⟨b2, hb2⟩ : ∃ a, a = a2 - (sp g e1 a2 / sp g e1 e1) • e1 := ⟨_, rfl⟩
  have oa2 : sp g e0 a2 = 0 := by rw [ha2]; exact o _ _ m0
  have ob2 : sp g e0 b2 = 0 := by rw [hb2, sp_sub_right, sp_smul_right, oa2, o01]; ring
  have ob2' : sp g e1 b2 = 0 := by rw [hb2]; exact o _ _ m1
  have hb2' : ∃ p q : ℝ, b2 = p • u0 + q • u1 + (1 : ℝ) • u2 := by
    generalize sp g e1 a2 / sp g e1 e1 = y at hb2
    generalize sp g e0 u2 / sp g e0 e0 = x at ha2
    exact ⟨-(x * k0) - y * p10, -(y * p11), by rw [hb2, ha2, q0, hp1]; module⟩
  obtain ⟨p20, p21, hp2⟩ := hb2'
  have z2 : b2 ≠ 0 := by
    intro h
    have := ne p20 p21 1 0 (by rw [← h, hp2]; module)
    exact one_ne_zero this.2.2.1
  obtain ⟨k2, hk2, un2, n2⟩ := un b2 z2 (to0 _ ob2)
  obtain ⟨e2, he2⟩ : ∃ e, e = k2 • b2 := ⟨_, rfl⟩
  rw [← he2] at un2 n2
  have m2 : sp g e2 e2 ≠ 0 := by rw [n2]; norm_num
  have o02 : sp g e0 e2 = 0 := by rw [he2, sp_smul_right, ob2, mul_zero]
  have o12 : sp g e1 e2 = 0 := by rw [he2, sp_smul_right, ob2', mul_zero]
  -- u3
  obtain ⟨a3, ha3⟩ : ∃ a, a = u3 - (sp g e0 u3 / sp g e0 e0) • e0 := ⟨_, rfl⟩
  obtain ⟨b3, hb3⟩ : ∃ a, a = a3 - (sp g e1 a3 / sp g e1 e1) • e1 := ⟨_, rfl⟩
  obtain ⟨c3, hc3⟩ : ∃ a, a = b3 - (sp g e2 b3 / sp g e2 e2) • e2 := ⟨_, rfl⟩
  have oa3 : sp g e0 a3 = 0 := by rw [ha3]; exact o _ _ m0
  have ob3 : sp g e0 b3 = 0 := by rw [hb3, sp_sub_right, sp_smul_right, oa3, o01]; ring
  have oc3 : sp g e0 c3 = 0 := by rw [hc3, sp_sub_right, sp_smul_right, ob3, o02]; ring
  have z3 : c3 ≠ 0 := by
    intro h
    rw [hc3] at h
    generalize sp g e2 b3 / sp g e2 e2 = w at h
    generalize sp g e1 a3 / sp g e1 e1 = y at hb3
    generalize sp g e0 u3 / sp g e0 e0 = x at ha3
    have := ne (-(x * k0) - y * p10 - w * (k2 * p20)) (-(y * p11) - w * (k2 * p21)) (-(w * k2)) 1 (by
      rw [← h, hb3, ha3, q0, he2, hp2, hp1]; module)
    exact one_ne_zero this.2.2.2
  obtain ⟨k3, hk3, un3, n3⟩ := un c3 z3 (to0 _ oc3)
  have key : gramSchmidt g u0 u1 u2 u3 = some (e0, e1, e2, k3 • c3) := by
    unfold gramSchmidt
    simp only [bind, s0, Option.bind_some, project_eq u1 m0, ← ha1, un1, project_eq u2 m0, ← ha2, project_eq a2 m1,
      ← hb2, un2, project_eq u3 m0, ← ha3, project_eq a3 m1, ← hb3, project_eq b3 m2, ← hc3, un3]
    rfl
  exact ⟨e0, e1, e2, k3 • c3, key, gramSchmidt_orthonormal g u0 u1 u2 u3 key, n0, n1, n2, n3, k0, hk0, q0⟩

/-! ### C25 -/

/-- C25: the connection is symmetric in its lower indices. -/
theorem christoffel_symm (gup : Tensor) (jac : Tensor3) (a mu nu : Fin 4) :
    christoffel gup jac a mu nu = christoffel gup jac a nu mu := by
  simp only [christoffel]
  rcases lt_trichotomy mu nu with h | h | h
  · rw [if_pos h.le, if_neg (not_le.2 h)]
  · rw [h]
  · rw [if_neg (not_le.2 h), if_pos h.le]

theorem christoffel_sum {gup : Tensor} {jac : Tensor3} (hj : ∀ a m n, jac a m n = jac a n m) (a mu nu : Fin 4) :
    christoffel gup jac a mu nu = ∑ i, 0.5 * gup i a * (jac mu i nu + jac nu mu i - jac i mu nu) := by
  simp only [christoffel]
  split
  · rfl
  · refine Finset.sum_congr rfl fun i _ => ?_
    rw [hj nu i mu, hj mu nu i, hj i nu mu]; ring

theorem christoffel_lower {gup g : Tensor} {jac : Tensor3} (hj : ∀ a m n, jac a m n = jac a n m) (hinv : gup * g = 1)
    (mu nu k : Fin 4) :
    ∑ s, christoffel gup jac s mu nu * g s k = 0.5 * (jac mu k nu + jac nu mu k - jac k mu nu) := by
  have h : ∀ i, ∑ s, gup i s * g s k = if i = k then 1 else 0 := by
    intro i
    rw [← Matrix.mul_apply, hinv, Matrix.one_apply]
  have : ∑ s, christoffel gup jac s mu nu * g s k =
      ∑ i, 0.5 * (jac mu i nu + jac nu mu i - jac i mu nu) * ∑ s, gup i s * g s k := by
    simp only [christoffel_sum hj, Finset.sum_mul, Finset.mul_sum]
    rw [Finset.sum_comm]
    exact Finset.sum_congr rfl fun i _ => Finset.sum_congr rfl fun s _ => by ring
  rw [this]
  simp [h]

/-- C25: the connection is compatible with the metric: `∂_α g_μν = Γ^σ_αμ g_σν + Γ^σ_αν g_σμ`. -/
theorem christoffel_compatible (gup g : Tensor) (jac : Tensor3) (hj : ∀ a m n, jac a m n = jac a n m)
    (hinv : gup * g = 1) (a mu nu : Fin 4) :
    jac a mu nu = (∑ s, christoffel gup jac s a mu * g s nu) + ∑ s, christoffel gup jac s a nu * g s mu := by
  rw [christoffel_lower hj hinv, christoffel_lower hj hinv, hj a nu mu, hj nu a mu, hj mu a nu, hj mu nu a, hj nu mu a]
  ring

/-- Position part of a state. -/
def statePos (x : Nat → ℝ) : Vec := fun k => x k
/-- `v`-th vector of a state: `v = 1` is the tangent vector, `v ≥ 2` the transported vectors. -/
def stateVec (x : Nat → ℝ) (v : Nat) : Vec := fun k => x (4 * v + k)

theorem diff_ok {dst : Tensor3} {sz : Nat} {x d0 D : Nat → ℝ} (h : diff dst sz sz x d0 = .ok D) :
    (∀ k : Fin 4, D k = stateVec x 1 k) ∧
    ∀ v, 1 ≤ v → 4 * v + 4 ≤ sz → ∀ a : Fin 4,
      D (4 * v + a) = -∑ i, ∑ j, dst a i j * stateVec x 1 i * stateVec x v j := by
  unfold diff at h
  split at h
  · exact absurd h (by simp)
  split at h
  · exact absurd h (by simp)
  split at h
  · exact absurd h (by simp)
  have h := (DiffRes.ok.inj h).symm
  subst h
  refine ⟨fun k => ?_, fun v hv hs a => ?_⟩
  · simp only [if_pos k.isLt, stateVec]; congr 1; omega
  · have h1 : ¬ (4 * v + a.val < 4) := by omega
    have h2 : 4 * v + a.val < 4 + 4 * ((sz - 4) / 4) := by omega
    have h3 : (4 * v + a.val) / 4 = v := by omega
    have h4 : (⟨(4 * v + a.val) % 4, Nat.mod_lt _ (by decide)⟩ : Fin 4) = a := by ext; simp
    simp only [if_neg h1, if_pos h2, h3, h4, zero_sub, stateVec, mul_one, mul_comm v 4]

/-- C25: at every point of a solution of the equations of motion, the scalar product of any two of the vectors carried by
the state has zero derivative, provided `jac` is the derivative of the metric and `gup` its inverse there. -/
theorem transport_derivative (G : Vec → Tensor) (gup : Tensor) (jac : Tensor3) (X : ℝ → Nat → ℝ) (D d0 : Nat → ℝ)
    (sz : Nat) (t : ℝ) (hs : (G (statePos (X t))).IsSymm) (hinv : gup * G (statePos (X t)) = 1)
    (hj : ∀ a m n, jac a m n = jac a n m)
    (L : Fin 4 → Fin 4 → Vec →L[ℝ] ℝ)
    (hL : ∀ m n, HasFDerivAt (fun x => G x m n) (L m n) (statePos (X t)))
    (hjac : ∀ m n a, L m n (Pi.single a 1) = jac a m n)
    (hD : diff (christoffel gup jac) sz sz (X t) d0 = .ok D)
    (hX : ∀ k, k < sz → HasDerivAt (fun τ => X τ k) (D k) t)
    (v w : Nat) (hv : 1 ≤ v ∧ 4 * v + 4 ≤ sz) (hw : 1 ≤ w ∧ 4 * w + 4 ≤ sz) :
    HasDerivAt (fun τ => sp (G (statePos (X τ))) (stateVec (X τ) v) (stateVec (X τ) w)) 0 t := by
  obtain ⟨hD1, hD2⟩ := diff_ok hD
  have hpos : HasDerivAt (fun τ => statePos (X τ)) (stateVec (X t) 1) t := by
    rw [hasDerivAt_pi]
    intro k
    rw [← hD1 k]
    exact hX k (by omega)
  have hg : ∀ m n, HasDerivAt (fun τ => G (statePos (X τ)) m n) (∑ a, stateVec (X t) 1 a * jac a m n) t := by
    intro m n
    have h1 := (hL m n).comp_hasDerivAt t hpos
    have h2 : L m n (stateVec (X t) 1) = ∑ a, stateVec (X t) 1 a * jac a m n := by
      conv_lhs => rw [pi_eq_sum_univ (stateVec (X t) 1), map_sum]
      refine Finset.sum_congr rfl fun a _ => ?_
      rw [map_smul, smul_eq_mul, ← hjac]
      congr 2
      funext i
      simp [Pi.single_apply, eq_comm]
    rw [h2] at h1
    exact h1
  have hvec : ∀ v, 1 ≤ v ∧ 4 * v + 4 ≤ sz → ∀ a : Fin 4, HasDerivAt (fun τ => stateVec (X τ) v a)
      (-∑ i, ∑ j, christoffel gup jac a i j * stateVec (X t) 1 i * stateVec (X t) v j) t := by
    intro v hv a
    rw [← hD2 v hv.1 hv.2 a]
    exact hX (4 * v + a) (by omega)
  have hsum : HasDerivAt (fun τ => scalarProd (G (statePos (X τ))) (stateVec (X τ) v) (stateVec (X τ) w))
      (∑ m, ∑ n, (((∑ a, stateVec (X t) 1 a * jac a m n) * stateVec (X t) v m +
          G (statePos (X t)) m n *
            (-∑ i, ∑ j, christoffel gup jac m i j * stateVec (X t) 1 i * stateVec (X t) v j)) * stateVec (X t) w n +
        G (statePos (X t)) m n * stateVec (X t) v m *
          (-∑ i, ∑ j, christoffel gup jac n i j * stateVec (X t) 1 i * stateVec (X t) w j))) t := by
    unfold scalarProd
    refine HasDerivAt.fun_sum fun m _ => HasDerivAt.fun_sum fun n _ => ?_
    exact ((hg m n).mul (hvec v hv m)).mul (hvec w hw n)
  simp only [← scalarProd_eq]
  refine hsum.congr_deriv ?_
  have hsy := fun i j => hs.apply i j
  generalize G (statePos (X t)) = g at *
  generalize stateVec (X t) 1 = u at *
  generalize stateVec (X t) v = y at *
  generalize stateVec (X t) w = z at *
  have hc := christoffel_compatible gup g jac hj hinv
  generalize christoffel gup jac = Γ at *
  have A : ∀ (q : Vec) (n : Fin 4), ∑ m, (∑ a, u a * ∑ s, Γ s a m * g s n) * q m =
      ∑ s, g s n * ∑ i, ∑ j, Γ s i j * u i * q j := by
    intro q n
    simp only [Finset.mul_sum, Finset.sum_mul]
    calc ∑ m, ∑ a, ∑ s, u a * (Γ s a m * g s n) * q m
        = ∑ m, ∑ s, ∑ a, u a * (Γ s a m * g s n) * q m := Finset.sum_congr rfl fun m _ => Finset.sum_comm
      _ = ∑ s, ∑ m, ∑ a, u a * (Γ s a m * g s n) * q m := Finset.sum_comm
      _ = ∑ s, ∑ a, ∑ m, u a * (Γ s a m * g s n) * q m := Finset.sum_congr rfl fun s _ => Finset.sum_comm
      _ = _ := Finset.sum_congr rfl fun s _ => Finset.sum_congr rfl fun i _ => Finset.sum_congr rfl fun j _ => by ring
  have Y := A y
  have Z := A z
  have e1 : ∀ m n, ∑ a, u a * jac a m n =
      (∑ a, u a * ∑ s, Γ s a m * g s n) + ∑ a, u a * ∑ s, Γ s a n * g s m := by
    intro m n
    rw [← Finset.sum_add_distrib]
    exact Finset.sum_congr rfl fun a _ => by rw [hc a m n, mul_add]
  simp only [e1]
  generalize (fun m => ∑ i, ∑ j, Γ m i j * u i * y j) = P
  have s1 : ∑ m, ∑ n, (∑ a, u a * ∑ s, Γ s a m * g s n) * y m * z n =
      ∑ m, ∑ n, g m n * (∑ i, ∑ j, Γ m i j * u i * y j) * z n := by
    rw [Finset.sum_comm, Finset.sum_comm (f := fun m n => g m n * (∑ i, ∑ j, Γ m i j * u i * y j) * z n)]
    refine Finset.sum_congr rfl fun n _ => ?_
    rw [← Finset.sum_mul, ← Finset.sum_mul, Y]
  have s2 : ∑ m, ∑ n, (∑ a, u a * ∑ s, Γ s a n * g s m) * y m * z n =
      ∑ m, ∑ n, g m n * y m * (∑ i, ∑ j, Γ n i j * u i * z j) := by
    refine Finset.sum_congr rfl fun m _ => ?_
    have : ∑ n, (∑ a, u a * ∑ s, Γ s a n * g s m) * y m * z n =
        (∑ n, (∑ a, u a * ∑ s, Γ s a n * g s m) * z n) * y m := by
      rw [Finset.sum_mul]; exact Finset.sum_congr rfl fun n _ => by ring
    rw [this, Z, Finset.sum_mul]
    exact Finset.sum_congr rfl fun n _ => by rw [hsy n m]; ring
  rw [← sub_eq_zero] at s1 s2
  rw [← Finset.sum_sub_distrib] at s1 s2
  simp only [← Finset.sum_sub_distrib] at s1 s2
  have := congrArg₂ (· + ·) s1 s2
  simp only [← Finset.sum_add_distrib, add_zero] at this
  rw [← this]
  exact Finset.sum_congr rfl fun m _ => Finset.sum_congr rfl fun n _ => by ring

/-- C25: along a solution of the equations of motion over `[a, b]` the scalar products are conserved. -/
theorem transport_conserved (G Gup : Vec → Tensor) (Jac : Vec → Tensor3) (X D : ℝ → Nat → ℝ) (d0 : ℝ → Nat → ℝ)
    (sz : Nat) (a b : ℝ) (L : ℝ → Fin 4 → Fin 4 → Vec →L[ℝ] ℝ)
    (hs : ∀ t ∈ Set.Icc a b, (G (statePos (X t))).IsSymm)
    (hinv : ∀ t ∈ Set.Icc a b, Gup (statePos (X t)) * G (statePos (X t)) = 1)
    (hL : ∀ t ∈ Set.Icc a b, ∀ m n, HasFDerivAt (fun x => G x m n) (L t m n) (statePos (X t)))
    (hjac : ∀ t ∈ Set.Icc a b, ∀ m n α, L t m n (Pi.single α 1) = Jac (statePos (X t)) α m n)
    (hj : ∀ t ∈ Set.Icc a b, ∀ α m n, Jac (statePos (X t)) α m n = Jac (statePos (X t)) α n m)
    (hD : ∀ t ∈ Set.Icc a b,
      diff (christoffel (Gup (statePos (X t))) (Jac (statePos (X t)))) sz sz (X t) (d0 t) = .ok (D t))
    (hX : ∀ t ∈ Set.Icc a b, ∀ k, k < sz → HasDerivAt (fun τ => X τ k) (D t k) t)
    (v w : Nat) (hv : 1 ≤ v ∧ 4 * v + 4 ≤ sz) (hw : 1 ≤ w ∧ 4 * w + 4 ≤ sz) :
    ∀ t ∈ Set.Icc a b, sp (G (statePos (X t))) (stateVec (X t) v) (stateVec (X t) w) =
      sp (G (statePos (X a))) (stateVec (X a) v) (stateVec (X a) w) := by
  have key : ∀ t ∈ Set.Icc a b, HasDerivAt
      (fun τ => sp (G (statePos (X τ))) (stateVec (X τ) v) (stateVec (X τ) w)) 0 t := fun t ht =>
    transport_derivative G (Gup (statePos (X t))) (Jac (statePos (X t))) X (D t) (d0 t) sz t (hs t ht) (hinv t ht)
      (hj t ht) (L t) (hL t ht) (hjac t ht) (hD t ht) (hX t ht) v w hv hw
  intro t ht
  refine constant_of_derivWithin_zero (f := fun τ => sp (G (statePos (X τ))) (stateVec (X τ) v) (stateVec (X τ) w))
    (fun x hx => (key x hx).differentiableAt.differentiableWithinAt) ?_ t ht
  intro x hx
  have hlt : a < b := lt_of_le_of_lt hx.1 hx.2
  exact (key x ⟨hx.1, hx.2.le⟩).hasDerivWithinAt.derivWithin (uniqueDiffOn_Icc hlt x ⟨hx.1, hx.2.le⟩)

/-! ### C45: observers -/

theorem sysPrime_unit {g : Tensor} {v : Fin 3 → ℝ} (h : sp g (Fin.cons 1 v) (Fin.cons 1 v) < 0) :
    0 < sysPrimeToTdot g v ∧
    sp g (sysPrimeToTdot g v • (Fin.cons 1 v : Vec)) (sysPrimeToTdot g v • (Fin.cons 1 v : Vec)) = -1 := by
  have e : (∑ i, ∑ j, g i j * (Fin.cons 1 v : Vec) i * (Fin.cons 1 v : Vec) j) =
      sp g (Fin.cons 1 v) (Fin.cons 1 v) := by rw [← scalarProd_eq]; rfl
  have ht : sysPrimeToTdot g v = (√(-sp g (Fin.cons 1 v) (Fin.cons 1 v)))⁻¹ := by
    simp only [sysPrimeToTdot, e]; rw [if_neg (not_le.2 h)]
  rw [ht, sp_smul_left, sp_smul_right]
  have hs0 : 0 < √(-sp g (Fin.cons 1 v) (Fin.cons 1 v)) := Real.sqrt_pos.2 (by linarith)
  have hs : √(-sp g (Fin.cons 1 v) (Fin.cons 1 v)) * √(-sp g (Fin.cons 1 v) (Fin.cons 1 v)) =
      -sp g (Fin.cons 1 v) (Fin.cons 1 v) := Real.mul_self_sqrt (by linarith)
  generalize √(-sp g (Fin.cons 1 v) (Fin.cons 1 v)) = s at hs hs0
  refine ⟨by positivity, ?_⟩
  have : sp g (Fin.cons 1 v) (Fin.cons 1 v) = -(s * s) := by linarith
  rw [this]; field_simp

/-- Cylindrical radius. -/
noncomputable def rho (kind : CoordKind) (pos : Vec) : ℝ :=
  match kind with
  | .spherical => pos 1 * Real.sin (pos 2)
  | .cartesian => √(pos 1 ^ 2 + pos 2 ^ 2)

/-- Coordinate velocity of the circular motion of angular velocity `w` about the axis. -/
def rotation (kind : CoordKind) (pos : Vec) (w : ℝ) : Vec :=
  match kind with
  | .spherical => ![1, 0, 0, w]
  | .cartesian => ![1, -pos 2 * w, pos 1 * w, 0]

/-- C45: off the axis, the Keplerian circular velocity is a circular motion obeying Kepler's law `Ω² ρ³ = 1` in the
direction asked for; where such a motion is slower than light it is a unit future-directed vector. -/
theorem circular_velocity (kind : CoordKind) (g : Tensor) (pos : Vec) (dir : ℝ) (hd : dir = 1 ∨ dir = -1)
    (hr : 0 < rho kind pos) :
    ∃ u w : ℝ, circularVelocity kind g pos dir = some (u • rotation kind pos w) ∧
      w ^ 2 * rho kind pos ^ 3 = 1 ∧ 0 < w * dir ∧
      (sp g (rotation kind pos w) (rotation kind pos w) < 0 →
        0 < u ∧ sp g (u • rotation kind pos w) (u • rotation kind pos w) = -1) := by
  have hdd : dir * dir = 1 := by rcases hd with rfl | rfl <;> norm_num
  have hd0 : dir ≠ 0 := by rcases hd with rfl | rfl <;> norm_num
  cases kind with
  | spherical =>
    simp only [rho] at hr
    have hp : 0 < (pos 1 * Real.sin (pos 2)) ^ (1.5 : ℝ) := Real.rpow_pos_of_pos hr _
    have hp3 : ((pos 1 * Real.sin (pos 2)) ^ (1.5 : ℝ)) ^ 2 = (pos 1 * Real.sin (pos 2)) ^ 3 := by
      rw [← Real.rpow_natCast, ← Real.rpow_mul hr.le, ← Real.rpow_natCast]; norm_num
    simp only [circularVelocity, if_neg (not_lt.2 hr.le), inv]
    rw [if_neg (mul_ne_zero hd0 hp.ne')]
    simp only [Option.map_some]
    generalize (pos 1 * Real.sin (pos 2)) ^ (1.5 : ℝ) = q at hp hp3
    refine ⟨sysPrimeToTdot g ![0, 0, 1 / (dir * q)], 1 / (dir * q), ?_, ?_, ?_, ?_⟩
    · congr 1
      funext k
      fin_cases k <;> simp [rotation, mul_comm]
    · show (1 / (dir * q)) ^ 2 * (pos 1 * Real.sin (pos 2)) ^ 3 = 1
      rw [← hp3]; field_simp; linear_combination -hdd
    · have : 1 / (dir * q) * dir = 1 / q := by field_simp
      rw [this]; positivity
    · have e : rotation .spherical pos (1 / (dir * q)) = Fin.cons 1 ![0, 0, 1 / (dir * q)] := rfl
      rw [e]
      exact sysPrime_unit
  | cartesian =>
    have hrr : √(pos 1 * pos 1 + pos 2 * pos 2) = rho .cartesian pos := by simp only [rho]; congr 1; ring
    simp only [circularVelocity, hrr]
    generalize rho .cartesian pos = R at hr
    rw [if_neg hr.ne']
    have hq : 0 < (R * R * R) ^ (-0.5 : ℝ) := Real.rpow_pos_of_pos (by positivity) _
    have hq2 : ((R * R * R) ^ (-0.5 : ℝ)) ^ 2 * R ^ 3 = 1 := by
      rw [← Real.rpow_natCast, ← Real.rpow_mul (by positivity)]
      have : (-0.5 : ℝ) * ((2 : ℕ) : ℝ) = -1 := by norm_num
      rw [this, Real.rpow_neg_one]
      field_simp
    generalize (R * R * R) ^ (-0.5 : ℝ) = q at hq hq2
    refine ⟨sysPrimeToTdot g ![-pos 2 * (dir * q), pos 1 * (dir * q), 0], dir * q, ?_, ?_, ?_, ?_⟩
    · congr 1
      funext k
      fin_cases k <;> simp [rotation] <;> ring
    · linear_combination q ^ 2 * R ^ 3 * hdd + hq2
    · have : dir * q * dir = q := by linear_combination q * hdd
      rw [this]; exact hq
    · have e : rotation .cartesian pos (dir * q) = Fin.cons 1 ![-pos 2 * (dir * q), pos 1 * (dir * q), 0] := rfl
      rw [e]
      exact sysPrime_unit

/-- C45: the velocity of the zero-angular-momentum observer is orthogonal to the azimuthal direction; it is a unit
timelike vector, future directed, when the plane of the time and azimuthal directions contains timelike vectors and the
azimuthal direction is spacelike. -/
theorem zamo_velocity (kind : CoordKind) (g : Tensor) (hg : g.IsSymm) (phi : ℝ)
    (hpp : 0 < sp g (ephi kind phi) (ephi kind phi))
    (hdet : sp g ![1, 0, 0, 0] ![1, 0, 0, 0] * sp g (ephi kind phi) (ephi kind phi) -
      sp g ![1, 0, 0, 0] (ephi kind phi) ^ 2 < 0) :
    ∃ w, zamoVelocity kind g phi = some w ∧ sp g w (ephi kind phi) = 0 ∧ sp g w w = -1 ∧ 0 < w 0 ∧
      ∃ a b : ℝ, w = a • ![1, 0, 0, 0] + b • ephi kind phi := by
  have he0 : ephi kind phi 0 = 0 := by cases kind <;> rfl
  have hz : zamoVelocity kind g phi = (project g ![1, 0, 0, 0] (ephi kind phi)).bind (unit g) := rfl
  generalize ephi kind phi = e at *
  obtain ⟨T, hT⟩ : ∃ T : Vec, T = ![1, 0, 0, 0] := ⟨_, rfl⟩
  rw [← hT] at hz hdet ⊢
  have hT0 : T 0 = 1 := by rw [hT]; rfl
  rw [project_eq T hpp.ne', Option.bind_some] at hz
  have hee : sp g e e ≠ 0 := hpp.ne'
  obtain ⟨w, hw⟩ : ∃ w, w = T - (sp g e T / sp g e e) • e := ⟨_, rfl⟩
  have how : sp g w e = 0 := by
    rw [hw, sp_sub_left, sp_smul_left, sp_comm hg T e]; field_simp; ring
  have hww : sp g w w < 0 := by
    have h1 : sp g w w = (sp g T T * sp g e e - sp g T e ^ 2) / sp g e e := by
      have : sp g w w = sp g w T := by
        conv_lhs => rw [hw, sp_sub_right, sp_smul_right, ← hw, how]
        ring
      rw [this, hw, sp_sub_left, sp_smul_left, sp_comm hg e T]; field_simp
    rw [h1]
    exact div_neg_of_neg_of_pos hdet hpp
  rw [← hw, unit_eq hww.ne] at hz
  have hs : 0 < 1 / √|sp g w w| := one_div_pos.2 (Real.sqrt_pos.2 (abs_pos.2 hww.ne))
  refine ⟨_, hz, ?_, ?_, ?_, 1 / √|sp g w w|, -(1 / √|sp g w w| * (sp g e T / sp g e e)), ?_⟩
  · rw [sp_smul_left, how, mul_zero]
  · rw [sp_unit hww.ne, sgn_neg hww]
  · have : w 0 = 1 := by rw [hw]; simp [he0, hT0]
    simp only [Pi.smul_apply, smul_eq_mul, this, mul_one]
    exact hs
  · generalize 1 / √|sp g w w| = k
    rw [hw]; module

/-- C45: the observer's frame. For a Lorentzian metric and a unit timelike four-velocity with non-zero time component, at a
position other than the origin, the frame exists, keeps the four-velocity and is orthonormal. In Cartesian coordinates
`theta` and `phi` are the angles of the position. -/
theorem observer_tetrad (kind : CoordKind) (g : Tensor) (pos : Vec) (theta phi : ℝ) (u : Vec)
    (hg : LorentzianAlong g u) (hu : sp g u u = -1) (hu0 : u 0 ≠ 0)
    (hpos : kind = .cartesian → ∃ r : ℝ, r ≠ 0 ∧ pos 1 = r * Real.sin theta * Real.cos phi ∧
      pos 2 = r * Real.sin theta * Real.sin phi ∧ pos 3 = r * Real.cos theta) :
    ∃ s1 s2 s3, observerTetrad kind g pos theta phi u = some (u, s1, s2, s3) ∧
      Orthonormal4 g u s1 s2 s3 ∧ sp g s1 s1 = 1 ∧ sp g s2 s2 = 1 ∧ sp g s3 s3 = 1 := by
  obtain ⟨⟨x1, x2, x3⟩, hx⟩ : ∃ x, x = screenStart kind pos theta phi := ⟨_, rfl⟩
  have hi : LinearIndependent ℝ ![u, x2, x3, x1] := by
    rw [Fintype.linearIndependent_iff]
    intro c hc
    rw [Fin.sum_univ_four] at hc
    have c0 := congrFun hc 0
    have c1 := congrFun hc 1
    have c2 := congrFun hc 2
    have c3 := congrFun hc 3
    have h0 : c 0 = 0 := by
      cases kind with
      | spherical =>
        obtain ⟨rfl, rfl, rfl⟩ : x1 = _ ∧ x2 = _ ∧ x3 = _ := by simpa [screenStart] using hx
        simpa [vecHead, hu0] using c0
      | cartesian =>
        obtain ⟨rfl, rfl, rfl⟩ : x1 = _ ∧ x2 = _ ∧ x3 = _ := by simpa [screenStart] using hx
        simpa [vecHead, hu0] using c0
    cases kind with
    | spherical =>
      obtain ⟨rfl, rfl, rfl⟩ : x1 = _ ∧ x2 = _ ∧ x3 = _ := by simpa [screenStart] using hx
      simp [h0] at c1 c2 c3
      intro i
      fin_cases i
      · exact h0
      · exact c2
      · exact c1
      · exact c3
    | cartesian =>
      obtain ⟨r, hr, p1, p2, p3⟩ := hpos rfl
      obtain ⟨rfl, rfl, rfl⟩ : x1 = _ ∧ x2 = _ ∧ x3 = _ := by simpa [screenStart] using hx
      simp [h0, p1, p2, p3] at c1 c2 c3
      have t1 := Real.sin_sq_add_cos_sq theta
      have t2 := Real.sin_sq_add_cos_sq phi
      generalize Real.sin theta = st at *
      generalize Real.cos theta = ct at *
      generalize Real.sin phi = sp' at *
      generalize Real.cos phi = cp at *
      have h3 : c 3 = 0 := by linear_combination sp' * c1 - cp * c2 - c 3 * t2
      have h1 : c 1 = 0 := by
        linear_combination -ct * cp * c1 - ct * sp' * c2 + st * c3 + (-(c 1) * t1) - (c 1 * ct ^2 + c 2 * r * st * ct)  * t2
      have h2 : c 2 * r = 0 := by
        linear_combination -st * cp * c1 - st * sp' * c2 - ct * c3 - c 2 * r * t1 -
          (c 2 * r * st ^ 2 + st * ct * c 1) * t2
      intro i
      fin_cases i
      · exact h0
      · exact h1
      · exact (mul_eq_zero.1 h2).resolve_right hr
      · exact h3
  obtain ⟨e0, e1, e2, e3, hgs, ho, n0, n1, n2, n3, k, hk, hke⟩ := gramSchmidt_lorentzian g u x2 x3 x1 hg hi
  have hk1 : k = 1 := by
    rw [hke, sp_smul_left, sp_smul_right, hu] at n0
    nlinarith
  have he0 : e0 = u := by rw [hke, hk1, one_smul]
  subst he0
  refine ⟨e3, e1, e2, ?_, ?_, n3, n1, n2⟩
  · simp only [observerTetrad, ← hx, hgs, Option.map_some]
  · obtain ⟨⟨o01, o02, o03, o12, o13, o23⟩, ha⟩ := ho
    refine ⟨⟨o03, o01, o02, ?_, ?_, o12⟩, ?_⟩
    · rw [sp_comm hg.1]; exact o13
    · rw [sp_comm hg.1]; exact o23
    · intro v hv
      apply ha
      simp only [List.mem_cons, List.not_mem_nil, or_false] at hv ⊢
      tauto

/-! ### Examples: flat space-time -/

/-- Flat metric. -/
def flat : Tensor := Matrix.diagonal ![-1, 1, 1, 1]

theorem flat_sp (u v : Vec) : sp flat u v = -(u 0 * v 0) + u 1 * v 1 + u 2 * v 2 + u 3 * v 3 := by
  simp [sp, flat, dotProduct, Fin.sum_univ_four, Matrix.mulVec_diagonal]

theorem flat_symm : flat.IsSymm := by simp [flat, Matrix.IsSymm]

theorem flat_lorentzian : LorentzianAlong flat ![1, 0, 0, 0] := by
  refine ⟨flat_symm, by simp [flat_sp], fun w hw h => ?_⟩
  rw [flat_sp] at h ⊢
  simp at h
  have : w 1 ≠ 0 ∨ w 2 ≠ 0 ∨ w 3 ≠ 0 := by
    by_contra hc
    push Not at hc
    exact hw (by funext k; fin_cases k <;> simp [h, hc])
  rw [h]
  rcases this with h | h | h
  · nlinarith [sq_nonneg (w 2), sq_nonneg (w 3), mul_self_pos.2 h]
  · nlinarith [sq_nonneg (w 1), sq_nonneg (w 3), mul_self_pos.2 h]
  · nlinarith [sq_nonneg (w 1), sq_nonneg (w 2), mul_self_pos.2 h]

/-- The velocity (3, 4, 0) is completed with time component 5 (the other root is -5). -/
example : ∃ c', nullifyCoord (fun _ => flat) ![0, 0, 0, 0, 7, 3, 4, 0] = some (c', -5) ∧ c' 4 = 5 := by
  have key : ∀ t, sp flat (withTime ![0, 0, 0, 0, 7, 3, 4, 0] t) (withTime ![0, 0, 0, 0, 7, 3, 4, 0] t) = 0 ↔
      t * t = 25 := by
    intro t
    rw [flat_sp]
    simp [withTime, velOf]
    constructor <;> intro h <;> linarith
  obtain ⟨c', t2, h1, -, -, h4, h5⟩ := nullify (fun _ => flat) ![0, 0, 0, 0, 7, 3, 4, 0] flat_symm (by simp [flat])
    ⟨5, (key 5).2 (by norm_num)⟩
  have h5 := h5 (by simp [flat])
  have a := (h4 5).1 ((key 5).2 (by norm_num))
  have b := (h4 (-5)).1 ((key (-5)).2 (by norm_num))
  have e : t2 = -5 ∧ c' 4 = 5 := by
    rcases a with a | a <;> rcases b with b | b <;> constructor <;> linarith
  exact ⟨c', by rw [h1, e.1], e.2⟩

example : ∃ w, normalizeFourVel flat ![-2, 1, 1, 0] = some w ∧ sp flat w w = -1 ∧ 0 < w 0 := by
  obtain ⟨w, h1, h2, h3, -⟩ := normalize_unit flat ![-2, 1, 1, 0] (by simp) (by rw [flat_sp]; simp <;> norm_num)
  exact ⟨w, h1, h2, h3⟩

example : normalizeFourVel flat ![1, 1, 1, 0] = some 0 :=
  normalize_fast flat ![1, 1, 1, 0] (by simp) (by rw [flat_sp]; simp <;> norm_num)

example : project flat ![1, 2, 3, 4] ![1, 2, 0, 0] = some ![0, 0, 3, 4] := by
  have h : sp flat ![1, 2, 0, 0] ![1, 2, 0, 0] ≠ 0 := by rw [flat_sp]; simp; norm_num
  rw [project_eq _ h]
  congr 1
  funext k
  rw [flat_sp, flat_sp]
  fin_cases k <;> simp <;> norm_num

example : ∃ s1 s2 s3, observerTetrad .spherical flat ![0, 10, 1, 0] 0 0 ![1, 0, 0, 0] = some (![1, 0, 0, 0], s1, s2, s3) ∧
    sp flat s1 s2 = 0 := by
  obtain ⟨s1, s2, s3, h1, h2, -⟩ := observer_tetrad .spherical flat ![0, 10, 1, 0] 0 0 ![1, 0, 0, 0] flat_lorentzian
    (by rw [flat_sp]; simp) (by simp) (by simp)
  exact ⟨s1, s2, s3, h1, h2.1.2.2.2.1⟩

example : ∃ w, zamoVelocity .spherical flat 0 = some w ∧ sp flat w w = -1 := by
  obtain ⟨w, h1, -, h2, -⟩ := zamo_velocity .spherical flat flat_symm 0 (by rw [flat_sp]; simp [ephi])
    (by rw [flat_sp, flat_sp, flat_sp]; simp [ephi])
  exact ⟨w, h1, h2⟩

/-- A particle at rest in flat space-time satisfies the hypotheses of `transport_conserved`. -/
example : ∀ t ∈ Set.Icc (0 : ℝ) 1, sp flat (stateVec (fun k => if k = 0 then t else if k = 4 then 1 else 0) 1)
    (stateVec (fun k => if k = 0 then t else if k = 4 then 1 else 0) 1) = -1 := by
  intro t ht
  have key := transport_conserved (fun _ => flat) (fun _ => flat) (fun _ _ _ _ => 0)
    (fun t k => if k = 0 then t else if k = 4 then 1 else 0) (fun _ k => if k = 0 then 1 else 0) (fun _ _ => 0) 8 0 1
    (fun _ _ _ => 0) (fun _ _ => flat_symm)
    (fun _ _ => by
      simp only [flat, Matrix.diagonal_mul_diagonal]
      ext i j; fin_cases i <;> fin_cases j <;> simp)
    (fun _ _ m n => hasFDerivAt_const _ _) (fun _ _ _ _ _ => rfl) (fun _ _ _ _ _ => rfl)
    (fun t _ => by
      simp only [diff, christoffel]
      norm_num
      funext k
      by_cases h : k < 4
      · simp [h]
      · have : k ≠ 0 := by omega
        simp [h, this])
    (fun t _ k hk => by
      by_cases h : k = 0
      · simp only [h, if_true]; exact hasDerivAt_id t
      · simp only [h, if_false]; exact hasDerivAt_const _ _)
    1 1 (by decide) (by decide) t ht
  rw [key, flat_sp]
  simp [stateVec]

end Gyoto.MetricAlg
