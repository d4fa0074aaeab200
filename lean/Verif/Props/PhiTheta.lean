import Verif.Lemmas.PhiTheta
import Mathlib.Tactic.LinearCombination
import Mathlib.Tactic.Convert
import Mathlib.Analysis.SpecialFunctions.Trigonometric.Deriv
import Mathlib.Analysis.Calculus.Deriv.Prod

/-! # C05 — normalisation of spherical angles -/

namespace Gyoto.PhiTheta
open Real

/-- Cartesian position of the point `(r, θ, φ)`. -/
noncomputable def pos (r th ph : ℝ) : ℝ × ℝ × ℝ := (r * sin th * cos ph, r * sin th * sin ph, r * cos th)

/-- Cartesian components of a vector with components `(v_r, v_θ, v_φ)` attached at `(r, θ, φ)`: the
derivative of `pos` along it. -/
noncomputable def vec (r th ph vr vth vph : ℝ) : ℝ × ℝ × ℝ :=
  (vr * sin th * cos ph + r * cos th * cos ph * vth - r * sin th * sin ph * vph,
   vr * sin th * sin ph + r * cos th * sin ph * vth + r * sin th * cos ph * vph,
   vr * cos th - r * sin th * vth)

/-- `vec` is indeed the derivative of the position along the straight line of coordinates. -/
theorem vec_is_derivative (r th ph vr vth vph : ℝ) :
    HasDerivAt (fun s => pos (r + s * vr) (th + s * vth) (ph + s * vph)) (vec r th ph vr vth vph) 0 := by
  have l : ∀ a v : ℝ, HasDerivAt (fun s : ℝ => a + s * v) v 0 := fun a v => by
    simpa using ((hasDerivAt_id (0 : ℝ)).mul_const v).const_add a
  have s1 := (l th vth).sin
  have c1 := (l th vth).cos
  have s2 := (l ph vph).sin
  have c2 := (l ph vph).cos
  have hr := l r vr
  simp only [zero_mul, add_zero] at s1 c1 s2 c2
  refine HasDerivAt.prodMk ?_ (HasDerivAt.prodMk ?_ ?_)
  · have h := (hr.mul s1).mul c2
    convert h using 1
    all_goals first | rfl | (simp; done) | (simp; ring)
  · have h := (hr.mul s1).mul s2
    convert h using 1
    all_goals first | rfl | (simp; done) | (simp; ring)
  · have h := hr.mul c1
    convert h using 1
    all_goals first | rfl | (simp; done) | (simp; ring)

theorem trig_int (x : ℝ) (n : ℤ) :
    sin (x + n * (2 * π)) = sin x ∧ cos (x + n * (2 * π)) = cos x :=
  ⟨Real.sin_add_int_mul_two_pi x n, Real.cos_add_int_mul_two_pi x n⟩

/-- **C05.** For every position and velocity (`c = (t, r, θ, φ, ṫ, ṙ, θ̇, φ̇)`): the angles end in
`[0, π] × [0, 2π]`, the time, radius and the other velocity components are unchanged, the point in space is
the same, and so is the velocity vector in space. -/
theorem normalised_same_point (c : ℕ → ℝ) :
    let c' := checkPhiTheta c
    (0 ≤ c' 2 ∧ c' 2 ≤ π) ∧ (0 ≤ c' 3 ∧ c' 3 ≤ 2 * π) ∧
    (∀ i, i ≠ 2 → i ≠ 3 → i ≠ 6 → c' i = c i) ∧
    pos (c' 1) (c' 2) (c' 3) = pos (c 1) (c 2) (c 3) ∧
    vec (c' 1) (c' 2) (c' 3) (c' 5) (c' 6) (c' 7) = vec (c 1) (c 2) (c 3) (c 5) (c 6) (c 7) := by
  obtain ⟨n, m, h1, h2, h3, h4⟩ := check_spec c
  intro c'
  refine ⟨h1, h2, h4, ?_⟩
  rw [show c' 1 = c 1 from h4 1 (by decide) (by decide) (by decide),
    show c' 5 = c 5 from h4 5 (by decide) (by decide) (by decide),
    show c' 7 = c 7 from h4 7 (by decide) (by decide) (by decide)]
  obtain ⟨s2, k2⟩ := trig_int (c 2) n
  rcases h3 with ⟨e2, e3, e6⟩ | ⟨e2, _, e3, e6⟩
  · obtain ⟨s3, k3⟩ := trig_int (c 3) m
    change c' 2 = _ at e2
    change c' 3 = _ at e3
    change c' 6 = _ at e6
    rw [e2, e3, e6]
    simp only [pos, vec, s2, k2, s3, k3, and_self]
  · obtain ⟨s3, k3⟩ := trig_int (c 3 + π) m
    change c' 2 = _ at e2
    change c' 3 = _ at e3
    change c' 6 = _ at e6
    rw [e2, e3, e6]
    simp only [pos, vec, sin_neg, cos_neg, s2, k2, s3, k3, sin_add_pi, cos_add_pi, Prod.mk.injEq]
    refine ⟨⟨?_, ?_, ?_⟩, ?_, ?_, ?_⟩ <;> first | trivial | ring

/-- **C05, sign of the velocity.** `θ̇` is reversed exactly when the colatitude had to be reflected; else the
colatitude only moved by whole turns. -/
theorem reflected_iff (c : ℕ → ℝ) :
    let c' := checkPhiTheta c
    ((∃ n : ℤ, c' 2 = c 2 + n * (2 * π)) ∧ c' 6 = c 6) ∨
    ((∃ n : ℤ, c' 2 = -(c 2 + n * (2 * π))) ∧ 0 < c' 2 ∧ c' 6 = -c 6) := by
  obtain ⟨n, m, h1, h2, h3, h4⟩ := check_spec c
  rcases h3 with ⟨e2, e3, e6⟩ | ⟨e2, h0, e3, e6⟩
  · exact Or.inl ⟨⟨n, e2⟩, e6⟩
  · exact Or.inr ⟨⟨n, e2⟩, h0, e6⟩

/-- In range already: nothing changes. -/
theorem normalised_id (c : ℕ → ℝ) (h2 : 0 ≤ c 2 ∧ c 2 ≤ π) (h3 : 0 ≤ c 3 ∧ c 3 ≤ 2 * π) :
    checkPhiTheta c = c := by
  have e1 : wrapDown (2 * π) π (c 2) = c 2 := by
    rw [wrapDown, dif_neg (fun h => absurd h.2 (not_lt.2 h2.2))]
  have e2 : wrapUp (2 * π) (-π) (c 2) = c 2 := by
    rw [wrapUp, dif_neg (fun h => absurd h.2 (not_lt.2 (by have := pi_pos; linarith)))]
  have e3 : wrapDown (2 * π) (2 * π) (c 3) = c 3 := by
    rw [wrapDown, dif_neg (fun h => absurd h.2 (not_lt.2 h3.2))]
  have e4 : wrapUp (2 * π) 0 (c 3) = c 3 := by
    rw [wrapUp, dif_neg (fun h => absurd h.2 (not_lt.2 h3.1))]
  have hn : ¬ c 2 < 0 := not_lt.2 h2.1
  funext i
  simp only [checkPhiTheta, e1, e2, hn, if_false, e3, e4]
  split_ifs with i2 i3 i6 <;> simp [*]

theorem check_reflect (c : ℕ → ℝ) (h2 : -π ≤ c 2 ∧ c 2 < 0) :
    checkPhiTheta c 2 = -c 2 ∧ checkPhiTheta c 6 = -c 6 := by
  have e1 : wrapDown (2 * π) π (c 2) = c 2 := by
    rw [wrapDown, dif_neg (fun h => absurd h.2 (not_lt.2 (by have := pi_pos; linarith)))]
  have e2 : wrapUp (2 * π) (-π) (c 2) = c 2 := by
    rw [wrapUp, dif_neg (fun h => absurd h.2 (not_lt.2 h2.1))]
  simp [checkPhiTheta, e1, e2, h2.2]

/-- A reflection does occur for a concrete point. -/
example : checkPhiTheta (fun i => if i = 2 then -1 else (i : ℝ)) 2 = 1 ∧
    checkPhiTheta (fun i => if i = 2 then -1 else (i : ℝ)) 6 = -6 := by
  have := check_reflect (fun i => if i = 2 then -1 else (i : ℝ))
    ⟨by have := two_le_pi; simp; linarith, by simp⟩
  simpa using this

/-- **Finding (C05).** With parallel transport the vector also holds the components of two transported
vectors, in elements 8-11 and 12-15. They are left alone when the colatitude is reflected, so they no longer
designate the same vectors in space (`lib/WorldlineIntegState.C:360-362`). -/
theorem transported_vector_changes :
    ∃ c : ℕ → ℝ, let c' := checkPhiTheta c
      vec (c' 1) (c' 2) (c' 3) (c' 9) (c' 10) (c' 11) ≠ vec (c 1) (c 2) (c 3) (c 9) (c 10) (c 11) := by
  refine ⟨fun i => if i = 1 then 1 else if i = 2 then -1 else if i = 10 then 1 else 0, ?_⟩
  set c : ℕ → ℝ := fun i => if i = 1 then 1 else if i = 2 then -1 else if i = 10 then 1 else 0 with hc
  have hr := (check_reflect c ⟨by have := two_le_pi; simp [hc]; linarith, by simp [hc]⟩).1
  obtain ⟨n, m, _, _, _, h4⟩ := check_spec c
  intro c' h
  have e := congrArg (fun x => x.2.2) h
  simp only [vec] at e
  rw [show c' 1 = c 1 from h4 1 (by decide) (by decide) (by decide),
    show c' 9 = c 9 from h4 9 (by decide) (by decide) (by decide),
    show c' 10 = c 10 from h4 10 (by decide) (by decide) (by decide),
    show c' 2 = -c 2 from hr] at e
  simp [hc] at e
  have : 0 < sin 1 := sin_pos_of_pos_of_lt_pi one_pos (by have := two_le_pi; linarith)
  linarith

/-- **Finding (C05).** In a 3+1 integration, `doStep` normalises the 7-component vector
`(E, r, θ, φ, V_r, V_θ, V_φ)`, in which `V_θ` is element 5 and `V_φ` is element 6: reflecting the colatitude
reverses `V_φ` instead of `V_θ` (`lib/WorldlineIntegState.C:388-398`). -/
theorem three_plus_one_velocity_changes :
    ∃ c : ℕ → ℝ, let c' := checkPhiTheta c
      vec (c' 1) (c' 2) (c' 3) (c' 4) (c' 5) (c' 6) ≠ vec (c 1) (c 2) (c 3) (c 4) (c 5) (c 6) := by
  refine ⟨fun i => if i = 1 then 1 else if i = 2 then -1 else if i = 5 then 1 else 0, ?_⟩
  set c : ℕ → ℝ := fun i => if i = 1 then 1 else if i = 2 then -1 else if i = 5 then 1 else 0 with hc
  have hr := (check_reflect c ⟨by have := two_le_pi; simp [hc]; linarith, by simp [hc]⟩).1
  obtain ⟨n, m, _, _, _, h4⟩ := check_spec c
  intro c' h
  have e := congrArg (fun x => x.2.2) h
  simp only [vec] at e
  rw [show c' 1 = c 1 from h4 1 (by decide) (by decide) (by decide),
    show c' 4 = c 4 from h4 4 (by decide) (by decide) (by decide),
    show c' 5 = c 5 from h4 5 (by decide) (by decide) (by decide),
    show c' 2 = -c 2 from hr] at e
  simp [hc] at e
  have : 0 < sin 1 := sin_pos_of_pos_of_lt_pi one_pos (by have := two_le_pi; linarith)
  linarith

end Gyoto.PhiTheta
