import Verif.Model.DeformedTorus
import Verif.Spec.DeformedTorus
import Verif.Props.Jet
import Verif.Props.Orbits
import Verif.Props.KerrBL
import Mathlib.Analysis.Calculus.Deriv.Pow
import Mathlib.Analysis.Calculus.Deriv.Inv
import Mathlib.Analysis.Calculus.Deriv.Add
import Mathlib.Analysis.SpecialFunctions.Trigonometric.Deriv

/-!
# Lemmas about the deformed torus
-/

namespace Gyoto.DefTorus

open Gyoto.MetricAlg Gyoto.KerrBL Gyoto.Spacetime
open Gyoto.Transfer (Out)

/-- The factors of the lengths. -/
noncomputable def Torus.kx (s : Torus) : ℝ := 1 / s.beta * √(gmunu s.a s.posc 1 1) / s.c
noncomputable def Torus.ky (s : Torus) : ℝ := 1 / s.beta * √(gmunu s.a s.posc 2 2) / s.c

theorem x_eq (s : Torus) (r : ℝ) : s.x r = s.kx * (r - s.c) := by unfold Torus.x Torus.kx; ring
theorem y_eq (s : Torus) (θ : ℝ) : s.y θ = s.ky * (Real.pi / 2 - θ) := by unfold Torus.y Torus.ky; ring

/-- The derivatives of the coefficients. -/
noncomputable def Torus.dcoefs (s : Torus) (t : ℝ) : Coefs :=
  let S := Real.sin (s.Omega * t)
  let C := Real.cos (s.Omega * t)
  let W := s.Omega
  match s.kind with
  | .radialTranslation => ⟨0, 0, s.eta * W * C, 0, 0, 0⟩
  | .verticalTranslation => ⟨0, 0, 0, 0, 0, s.eta * W * C⟩
  | .rotation => ⟨-W * S, W * C, 0, -W * C, -W * S, 0⟩
  | .expansion => ⟨s.eta * W * C, 0, 0, 0, s.eta * W * C, 0⟩
  | .radialShear => ⟨0, s.eta * W * C, 0, 0, 0, 0⟩
  | .verticalShear => ⟨0, 0, 0, s.eta * W * C, 0, 0⟩
  | .pureShear => ⟨s.eta * W * C, 0, 0, 0, -(s.eta * W * C) / (1 + s.eta * S) ^ 2, 0⟩

/-- `d` are the derivatives of the coefficients at `t`. -/
structure IsRate (s : Torus) (t : ℝ) (d : Coefs) : Prop where
  a1 : HasDerivAt (fun τ => (s.coefs τ).a1) d.a1 t
  a2 : HasDerivAt (fun τ => (s.coefs τ).a2) d.a2 t
  a3 : HasDerivAt (fun τ => (s.coefs τ).a3) d.a3 t
  b1 : HasDerivAt (fun τ => (s.coefs τ).b1) d.b1 t
  b2 : HasDerivAt (fun τ => (s.coefs τ).b2) d.b2 t
  b3 : HasDerivAt (fun τ => (s.coefs τ).b3) d.b3 t

theorem rate (s : Torus) (t : ℝ) (h : s.kind = .pureShear → s.scale t ≠ 0) : IsRate s t (s.dcoefs t) := by
  have hl : HasDerivAt (fun τ => s.Omega * τ) s.Omega t := by simpa using (hasDerivAt_id t).const_mul s.Omega
  have hS : HasDerivAt (fun τ => Real.sin (s.Omega * τ)) (s.Omega * Real.cos (s.Omega * t)) t := hl.sin.congr_deriv (by ring)
  have hC : HasDerivAt (fun τ => Real.cos (s.Omega * τ)) (-s.Omega * Real.sin (s.Omega * t)) t := hl.cos.congr_deriv (by ring)
  have hnC : HasDerivAt (fun τ => -Real.sin (s.Omega * τ)) (-s.Omega * Real.cos (s.Omega * t)) t := hS.neg.congr_deriv (by ring)
  have hE : HasDerivAt (fun τ => s.eta * Real.sin (s.Omega * τ)) (s.eta * s.Omega * Real.cos (s.Omega * t)) t :=
    (hS.const_mul s.eta).congr_deriv (by ring)
  have hE1 : HasDerivAt (fun τ => 1 + s.eta * Real.sin (s.Omega * τ)) (s.eta * s.Omega * Real.cos (s.Omega * t)) t := hE.const_add 1
  have h0 (k : ℝ) : HasDerivAt (fun _ : ℝ => k) 0 t := hasDerivAt_const t k
  rcases hk : s.kind
  · constructor <;> simp only [Torus.coefs, Torus.dcoefs, hk] <;> first | exact h0 _ | exact hE
  · constructor <;> simp only [Torus.coefs, Torus.dcoefs, hk] <;> first | exact h0 _ | exact hE
  · constructor <;> simp only [Torus.coefs, Torus.dcoefs, hk] <;> first | exact h0 _ | exact hC | exact hS | exact hnC
  · constructor <;> simp only [Torus.coefs, Torus.dcoefs, hk] <;> first | exact h0 _ | exact hE1
  · constructor <;> simp only [Torus.coefs, Torus.dcoefs, hk] <;> first | exact h0 _ | exact hE
  · constructor <;> simp only [Torus.coefs, Torus.dcoefs, hk] <;> first | exact h0 _ | exact hE
  · have hi : HasDerivAt (fun τ => 1 / (1 + s.eta * Real.sin (s.Omega * τ)))
        (-(s.eta * s.Omega * Real.cos (s.Omega * t)) / (1 + s.eta * Real.sin (s.Omega * t)) ^ 2) t := by
      have := hE1.inv (h hk)
      simp only [one_div]
      exact this
    constructor <;> simp only [Torus.coefs, Torus.dcoefs, hk] <;> first | exact h0 _ | exact hE1 | exact hi

/-- The rates of `X` and `Y` for a gas with the velocity `(vr, vθ)`. -/
noncomputable def Torus.dX (s : Torus) (d : Coefs) (t r θ vr vθ : ℝ) : ℝ :=
  d.a1 * s.x r + d.a2 * s.y θ + d.a3 + ((s.coefs t).a1 * (s.kx * vr) + (s.coefs t).a2 * (-(s.ky * vθ)))
noncomputable def Torus.dY (s : Torus) (d : Coefs) (t r θ vr vθ : ℝ) : ℝ :=
  d.b1 * s.x r + d.b2 * s.y θ + d.b3 + ((s.coefs t).b1 * (s.kx * vr) + (s.coefs t).b2 * (-(s.ky * vθ)))

theorem rate_f {s : Torus} {t : ℝ} {d : Coefs} (h : IsRate s t d) (r θ vr vθ : ℝ) :
    RateAlong s.f t r θ vr vθ (2 * (s.omr2 * s.X t r θ * s.dX d t r θ vr vθ + s.omth2 * s.Y t r θ * s.dY d t r θ vr vθ)) := by
  have ht : HasDerivAt (fun e : ℝ => t + e) 1 0 := (hasDerivAt_id (0 : ℝ)).const_add t
  have sh {F : ℝ → ℝ} {D : ℝ} (hF : HasDerivAt F D t) : HasDerivAt (fun e : ℝ => F (t + e)) D 0 := by
    have := HasDerivAt.comp (0 : ℝ) (h₂ := F) (h := fun e => t + e) (by simpa using hF) ht
    simpa [Function.comp_def] using this
  have hx : HasDerivAt (fun e : ℝ => s.x (r + e * vr)) (s.kx * vr) 0 := by
    have : (fun e : ℝ => s.x (r + e * vr)) = fun e => s.kx * (r - s.c) + e * (s.kx * vr) := by funext e; rw [x_eq]; ring
    rw [this]
    simpa using ((hasDerivAt_id (0 : ℝ)).mul_const (s.kx * vr)).const_add (s.kx * (r - s.c))
  have hy : HasDerivAt (fun e : ℝ => s.y (θ + e * vθ)) (-(s.ky * vθ)) 0 := by
    have : (fun e : ℝ => s.y (θ + e * vθ)) = fun e => s.ky * (Real.pi / 2 - θ) + e * (-(s.ky * vθ)) := by funext e; rw [y_eq]; ring
    rw [this]
    simpa using ((hasDerivAt_id (0 : ℝ)).mul_const (-(s.ky * vθ))).const_add (s.ky * (Real.pi / 2 - θ))
  have hX : HasDerivAt (fun e : ℝ => s.X (t + e) (r + e * vr) (θ + e * vθ)) (s.dX d t r θ vr vθ) 0 := by
    unfold Torus.X
    refine ((((sh h.a1).mul hx).add ((sh h.a2).mul hy)).add (sh h.a3)).congr_deriv ?_
    simp only [Torus.dX, add_zero, zero_mul]; ring
  have hY : HasDerivAt (fun e : ℝ => s.Y (t + e) (r + e * vr) (θ + e * vθ)) (s.dY d t r θ vr vθ) 0 := by
    unfold Torus.Y
    refine ((((sh h.b1).mul hx).add ((sh h.b2).mul hy)).add (sh h.b3)).congr_deriv ?_
    simp only [Torus.dY, add_zero, zero_mul]; ring
  unfold RateAlong Torus.f
  refine ((((hX.const_mul s.omr2).mul hX).add ((hY.const_mul s.omth2).mul hY)).sub_const 1).congr_deriv ?_
  simp only [add_zero, zero_mul]; ring

/-- The drift is such that the image of its displacement is the change of the deformation. -/
theorem drift_spec {s : Torus} (hr : s.Ready) (t r θ : ℝ) (h : s.kind = .pureShear ∨ s.kind = .expansion → s.scale t ≠ 0) :
    (s.coefs t).a1 * (s.kx * (s.drift t r θ).1) + (s.coefs t).a2 * (-(s.ky * (s.drift t r θ).2)) =
      (s.dcoefs t).a1 * s.x r + (s.dcoefs t).a2 * s.y θ + (s.dcoefs t).a3 ∧
    (s.coefs t).b1 * (s.kx * (s.drift t r θ).1) + (s.coefs t).b2 * (-(s.ky * (s.drift t r θ).2)) =
      (s.dcoefs t).b1 * s.x r + (s.dcoefs t).b2 * s.y θ + (s.dcoefs t).b3 := by
  obtain ⟨hc, hd, hb, -⟩ := hr
  have hπ : Real.sin (s.posc 2) ≠ 0 := by
    show Real.sin (Real.pi / 2) ≠ 0
    rw [Real.sin_pi_div_two]; exact one_ne_zero
  obtain ⟨o, -, -, -⟩ := JetFlow.kerr_out (a := s.a) (p := s.posc) hc hd hπ
  have g1 : √(gmunu s.a s.posc 1 1) ≠ 0 := (Real.sqrt_pos.2 o.rr).ne'
  have g2 : √(gmunu s.a s.posc 2 2) ≠ 0 := (Real.sqrt_pos.2 o.hh).ne'
  have kr (z : ℝ) : s.kx * (s.c / √(gmunu s.a s.posc 1 1) * s.beta * z) = z := by
    unfold Torus.kx
    have := hc.ne'
    field_simp
  have kt (z : ℝ) : -(s.ky * (-s.c / √(gmunu s.a s.posc 2 2) * s.beta * z)) = z := by
    unfold Torus.ky
    have := hc.ne'
    field_simp
  have sc := Real.sin_sq_add_cos_sq (s.Omega * t)
  unfold Torus.scale at h
  unfold Torus.coefs Torus.dcoefs Torus.drift
  generalize Real.sin (s.Omega * t) = S at *
  generalize Real.cos (s.Omega * t) = C at *
  generalize s.x r = x
  generalize s.y θ = y
  generalize s.c / √(gmunu s.a s.posc 1 1) * s.beta = p at *
  generalize -s.c / √(gmunu s.a s.posc 2 2) * s.beta = q at *
  rcases hk : s.kind <;> simp only [mul_assoc p, mul_assoc q, kr, kt, mul_zero, neg_zero, zero_mul, one_mul, zero_add, add_zero, and_true, true_and]
  case rotation =>
    constructor
    · linear_combination s.Omega * (C * y - S * x) * sc
    · linear_combination -s.Omega * (S * y + C * x) * sc
  case expansion =>
    have h1 := h (Or.inr hk)
    constructor <;> field_simp
  case radialShear => ring
  case verticalShear => ring
  case pureShear =>
    have h1 := h (Or.inl hk)
    constructor <;> field_simp

/-- A quotient of functions oscillates. -/
theorem quot_osc {P Q P' Q' : ℝ → ℝ} {P2 Q2 m c w2 : ℝ} (hP : ∀ᶠ x in nhds c, HasDerivAt P (P' x) x) (hQ : ∀ᶠ x in nhds c, HasDerivAt Q (Q' x) x)
    (hP2 : HasDerivAt P' P2 c) (hQ2 : HasDerivAt Q' Q2 c) (h0 : Q c ≠ 0) (h1 : P' c * Q c = P c * Q' c)
    (h2 : P2 * Q c - P c * Q2 = m * w2 * Q c ^ 2) : Oscillates (fun x => P x / Q x) m c w2 := by
  refine ⟨fun x => (P' x * Q x - P x * Q' x) / Q x ^ 2, ?_, ?_, ?_⟩
  · have hne : ∀ᶠ x in nhds c, Q x ≠ 0 := hQ.self_of_nhds.continuousAt.eventually_ne h0
    filter_upwards [hP, hQ, hne] with x a b e
    exact a.div b e
  · show (P' c * Q c - P c * Q' c) / Q c ^ 2 = 0
    rw [h1, sub_self, zero_div]
  · have a := hP.self_of_nhds
    have b := hQ.self_of_nhds
    refine ((((hP2.mul b).sub (a.mul hQ2))).div (b.pow 2) (pow_ne_zero 2 h0)).congr_deriv ?_
    simp only [Pi.sub_apply, Pi.mul_apply, Pi.pow_apply]
    rw [h1, sub_self, zero_mul, sub_zero]
    have e : P2 * Q c + P' c * Q' c - (P' c * Q' c + P c * Q2) = P2 * Q c - P c * Q2 := by ring
    rw [e, h2]
    field_simp

end Gyoto.DefTorus
