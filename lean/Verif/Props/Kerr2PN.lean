import Verif.Model.Kerr2PN
import Verif.Spec.Christoffel
import Verif.Spec.Orbits
import Mathlib.Analysis.Calculus.Deriv.Mul
import Mathlib.Analysis.Calculus.Deriv.Add
import Mathlib.Tactic.Linarith
import Mathlib.Tactic.FieldSimp
import Mathlib.Tactic.NormNum

/-!
# C135: the parameters and the geometry of `Kerr2PN`
-/

namespace Gyoto.Kerr2PN

open Gyoto.MetricAlg Gyoto.Spacetime

/-- The quadrupole is that of Kerr. -/
def Tied (s : Hole) : Prop := s.tied = true → s.Q = -s.spin ^ 2

/-- No call lets go of the tie. -/
def Keeps : Call → Prop
  | .kerrQuadrupole t => t = true
  | _ => True

/-- C135, the part that holds: as long as the tie was never let go, a call that returns leaves the quadrupole that of Kerr, whether the spin or the
quadrupole was given. -/
theorem tied_partial {l : List Call} : (∀ c ∈ l, Keeps c) → ∀ {s s' : Hole}, s.tied = true → Tied s → s.run l = .ok s' → s'.tied = true ∧ Tied s' := by
  induction l with
  | nil => intro _ s s' ht h e; cases e; exact ⟨ht, h⟩
  | cons c l ih =>
    intro hk s s' ht h e
    have hk' : ∀ c ∈ l, Keeps c := fun c hc => hk c (by simp [hc])
    unfold Hole.run at e
    cases c with
    | spin a =>
      simp only [Hole.call, ht, if_true] at e
      exact ih hk' (s := ⟨a, -a * a, true⟩) rfl (fun _ => by show -a * a = -a ^ 2; ring) e
    | quadrupole q =>
      simp only [Hole.call, ht, if_true] at e
      split_ifs at e with hq
      exact ih hk' (s := ⟨√(-q), q, true⟩) rfl (fun _ => by
        show q = -√(-q) ^ 2
        rw [Real.sq_sqrt (by push Not at hq; linarith)]; ring) e
    | kerrQuadrupole t =>
      have : t = true := hk (.kerrQuadrupole t) (by simp)
      subst this
      exact ih hk' (s := { s with tied := true }) rfl (fun _ => h ht) e

/-- C135. Tying the quadrupole again does not give it the value of Kerr, and a refused quadrupole is kept. -/
theorem tied_wrong (a q : ℝ) (ha : a ≠ 0) (hq : 0 < q) :
    (∃ s, Hole.new.run [.kerrQuadrupole false, .spin a, .kerrQuadrupole true] = .ok s ∧ ¬ Tied s) ∧
    (∃ s, Hole.new.run [.quadrupole q] = .thrown s ∧ s.Q = q ∧ ¬ Tied s) := by
  refine ⟨⟨⟨a, 0, true⟩, by simp [Hole.run, Hole.call, Hole.new], fun h => ?_⟩, ⟨⟨0, q, true⟩, ?_, rfl, fun h => ?_⟩⟩
  · have := h rfl
    simp at this
    exact ha this
  · simp [Hole.run, Hole.call, Hole.new, hq]
  · have := h rfl
    simp at this
    linarith

/-- C135, the part that holds: a hole with the quadrupole of Kerr and a spin that is not negative is the same after it was written and read. -/
theorem reload_partial {s : Hole} (ht : s.tied = true) (h : Tied s) (h0 : 0 ≤ s.spin) : s.reload = .ok s := by
  have hq := h ht
  obtain ⟨a, q, t⟩ := s
  simp only at ht hq h0
  subst ht hq
  have : ¬ (-a ^ 2 > 0) := by push Not; nlinarith
  simp only [Hole.reload, Hole.run, Hole.call, Hole.new, if_true, if_neg this]
  rw [neg_neg, Real.sqrt_sq h0]

/-- C135. A negative spin comes back positive. -/
theorem reload_sign_wrong {s : Hole} (ht : s.tied = true) (h : Tied s) (h0 : s.spin < 0) : s.reload = .ok { s with spin := -s.spin } := by
  have hq := h ht
  obtain ⟨a, q, t⟩ := s
  simp only at ht hq h0
  subst ht hq
  have : ¬ (-a ^ 2 > 0) := by push Not; nlinarith
  simp only [Hole.reload, Hole.run, Hole.call, Hole.new, if_true, if_neg this]
  rw [neg_neg, Real.sqrt_sq_eq_abs, abs_of_neg h0]

/-- C135. A hole whose quadrupole is not that of Kerr does not come back: with a positive one the file is refused, with another the spin is lost. -/
theorem reload_free_wrong {s : Hole} (ht : s.tied = false) :
    (0 < s.Q → ∃ s', s.reload = .thrown s') ∧ (s.Q ≤ 0 → s.reload = .ok { s with spin := √(-s.Q) }) := by
  obtain ⟨a, q, t⟩ := s
  simp only at ht
  subst ht
  constructor
  · intro h
    exact ⟨⟨a, q, true⟩, by simp [Hole.reload, Hole.run, Hole.call, Hole.new, show q > 0 from h]⟩
  · intro h
    have : ¬ (q > 0) := not_lt.2 h
    simp [Hole.reload, Hole.run, Hole.call, Hole.new, this]

/-- Example: a spin of -1/2 is read as 1/2; a spin of 1/2 with a quadrupole of -1 is read as a spin of 1. -/
example : (⟨-1 / 2, -1 / 4, true⟩ : Hole).reload = .ok ⟨1 / 2, -1 / 4, true⟩ ∧ (⟨1 / 2, -1, false⟩ : Hole).reload = .ok ⟨1, -1, false⟩ := by
  constructor
  · have := reload_sign_wrong (s := ⟨-1 / 2, -1 / 4, true⟩) rfl (fun _ => by norm_num) (by norm_num)
    rw [this]; norm_num
  · have := (reload_free_wrong (s := ⟨1 / 2, -1, false⟩) rfl).2 (by norm_num)
    rw [this]; norm_num

/-- Far from the hole the metric is that of a unit mass at rest, to first order. -/
def Newtonian (g : Vec → Tensor) : Prop := ∃ C R : ℝ, ∀ p, R < radius p → |g p 0 0 - (-1 + 2 / radius p)| ≤ C / radius p ^ 2

/-- C135. The metric is flat, whatever the spin and the quadrupole: there is no mass. -/
theorem flat_wrong (s : Hole) : ¬ Newtonian s.gmunu ∧ ∀ s' : Hole, s'.gmunu = s.gmunu := by
  refine ⟨?_, fun s' => rfl⟩
  rintro ⟨C, R, h⟩
  obtain ⟨x, hx⟩ : ∃ x, x = max (R + 1) (max C 1) := ⟨_, rfl⟩
  have x1 : R < x := lt_of_lt_of_le (by linarith) (hx ▸ le_max_left _ _)
  have x2 : C ≤ x := hx ▸ (le_max_left C 1).trans (le_max_right _ _)
  have x3 : 1 ≤ x := hx ▸ (le_max_right C 1).trans (le_max_right _ _)
  have x0 : 0 < x := by linarith
  have e : radius ![0, x, 0, 0] = x := by
    show √(x * x + 0 * 0 + 0 * 0) = x
    rw [show x * x + 0 * 0 + 0 * 0 = x ^ 2 by ring, Real.sqrt_sq x0.le]
  have := h ![0, x, 0, 0] (by rw [e]; exact x1)
  rw [e] at this
  have g0 : s.gmunu ![0, x, 0, 0] 0 0 = -1 := rfl
  rw [g0, show (-1 : ℝ) - (-1 + 2 / x) = -(2 / x) by ring, abs_neg, abs_of_pos (by positivity), div_le_div_iff₀ x0 (by positivity)] at this
  nlinarith

/-- C135. The symbols of Christoffel are those of the metric that is returned, so that what moves freely moves in straight lines at a constant rate. -/
theorem symbols (s : Hole) : (∀ p, IsChristoffel s.gmunu p (s.christoffel p)) ∧ ∀ x v : Vec, IsGeodesic s.gmunu fun τ => x + τ • v := by
  have key : ∀ p, IsChristoffel s.gmunu p (s.christoffel p) := fun p =>
    ⟨fun _ => Matrix.of fun _ _ => 0, fun μ α β => hasDerivAt_const _ _, fun α μ ν => by simp [Hole.christoffel]⟩
  refine ⟨key, fun x v => ⟨fun _ => v, fun τ α => ?_, fun τ => ⟨0, s.christoffel (x + τ • v), fun α => hasDerivAt_const _ _, key _, fun α => ?_⟩⟩⟩
  · have := ((hasDerivAt_id τ).mul_const (v α)).const_add (x α)
    simpa using this
  · simp [Hole.christoffel]

/-- C135. The integration stops exactly inside of the outer horizon of a hole of that spin and a margin, and never if there is no horizon. -/
theorem stops (s : Hole) (p : Vec) : s.stop p = true ↔ s.spin ^ 2 < 1 ∧ radius p < 1 + √(1 - s.spin ^ 2) + 0.01 := by
  unfold Hole.stop
  simp only [decide_eq_true_eq, ← sq]
  constructor
  · intro h
    split_ifs at h with hs
    · exact ⟨hs, h⟩
    · exact absurd h (not_lt.2 (Real.sqrt_nonneg _))
  · rintro ⟨h1, h2⟩
    rw [if_pos h1]; exact h2

end Gyoto.Kerr2PN
