import Verif.Lemmas.Synch
import Mathlib.Tactic.LinearCombination

/-! # Lemmas for the synchrotron of power laws -/

namespace Gyoto.Synch

open Gyoto.Transfer (Out)
open Gyoto.Plasma Gyoto.Spec

/-- Where the coefficients are meant to be asked, at any angle: a decreasing power law between two energies, and a frequency below the last one
of the electrons. -/
structure PL.Fair (s : PL) (nu : ℝ) : Prop where
  p : 1 < s.p
  gmin : 0 < s.gmin
  gmax : s.gmin < s.gmax
  nu0 : 0 < s.nu0
  top : nu ≤ s.gmax ^ 2 * s.nu0
  nu : 0 < nu

/-- The same, looked at across the field. -/
structure PL.Lit (s : PL) (nu : ℝ) : Prop extends s.Fair nu where
  low : 0 < s.angle
  high : s.angle < Real.pi

theorem PL.Fair.norm {s : PL} {nu : ℝ} (h : s.Fair nu) : 0 < s.gmin ^ (1 - s.p) - s.gmax ^ (1 - s.p) := by
  have := Real.rpow_lt_rpow_of_neg h.gmin h.gmax (show 1 - s.p < 0 by linarith [h.p])
  linarith

theorem PL.Lit.sin {s : PL} {nu : ℝ} (h : s.Lit nu) : 0 < Real.sin s.angle := Real.sin_pos_of_pos_of_lt_pi h.low h.high

theorem PL.Lit.xpos {s : PL} {nu : ℝ} (h : s.Lit nu) : 0 < nu / (s.nu0 * Real.sin s.angle) :=
  div_pos h.nu (mul_pos h.nu0 h.sin)

theorem PL.Fair.root {s : PL} {nu : ℝ} (h : s.Fair nu) : √(nu / s.nu0) ≤ s.gmax := by
  rw [Real.sqrt_le_left (h.gmin.trans h.gmax).le, div_le_iff₀ h.nu0]
  exact h.top

theorem PL.Lit.guard {s : PL} {nu : ℝ} (h : s.Lit nu) : s.guard nu = .ok () := by
  have n := h.toFair.norm
  have g1 := h.gmin
  have g2 : 0 < s.gmax := g1.trans h.gmax
  have m := mul_pos h.nu0 h.sin
  unfold PL.guard
  rw [if_neg, if_neg (not_lt.2 h.toFair.root), if_neg, if_neg]
  · rintro (e | e)
    · exact m.ne' e
    · exact absurd h.xpos (not_lt.2 e)
  · rintro (e | e | e)
    · linarith
    · linarith
    · exact n.ne' e
  · rintro (e | e)
    · exact h.nu0.ne' e
    · exact absurd (div_pos h.nu h.nu0) (not_lt.2 e.le)

theorem PL.Lit.j {s : PL} {nu : ℝ} (h : s.Lit nu) : s.j nu = .ok (s.front * s.Js nu) := by
  unfold PL.j
  rw [h.guard, bind_ok, if_neg (by linarith [h.p])]

theorem PL.Lit.jQ {s : PL} {nu : ℝ} (h : s.Lit nu) : s.jQ nu = .ok (s.front * (s.Js nu * (s.p + 1) / (s.p + 7 / 3))) := by
  unfold PL.jQ
  rw [h.guard, bind_ok, if_neg]
  rintro (e | e) <;> linarith [h.p]

noncomputable def PL.jVVal (s : PL) (nu : ℝ) : ℝ :=
  s.front * (s.Js nu * (171 / 250 * s.p ^ (49 / 100 : ℝ) / Real.tan s.angle * (nu / (3 * s.nu0 * Real.sin s.angle)) ^ (-0.5 : ℝ)))

theorem PL.Lit.jV {s : PL} {nu : ℝ} (h : s.Lit nu) : s.jV nu = .ok (s.jVVal nu) := by
  unfold PL.jV PL.jVVal
  rw [h.guard, bind_ok, if_neg]
  rintro (e | e) <;> linarith [h.p]

theorem PL.Lit.a {s : PL} {nu : ℝ} (h : s.Lit nu) : s.a nu = .ok (s.frontA nu * s.As nu) := by
  unfold PL.a
  rw [h.guard, bind_ok]

theorem PL.Lit.aQ {s : PL} {nu : ℝ} (h : s.Lit nu) (hp : 43 / 1250 ≤ 17 / 500 * s.p) :
    s.aQ nu = .ok (s.frontA nu * (s.As nu * (17 / 500 * s.p - 43 / 1250) ^ (43 / 500 : ℝ))) := by
  unfold PL.aQ
  rw [h.guard, bind_ok, if_neg (by linarith)]

noncomputable def PL.aVVal (s : PL) (nu : ℝ) : ℝ :=
  s.frontA nu * (s.As nu * (71 / 100 * s.p + 22 / 625) ^ (197 / 500 : ℝ) *
      (31 / 10 * Real.sin s.angle ^ (-48 / 25 : ℝ) - 31 / 10) ^ (64 / 125 : ℝ) * (nu / s.nu0 / Real.sin s.angle) ^ (-0.5 : ℝ) *
      Real.cos s.angle / |Real.cos s.angle|)

theorem PL.Lit.aV {s : PL} {nu : ℝ} (h : s.Lit nu) : s.aV nu = .ok (s.aVVal nu) := by
  unfold PL.aV PL.aVVal
  rw [h.guard, bind_ok, if_neg]
  rintro (e | e)
  · linarith [h.p]
  · linarith [h.sin]

noncomputable def PL.rQVal (s : PL) (nu : ℝ) : ℝ :=
  s.rhoPer * (s.nu0 * Real.sin s.angle / nu) ^ (3 : ℝ) * s.gmin ^ (2 - s.p) *
      (1 - (2 * s.nu0 * s.gmin ^ (2 : ℝ) * Real.sin s.angle / 3 / nu) ^ (s.p / 2 - 1))

noncomputable def PL.rVVal (s : PL) (nu : ℝ) : ℝ :=
  2 * s.rhoPer * (s.p + 2) / (s.p + 1) * (s.nu0 * Real.sin s.angle / nu) ^ (2 : ℝ) * s.gmin ^ (-(s.p + 1)) *
      Real.log s.gmin * (1 / Real.tan s.angle)

theorem PL.Lit.rQ {s : PL} {nu : ℝ} (h : s.Lit nu) (hg : s.gmin ≤ 1e2) : s.rQ nu = .ok (s.rQVal nu) := by
  unfold PL.rQ PL.rQVal
  rw [h.guard, bind_ok, if_neg (not_lt.2 hg)]

theorem PL.Lit.rV {s : PL} {nu : ℝ} (h : s.Lit nu) (hg : s.gmin ≤ 1e2) : s.rV nu = .ok (s.rVVal nu) := by
  unfold PL.rV PL.rVVal
  rw [h.guard, bind_ok, if_neg (not_lt.2 hg), if_neg (by linarith [h.p])]

noncomputable def PL.vals (s : PL) (nu : ℝ) : Fin 11 → ℝ :=
  ![s.front * s.Js nu, s.front * (s.Js nu * (s.p + 1) / (s.p + 7 / 3)), 0, s.jVVal nu, s.frontA nu * s.As nu,
    s.frontA nu * (s.As nu * (17 / 500 * s.p - 43 / 1250) ^ (43 / 500 : ℝ)), 0, s.aVVal nu, s.rQVal nu, 0, s.rVVal nu]

theorem PL.Lit.coefs {s : PL} {nu : ℝ} (h : s.Lit nu) (hp : 43 / 1250 ≤ 17 / 500 * s.p) (hg : s.gmin ≤ 1e2) :
    s.coefs nu = .ok (s.vals nu) := by
  unfold PL.coefs PL.vals
  simp only [h.j, h.jQ, h.jV, h.a, h.aQ hp, h.aV, h.rQ hg, h.rV hg, bind_ok]

/-- The same object at another angle. -/
def PL.at (s : PL) (θ : ℝ) : PL := { s with angle := θ }

theorem PL.Fair.at_lit {s : PL} {nu : ℝ} (h : s.Fair nu) {θ : ℝ} (h1 : 0 < θ) (h2 : θ < Real.pi) : (s.at θ).Lit nu :=
  ⟨⟨h.p, h.gmin, h.gmax, h.nu0, h.top, h.nu⟩, h1, h2⟩

/-- What one turn gives. -/
noncomputable def PL.outs (s : PL) (nu : ℝ) : Fin 11 → ℝ :=
  if s.averaged = false then toSI (s.vals nu) else toSI fun i => mean 10 fun θ => (s.at θ).vals nu i

theorem PL.passP_eq {s : PL} {nu : ℝ} (h : s.Fair nu) (hv : s.averaged = false → 0 < s.angle ∧ s.angle < Real.pi)
    (hp : 43 / 1250 ≤ 17 / 500 * s.p) (hg : s.gmin ≤ 1e2) :
    s.passP nu = .ok (if s.averaged = false then s else s.at (Real.pi - 0.01), s.outs nu) := by
  unfold PL.passP PL.outs
  by_cases ha : s.averaged = false
  · have l : s.Lit nu := ⟨h, (hv ha).1, (hv ha).2⟩
    simp only [if_pos ha, l.coefs hp hg, bind_ok]
  · simp only [if_neg ha]
    have hsw : sweep 10 (fun th => ({ s with angle := th } : PL).coefs nu) = .ok fun i => mean 10 fun θ => (s.at θ).vals nu i :=
      sweep_eq (by norm_num) (fun θ h1 h2 => (h.at_lit h1 h2).coefs (by exact hp) (by exact hg))
    rw [hsw]
    simp only [bind_ok, angleAt_last (show 0 < 10 by norm_num)]
    rfl

theorem PL.pass_eq {s : PL} {nu : ℝ} (h : s.Fair nu) (hv : s.averaged = false → 0 < s.angle ∧ s.angle < Real.pi) :
    s.pass nu = .ok (if s.averaged = false then s else s.at (Real.pi - 0.01), s.outs nu 0, s.outs nu 4) := by
  unfold PL.pass PL.outs
  by_cases ha : s.averaged = false
  · have l : s.Lit nu := ⟨h, (hv ha).1, (hv ha).2⟩
    simp only [if_pos ha, l.j, l.a, bind_ok]
    rfl
  · simp only [if_neg ha]
    have hsw : sweep (ι := Fin 2) 10 (fun th => bind (({ s with angle := th } : PL).j nu) fun j =>
        bind (({ s with angle := th } : PL).a nu) fun a => .ok ![j, a]) =
        .ok fun i => mean 10 fun θ => ![(s.at θ).front * (s.at θ).Js nu, (s.at θ).frontA nu * (s.at θ).As nu] i := by
      refine sweep_eq (by norm_num) fun θ h1 h2 => ?_
      have e1 := (h.at_lit h1 h2).j
      have e2 := (h.at_lit h1 h2).a
      unfold PL.at at e1 e2 ⊢
      rw [e1, bind_ok, e2, bind_ok]
    rw [hsw]
    simp only [bind_ok, angleAt_last (show 0 < 10 by norm_num)]
    rfl

end Gyoto.Synch
