import Verif.Lemmas.Three1Geodesic
import Verif.Model.Kerr31
import Verif.Props.KerrBL
import Mathlib.Analysis.SpecialFunctions.Sqrt

/-!
# Lapse, shift and spatial metric of the Kerr metric, and their derivatives along a curve
-/

namespace Gyoto.KerrBL.K31

open Gyoto.MetricAlg Gyoto.Spacetime

noncomputable section
variable (a r th : ℝ)

def rho2 : ℝ := r * r + a * a * (Real.cos th * Real.cos th)
def Delta : ℝ := r * r - 2 * r + a * a
def B2 : ℝ := r * r + a * a + 2 * (a * a) * r * (Real.sin th * Real.sin th) / rho2 a r th
def B2r : ℝ := 2 * r + 2 * (a * a) * (Real.sin th * Real.sin th) * (a * a * (Real.cos th * Real.cos th) - r * r) /
  (rho2 a r th * rho2 a r th)
def B2t : ℝ := 4 * (a * a) * r * Real.sin th * Real.cos th * (a * a + r * r) / (rho2 a r th * rho2 a r th)
def N : ℝ := √(Delta a r / B2 a r th)
def Nr : ℝ := 0.5 / N a r th * (2 * (r - 1) * B2 a r th - Delta a r * B2r a r th) / (B2 a r th * B2 a r th)
def Nt : ℝ := -0.5 / N a r th * Delta a r * B2t a r th / (B2 a r th * B2 a r th)
def deno : ℝ := rho2 a r th * (r * r + a * a) + 2 * (a * a) * r * (Real.sin th * Real.sin th)
def denor : ℝ := 4 * (r * r) * r + 2 * (a * a) * (Real.sin th * Real.sin th + r * (1 + Real.cos th * Real.cos th))
def denot : ℝ := -2 * (a * a) * Real.cos th * Real.sin th * Delta a r
def b : ℝ := -2 * a * r / deno a r th
def br : ℝ := (-2 * a * deno a r th - -2 * a * r * denor a r th) / (deno a r th * deno a r th)
def bt : ℝ := -(-2 * a * r * denot a r th) / (deno a r th * deno a r th)
def g1 : ℝ := rho2 a r th / Delta a r
def g1r : ℝ := (2 * r * Delta a r - rho2 a r th * (2 * (r - 1))) / (Delta a r * Delta a r)
def g1t : ℝ := -2 * (a * a) * Real.sin th * Real.cos th / Delta a r
def g2t : ℝ := -2 * (a * a) * Real.sin th * Real.cos th
def g3 : ℝ := B2 a r th * (Real.sin th * Real.sin th)
def g3r : ℝ := B2r a r th * (Real.sin th * Real.sin th)
def g3t : ℝ := B2t a r th * (Real.sin th * Real.sin th) + 2 * Real.cos th * Real.sin th * B2 a r th

end

variable {a r th : ℝ}

theorem rho2_pos (hr : 0 < r) : 0 < rho2 a r th := by
  unfold rho2
  have := mul_pos hr hr
  have := mul_self_nonneg (a * Real.cos th)
  nlinarith

theorem B2_pos (hr : 0 < r) : 0 < B2 a r th := by
  unfold B2
  have h2 := mul_pos hr hr
  have h3 : 0 ≤ 2 * (a * a) * r * (Real.sin th * Real.sin th) / rho2 a r th :=
    div_nonneg (mul_nonneg (mul_nonneg (by nlinarith [mul_self_nonneg a]) hr.le) (mul_self_nonneg _)) (rho2_pos hr).le
  nlinarith [mul_self_nonneg a]

theorem deno_eq (hr : 0 < r) : deno a r th = rho2 a r th * B2 a r th := by
  have := (rho2_pos (a := a) (th := th) hr).ne'
  unfold deno B2
  field_simp

theorem N_pos (hr : 0 < r) (hd : 0 < Delta a r) : 0 < N a r th := Real.sqrt_pos.2 (div_pos hd (B2_pos hr))

theorem N_sq (hr : 0 < r) (hd : 0 < Delta a r) : N a r th ^ 2 = Delta a r / B2 a r th :=
  Real.sq_sqrt (div_nonneg hd.le (B2_pos hr).le)

section curve
variable {R T : ℝ → ℝ} {dR dT t : ℝ} (hR : HasDerivAt R dR t) (hT : HasDerivAt T dT t)
include hR hT

theorem rho2_deriv : HasDerivAt (fun τ => rho2 a (R τ) (T τ)) (2 * R t * dR + g2t a (T t) * dT) t := by
  have := (hR.mul hR).add ((hT.cos.mul hT.cos).const_mul (a * a))
  refine this.congr_deriv ?_
  unfold g2t
  ring

theorem Delta_deriv : HasDerivAt (fun τ => Delta a (R τ)) (2 * (R t - 1) * dR) t := by
  have := ((hR.mul hR).sub (hR.const_mul 2)).add_const (a * a)
  refine this.congr_deriv ?_
  ring

theorem B2_deriv (hr : 0 < R t) :
    HasDerivAt (fun τ => B2 a (R τ) (T τ)) (B2r a (R t) (T t) * dR + B2t a (R t) (T t) * dT) t := by
  have hs := (rho2_pos (a := a) (th := T t) hr).ne'
  have h1 := Real.sin_sq_add_cos_sq (T t)
  have := ((hR.mul hR).add_const (a * a)).add
    (((hR.const_mul (2 * (a * a))).mul (hT.sin.mul hT.sin)).div (rho2_deriv (a := a) hR hT) hs)
  refine this.congr_deriv ?_
  unfold B2r B2t g2t
  simp only [Pi.mul_apply]
  have e : rho2 a (R t) (T t) = R t * R t + a * a * (Real.cos (T t) * Real.cos (T t)) := rfl
  generalize rho2 a (R t) (T t) = S at *
  generalize R t = r at *
  generalize Real.sin (T t) = s at *
  generalize Real.cos (T t) = c at *
  clear this
  field_simp
  grind

theorem N_deriv (hr : 0 < R t) (hd : 0 < Delta a (R t)) :
    HasDerivAt (fun τ => N a (R τ) (T τ)) (Nr a (R t) (T t) * dR + Nt a (R t) (T t) * dT) t := by
  have hB := B2_pos (a := a) (th := T t) hr
  have := ((Delta_deriv (a := a) hR hT).div (B2_deriv (a := a) hR hT hr) hB.ne').sqrt (div_pos hd hB).ne'
  refine this.congr_deriv ?_
  have e : √((fun τ => Delta a (R τ)) t / (fun τ => B2 a (R τ) (T τ)) t) = N a (R t) (T t) := rfl
  have hN := (N_pos (th := T t) hr hd).ne'
  simp only [Pi.div_apply]
  have e' : √(Delta a (R t) / B2 a (R t) (T t)) = N a (R t) (T t) := rfl
  rw [e']
  unfold Nr Nt
  generalize N a (R t) (T t) = n at *
  generalize B2 a (R t) (T t) = B at *
  have := hB.ne'
  norm_num
  field_simp
  ring

theorem b_deriv (hr : 0 < R t) :
    HasDerivAt (fun τ => b a (R τ) (T τ)) (br a (R t) (T t) * dR + bt a (R t) (T t) * dT) t := by
  have hX : deno a (R t) (T t) ≠ 0 := by rw [deno_eq hr]; exact (mul_pos (rho2_pos hr) (B2_pos hr)).ne'
  have h1 := Real.sin_sq_add_cos_sq (T t)
  have hdeno : HasDerivAt (fun τ => deno a (R τ) (T τ)) (denor a (R t) (T t) * dR + denot a (R t) (T t) * dT) t := by
    have := ((rho2_deriv (a := a) hR hT).mul ((hR.mul hR).add_const (a * a))).add
      ((hR.const_mul (2 * (a * a))).mul (hT.sin.mul hT.sin))
    refine this.congr_deriv ?_
    unfold denor denot g2t Delta rho2
    simp only [Pi.mul_apply]
    generalize R t = r at *
    generalize Real.sin (T t) = s at *
    generalize Real.cos (T t) = c at *
    clear this
    grind
  have := (hR.const_mul (-2 * a)).div hdeno hX
  refine this.congr_deriv ?_
  unfold br bt
  field_simp
  ring

theorem g1_deriv (hd : Delta a (R t) ≠ 0) :
    HasDerivAt (fun τ => g1 a (R τ) (T τ)) (g1r a (R t) (T t) * dR + g1t a (R t) (T t) * dT) t := by
  have := (rho2_deriv (a := a) hR hT).div (Delta_deriv (a := a) hR hT) hd
  refine this.congr_deriv ?_
  unfold g1r g1t g2t
  field_simp
  ring

theorem g3_deriv (hr : 0 < R t) :
    HasDerivAt (fun τ => g3 a (R τ) (T τ)) (g3r a (R t) (T t) * dR + g3t a (R t) (T t) * dT) t := by
  have := (B2_deriv (a := a) hR hT hr).mul (hT.sin.mul hT.sin)
  refine this.congr_deriv ?_
  unfold g3r g3t
  simp only [Pi.mul_apply]
  ring

end curve

/-- The metric in terms of lapse, shift and spatial metric. -/
theorem gmunu_31 {p : Vec} (hr : 0 < p 1) (hd : 0 < Delta a (p 1)) :
    gmunu a p = metric31 (N a (p 1) (p 2)) (b a (p 1) (p 2)) (g1 a (p 1) (p 2)) (rho2 a (p 1) (p 2)) (g3 a (p 1) (p 2)) := by
  have hS := (rho2_pos (a := a) (th := p 2) hr).ne'
  have hB := (B2_pos (a := a) (th := p 2) hr).ne'
  have h1 := Real.sin_sq_add_cos_sq (p 2)
  unfold metric31
  rw [N_sq hr hd]
  unfold gmunu g1 g3 b
  dsimp only
  rw [deno_eq hr]
  have eB : B2 a (p 1) (p 2) = p 1 * p 1 + a * a + 2 * (a * a) * p 1 * (Real.sin (p 2) * Real.sin (p 2)) / rho2 a (p 1) (p 2) := rfl
  have eS : p 1 * p 1 + a * a * (Real.cos (p 2) * Real.cos (p 2)) = rho2 a (p 1) (p 2) := rfl
  have eD : p 1 * p 1 - 2 * p 1 + a * a = Delta a (p 1) := rfl
  rw [eS, eD]
  generalize B2 a (p 1) (p 2) = B at *
  generalize rho2 a (p 1) (p 2) = S at *
  generalize Delta a (p 1) = D at *
  generalize Real.sin (p 2) = s at *
  generalize Real.cos (p 2) = c at *
  generalize p 1 = r at *
  clear hr hd
  have e5 : -2 * a * r * (s * s) / S = B * (s * s) * (-2 * a * r / (S * B)) := by field_simp
  have e4 : (r * r + a * a + 2 * r * (a * a) * (s * s) / S) * (s * s) = B * (s * s) := by rw [eB]; ring
  have e1 : -1 + 2 * r / S = -(D / B) + B * (s * s) * (-2 * a * r / (S * B)) ^ 2 := by
    have eB' : B * S = (r * r + a * a) * S + 2 * (a * a) * r * (s * s) := by rw [eB]; field_simp
    field_simp
    grind
  rw [e5, e4, e1]

/-- Partial derivatives of the metric. -/
theorem partial_31 {p : Vec} (hr : 0 < p 1) (hd : 0 < Delta a (p 1)) : IsPartial (gmunu a) p
    ![0, dmetric31 (N a (p 1) (p 2)) (b a (p 1) (p 2)) (g3 a (p 1) (p 2)) (Nr a (p 1) (p 2)) (br a (p 1) (p 2)) (g1r a (p 1) (p 2))
        (2 * p 1) (g3r a (p 1) (p 2)),
      dmetric31 (N a (p 1) (p 2)) (b a (p 1) (p 2)) (g3 a (p 1) (p 2)) (Nt a (p 1) (p 2)) (bt a (p 1) (p 2)) (g1t a (p 1) (p 2))
        (g2t a (p 2)) (g3t a (p 1) (p 2)), 0] := by
  have i1 := hasDerivAt_id (p 1)
  have i2 := hasDerivAt_id (p 2)
  have c1 := hasDerivAt_const (p 2) (p 1)
  have c2 := hasDerivAt_const (p 1) (p 2)
  have Nr' := N_deriv (a := a) i1 c2 hr hd
  have br' := b_deriv (a := a) i1 c2 hr
  have g1r' := g1_deriv (a := a) i1 c2 hd.ne'
  have g2r' := rho2_deriv (a := a) i1 c2
  have g3r' := g3_deriv (a := a) i1 c2 hr
  have Nt' := N_deriv (a := a) c1 i2 hr hd
  have bt' := b_deriv (a := a) c1 i2 hr
  have g1t' := g1_deriv (a := a) c1 i2 hd.ne'
  have g2t' := rho2_deriv (a := a) c1 i2
  have g3t' := g3_deriv (a := a) c1 i2 hr
  simp only [mul_one, mul_zero, add_zero, zero_add, id] at Nr' br' g1r' g2r' g3r' Nt' bt' g1t' g2t' g3t'
  have key := isPartial_circ (pos := p)
    (tt := fun r th => -N a r th ^ 2 + g3 a r th * b a r th ^ 2) (rr := g1 a) (hh := rho2 a) (pp := g3 a)
    (tp := fun r th => g3 a r th * b a r th)
    (tr := -2 * N a (p 1) (p 2) * Nr a (p 1) (p 2) + g3r a (p 1) (p 2) * b a (p 1) (p 2) ^ 2 +
      2 * g3 a (p 1) (p 2) * b a (p 1) (p 2) * br a (p 1) (p 2))
    (tθ := -2 * N a (p 1) (p 2) * Nt a (p 1) (p 2) + g3t a (p 1) (p 2) * b a (p 1) (p 2) ^ 2 +
      2 * g3 a (p 1) (p 2) * b a (p 1) (p 2) * bt a (p 1) (p 2))
    (((Nr'.pow 2).neg.add (g3r'.mul (br'.pow 2))).congr_deriv (by simp; ring)) g1r' g2r' g3r' (g3r'.mul br')
    (((Nt'.pow 2).neg.add (g3t'.mul (bt'.pow 2))).congr_deriv (by simp; ring)) g1t' g2t' g3t' (g3t'.mul bt')
  intro μ α β
  refine (key μ α β).congr_of_eventuallyEq ?_
  have hopen : IsOpen {q : Vec | 0 < q 1 ∧ 0 < Delta a (q 1)} := by
    have hc : Continuous fun q : Vec => q 1 := continuous_apply 1
    have hD : Continuous fun q : Vec => Delta a (q 1) := by unfold Delta; fun_prop
    exact (isOpen_lt continuous_const hc).inter (isOpen_lt continuous_const hD)
  have hcont : Continuous fun x => Function.update p μ x := by fun_prop
  have hmem : {q : Vec | 0 < q 1 ∧ 0 < Delta a (q 1)} ∈ nhds (Function.update p μ (p μ)) := by
    rw [Function.update_eq_self]
    exact hopen.mem_nhds ⟨hr, hd⟩
  filter_upwards [hcont.continuousAt hmem] with x hx
  have := gmunu_31 (a := a) (p := Function.update p μ x) hx.1 hx.2
  exact congrFun (congrFun this α) β

/-- The extrinsic curvature of the code. -/
theorem Krp_eq (hr : 0 < r) (hd : 0 < Delta a r) :
    a * (Real.sin th * Real.sin th) * (3 * (r * r) * (r * r) + a * a * (r * r) + a * a * (r * r - a * a) * (Real.cos th * Real.cos th)) /
      (rho2 a r th * rho2 a r th * √(Delta a r * B2 a r th)) = g3 a r th * br a r th / (2 * N a r th) := by
  have hS := rho2_pos (a := a) (th := th) hr
  have hB := B2_pos (a := a) (th := th) hr
  have hN := N_pos (th := th) hr hd
  have h1 := Real.sin_sq_add_cos_sq th
  have e : √(Delta a r * B2 a r th) = N a r th * B2 a r th := by
    rw [Real.sqrt_eq_iff_mul_self_eq (mul_pos hd hB).le (mul_pos hN hB).le]
    have := N_sq (th := th) hr hd
    have : N a r th ^ 2 * B2 a r th = Delta a r := by rw [this]; field_simp
    linear_combination -(B2 a r th) * this
  have hden := deno_eq (a := a) (th := th) hr
  rw [e]
  unfold g3 br
  have : 3 * (r * r) * (r * r) + a * a * (r * r) + a * a * (r * r - a * a) * (Real.cos th * Real.cos th) =
      -deno a r th + r * denor a r th := by
    unfold deno denor rho2
    generalize Real.sin th = s at *
    generalize Real.cos th = c at *
    grind
  rw [this]
  rw [hden]
  have := hS.ne'
  have := hB.ne'
  have := hN.ne'
  generalize rho2 a r th = S at *
  generalize B2 a r th = B at *
  generalize N a r th = n at *
  generalize denor a r th = d at *
  field_simp
  ring

theorem Ktp_eq (hr : 0 < r) (hd : 0 < Delta a r) :
    -Real.sin th * (2 * r * (a * a) * a * (Real.sin th * Real.sin th) * Real.cos th * √(Delta a r) /
      (rho2 a r th * rho2 a r th * √(B2 a r th))) = g3 a r th * bt a r th / (2 * N a r th) := by
  have hS := rho2_pos (a := a) (th := th) hr
  have hB := B2_pos (a := a) (th := th) hr
  have hN := N_pos (th := th) hr hd
  have e : √(Delta a r) / √(B2 a r th) = N a r th := by
    unfold N
    rw [Real.sqrt_div hd.le]
  have hsB := (Real.sqrt_pos.2 hB).ne'
  have e' : √(Delta a r) = N a r th * √(B2 a r th) := by rw [← e]; field_simp
  have hN2 : N a r th ^ 2 * B2 a r th = Delta a r := by rw [N_sq hr hd]; field_simp
  rw [e']
  unfold g3 bt denot
  rw [deno_eq hr, ← hN2]
  have := hS.ne'
  have := hB.ne'
  have := hN.ne'
  generalize √(B2 a r th) = q at *
  generalize rho2 a r th = S at *
  generalize B2 a r th = B at *
  generalize N a r th = n at *
  field_simp

end Gyoto.KerrBL.K31
