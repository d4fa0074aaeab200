import Verif.Lemmas.Circular
import Verif.Props.KerrBL
import Mathlib.Tactic.FieldSimp

/-!
# Rotating metrics with a mass that depends on the radius

The metric of Kerr in Boyer-Lindquist coordinates, with the product `m r` replaced by a function `M` of the radius.
-/

namespace Gyoto.KerrBL

open Gyoto.MetricAlg Gyoto.Spacetime

/-- The Kerr metric with `M` for `m r`. -/
noncomputable def massMetric (a : ℝ) (M : ℝ → ℝ) (p : Vec) : Tensor :=
  circ (-1 + 2 * M (p 1) / (p 1 * p 1 + a * a * (Real.cos (p 2) * Real.cos (p 2))))
    ((p 1 * p 1 + a * a * (Real.cos (p 2) * Real.cos (p 2))) / (p 1 * p 1 - 2 * M (p 1) + a * a))
    (p 1 * p 1 + a * a * (Real.cos (p 2) * Real.cos (p 2)))
    ((p 1 * p 1 + a * a + 2 * M (p 1) * (a * a) * (Real.sin (p 2) * Real.sin (p 2)) /
      (p 1 * p 1 + a * a * (Real.cos (p 2) * Real.cos (p 2)))) * (Real.sin (p 2) * Real.sin (p 2)))
    (-2 * a * M (p 1) * (Real.sin (p 2) * Real.sin (p 2)) / (p 1 * p 1 + a * a * (Real.cos (p 2) * Real.cos (p 2))))

/-- Its inverse; `W` is `r² + a² cos²`, `D` is `r² - 2 M + a²`. -/
noncomputable def massUp (a r s M W D : ℝ) : Tensor :=
  circ (-((r * r + a * a) * W + 2 * M * (a * a) * (s * s)) / (D * W)) (D / W) (1 / W) ((D - a * a * (s * s)) / (W * D * (s * s)))
    (-2 * a * M / (W * D))

/-- Its Christoffel symbols; `M'` is the derivative of `M` and `Q` is `M' W - 2 r M`. -/
noncomputable def massΓ (a r s c M M' W D Q : ℝ) : Fin 4 → Tensor :=
  circΓ
    (-Q * (r ^ 2 + a ^ 2) / (D * W ^ 2))
    (-2 * M * a ^ 2 * c * s / W ^ 2)
    (a * s ^ 2 * (Q * (r ^ 2 + a ^ 2) - 2 * M * r * W) / (D * W ^ 2))
    (2 * a ^ 3 * M * c * s ^ 3 / W ^ 2)
    (-D * Q / W ^ 3)
    (D * a * s ^ 2 * Q / W ^ 3)
    (r / W - (r - M') / D)
    (-a ^ 2 * c * s / W)
    (-r * D / W)
    (-D * (r * W ^ 2 + a ^ 2 * s ^ 2 * Q) * s ^ 2 / W ^ 3)
    (-2 * M * a ^ 2 * c * s / W ^ 3)
    (2 * a * M * s * c * (r ^ 2 + a ^ 2) / W ^ 3)
    (a ^ 2 * c * s / (D * W))
    (r / W)
    (-a ^ 2 * c * s / W)
    (-s * c * ((r ^ 2 + a ^ 2) * W ^ 2 + 2 * M * a ^ 2 * s ^ 2 * (2 * W + a ^ 2 * s ^ 2)) / W ^ 3)
    (-a * Q / (D * W ^ 2))
    (-2 * a * M * c / (s * W ^ 2))
    (((D - a ^ 2 * s ^ 2) * r * W + a ^ 2 * s ^ 2 * Q) / (W ^ 2 * D))
    (c * (W ^ 2 + 2 * M * a ^ 2 * s ^ 2) / (s * W ^ 2))

theorem mass_inverse {a : ℝ} {M : ℝ → ℝ} {p : Vec} {W D : ℝ} (hW : W = p 1 * p 1 + a * a * (Real.cos (p 2) * Real.cos (p 2)))
    (hD : D = p 1 * p 1 - 2 * M (p 1) + a * a) (hW0 : W ≠ 0) (hD0 : D ≠ 0) (hsin : Real.sin (p 2) ≠ 0) :
    massUp a (p 1) (Real.sin (p 2)) (M (p 1)) W D * massMetric a M p = 1 := by
  have h1 := Real.sin_sq_add_cos_sq (p 2)
  unfold massUp massMetric
  rw [← hW, ← hD]
  generalize M (p 1) = m at *
  generalize p 1 = r at *
  generalize Real.sin (p 2) = s at *
  generalize Real.cos (p 2) = c at *
  ext i j
  fin_cases i <;> fin_cases j <;> simp [Matrix.mul_apply, Fin.sum_univ_four] <;> field_simp <;> grind

theorem mass_christoffel {a : ℝ} {M : ℝ → ℝ} {p : Vec} {M' W D Q : ℝ} (hM : HasDerivAt M M' (p 1))
    (hW : W = p 1 * p 1 + a * a * (Real.cos (p 2) * Real.cos (p 2)))
    (hD : D = p 1 * p 1 - 2 * M (p 1) + a * a) (hQ : Q = M' * W - 2 * p 1 * M (p 1)) (hW0 : W ≠ 0) (hD0 : D ≠ 0)
    (hsin : Real.sin (p 2) ≠ 0) :
    IsChristoffel (massMetric a M) p (massΓ a (p 1) (Real.sin (p 2)) (Real.cos (p 2)) (M (p 1)) M' W D Q) := by
  have h1 := Real.sin_sq_add_cos_sq (p 2)
  have hs : p 1 * p 1 + a * a * (Real.cos (p 2) * Real.cos (p 2)) ≠ 0 := hW ▸ hW0
  have hd : p 1 * p 1 - 2 * M (p 1) + a * a ≠ 0 := hD ▸ hD0
  have sr := sigma_r (a := a) (r := p 1) (θ := p 2)
  have sθ := sigma_θ (a := a) (r := p 1) (θ := p 2)
  have nθ := sin2_θ (θ := p 2)
  have hr2 : HasDerivAt (fun x : ℝ => x * x) (2 * p 1) (p 1) := by
    have := ((hasDerivAt_id (p 1)).mul (hasDerivAt_id (p 1)))
    refine this.congr_deriv ?_
    simp; ring
  have dr : HasDerivAt (fun x => x * x - 2 * M x + a * a) (2 * p 1 - 2 * M') (p 1) := (hr2.sub (hM.const_mul 2)).add_const (a * a)
  have htr := ((hM.const_mul 2).div sr hs).const_add (-1)
  have htθ := ((hasDerivAt_const (p 2) (2 * M (p 1))).div sθ hs).const_add (-1)
  have hrr := sr.div dr hd
  have hrθ := sθ.div_const (p 1 * p 1 - 2 * M (p 1) + a * a)
  have hpr := ((hr2.add_const (a * a)).add ((((hM.const_mul 2).mul_const (a * a)).mul_const
    (Real.sin (p 2) * Real.sin (p 2))).div sr hs)).mul_const (Real.sin (p 2) * Real.sin (p 2))
  have hpθ := (((nθ.const_mul (2 * M (p 1) * (a * a))).div sθ hs).const_add (p 1 * p 1 + a * a)).mul nθ
  have hxr := ((hM.const_mul (-2 * a)).mul_const (Real.sin (p 2) * Real.sin (p 2))).div sr hs
  have hxθ := (nθ.const_mul (-2 * a * M (p 1))).div sθ hs
  refine isChristoffel_circ
    (tt := fun r θ => -1 + 2 * M r / (r * r + a * a * (Real.cos θ * Real.cos θ)))
    (rr := fun r θ => (r * r + a * a * (Real.cos θ * Real.cos θ)) / (r * r - 2 * M r + a * a))
    (hh := fun r θ => r * r + a * a * (Real.cos θ * Real.cos θ))
    (pp := fun r θ => (r * r + a * a + 2 * M r * (a * a) * (Real.sin θ * Real.sin θ) / (r * r + a * a * (Real.cos θ * Real.cos θ))) *
      (Real.sin θ * Real.sin θ))
    (tp := fun r θ => -2 * a * M r * (Real.sin θ * Real.sin θ) / (r * r + a * a * (Real.cos θ * Real.cos θ)))
    htr hrr sr hpr hxr htθ hrθ sθ hpθ hxθ ?_ ?_ ?_ ?_ ?_ ?_ ?_ ?_ ?_ ?_ ?_ ?_ ?_ ?_ ?_ ?_ ?_ ?_ ?_ ?_
  all_goals
    clear sr sθ nθ dr hr2 htr htθ hrr hrθ hpr hpθ hxr hxθ hs hd hM
    try simp only [Pi.div_apply]
    simp only [← hW, ← hD]
    generalize M (p 1) = m at *
    generalize p 1 = r at *
    generalize Real.sin (p 2) = s at *
    generalize Real.cos (p 2) = c at *
    subst hQ
    field_simp
    try grind

end Gyoto.KerrBL
