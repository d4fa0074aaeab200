import Verif.Model.KerrBL
import Verif.Spec.Christoffel
import Mathlib.Tactic.LinearCombination
import Mathlib.Tactic.Ring

/-!
# Lemmas on circular metrics
-/

namespace Gyoto.KerrBL

open Gyoto.MetricAlg Gyoto.Spacetime

variable (tt rr hh pp tp : ℝ)

@[simp] theorem circ00 : circ tt rr hh pp tp 0 0 = tt := rfl
@[simp] theorem circ01 : circ tt rr hh pp tp 0 1 = 0 := rfl
@[simp] theorem circ02 : circ tt rr hh pp tp 0 2 = 0 := rfl
@[simp] theorem circ03 : circ tt rr hh pp tp 0 3 = tp := rfl
@[simp] theorem circ10 : circ tt rr hh pp tp 1 0 = 0 := rfl
@[simp] theorem circ11 : circ tt rr hh pp tp 1 1 = rr := rfl
@[simp] theorem circ12 : circ tt rr hh pp tp 1 2 = 0 := rfl
@[simp] theorem circ13 : circ tt rr hh pp tp 1 3 = 0 := rfl
@[simp] theorem circ20 : circ tt rr hh pp tp 2 0 = 0 := rfl
@[simp] theorem circ21 : circ tt rr hh pp tp 2 1 = 0 := rfl
@[simp] theorem circ22 : circ tt rr hh pp tp 2 2 = hh := rfl
@[simp] theorem circ23 : circ tt rr hh pp tp 2 3 = 0 := rfl
@[simp] theorem circ30 : circ tt rr hh pp tp 3 0 = tp := rfl
@[simp] theorem circ31 : circ tt rr hh pp tp 3 1 = 0 := rfl
@[simp] theorem circ32 : circ tt rr hh pp tp 3 2 = 0 := rfl
@[simp] theorem circ33 : circ tt rr hh pp tp 3 3 = pp := rfl

theorem circ_deriv {f1 f2 f3 f4 f5 : ℝ → ℝ} {d1 d2 d3 d4 d5 x : ℝ} (h1 : HasDerivAt f1 d1 x) (h2 : HasDerivAt f2 d2 x)
    (h3 : HasDerivAt f3 d3 x) (h4 : HasDerivAt f4 d4 x) (h5 : HasDerivAt f5 d5 x) (α β : Fin 4) :
    HasDerivAt (fun x => circ (f1 x) (f2 x) (f3 x) (f4 x) (f5 x) α β) (circ d1 d2 d3 d4 d5 α β) x :=
  match α, β with
  | 0, 0 => h1
  | 0, 1 => hasDerivAt_const _ _
  | 0, 2 => hasDerivAt_const _ _
  | 0, 3 => h5
  | 1, 0 => hasDerivAt_const _ _
  | 1, 1 => h2
  | 1, 2 => hasDerivAt_const _ _
  | 1, 3 => hasDerivAt_const _ _
  | 2, 0 => hasDerivAt_const _ _
  | 2, 1 => hasDerivAt_const _ _
  | 2, 2 => h3
  | 2, 3 => hasDerivAt_const _ _
  | 3, 0 => h5
  | 3, 1 => hasDerivAt_const _ _
  | 3, 2 => hasDerivAt_const _ _
  | 3, 3 => h4

/-- Derivatives of a metric with five components that depend on `r` and `θ` only. -/
theorem isPartial_circ {tt rr hh pp tp : ℝ → ℝ → ℝ} {pos : Vec} {tr rr' hr pr xr tθ rθ hθ pθ xθ : ℝ}
    (htr : HasDerivAt (fun x => tt x (pos 2)) tr (pos 1)) (hrr : HasDerivAt (fun x => rr x (pos 2)) rr' (pos 1))
    (hhr : HasDerivAt (fun x => hh x (pos 2)) hr (pos 1)) (hpr : HasDerivAt (fun x => pp x (pos 2)) pr (pos 1))
    (hxr : HasDerivAt (fun x => tp x (pos 2)) xr (pos 1)) (htθ : HasDerivAt (fun x => tt (pos 1) x) tθ (pos 2))
    (hrθ : HasDerivAt (fun x => rr (pos 1) x) rθ (pos 2)) (hhθ : HasDerivAt (fun x => hh (pos 1) x) hθ (pos 2))
    (hpθ : HasDerivAt (fun x => pp (pos 1) x) pθ (pos 2)) (hxθ : HasDerivAt (fun x => tp (pos 1) x) xθ (pos 2)) :
    IsPartial (fun p => circ (tt (p 1) (p 2)) (rr (p 1) (p 2)) (hh (p 1) (p 2)) (pp (p 1) (p 2)) (tp (p 1) (p 2))) pos
      ![0, circ tr rr' hr pr xr, circ tθ rθ hθ pθ xθ, 0] := by
  intro μ α β
  match μ with
  | 0 =>
    have e1 : ∀ x, (Function.update pos 0 x) 1 = pos 1 := fun x => Function.update_of_ne (by decide) _ _
    have e2 : ∀ x, (Function.update pos 0 x) 2 = pos 2 := fun x => Function.update_of_ne (by decide) _ _
    simp only [e1, e2]
    exact hasDerivAt_const _ _
  | 1 =>
    have e1 : ∀ x, (Function.update pos 1 x) 1 = x := fun x => Function.update_self _ _ _
    have e2 : ∀ x, (Function.update pos 1 x) 2 = pos 2 := fun x => Function.update_of_ne (by decide) _ _
    simp only [e1, e2]
    exact circ_deriv htr hrr hhr hpr hxr α β
  | 2 =>
    have e1 : ∀ x, (Function.update pos 2 x) 2 = x := fun x => Function.update_self _ _ _
    have e2 : ∀ x, (Function.update pos 2 x) 1 = pos 1 := fun x => Function.update_of_ne (by decide) _ _
    simp only [e1, e2]
    exact circ_deriv htθ hrθ hhθ hpθ hxθ α β
  | 3 =>
    have e1 : ∀ x, (Function.update pos 3 x) 1 = pos 1 := fun x => Function.update_of_ne (by decide) _ _
    have e2 : ∀ x, (Function.update pos 3 x) 2 = pos 2 := fun x => Function.update_of_ne (by decide) _ _
    simp only [e1, e2]
    exact hasDerivAt_const _ _

/-- Christoffel symbols of the shape that circular metrics have. -/
def circΓ (d001 d002 d013 d023 d100 d103 d111 d112 d122 d133 d200 d203 d211 d212 d222 d233 d301 d302 d313 d323 : ℝ) : Fin 4 → Tensor :=
  ![![![0, d001, d002, 0], ![d001, 0, 0, d013], ![d002, 0, 0, d023], ![0, d013, d023, 0]],
    ![![d100, 0, 0, d103], ![0, d111, d112, 0], ![0, d112, d122, 0], ![d103, 0, 0, d133]],
    ![![d200, 0, 0, d203], ![0, d211, d212, 0], ![0, d212, d222, 0], ![d203, 0, 0, d233]],
    ![![0, d301, d302, 0], ![d301, 0, 0, d313], ![d302, 0, 0, d323], ![0, d313, d323, 0]]]

/-- The twenty equations that Christoffel symbols of that shape have to satisfy. -/
theorem isChristoffel_circ {tt rr hh pp tp : ℝ → ℝ → ℝ} {pos : Vec} {tr rr' hr pr xr tθ rθ hθ pθ xθ : ℝ}
    (htr : HasDerivAt (fun x => tt x (pos 2)) tr (pos 1)) (hrr : HasDerivAt (fun x => rr x (pos 2)) rr' (pos 1))
    (hhr : HasDerivAt (fun x => hh x (pos 2)) hr (pos 1)) (hpr : HasDerivAt (fun x => pp x (pos 2)) pr (pos 1))
    (hxr : HasDerivAt (fun x => tp x (pos 2)) xr (pos 1)) (htθ : HasDerivAt (fun x => tt (pos 1) x) tθ (pos 2))
    (hrθ : HasDerivAt (fun x => rr (pos 1) x) rθ (pos 2)) (hhθ : HasDerivAt (fun x => hh (pos 1) x) hθ (pos 2))
    (hpθ : HasDerivAt (fun x => pp (pos 1) x) pθ (pos 2)) (hxθ : HasDerivAt (fun x => tp (pos 1) x) xθ (pos 2))
    {d001 d002 d013 d023 d100 d103 d111 d112 d122 d133 d200 d203 d211 d212 d222 d233 d301 d302 d313 d323 : ℝ}
    (e001 : tt (pos 1) (pos 2) * d001 + tp (pos 1) (pos 2) * d301 = tr / 2)
    (e002 : tt (pos 1) (pos 2) * d002 + tp (pos 1) (pos 2) * d302 = tθ / 2)
    (e013 : tt (pos 1) (pos 2) * d013 + tp (pos 1) (pos 2) * d313 = xr / 2)
    (e023 : tt (pos 1) (pos 2) * d023 + tp (pos 1) (pos 2) * d323 = xθ / 2)
    (e301 : tp (pos 1) (pos 2) * d001 + pp (pos 1) (pos 2) * d301 = xr / 2)
    (e302 : tp (pos 1) (pos 2) * d002 + pp (pos 1) (pos 2) * d302 = xθ / 2)
    (e313 : tp (pos 1) (pos 2) * d013 + pp (pos 1) (pos 2) * d313 = pr / 2)
    (e323 : tp (pos 1) (pos 2) * d023 + pp (pos 1) (pos 2) * d323 = pθ / 2)
    (e100 : rr (pos 1) (pos 2) * d100 = -tr / 2) (e103 : rr (pos 1) (pos 2) * d103 = -xr / 2)
    (e111 : rr (pos 1) (pos 2) * d111 = rr' / 2) (e112 : rr (pos 1) (pos 2) * d112 = rθ / 2)
    (e122 : rr (pos 1) (pos 2) * d122 = -hr / 2) (e133 : rr (pos 1) (pos 2) * d133 = -pr / 2)
    (e200 : hh (pos 1) (pos 2) * d200 = -tθ / 2) (e203 : hh (pos 1) (pos 2) * d203 = -xθ / 2)
    (e211 : hh (pos 1) (pos 2) * d211 = -rθ / 2) (e212 : hh (pos 1) (pos 2) * d212 = hr / 2)
    (e222 : hh (pos 1) (pos 2) * d222 = hθ / 2) (e233 : hh (pos 1) (pos 2) * d233 = -pθ / 2) :
    IsChristoffel (fun p => circ (tt (p 1) (p 2)) (rr (p 1) (p 2)) (hh (p 1) (p 2)) (pp (p 1) (p 2)) (tp (p 1) (p 2))) pos
      (circΓ d001 d002 d013 d023 d100 d103 d111 d112 d122 d133 d200 d203 d211 d212 d222 d233 d301 d302 d313 d323) := by
  refine ⟨_, isPartial_circ htr hrr hhr hpr hxr htθ hrθ hhθ hpθ hxθ, ?_⟩
  intro α μ ν
  rw [Fin.sum_univ_four]
  match α, μ, ν with
  | 0, 0, 0 =>
    show (tt (pos 1) (pos 2) * 0 + 0 * d100 + 0 * d200 + tp (pos 1) (pos 2) * 0 : ℝ) = (0 + 0 - 0) / 2
    ring
  | 0, 0, 1 =>
    show (tt (pos 1) (pos 2) * d001 + 0 * 0 + 0 * 0 + tp (pos 1) (pos 2) * d301 : ℝ) = (0 + tr - 0) / 2
    linear_combination e001
  | 0, 0, 2 =>
    show (tt (pos 1) (pos 2) * d002 + 0 * 0 + 0 * 0 + tp (pos 1) (pos 2) * d302 : ℝ) = (0 + tθ - 0) / 2
    linear_combination e002
  | 0, 0, 3 =>
    show (tt (pos 1) (pos 2) * 0 + 0 * d103 + 0 * d203 + tp (pos 1) (pos 2) * 0 : ℝ) = (0 + 0 - 0) / 2
    ring
  | 0, 1, 0 =>
    show (tt (pos 1) (pos 2) * d001 + 0 * 0 + 0 * 0 + tp (pos 1) (pos 2) * d301 : ℝ) = (tr + 0 - 0) / 2
    linear_combination e001
  | 0, 1, 1 =>
    show (tt (pos 1) (pos 2) * 0 + 0 * d111 + 0 * d211 + tp (pos 1) (pos 2) * 0 : ℝ) = (0 + 0 - 0) / 2
    ring
  | 0, 1, 2 =>
    show (tt (pos 1) (pos 2) * 0 + 0 * d112 + 0 * d212 + tp (pos 1) (pos 2) * 0 : ℝ) = (0 + 0 - 0) / 2
    ring
  | 0, 1, 3 =>
    show (tt (pos 1) (pos 2) * d013 + 0 * 0 + 0 * 0 + tp (pos 1) (pos 2) * d313 : ℝ) = (xr + 0 - 0) / 2
    linear_combination e013
  | 0, 2, 0 =>
    show (tt (pos 1) (pos 2) * d002 + 0 * 0 + 0 * 0 + tp (pos 1) (pos 2) * d302 : ℝ) = (tθ + 0 - 0) / 2
    linear_combination e002
  | 0, 2, 1 =>
    show (tt (pos 1) (pos 2) * 0 + 0 * d112 + 0 * d212 + tp (pos 1) (pos 2) * 0 : ℝ) = (0 + 0 - 0) / 2
    ring
  | 0, 2, 2 =>
    show (tt (pos 1) (pos 2) * 0 + 0 * d122 + 0 * d222 + tp (pos 1) (pos 2) * 0 : ℝ) = (0 + 0 - 0) / 2
    ring
  | 0, 2, 3 =>
    show (tt (pos 1) (pos 2) * d023 + 0 * 0 + 0 * 0 + tp (pos 1) (pos 2) * d323 : ℝ) = (xθ + 0 - 0) / 2
    linear_combination e023
  | 0, 3, 0 =>
    show (tt (pos 1) (pos 2) * 0 + 0 * d103 + 0 * d203 + tp (pos 1) (pos 2) * 0 : ℝ) = (0 + 0 - 0) / 2
    ring
  | 0, 3, 1 =>
    show (tt (pos 1) (pos 2) * d013 + 0 * 0 + 0 * 0 + tp (pos 1) (pos 2) * d313 : ℝ) = (0 + xr - 0) / 2
    linear_combination e013
  | 0, 3, 2 =>
    show (tt (pos 1) (pos 2) * d023 + 0 * 0 + 0 * 0 + tp (pos 1) (pos 2) * d323 : ℝ) = (0 + xθ - 0) / 2
    linear_combination e023
  | 0, 3, 3 =>
    show (tt (pos 1) (pos 2) * 0 + 0 * d133 + 0 * d233 + tp (pos 1) (pos 2) * 0 : ℝ) = (0 + 0 - 0) / 2
    ring
  | 1, 0, 0 =>
    show (0 * 0 + rr (pos 1) (pos 2) * d100 + 0 * d200 + 0 * 0 : ℝ) = (0 + 0 - tr) / 2
    linear_combination e100
  | 1, 0, 1 =>
    show (0 * d001 + rr (pos 1) (pos 2) * 0 + 0 * 0 + 0 * d301 : ℝ) = (0 + 0 - 0) / 2
    ring
  | 1, 0, 2 =>
    show (0 * d002 + rr (pos 1) (pos 2) * 0 + 0 * 0 + 0 * d302 : ℝ) = (0 + 0 - 0) / 2
    ring
  | 1, 0, 3 =>
    show (0 * 0 + rr (pos 1) (pos 2) * d103 + 0 * d203 + 0 * 0 : ℝ) = (0 + 0 - xr) / 2
    linear_combination e103
  | 1, 1, 0 =>
    show (0 * d001 + rr (pos 1) (pos 2) * 0 + 0 * 0 + 0 * d301 : ℝ) = (0 + 0 - 0) / 2
    ring
  | 1, 1, 1 =>
    show (0 * 0 + rr (pos 1) (pos 2) * d111 + 0 * d211 + 0 * 0 : ℝ) = (rr' + rr' - rr') / 2
    linear_combination e111
  | 1, 1, 2 =>
    show (0 * 0 + rr (pos 1) (pos 2) * d112 + 0 * d212 + 0 * 0 : ℝ) = (0 + rθ - 0) / 2
    linear_combination e112
  | 1, 1, 3 =>
    show (0 * d013 + rr (pos 1) (pos 2) * 0 + 0 * 0 + 0 * d313 : ℝ) = (0 + 0 - 0) / 2
    ring
  | 1, 2, 0 =>
    show (0 * d002 + rr (pos 1) (pos 2) * 0 + 0 * 0 + 0 * d302 : ℝ) = (0 + 0 - 0) / 2
    ring
  | 1, 2, 1 =>
    show (0 * 0 + rr (pos 1) (pos 2) * d112 + 0 * d212 + 0 * 0 : ℝ) = (rθ + 0 - 0) / 2
    linear_combination e112
  | 1, 2, 2 =>
    show (0 * 0 + rr (pos 1) (pos 2) * d122 + 0 * d222 + 0 * 0 : ℝ) = (0 + 0 - hr) / 2
    linear_combination e122
  | 1, 2, 3 =>
    show (0 * d023 + rr (pos 1) (pos 2) * 0 + 0 * 0 + 0 * d323 : ℝ) = (0 + 0 - 0) / 2
    ring
  | 1, 3, 0 =>
    show (0 * 0 + rr (pos 1) (pos 2) * d103 + 0 * d203 + 0 * 0 : ℝ) = (0 + 0 - xr) / 2
    linear_combination e103
  | 1, 3, 1 =>
    show (0 * d013 + rr (pos 1) (pos 2) * 0 + 0 * 0 + 0 * d313 : ℝ) = (0 + 0 - 0) / 2
    ring
  | 1, 3, 2 =>
    show (0 * d023 + rr (pos 1) (pos 2) * 0 + 0 * 0 + 0 * d323 : ℝ) = (0 + 0 - 0) / 2
    ring
  | 1, 3, 3 =>
    show (0 * 0 + rr (pos 1) (pos 2) * d133 + 0 * d233 + 0 * 0 : ℝ) = (0 + 0 - pr) / 2
    linear_combination e133
  | 2, 0, 0 =>
    show (0 * 0 + 0 * d100 + hh (pos 1) (pos 2) * d200 + 0 * 0 : ℝ) = (0 + 0 - tθ) / 2
    linear_combination e200
  | 2, 0, 1 =>
    show (0 * d001 + 0 * 0 + hh (pos 1) (pos 2) * 0 + 0 * d301 : ℝ) = (0 + 0 - 0) / 2
    ring
  | 2, 0, 2 =>
    show (0 * d002 + 0 * 0 + hh (pos 1) (pos 2) * 0 + 0 * d302 : ℝ) = (0 + 0 - 0) / 2
    ring
  | 2, 0, 3 =>
    show (0 * 0 + 0 * d103 + hh (pos 1) (pos 2) * d203 + 0 * 0 : ℝ) = (0 + 0 - xθ) / 2
    linear_combination e203
  | 2, 1, 0 =>
    show (0 * d001 + 0 * 0 + hh (pos 1) (pos 2) * 0 + 0 * d301 : ℝ) = (0 + 0 - 0) / 2
    ring
  | 2, 1, 1 =>
    show (0 * 0 + 0 * d111 + hh (pos 1) (pos 2) * d211 + 0 * 0 : ℝ) = (0 + 0 - rθ) / 2
    linear_combination e211
  | 2, 1, 2 =>
    show (0 * 0 + 0 * d112 + hh (pos 1) (pos 2) * d212 + 0 * 0 : ℝ) = (hr + 0 - 0) / 2
    linear_combination e212
  | 2, 1, 3 =>
    show (0 * d013 + 0 * 0 + hh (pos 1) (pos 2) * 0 + 0 * d313 : ℝ) = (0 + 0 - 0) / 2
    ring
  | 2, 2, 0 =>
    show (0 * d002 + 0 * 0 + hh (pos 1) (pos 2) * 0 + 0 * d302 : ℝ) = (0 + 0 - 0) / 2
    ring
  | 2, 2, 1 =>
    show (0 * 0 + 0 * d112 + hh (pos 1) (pos 2) * d212 + 0 * 0 : ℝ) = (0 + hr - 0) / 2
    linear_combination e212
  | 2, 2, 2 =>
    show (0 * 0 + 0 * d122 + hh (pos 1) (pos 2) * d222 + 0 * 0 : ℝ) = (hθ + hθ - hθ) / 2
    linear_combination e222
  | 2, 2, 3 =>
    show (0 * d023 + 0 * 0 + hh (pos 1) (pos 2) * 0 + 0 * d323 : ℝ) = (0 + 0 - 0) / 2
    ring
  | 2, 3, 0 =>
    show (0 * 0 + 0 * d103 + hh (pos 1) (pos 2) * d203 + 0 * 0 : ℝ) = (0 + 0 - xθ) / 2
    linear_combination e203
  | 2, 3, 1 =>
    show (0 * d013 + 0 * 0 + hh (pos 1) (pos 2) * 0 + 0 * d313 : ℝ) = (0 + 0 - 0) / 2
    ring
  | 2, 3, 2 =>
    show (0 * d023 + 0 * 0 + hh (pos 1) (pos 2) * 0 + 0 * d323 : ℝ) = (0 + 0 - 0) / 2
    ring
  | 2, 3, 3 =>
    show (0 * 0 + 0 * d133 + hh (pos 1) (pos 2) * d233 + 0 * 0 : ℝ) = (0 + 0 - pθ) / 2
    linear_combination e233
  | 3, 0, 0 =>
    show (tp (pos 1) (pos 2) * 0 + 0 * d100 + 0 * d200 + pp (pos 1) (pos 2) * 0 : ℝ) = (0 + 0 - 0) / 2
    ring
  | 3, 0, 1 =>
    show (tp (pos 1) (pos 2) * d001 + 0 * 0 + 0 * 0 + pp (pos 1) (pos 2) * d301 : ℝ) = (0 + xr - 0) / 2
    linear_combination e301
  | 3, 0, 2 =>
    show (tp (pos 1) (pos 2) * d002 + 0 * 0 + 0 * 0 + pp (pos 1) (pos 2) * d302 : ℝ) = (0 + xθ - 0) / 2
    linear_combination e302
  | 3, 0, 3 =>
    show (tp (pos 1) (pos 2) * 0 + 0 * d103 + 0 * d203 + pp (pos 1) (pos 2) * 0 : ℝ) = (0 + 0 - 0) / 2
    ring
  | 3, 1, 0 =>
    show (tp (pos 1) (pos 2) * d001 + 0 * 0 + 0 * 0 + pp (pos 1) (pos 2) * d301 : ℝ) = (xr + 0 - 0) / 2
    linear_combination e301
  | 3, 1, 1 =>
    show (tp (pos 1) (pos 2) * 0 + 0 * d111 + 0 * d211 + pp (pos 1) (pos 2) * 0 : ℝ) = (0 + 0 - 0) / 2
    ring
  | 3, 1, 2 =>
    show (tp (pos 1) (pos 2) * 0 + 0 * d112 + 0 * d212 + pp (pos 1) (pos 2) * 0 : ℝ) = (0 + 0 - 0) / 2
    ring
  | 3, 1, 3 =>
    show (tp (pos 1) (pos 2) * d013 + 0 * 0 + 0 * 0 + pp (pos 1) (pos 2) * d313 : ℝ) = (pr + 0 - 0) / 2
    linear_combination e313
  | 3, 2, 0 =>
    show (tp (pos 1) (pos 2) * d002 + 0 * 0 + 0 * 0 + pp (pos 1) (pos 2) * d302 : ℝ) = (xθ + 0 - 0) / 2
    linear_combination e302
  | 3, 2, 1 =>
    show (tp (pos 1) (pos 2) * 0 + 0 * d112 + 0 * d212 + pp (pos 1) (pos 2) * 0 : ℝ) = (0 + 0 - 0) / 2
    ring
  | 3, 2, 2 =>
    show (tp (pos 1) (pos 2) * 0 + 0 * d122 + 0 * d222 + pp (pos 1) (pos 2) * 0 : ℝ) = (0 + 0 - 0) / 2
    ring
  | 3, 2, 3 =>
    show (tp (pos 1) (pos 2) * d023 + 0 * 0 + 0 * 0 + pp (pos 1) (pos 2) * d323 : ℝ) = (pθ + 0 - 0) / 2
    linear_combination e323
  | 3, 3, 0 =>
    show (tp (pos 1) (pos 2) * 0 + 0 * d103 + 0 * d203 + pp (pos 1) (pos 2) * 0 : ℝ) = (0 + 0 - 0) / 2
    ring
  | 3, 3, 1 =>
    show (tp (pos 1) (pos 2) * d013 + 0 * 0 + 0 * 0 + pp (pos 1) (pos 2) * d313 : ℝ) = (0 + pr - 0) / 2
    linear_combination e313
  | 3, 3, 2 =>
    show (tp (pos 1) (pos 2) * d023 + 0 * 0 + 0 * 0 + pp (pos 1) (pos 2) * d323 : ℝ) = (0 + pθ - 0) / 2
    linear_combination e323
  | 3, 3, 3 =>
    show (tp (pos 1) (pos 2) * 0 + 0 * d133 + 0 * d233 + pp (pos 1) (pos 2) * 0 : ℝ) = (0 + 0 - 0) / 2
    ring

end Gyoto.KerrBL
