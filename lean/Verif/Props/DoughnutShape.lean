import Verif.Props.Doughnut
import Verif.Props.OrbitRadii
import Verif.Props.SphAcc
import Verif.Lemmas.Doughnut
import Mathlib.Topology.Order.IntermediateValue

/-!
# C132: the shape of the Polish doughnut, its motion, and the tori of Kerr
-/

namespace Gyoto.Doughnut

open Gyoto.MetricAlg Gyoto.KerrBL Gyoto.Orbits Gyoto.Spacetime
open Gyoto.Transfer (Out)
open Gyoto.Functors (NearZero)
open Gyoto.SphAcc (Outside sigma_pos)

/-- The metric of Kerr (`lib/KerrBL.C`), of a given length unit. -/
noncomputable def kerrHole (a unit : ℝ) : Hole :=
  { g := gmunu a, gUp := gmunuUp a, rms := kerrRms a, rmb := kerrRmb a, ell := kerrL a, pot := kerrPotential a, circular := fun p => kerrVel a p 1, unit := unit }

/-- `u` is the velocity of an observer that turns around the axis with the angular momentum `l` per energy. -/
structure Turns (g : Tensor) (l : ℝ) (u : Vec) : Prop where
  rotating : IsRotating g u
  momentum : lower g u 3 = -l * lower g u 0

/-! ### The algebra of the block of time and azimuth -/

theorem block {tt tp pp l : ℝ} (hA : 0 < tp * tp - tt * pp) (hp : 0 < pp) (hD : 0 < pp + 2 * l * tp + l * l * tt) :
    l * tp + pp ≠ 0 ∧ tt + 2 * tp * (-(l * tt + tp) / (l * tp + pp)) + pp * (-(l * tt + tp) / (l * tp + pp)) * (-(l * tt + tp) / (l * tp + pp)) =
      -((tp * tp - tt * pp) * (pp + 2 * l * tp + l * l * tt) / (l * tp + pp) ^ 2) := by
  have h0 : l * tp + pp ≠ 0 := by
    intro h
    have h1 : pp * (pp + 2 * l * tp + l * l * tt) = -(l * l * (tp * tp - tt * pp)) := by linear_combination (l * tp + pp) * h
    have h2 : 0 < pp * (pp + 2 * l * tp + l * l * tt) := mul_pos hp hD
    have h3 : 0 ≤ l * l * (tp * tp - tt * pp) := mul_nonneg (mul_self_nonneg _) hA.le
    linarith
  refine ⟨h0, ?_⟩
  have : ∀ S, S ≠ 0 → S = l * tp + pp → tt + 2 * tp * (-(l * tt + tp) / S) + pp * (-(l * tt + tp) / S) * (-(l * tt + tp) / S) =
      -((tp * tp - tt * pp) * (pp + 2 * l * tp + l * l * tt) / S ^ 2) := by
    intro S h e
    field_simp
    rw [e]
    ring
  exact this _ h0 rfl

/-- What the velocity must be. -/
theorem turning {tt tp pp l T F : ℝ} (hA : 0 < tp * tp - tt * pp) (hn : tt * T * T + pp * F * F + tp * T * F + tp * F * T = -1)
    (hl : tp * T + pp * F = -l * (tt * T + tp * F)) :
    (tt * T + tp * F) ^ 2 * (pp + 2 * l * tp + l * l * tt) = tp * tp - tt * pp ∧ 0 < pp + 2 * l * tp + l * l * tt ∧ F * (l * tp + pp) = -(l * tt + tp) * T := by
  have k : (tt * T + tp * F) ^ 2 * (pp + 2 * l * tp + l * l * tt) = tp * tp - tt * pp := by
    have a1 : (tp * tp - tt * pp) * T = -(tt * T + tp * F) * (pp + l * tp) := by linear_combination (tp) * hl
    have a2 : (tp * tp - tt * pp) * F = (tt * T + tp * F) * (tp + l * tt) := by linear_combination (-tt) * hl
    have a3 : T * (tt * T + tp * F) + F * (tp * T + pp * F) = -1 := by linear_combination hn
    rw [hl] at a3
    linear_combination (tp * tp - tt * pp) * (-a3) + (tt * T + tp * F) * a1 - l * (tt * T + tp * F) * a2
  refine ⟨k, ?_, by linear_combination hl⟩
  have : 0 < (tt * T + tp * F) ^ 2 * (pp + 2 * l * tp + l * l * tt) := by rw [k]; exact hA
  exact pos_of_mul_pos_right this (sq_nonneg _)

/-! ### Kerr -/

section
variable {a : ℝ} {p : Vec}

theorem regular (h : Outside a p) (hs : Real.sin (p 2) ≠ 0) : Regular a p := ⟨(sigma_pos h.r).ne', h.delta.ne', hs⟩

theorem area_pos (h : Outside a p) (hs : Real.sin (p 2) ≠ 0) : 0 < gmunu a p 0 3 * gmunu a p 0 3 - gmunu a p 0 0 * gmunu a p 3 3 := by
  rw [det_eq (sigma_pos h.r).ne']
  exact mul_pos h.delta (mul_self_pos.2 hs)

theorem pp_pos (h : Outside a p) (hs : Real.sin (p 2) ≠ 0) : 0 < gmunu a p 3 3 := by
  rw [gmunu_33]
  have := sigma_pos (a := a) h.r
  have := h.r
  have := mul_self_pos.2 hs
  have : 0 ≤ a * a := mul_self_nonneg a
  generalize Real.sin (p 2) * Real.sin (p 2) = q at *
  generalize p 1 * p 1 + a * a * (Real.cos (p 2) * Real.cos (p 2)) = S at *
  positivity

/-- The test of `operator()` is on the possibility of the motion. -/
theorem term_eq (h : Outside a p) (hs : Real.sin (p 2) ≠ 0) (l : ℝ) :
    gmunuUp a p 0 0 - 2 * l * gmunuUp a p 0 3 + l * l * gmunuUp a p 3 3 =
      -((gmunu a p 3 3 + 2 * l * gmunu a p 0 3 + l * l * gmunu a p 0 0) / (gmunu a p 0 3 * gmunu a p 0 3 - gmunu a p 0 0 * gmunu a p 3 3)) := by
  have m := up_inverse (sigma_pos (a := a) h.r).ne' h.delta.ne' hs
  have e00 := congrFun (congrFun m 0) 0
  have e03 := congrFun (congrFun m 0) 3
  have e30 := congrFun (congrFun m 3) 0
  have e33 := congrFun (congrFun m 3) 3
  simp only [Matrix.mul_apply, Fin.sum_univ_four] at e00 e03 e30 e33
  have z : ∀ i : Fin 4, i = 0 ∨ i = 3 → gmunuUp a p i 1 = 0 ∧ gmunuUp a p i 2 = 0 := by
    rintro i (rfl | rfl) <;> exact ⟨rfl, rfl⟩
  have sy : gmunuUp a p 3 0 = gmunuUp a p 0 3 := rfl
  have sy' : gmunu a p 3 0 = gmunu a p 0 3 := rfl
  rw [(z 0 (.inl rfl)).1, (z 0 (.inl rfl)).2] at e00 e03
  rw [(z 3 (.inr rfl)).1, (z 3 (.inr rfl)).2] at e30 e33
  rw [sy'] at e00 e30
  rw [sy] at e30 e33
  have hA := area_pos h hs
  have o0 : (1 : Matrix (Fin 4) (Fin 4) ℝ) 0 0 = 1 := rfl
  have o1 : (1 : Matrix (Fin 4) (Fin 4) ℝ) 3 3 = 1 := rfl
  have o2 : (1 : Matrix (Fin 4) (Fin 4) ℝ) 0 3 = 0 := rfl
  have o3 : (1 : Matrix (Fin 4) (Fin 4) ℝ) 3 0 = 0 := rfl
  rw [o0] at e00
  rw [o1] at e33
  rw [o2] at e03
  rw [o3] at e30
  generalize gmunu a p 0 0 = tt at *
  generalize gmunu a p 0 3 = tp at *
  generalize gmunu a p 3 3 = pp at *
  generalize gmunuUp a p 0 0 = x at *
  generalize gmunuUp a p 0 3 = y at *
  generalize gmunuUp a p 3 3 = z' at *
  have a1 : x * (tp * tp - tt * pp) = -pp := by linear_combination (-pp) * e00 + tp * e03
  have a2 : y * (tp * tp - tt * pp) = tp := by linear_combination tp * e00 - tt * e03
  have a3 : z' * (tp * tp - tt * pp) = -tt := by linear_combination tp * e30 - tt * e33
  rw [← neg_div, eq_div_iff hA.ne']
  linear_combination a1 - 2 * l * a2 + l * l * a3

/-- A gas that turns with a given angular momentum has one velocity; whether it can is a matter of the sign of a polynomial. -/
theorem turns_iff (h : Outside a p) (hs : Real.sin (p 2) ≠ 0) (l : ℝ) :
    (∃ u, Turns (gmunu a p) l u) ↔ 0 < gmunu a p 3 3 + 2 * l * gmunu a p 0 3 + l * l * gmunu a p 0 0 := by
  constructor
  · rintro ⟨u, hu, hl⟩
    obtain ⟨e0, e3⟩ := kerr_lower a p u
    rw [e0, e3] at hl
    have hn := hu.unit
    rw [sp_eq, hu.r, hu.theta] at hn
    exact (turning (area_pos h hs) (by linear_combination hn) hl).2.1
  · intro hD
    have hA := area_pos h hs
    obtain ⟨b0, b1⟩ := block hA (pp_pos h hs) hD
    obtain ⟨O, hO⟩ : ∃ O, O = -(l * gmunu a p 0 0 + gmunu a p 0 3) / (l * gmunu a p 0 3 + gmunu a p 3 3) := ⟨_, rfl⟩
    rw [← hO] at b1
    have hq : 0 < (l * gmunu a p 0 3 + gmunu a p 3 3) ^ 2 := by positivity
    have hn : 0 < -(gmunu a p 0 0 + 2 * gmunu a p 0 3 * O + gmunu a p 3 3 * O * O) := by
      rw [b1, neg_neg]
      exact div_pos (mul_pos hA hD) hq
    obtain ⟨n, hne⟩ : ∃ n, n = gmunu a p 0 0 + 2 * gmunu a p 0 3 * O + gmunu a p 3 3 * O * O := ⟨_, rfl⟩
    rw [← hne] at hn
    have hi : 0 < -1 / n := by rw [neg_div, neg_pos]; exact div_neg_of_pos_of_neg one_pos (by linarith)
    have hss : √(-1 / n) * √(-1 / n) = -1 / n := Real.mul_self_sqrt hi.le
    have hn0 : n ≠ 0 := by linarith
    refine ⟨![√(-1 / n), 0, 0, O * √(-1 / n)], ⟨rfl, rfl, Real.sqrt_pos.2 hi, ?_⟩, ?_⟩
    · rw [sp_eq]
      show gmunu a p 0 0 * √(-1 / n) * √(-1 / n) + gmunu a p 1 1 * 0 * 0 + gmunu a p 2 2 * 0 * 0 + gmunu a p 3 3 * (O * √(-1 / n)) * (O * √(-1 / n)) +
        gmunu a p 0 3 * √(-1 / n) * (O * √(-1 / n)) + gmunu a p 0 3 * (O * √(-1 / n)) * √(-1 / n) = -1
      have : n * (-1 / n) = -1 := by field_simp
      linear_combination n * hss + this - (√(-1 / n) * √(-1 / n)) * hne
    · obtain ⟨e0, e3⟩ := kerr_lower a p ![√(-1 / n), 0, 0, O * √(-1 / n)]
      rw [e0, e3]
      show gmunu a p 0 3 * √(-1 / n) + gmunu a p 3 3 * (O * √(-1 / n)) = -l * (gmunu a p 0 0 * √(-1 / n) + gmunu a p 0 3 * (O * √(-1 / n)))
      have : O * (l * gmunu a p 0 3 + gmunu a p 3 3) = -(l * gmunu a p 0 0 + gmunu a p 0 3) := by rw [hO]; field_simp
      linear_combination √(-1 / n) * this

theorem turns_unique (h : Outside a p) (hs : Real.sin (p 2) ≠ 0) {l : ℝ} {u v : Vec} (hu : Turns (gmunu a p) l u) (hv : Turns (gmunu a p) l v) : u = v := by
  have hA := area_pos h hs
  have key : ∀ u, Turns (gmunu a p) l u → u 3 * (l * gmunu a p 0 3 + gmunu a p 3 3) = -(l * gmunu a p 0 0 + gmunu a p 0 3) * u 0 ∧
      gmunu a p 0 0 * u 0 * u 0 + gmunu a p 3 3 * u 3 * u 3 + gmunu a p 0 3 * u 0 * u 3 + gmunu a p 0 3 * u 3 * u 0 = -1 := by
    rintro u ⟨hu, hl⟩
    obtain ⟨e0, e3⟩ := kerr_lower a p u
    rw [e0, e3] at hl
    have hn := hu.unit
    rw [sp_eq, hu.r, hu.theta] at hn
    exact ⟨(turning hA (by linear_combination hn) hl).2.2, by linear_combination hn⟩
  have hD := (turns_iff h hs l).1 ⟨u, hu⟩
  obtain ⟨b0, b1⟩ := block hA (pp_pos h hs) hD
  obtain ⟨k1, n1⟩ := key u hu
  obtain ⟨k2, n2⟩ := key v hv
  obtain ⟨O, hO⟩ : ∃ O, O = -(l * gmunu a p 0 0 + gmunu a p 0 3) / (l * gmunu a p 0 3 + gmunu a p 3 3) := ⟨_, rfl⟩
  have f1 : u 3 = O * u 0 := by rw [hO]; field_simp; linear_combination k1
  have f2 : v 3 = O * v 0 := by rw [hO]; field_simp; linear_combination k2
  rw [f1] at n1
  rw [f2] at n2
  have t : u 0 = v 0 := by
    have hq : (gmunu a p 0 0 + 2 * gmunu a p 0 3 * O + gmunu a p 3 3 * O * O) * (u 0 ^ 2 - v 0 ^ 2) = 0 := by linear_combination n1 - n2
    have hne : gmunu a p 0 0 + 2 * gmunu a p 0 3 * O + gmunu a p 3 3 * O * O ≠ 0 := by
      intro z
      have : (gmunu a p 0 0 + 2 * gmunu a p 0 3 * O + gmunu a p 3 3 * O * O) * (u 0 ^ 2) = -1 := by linear_combination n1
      rw [z] at this; norm_num at this
    have := (mul_eq_zero.1 hq).resolve_left hne
    have p1 := hu.rotating.future
    have p2 := hv.rotating.future
    nlinarith
  funext i
  fin_cases i
  · exact t
  · show u 1 = v 1; rw [hu.rotating.r, hv.rotating.r]
  · show u 2 = v 2; rw [hu.rotating.theta, hv.rotating.theta]
  · show u 3 = v 3; rw [f1, f2, t]

/-- **C132** The velocity of the gas: if the angular momentum of the torus can be that of a motion around the axis, it is that motion; else there is an error. -/
theorem velocity_kerr {s : Torus} {unit : ℝ} (h : Outside a p) (hs : Real.sin (p 2) ≠ 0) (hd : s.adaf = false) :
    (∀ u, Turns (gmunu a p) s.l0 u → s.velocity (kerrHole a unit) p = .ok u) ∧
    (gmunu a p 3 3 + 2 * s.l0 * gmunu a p 0 3 + s.l0 * s.l0 * gmunu a p 0 0 < 0 → s.l0 * gmunu a p 0 3 + gmunu a p 3 3 ≠ 0 →
      s.velocity (kerrHole a unit) p = .throws) := by
  have hA := area_pos h hs
  constructor
  · intro u hu
    obtain ⟨w, hw⟩ : ∃ w, s.velocity (kerrHole a unit) p = .ok w ∧ Turns (gmunu a p) s.l0 w := by
      have hD := (turns_iff h hs s.l0).1 ⟨u, hu⟩
      obtain ⟨b0, b1⟩ := block hA (pp_pos h hs) hD
      have hq : 0 < (s.l0 * gmunu a p 0 3 + gmunu a p 3 3) ^ 2 := by positivity
      have hn := div_pos (mul_pos hA hD) hq
      obtain ⟨O, hO⟩ : ∃ O, O = -(s.l0 * gmunu a p 0 0 + gmunu a p 0 3) / (s.l0 * gmunu a p 0 3 + gmunu a p 3 3) := ⟨_, rfl⟩
      rw [← hO] at b1
      obtain ⟨n, hne⟩ : ∃ n, n = gmunu a p 0 0 + 2 * gmunu a p 0 3 * O + gmunu a p 3 3 * O * O := ⟨_, rfl⟩
      have nn : n < 0 := by rw [hne, b1]; linarith
      have hi : 0 < -1 / n := by rw [neg_div, neg_pos]; exact div_neg_of_pos_of_neg one_pos nn
      have hss : √(-1 / n) * √(-1 / n) = -1 / n := Real.mul_self_sqrt hi.le
      refine ⟨![√(-1 / n), 0, 0, O * √(-1 / n)], ?_, ⟨rfl, rfl, Real.sqrt_pos.2 hi, ?_⟩, ?_⟩
      · simp only [Torus.velocity, hd, kerrHole, Bool.false_eq_true, if_false, if_neg b0, ← hO, ← hne, if_neg nn.ne, if_neg (not_lt.2 hi.le)]
      · rw [sp_eq]
        show gmunu a p 0 0 * √(-1 / n) * √(-1 / n) + gmunu a p 1 1 * 0 * 0 + gmunu a p 2 2 * 0 * 0 + gmunu a p 3 3 * (O * √(-1 / n)) * (O * √(-1 / n)) +
          gmunu a p 0 3 * √(-1 / n) * (O * √(-1 / n)) + gmunu a p 0 3 * (O * √(-1 / n)) * √(-1 / n) = -1
        have : n * (-1 / n) = -1 := by field_simp [nn.ne]
        linear_combination n * hss + this - (√(-1 / n) * √(-1 / n)) * hne
      · obtain ⟨e0, e3⟩ := kerr_lower a p ![√(-1 / n), 0, 0, O * √(-1 / n)]
        rw [e0, e3]
        show gmunu a p 0 3 * √(-1 / n) + gmunu a p 3 3 * (O * √(-1 / n)) = -s.l0 * (gmunu a p 0 0 * √(-1 / n) + gmunu a p 0 3 * (O * √(-1 / n)))
        have : O * (s.l0 * gmunu a p 0 3 + gmunu a p 3 3) = -(s.l0 * gmunu a p 0 0 + gmunu a p 0 3) := by rw [hO]; field_simp
        linear_combination √(-1 / n) * this
    rw [hw.1, turns_unique h hs hw.2 hu]
  · intro hD b0
    obtain ⟨O, hO⟩ : ∃ O, O = -(s.l0 * gmunu a p 0 0 + gmunu a p 0 3) / (s.l0 * gmunu a p 0 3 + gmunu a p 3 3) := ⟨_, rfl⟩
    obtain ⟨n, hne⟩ : ∃ n, n = gmunu a p 0 0 + 2 * gmunu a p 0 3 * O + gmunu a p 3 3 * O * O := ⟨_, rfl⟩
    have b1 : n = -((gmunu a p 0 3 * gmunu a p 0 3 - gmunu a p 0 0 * gmunu a p 3 3) *
        (gmunu a p 3 3 + 2 * s.l0 * gmunu a p 0 3 + s.l0 * s.l0 * gmunu a p 0 0) / (s.l0 * gmunu a p 0 3 + gmunu a p 3 3) ^ 2) := by
      have : ∀ S, S ≠ 0 → S = s.l0 * gmunu a p 0 3 + gmunu a p 3 3 →
          gmunu a p 0 0 + 2 * gmunu a p 0 3 * (-(s.l0 * gmunu a p 0 0 + gmunu a p 0 3) / S) +
            gmunu a p 3 3 * (-(s.l0 * gmunu a p 0 0 + gmunu a p 0 3) / S) * (-(s.l0 * gmunu a p 0 0 + gmunu a p 0 3) / S) =
          -((gmunu a p 0 3 * gmunu a p 0 3 - gmunu a p 0 0 * gmunu a p 3 3) *
            (gmunu a p 3 3 + 2 * s.l0 * gmunu a p 0 3 + s.l0 * s.l0 * gmunu a p 0 0) / S ^ 2) := by
        intro S h e
        field_simp
        rw [e]
        ring
      rw [hne, hO]
      exact this _ b0 rfl
    have hq : 0 < (s.l0 * gmunu a p 0 3 + gmunu a p 3 3) ^ 2 := by positivity
    have nn : 0 < n := by
      rw [b1, neg_pos]
      exact div_neg_of_neg_of_pos (mul_neg_of_pos_of_neg hA hD) hq
    have hi : -1 / n < 0 := by rw [neg_div, neg_lt_zero]; positivity
    simp only [Torus.velocity, hd, kerrHole, Bool.false_eq_true, if_false, if_neg b0, ← hO, ← hne, if_neg nn.ne', if_pos hi]

/-- **C132** A point is in the torus if it is not inside the inner radius, nor, seen along the axis, inside the cusp, if the gas can turn there with the
angular momentum of the torus, and if its binding, minus the logarithm of its energy, is above that of the surface; only then. -/
theorem inside_iff {s : Torus} {unit r0 c W : ℝ} (h : Outside a p) (hs : Real.sin (p 2) ≠ 0) (h1 : s.rin = some r0) (h2 : s.cusp = some c)
    (h3 : s.Ws = some W) :
    (∃ x, s.delta (kerrHole a unit) p = .num x ∧ x < 0) ↔
      r0 ≤ p 1 ∧ c ≤ p 1 * Real.sin (p 2) ∧ ∃ u, Turns (gmunu a p) s.l0 u ∧ W < -Real.log |lower (gmunu a p) u 0| := by
  have hA := area_pos h hs
  have te := term_eq h hs s.l0
  have ti := turns_iff h hs s.l0
  have hpot : ∀ u, Turns (gmunu a p) s.l0 u → kerrPotential a p s.l0 = -Real.log |lower (gmunu a p) u 0| :=
    fun u hu => kerr_potential (regular h hs) h.r hu.rotating hu.momentum
  obtain ⟨D, hD⟩ : ∃ D, D = gmunu a p 3 3 + 2 * s.l0 * gmunu a p 0 3 + s.l0 * s.l0 * gmunu a p 0 0 := ⟨_, rfl⟩
  obtain ⟨A, hA'⟩ : ∃ A, A = gmunu a p 0 3 * gmunu a p 0 3 - gmunu a p 0 0 * gmunu a p 3 3 := ⟨_, rfl⟩
  rw [← hD] at ti
  rw [← hD, ← hA'] at te
  rw [← hA'] at hA
  unfold Torus.delta
  simp only [h1, h2, h3, kerrHole, te]
  have hr : (∃ r, some r0 = some r ∧ p 1 < r) ↔ p 1 < r0 := by simp
  by_cases c1 : p 1 < r0
  · rw [if_pos (hr.2 c1)]
    constructor
    · rintro ⟨x, e, x0⟩; injection e with e; linarith
    · rintro ⟨k, -⟩; linarith
  · rw [if_neg (fun k => c1 (hr.1 k))]
    rcases lt_trichotomy D 0 with d | d | d
    · have : -(D / A) > 0 := by
        have := div_neg_of_neg_of_pos d hA
        linarith
      rw [if_pos this]
      constructor
      · rintro ⟨x, e, x0⟩; injection e with e; linarith
      · rintro ⟨-, -, u, hu, -⟩
        have := ti.1 ⟨u, hu⟩
        linarith
    · rw [d, zero_div, neg_zero, if_neg (lt_irrefl _), if_pos rfl]
      constructor
      · rintro ⟨x, e, x0⟩; cases e
      · rintro ⟨-, -, u, hu, -⟩
        have := ti.1 ⟨u, hu⟩
        linarith
    · have : -(D / A) < 0 := by
        have := div_pos d hA
        linarith
      rw [if_neg (not_lt.2 this.le), if_neg this.ne]
      obtain ⟨u, hu⟩ := ti.2 d
      rw [hpot u hu]
      by_cases c2 : p 1 * Real.sin (p 2) < c
      · rw [if_pos c2]
        constructor
        · rintro ⟨x, e, x0⟩
          injection e with e
          have := abs_nonneg (W - -Real.log |lower (gmunu a p) u 0|)
          linarith
        · rintro ⟨-, k, -⟩; linarith
      · rw [if_neg c2]
        constructor
        · rintro ⟨x, e, x0⟩
          injection e with e
          exact ⟨not_lt.1 c1, not_lt.1 c2, u, hu, by linarith⟩
        · rintro ⟨-, -, v, hv, k⟩
          rw [turns_unique h hs hv hu] at k
          exact ⟨_, rfl, by linarith⟩

/-- **C132** Where there is gas it has a velocity, which is that of an observer with the angular momentum of the torus. -/
theorem gas_moves {s : Torus} {unit r0 c W x : ℝ} (h : Outside a p) (hs : Real.sin (p 2) ≠ 0) (hd : s.adaf = false) (h1 : s.rin = some r0)
    (h2 : s.cusp = some c) (h3 : s.Ws = some W) (hx : s.delta (kerrHole a unit) p = .num x) (x0 : x < 0) :
    ∃ u, s.velocity (kerrHole a unit) p = .ok u ∧ Turns (gmunu a p) s.l0 u ∧ x = W + Real.log |lower (gmunu a p) u 0| := by
  obtain ⟨k1, k2, u, hu, k3⟩ := (inside_iff h hs h1 h2 h3).1 ⟨x, hx, x0⟩
  refine ⟨u, (velocity_kerr h hs hd).1 u hu, hu, ?_⟩
  have te := term_eq h hs s.l0
  have hD := (turns_iff h hs s.l0).1 ⟨u, hu⟩
  have := div_pos hD (area_pos h hs)
  have hpot := kerr_potential (regular h hs) h.r hu.rotating hu.momentum
  have hr : ¬ ∃ r, some r0 = some r ∧ p 1 < r := by simpa using k1
  unfold Torus.delta at hx
  simp only [h1, h2, h3, kerrHole, te, if_neg hr, hpot] at hx
  rw [if_neg (by linarith), if_neg (by linarith), if_neg (not_lt.2 k2)] at hx
  injection hx with hx
  linarith

end

end Gyoto.Doughnut
