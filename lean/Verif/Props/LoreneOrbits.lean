import Verif.Model.LoreneOrbits
import Verif.Props.Lorene
import Verif.Props.LoreneDates
import Verif.Spec.Orbits
import Verif.Lemmas.FreeFall

/-!
# C139: circular orbits in a numerical metric and the matter of its star
-/

namespace Gyoto.Lorene

open Gyoto.MetricAlg Gyoto.Spacetime Gyoto.KerrBL

/-- The inverse of a circular metric. -/
theorem circ_mul {tt rr hh pp tp : ℝ} (hr : rr ≠ 0) (hh0 : hh ≠ 0) (hD : tt * pp - tp ^ 2 ≠ 0) :
    circ tt rr hh pp tp * circ (pp / (tt * pp - tp ^ 2)) (1 / rr) (1 / hh) (tt / (tt * pp - tp ^ 2)) (-tp / (tt * pp - tp ^ 2)) = 1 := by
  have e1 : tt * (pp / (tt * pp - tp ^ 2)) + tp * (-tp / (tt * pp - tp ^ 2)) = 1 := by field_simp; ring
  have e2 : tt * (-tp / (tt * pp - tp ^ 2)) + tp * (tt / (tt * pp - tp ^ 2)) = 0 := by field_simp; ring
  have e3 : tp * (pp / (tt * pp - tp ^ 2)) + pp * (-tp / (tt * pp - tp ^ 2)) = 0 := by field_simp; ring
  have e4 : tp * (-tp / (tt * pp - tp ^ 2)) + pp * (tt / (tt * pp - tp ^ 2)) = 1 := by field_simp; ring
  funext i j
  rw [Matrix.mul_apply, Fin.sum_univ_four]
  fin_cases i <;> fin_cases j
  · show tt * (pp / (tt * pp - tp ^ 2)) + 0 * 0 + 0 * 0 + tp * (-tp / (tt * pp - tp ^ 2)) = (1 : ℝ); linear_combination e1
  · show tt * 0 + 0 * _ + 0 * 0 + tp * 0 = (0 : ℝ); ring
  · show tt * 0 + 0 * 0 + 0 * _ + tp * 0 = (0 : ℝ); ring
  · show tt * (-tp / (tt * pp - tp ^ 2)) + 0 * 0 + 0 * 0 + tp * (tt / (tt * pp - tp ^ 2)) = (0 : ℝ); linear_combination e2
  · show 0 * _ + rr * 0 + 0 * 0 + 0 * _ = (0 : ℝ); ring
  · show 0 * 0 + rr * (1 / rr) + 0 * 0 + 0 * 0 = (1 : ℝ); field_simp; ring
  · show 0 * 0 + rr * 0 + 0 * _ + 0 * 0 = (0 : ℝ); ring
  · show 0 * _ + rr * 0 + 0 * 0 + 0 * _ = (0 : ℝ); ring
  · show 0 * _ + 0 * 0 + hh * 0 + 0 * _ = (0 : ℝ); ring
  · show 0 * 0 + 0 * _ + hh * 0 + 0 * 0 = (0 : ℝ); ring
  · show 0 * 0 + 0 * 0 + hh * (1 / hh) + 0 * 0 = (1 : ℝ); field_simp; ring
  · show 0 * _ + 0 * 0 + hh * 0 + 0 * _ = (0 : ℝ); ring
  · show tp * (pp / (tt * pp - tp ^ 2)) + 0 * 0 + 0 * 0 + pp * (-tp / (tt * pp - tp ^ 2)) = (0 : ℝ); linear_combination e3
  · show tp * 0 + 0 * _ + 0 * 0 + pp * 0 = (0 : ℝ); ring
  · show tp * 0 + 0 * 0 + 0 * _ + pp * 0 = (0 : ℝ); ring
  · show tp * (-tp / (tt * pp - tp ^ 2)) + 0 * 0 + 0 * 0 + pp * (tt / (tt * pp - tp ^ 2)) = (1 : ℝ); linear_combination e4

/-- What `zamo` yields solves the quadratic equation. -/
theorem zamo_solves {s : Slice} {rr th ph S V : ℝ} (h : s.zamo rr th ph S = .val V) (r0 : rr ≠ 0) (S0 : S ≠ 0) :
    0 < (s.gcov 2 2).val rr th ph ∧ s.lapse.val rr th ph ≠ 0 ∧
      V ^ 2 * (1 / rr + (s.gcov 2 2).dr rr th ph / (2 * (s.gcov 2 2).val rr th ph)) +
        √((s.gcov 2 2).val rr th ph) * rr / s.lapse.val rr th ph *
          ((s.shift 2).dr rr th ph / (rr * S) - (s.shift 2).val rr th ph / (rr ^ 2 * S)) * V - s.lapse.dr rr th ph / s.lapse.val rr th ph = 0 := by
  unfold Slice.zamo at h
  dsimp only at h
  split at h
  · cases h
  rename_i hB
  split at h
  · cases h
  rename_i hN
  split at h
  · cases h
  rename_i hD
  split at h
  · cases h
  rename_i hq
  rw [Orb.val.injEq] at h
  rw [not_le] at hB
  rw [not_lt] at hD
  refine ⟨hB, hN, ?_⟩
  have sq := Real.sq_sqrt hD
  have sB := Real.sq_sqrt hB.le
  have BB0 : √((s.gcov 2 2).val rr th ph) ≠ 0 := (Real.sqrt_pos.2 hB).ne'
  obtain ⟨β, hβ⟩ : ∃ β, β = 1 / (rr * S) * (s.shift 2).dr rr th ph - 1 / (rr * rr) * (1 / S) * (s.shift 2).val rr th ph := ⟨_, rfl⟩
  have eβ : (s.shift 2).dr rr th ph / (rr * S) - (s.shift 2).val rr th ph / (rr ^ 2 * S) = β := by rw [hβ]; field_simp
  have eB : (s.gcov 2 2).dr rr th ph / (2 * (s.gcov 2 2).val rr th ph) = (s.gcov 2 2).dr rr th ph / (2 * √((s.gcov 2 2).val rr th ph)) / √((s.gcov 2 2).val rr th ph) := by
    rw [div_div, mul_assoc, ← pow_two, sB]
  rw [eβ, eB]
  rw [← hβ] at h sq hD
  have eB2 : (s.gcov 2 2).val rr th ph * rr * rr / (s.lapse.val rr th ph * s.lapse.val rr th ph) * β * β =
      (√((s.gcov 2 2).val rr th ph) * rr / s.lapse.val rr th ph * β) ^ 2 := by
    rw [mul_pow, div_pow, mul_pow, sB]; ring
  rw [eB2] at h sq
  obtain ⟨q, hq'⟩ : ∃ q, q = 1 / rr + (s.gcov 2 2).dr rr th ph / (2 * √((s.gcov 2 2).val rr th ph)) / √((s.gcov 2 2).val rr th ph) := ⟨_, rfl⟩
  obtain ⟨b, hb⟩ : ∃ b, b = √((s.gcov 2 2).val rr th ph) * rr / s.lapse.val rr th ph * β := ⟨_, rfl⟩
  obtain ⟨n, hn⟩ : ∃ n, n = s.lapse.dr rr th ph / s.lapse.val rr th ph := ⟨_, rfl⟩
  have eb : -√((s.gcov 2 2).val rr th ph) * rr / s.lapse.val rr th ph * β = -b := by rw [hb]; ring
  rw [← hq', eb, ← hb, show (0.5 : ℝ) = 1 / 2 by norm_num] at h
  rw [← hq'] at hq
  have e4 : 4 * s.lapse.dr rr th ph / s.lapse.val rr th ph * ((s.gcov 2 2).dr rr th ph / (2 * √((s.gcov 2 2).val rr th ph)) / √((s.gcov 2 2).val rr th ph) + 1 / rr) = 4 * n * q := by
    rw [hn, hq']; ring
  rw [← hb, e4] at sq
  rw [e4] at h
  rw [← hq', ← hb, ← hn]
  obtain ⟨R, hR⟩ : ∃ R, R = √(b ^ 2 + 4 * n * q) := ⟨_, rfl⟩
  rw [← hR] at sq h
  have h' : V * (2 * q) = -b + R := by
    rw [← h]
    field_simp
  have : (2 * q) * (2 * q) * (V ^ 2 * q + b * V - n) = 0 := by
    have e : (2 * q) * (2 * q) * (V ^ 2 * q + b * V - n) = q * (V * (2 * q)) ^ 2 + b * (2 * q) * (V * (2 * q)) - 4 * n * q * q := by ring
    rw [e, h']
    linear_combination q * sq
  rcases mul_eq_zero.1 this with h0 | h0
  · exact absurd h0 (mul_ne_zero (mul_ne_zero two_ne_zero hq) (mul_ne_zero two_ne_zero hq))
  · exact h0

/-- The norm of a velocity around the axis. -/
theorem sp_rot (tt rr hh pp tp a b : ℝ) : sp (circ tt rr hh pp tp) ![a, 0, 0, b] ![a, 0, 0, b] = tt * a ^ 2 + 2 * tp * a * b + pp * b ^ 2 := by
  rw [← scalarProd_eq]
  simp only [scalarProd, Fin.sum_univ_four, circ00, circ01, circ02, circ03, circ10, circ11, circ12, circ13, circ20, circ21, circ22, circ23, circ30, circ31, circ32, circ33,
    Matrix.cons_val]
  ring

/-- What a velocity that `circularVelocity` yields is, for the metric of the slice. -/
theorem circular_form {s : Slice} {b : Bool} {p u : Vec} {dir : ℝ} (h : Circular s p) (s0 : 0 < Real.sin (p 2)) (hu : s.circular b (s.gmunu p) p dir = .val u) :
    0 < p 1 ∧ ∃ V, s.zamo (p 1) (p 2) (p 3) (Real.sin (p 2)) = .val V ∧ V ^ 2 < 1 ∧
      u = ![1 / (s.lapse.val (p 1) (p 2) (p 3) * √(1 - V * V)), 0, 0,
        (s.lapse.val (p 1) (p 2) (p 3) * V / (p 1 * Real.sin (p 2) * √((s.gcov 2 2).val (p 1) (p 2) (p 3))) - 1 / (p 1 * Real.sin (p 2)) *
          (s.shift 2).val (p 1) (p 2) (p 3)) * (1 / (s.lapse.val (p 1) (p 2) (p 3) * √(1 - V * V)))] := by
  unfold Slice.circular at hu
  dsimp only at hu
  split at hu
  swap
  · cases hu
  split at hu
  · cases hu
  rename_i hr
  rw [not_or, not_le] at hr
  refine ⟨hr.1, ?_⟩
  split at hu
  · cases hu
  · cases hu
  rename_i V hV
  split at hu
  · cases hu
  split at hu
  · cases hu
  rename_i hV1
  split at hu
  · cases hu
  rw [Orb.val.injEq] at hu
  refine ⟨V, hV, by rw [pow_two]; exact not_le.1 hV1, ?_⟩
  have e : s.gmunu p 3 3 = (p 1 * Real.sin (p 2)) ^ 2 * (s.gcov 2 2).val (p 1) (p 2) (p 3) := by
    rw [gmunu_circ h, circ33, flat_eq (h.axiGcov 2)]
  have e2 : √(s.gmunu p 3 3) = p 1 * Real.sin (p 2) * √((s.gcov 2 2).val (p 1) (p 2) (p 3)) := by
    rw [e, Real.sqrt_mul (sq_nonneg _), Real.sqrt_sq (mul_pos hr.1 s0).le]
  rw [← hu, e2]

set_option maxHeartbeats 1000000 in
/-- The norm of that velocity, from numbers. -/
theorem unit_aux {N B V r S b : ℝ} (hN : N ≠ 0) (hB : 0 < B) (hr : r ≠ 0) (hS : S ≠ 0) (hV : V ^ 2 < 1) (rr hh : ℝ) :
    sp (circ (-N ^ 2 + B * b ^ 2) rr hh ((r * S) ^ 2 * B) (r * S * B * b))
      ![1 / (N * √(1 - V * V)), 0, 0, (N * V / (r * S * √B) - 1 / (r * S) * b) * (1 / (N * √(1 - V * V)))]
      ![1 / (N * √(1 - V * V)), 0, 0, (N * V / (r * S * √B) - 1 / (r * S) * b) * (1 / (N * √(1 - V * V)))] = -1 := by
  have sB := Real.sq_sqrt hB.le
  have B0 : √B ≠ 0 := (Real.sqrt_pos.2 hB).ne'
  have hW : 0 < 1 - V * V := by nlinarith
  have sW := Real.sq_sqrt hW.le
  have W0 : √(1 - V * V) ≠ 0 := (Real.sqrt_pos.2 hW).ne'
  obtain ⟨C, hC⟩ : ∃ C, C = √B := ⟨_, rfl⟩
  obtain ⟨W, hW'⟩ : ∃ W, W = √(1 - V * V) := ⟨_, rfl⟩
  rw [sp_rot]
  rw [← hC] at sB B0 ⊢
  rw [← hW'] at sW W0 ⊢
  rw [← sB]
  field_simp
  linear_combination N ^ 2 * sW

/-- **C139 (unit).** In a circular slice with a positive lapse, what `circularVelocity` yields is the velocity of an observer that moves around the axis. -/
theorem circular_unit (s : Slice) (b : Bool) (p u : Vec) (dir : ℝ) (h : Circular s p) (s0 : 0 < Real.sin (p 2)) (n0 : 0 < s.lapse.val (p 1) (p 2) (p 3))
    (hu : s.circular b (s.gmunu p) p dir = .val u) : IsRotating (s.gmunu p) u := by
  obtain ⟨r0, V, hV, hV1, e⟩ := circular_form h s0 hu
  obtain ⟨hB, -, -⟩ := zamo_solves hV r0.ne' s0.ne'
  have hW : 0 < 1 - V * V := by nlinarith
  refine ⟨by rw [e]; rfl, by rw [e]; rfl, ?_, ?_⟩
  · rw [e]
    exact one_div_pos.2 (mul_pos n0 (Real.sqrt_pos.2 hW))
  · rw [e, gmunu_circ h]
    simp only [flat_eq h.axiLapse, flat_eq (h.axiGcov _), flat_eq h.axiShift] at hB n0 ⊢
    exact unit_aux n0.ne' hB r0.ne' s0.ne' hV1 _ _

/-- **C139 (existence).** It yields one wherever the metric has one that is slower than light: the test of the norm never fails. -/
theorem circular_exists (s : Slice) (p : Vec) (dir V : ℝ) (h : Circular s p) (r0 : 0 < p 1) (s0 : 0 < Real.sin (p 2))
    (hV : s.zamo (p 1) (p 2) (p 3) (Real.sin (p 2)) = .val V) (hV1 : V ^ 2 < 1) : ∃ u, s.circular true (s.gmunu p) p dir = .val u := by
  obtain ⟨hB, hN, -⟩ := zamo_solves hV r0.ne' s0.ne'
  have e : s.gmunu p 3 3 = (p 1 * Real.sin (p 2)) ^ 2 * (s.gcov 2 2).val (p 1) (p 2) (p 3) := by
    rw [gmunu_circ h, circ33, flat_eq (h.axiGcov 2)]
  have e2 : √(s.gmunu p 3 3) = p 1 * Real.sin (p 2) * √((s.gcov 2 2).val (p 1) (p 2) (p 3)) := by
    rw [e, Real.sqrt_mul (sq_nonneg _), Real.sqrt_sq (mul_pos r0 s0).le]
  unfold Slice.circular
  dsimp only
  rw [if_pos rfl, if_neg (not_or.2 ⟨not_le.2 r0, s0.ne'⟩), hV]
  dsimp only
  rw [if_neg (not_le.2 (by rw [e]; positivity)), if_neg (not_le.2 (by rw [← pow_two]; exact hV1)), e2]
  have := unit_aux hN hB r0.ne' s0.ne' hV1 (flat (s.gcov 0 0) (p 1) (p 2)) (p 1 ^ 2 * flat (s.gcov 1 1) (p 1) (p 2)) (b := (s.shift 2).val (p 1) (p 2) (p 3))
  simp only [flat_eq h.axiLapse, flat_eq (h.axiGcov _), flat_eq h.axiShift] at this ⊢
  rw [← gmunu_circ h, ← scalarProd_eq] at this
  rw [if_neg (by rw [this]; norm_num)]
  exact ⟨_, rfl⟩

set_option maxHeartbeats 1000000 in
/-- **C139 (free fall).** In the equatorial plane of a circular slice that is symmetric about it, that observer is in free fall. -/
theorem circular_free (s : Slice) (b : Bool) (p u : Vec) (dir : ℝ) (h : Circular s p) (heq : p 2 = Real.pi / 2)
    (sym : s.lapse.dt (p 1) (p 2) (p 3) = 0 ∧ (s.shift 2).dt (p 1) (p 2) (p 3) = 0 ∧ (s.gcov 2 2).dt (p 1) (p 2) (p 3) = 0)
    (hu : s.circular b (s.gmunu p) p dir = .val u) : IsFree s.gmunu p u := by
  have hs1 : Real.sin (p 2) = 1 := by rw [heq, Real.sin_pi_div_two]
  have hc0 : Real.cos (p 2) = 0 := by rw [heq, Real.cos_pi_div_two]
  obtain ⟨r0, V, hV, hV1, e⟩ := circular_form h (by rw [hs1]; exact one_pos) hu
  obtain ⟨hB, hN, heqn⟩ := zamo_solves hV r0.ne' (by rw [hs1]; exact one_ne_zero)
  obtain ⟨htr, htt, hhr, hht, hpr, hpt, hxr, hxt⟩ := gmunu_partials h
  have em : s.gmunu = fun q => circ
      (-(flat s.lapse (q 1) (q 2)) ^ 2 + flat (s.gcov 2 2) (q 1) (q 2) * flat (s.shift 2) (q 1) (q 2) ^ 2)
      (flat (s.gcov 0 0) (q 1) (q 2)) (q 1 ^ 2 * flat (s.gcov 1 1) (q 1) (q 2))
      ((q 1 * Real.sin (q 2)) ^ 2 * flat (s.gcov 2 2) (q 1) (q 2))
      (q 1 * Real.sin (q 2) * flat (s.gcov 2 2) (q 1) (q 2) * flat (s.shift 2) (q 1) (q 2)) := funext (gmunu_circ h)
  have hpart := isPartial_circ (tt := fun r t => -(flat s.lapse r t) ^ 2 + flat (s.gcov 2 2) r t * flat (s.shift 2) r t ^ 2) (rr := flat (s.gcov 0 0))
    (hh := fun r t => r ^ 2 * flat (s.gcov 1 1) r t) (pp := fun r t => (r * Real.sin t) ^ 2 * flat (s.gcov 2 2) r t)
    (tp := fun r t => r * Real.sin t * flat (s.gcov 2 2) r t * flat (s.shift 2) r t)
    htr (flat_dr (h.axiGcov 0) (h.gcov 0)) hhr hpr hxr htt (flat_dt (h.axiGcov 0) (h.gcov 0)) hht hpt hxt
  rw [← em] at hpart
  have g0 := left_ne_zero_of_mul_eq_one (h.inverse 0)
  have g1 := left_ne_zero_of_mul_eq_one (h.inverse 1)
  simp only [flat_eq h.axiLapse, flat_eq (h.axiGcov _), flat_eq h.axiShift] at g0 g1 hB hN heqn e
  obtain ⟨t1, t2, t3⟩ := sym
  have hW : 0 < 1 - V * V := by nlinarith
  have W0 : √(1 - V * V) ≠ 0 := (Real.sqrt_pos.2 hW).ne'
  have sB := Real.sq_sqrt hB.le
  have C0 : √(flat (s.gcov 2 2) (p 1) (p 2)) ≠ 0 := (Real.sqrt_pos.2 hB).ne'
  have hinv : ∃ up, s.gmunu p * up = 1 := by
    rw [gmunu_circ h]
    refine ⟨_, circ_mul g0 (mul_ne_zero (pow_ne_zero 2 r0.ne') g1) ?_⟩
    have : (-(flat s.lapse (p 1) (p 2)) ^ 2 + flat (s.gcov 2 2) (p 1) (p 2) * flat (s.shift 2) (p 1) (p 2) ^ 2) *
        ((p 1 * Real.sin (p 2)) ^ 2 * flat (s.gcov 2 2) (p 1) (p 2)) - (p 1 * Real.sin (p 2) * flat (s.gcov 2 2) (p 1) (p 2) * flat (s.shift 2) (p 1) (p 2)) ^ 2 =
        -((flat s.lapse (p 1) (p 2)) ^ 2 * (p 1) ^ 2 * flat (s.gcov 2 2) (p 1) (p 2)) := by rw [hs1]; ring
    rw [this]
    exact neg_ne_zero.2 (mul_ne_zero (mul_ne_zero (pow_ne_zero 2 hN) (pow_ne_zero 2 r0.ne')) hB.ne')
  obtain ⟨up, hup⟩ := hinv
  refine isFree_of_lowered hup hpart (lowered_rot (u := u) (by rw [e]; rfl) (by rw [e]; rfl) ?_ ?_)
  · rw [e]
    simp only [Matrix.cons_val, hs1, mul_one, one_pow] at heqn ⊢
    obtain ⟨C, hC⟩ : ∃ C, C = √(flat (s.gcov 2 2) (p 1) (p 2)) := ⟨_, rfl⟩
    rw [← hC] at sB C0 heqn ⊢
    rw [← sB] at heqn ⊢
    have r0' := r0.ne'
    obtain ⟨W, hW'⟩ : ∃ W, W = √(1 - V * V) := ⟨_, rfl⟩
    rw [← hW'] at W0 ⊢
    field_simp at heqn ⊢
    linear_combination flat s.lapse (p 1) (p 2) * heqn
  · rw [t1, t2, t3, hc0]
    ring

/-- **C139 (angular momentum).** `getSpecificAngularMomentum` is `-u_φ/u_t` for that observer. -/
theorem momentum_orbit (d : Dates) (b : Bool) (r dir : ℝ) (u : Vec) (h1 : d.nb ≤ 1) (h : Circular (d.slice 0) ![0, r, Real.pi / 2, 0])
    (n0 : 0 < (d.slice 0).lapse.val r (Real.pi / 2) 0)
    (hu : (d.slice 0).circular b ((d.slice 0).gmunu ![0, r, Real.pi / 2, 0]) ![0, r, Real.pi / 2, 0] dir = .val u)
    (ht : lower ((d.slice 0).gmunu ![0, r, Real.pi / 2, 0]) u 0 ≠ 0) :
    d.momentum r = .val (-lower ((d.slice 0).gmunu ![0, r, Real.pi / 2, 0]) u 3 / lower ((d.slice 0).gmunu ![0, r, Real.pi / 2, 0]) u 0) := by
  obtain ⟨r0, V, hV, hV1, e⟩ := circular_form h (by show 0 < Real.sin (Real.pi / 2); rw [Real.sin_pi_div_two]; exact one_pos) hu
  change 0 < r at r0
  change (d.slice 0).zamo r (Real.pi / 2) 0 (Real.sin (Real.pi / 2)) = .val V at hV
  rw [Real.sin_pi_div_two] at hV
  obtain ⟨hB, hN, -⟩ := zamo_solves hV r0.ne' one_ne_zero
  rw [gmunu_circ h] at ht ⊢
  rw [e] at ht ⊢
  simp only [lower, Fin.sum_univ_four, circ00, circ01, circ02, circ03, circ30, circ31, circ32, circ33, Matrix.cons_val, Real.sin_pi_div_two, mul_one, mul_zero, add_zero,
    flat_eq h.axiLapse, flat_eq (h.axiGcov _), flat_eq h.axiShift] at ht hB hN n0 ⊢
  unfold Dates.momentum
  rw [if_neg (by omega)]
  dsimp only
  rw [hV]
  dsimp only
  simp only [flat_eq h.axiLapse, flat_eq (h.axiGcov _), flat_eq h.axiShift]
  have sB := Real.sq_sqrt hB.le
  have B0 : √(flat ((d.slice 0).gcov 2 2) r (Real.pi / 2)) ≠ 0 := (Real.sqrt_pos.2 hB).ne'
  have hW : 0 < 1 - V * V := by nlinarith
  have W0 : √(1 - V * V) ≠ 0 := (Real.sqrt_pos.2 hW).ne'
  obtain ⟨C, hC⟩ : ∃ C, C = √(flat ((d.slice 0).gcov 2 2) r (Real.pi / 2)) := ⟨_, rfl⟩
  obtain ⟨W, hW'⟩ : ∃ W, W = √(1 - V * V) := ⟨_, rfl⟩
  obtain ⟨N, hN'⟩ : ∃ N, N = flat (d.slice 0).lapse r (Real.pi / 2) := ⟨_, rfl⟩
  obtain ⟨β, hβ⟩ : ∃ β, β = flat ((d.slice 0).shift 2) r (Real.pi / 2) := ⟨_, rfl⟩
  rw [← hC] at sB B0 ht ⊢
  rw [← hW'] at W0 ht ⊢
  rw [← hN'] at hN n0 ht ⊢
  rw [← hβ] at ht ⊢
  rw [← sB] at ht ⊢
  have r0' := r0.ne'
  have key : (-N ^ 2 + C ^ 2 * β ^ 2) * (1 / (N * W)) + r * C ^ 2 * β * ((N * V / (r * C) - 1 / r * β) * (1 / (N * W))) =
      -(N - 1 / r * β * C * r * V) / W := by
    field_simp
    ring
  have key2 : r * C ^ 2 * β * (1 / (N * W)) + r ^ 2 * C ^ 2 * ((N * V / (r * C) - 1 / r * β) * (1 / (N * W))) = C * r * V / W := by
    field_simp
    ring
  rw [key] at ht ⊢
  rw [key2]
  have hne : N - 1 / r * β * C * r * V ≠ 0 := fun h0 => ht (by rw [h0]; simp)
  rw [if_neg hne, Orb.val.injEq]
  field_simp

/-- **C139 (potential).** `getPotential` is minus the logarithm of `|u_t|` for the observer around the axis with that angular momentum. -/
theorem potential_orbit (tt rr hh pp tp : ℝ) (u : Vec) (l : ℝ) (hD : tt * pp - tp ^ 2 < 0) (h : IsRotating (circ tt rr hh pp tp) u)
    (hl : lower (circ tt rr hh pp tp) u 3 = -l * lower (circ tt rr hh pp tp) u 0) :
    potential (circ tt rr hh pp tp) l = .val (some (-Real.log |lower (circ tt rr hh pp tp) u 0|)) := by
  obtain ⟨h1, h2, h3, h4⟩ := h
  have hu : u = ![u 0, 0, 0, u 3] := by
    funext i
    match i with
    | 0 => rfl
    | 1 => exact h1
    | 2 => exact h2
    | 3 => rfl
  rw [hu, sp_rot] at h4
  simp only [lower, Fin.sum_univ_four, circ00, circ01, circ02, circ03, circ30, circ31, circ32, circ33, h1, h2, mul_zero, add_zero] at hl ⊢
  obtain ⟨a, ha⟩ : ∃ a, a = u 0 := ⟨_, rfl⟩
  obtain ⟨c, hc⟩ : ∃ c, c = u 3 := ⟨_, rfl⟩
  rw [← ha, ← hc] at h4 hl ⊢
  have key : (tt * a + tp * c) ^ 2 * (tt * l * l + 2 * l * tp + pp) = tp * tp - tt * pp := by
    have e : (tt * a + tp * c) ^ 2 * (tt * l * l + 2 * l * tp + pp) =
        tt * (-l * (tt * a + tp * c)) ^ 2 - 2 * tp * (-l * (tt * a + tp * c)) * (tt * a + tp * c) + pp * (tt * a + tp * c) ^ 2 := by ring
    rw [e, ← hl]
    linear_combination (tt * pp - tp ^ 2) * h4
  have hpos : 0 < tp * tp - tt * pp := by nlinarith
  have hT : tt * a + tp * c ≠ 0 := by
    intro h0
    rw [h0] at key
    nlinarith
  have hq : tt * l * l + 2 * l * tp + pp ≠ 0 := by
    intro h0
    rw [h0] at key
    nlinarith
  have hsq : (tp * tp - tt * pp) / (tt * l * l + 2 * l * tp + pp) = (tt * a + tp * c) ^ 2 := by
    rw [← key, mul_div_assoc, div_self hq, mul_one]
  rw [show potential (circ tt rr hh pp tp) l = (if tt * l * l + 2 * l * tp + pp = 0 then .nan
    else if (tp * tp - tt * pp) / (tt * l * l + 2 * l * tp + pp) < 0 then .val none
    else if (tp * tp - tt * pp) / (tt * l * l + 2 * l * tp + pp) = 0 then .nan
    else .val (some (-Real.log √((tp * tp - tt * pp) / (tt * l * l + 2 * l * tp + pp))))) from rfl]
  rw [if_neg hq, hsq, if_neg (not_lt.2 (sq_nonneg _)), if_neg (pow_ne_zero 2 hT), Real.sqrt_sq_eq_abs]

/-- **C139 refuted (direction).** Without a shift, where the lapse grows outwards, the velocity is forwards whatever the direction asked for. -/
theorem direction_wrong (s : Slice) (b : Bool) (p u : Vec) (dir : ℝ) (h : Circular s p) (s0 : 0 < Real.sin (p 2)) (n0 : 0 < s.lapse.val (p 1) (p 2) (p 3))
    (nr : 0 < s.lapse.dr (p 1) (p 2) (p 3)) (hb : (s.shift 2).val (p 1) (p 2) (p 3) = 0 ∧ (s.shift 2).dr (p 1) (p 2) (p 3) = 0)
    (hu : s.circular b (s.gmunu p) p dir = .val u) : 0 < u 3 := by
  obtain ⟨r0, V, hV, hV1, e⟩ := circular_form h s0 hu
  obtain ⟨hB, -, hq⟩ := zamo_solves hV r0.ne' s0.ne'
  have hW : 0 < 1 - V * V := by nlinarith
  rw [hb.1, hb.2] at hq
  have hN := div_pos nr n0
  have hV0 : 0 < V := by
    have hne : V ≠ 0 := by
      rintro rfl
      simp at hq
      rcases hq with h0 | h0
      · exact nr.ne' h0
      · exact n0.ne' h0
    refine lt_of_le_of_ne ?_ hne.symm
    unfold Slice.zamo at hV
    dsimp only at hV
    rw [hb.1, hb.2] at hV
    split at hV
    · cases hV
    split at hV
    · cases hV
    split at hV
    · cases hV
    rename_i hD
    split at hV
    · cases hV
    rename_i hqq
    rw [Orb.val.injEq] at hV
    rw [← hV]
    have hpos : 0 < 1 / p 1 + (s.gcov 2 2).dr (p 1) (p 2) (p 3) / (2 * √((s.gcov 2 2).val (p 1) (p 2) (p 3))) / √((s.gcov 2 2).val (p 1) (p 2) (p 3)) := by
      refine lt_of_le_of_ne ?_ (Ne.symm hqq)
      rw [not_lt] at hD
      by_contra hneg
      rw [not_le] at hneg
      have : 4 * s.lapse.dr (p 1) (p 2) (p 3) / s.lapse.val (p 1) (p 2) (p 3) * ((s.gcov 2 2).dr (p 1) (p 2) (p 3) / (2 * √((s.gcov 2 2).val (p 1) (p 2) (p 3))) / √((s.gcov 2 2).val (p 1) (p 2) (p 3)) + 1 / p 1) < 0 := by
        refine mul_neg_of_pos_of_neg (by positivity) ?_
        rw [add_comm]
        exact hneg
      simp only [mul_zero, sub_zero, zero_add] at hD
      linarith
    refine div_nonneg ?_ hpos.le
    simp only [mul_zero, sub_zero, zero_add]
    positivity
  rw [e, hb.1]
  show 0 < (s.lapse.val (p 1) (p 2) (p 3) * V / (p 1 * Real.sin (p 2) * √((s.gcov 2 2).val (p 1) (p 2) (p 3))) - 1 / (p 1 * Real.sin (p 2)) * 0) *
    (1 / (s.lapse.val (p 1) (p 2) (p 3) * √(1 - V * V)))
  rw [mul_zero, sub_zero]
  have := Real.sqrt_pos.2 hB
  have := Real.sqrt_pos.2 hW
  positivity

/-- The slices of a space whose lapse is a power of the radius, flat otherwise. -/
noncomputable def powerLapse (k : ℕ) : Slice where
  lapse := ⟨fun r _ _ => r ^ k, fun r _ _ => k * r ^ (k - 1), fun _ _ _ => 0, fun _ _ _ => 0⟩
  shift := fun _ => const 0
  gcov := fun i j => if i = j then const 1 else const 0
  gcon := fun i j => if i = j then const 1 else const 0
  kij := fun _ _ => const 0

theorem powerLapse_zamo (k : ℕ) (k0 : 0 < k) (r th ph S : ℝ) (r0 : 0 < r) : (powerLapse k).zamo r th ph S = .val √k := by
  have e1 : ((powerLapse k).gcov 2 2).val r th ph = 1 := rfl
  have e2 : ((powerLapse k).gcov 2 2).dr r th ph = 0 := rfl
  have e3 : ((powerLapse k).shift 2).val r th ph = 0 := rfl
  have e4 : ((powerLapse k).shift 2).dr r th ph = 0 := rfl
  have e5 : (powerLapse k).lapse.val r th ph = r ^ k := rfl
  have e6 : (powerLapse k).lapse.dr r th ph = k * r ^ (k - 1) := rfl
  unfold Slice.zamo
  simp only [e1, e2, e3, e4, e5, e6, Real.sqrt_one, mul_zero, sub_zero, zero_div, zero_add, add_zero]
  have hr : r ^ k = r ^ (k - 1) * r := by rw [← pow_succ]; congr 1; omega
  have e : 4 * (↑k * r ^ (k - 1)) / r ^ k * (1 / r) = (2 / r) ^ 2 * k := by
    rw [hr]
    field_simp
    norm_num
  rw [if_neg (by norm_num), if_neg (by positivity), e, if_neg (not_lt.2 (by positivity)), if_neg (by positivity), Orb.val.injEq, Real.sqrt_mul (by positivity),
    Real.sqrt_sq (by positivity)]
  field_simp
  norm_num

/-- **C139 refuted (faster than light).** Where a circular orbit would be faster than light, `circularVelocity` does not refuse and yields what is not a
number, and `getSpecificAngularMomentum` yields a number. -/
theorem superluminal_wrong (k : ℕ) (hk : 1 < k) (p : Vec) (dir : ℝ) (r0 : 0 < p 1) (s0 : Real.sin (p 2) ≠ 0) (times : ℕ → ℝ) :
    (powerLapse k).circular true ((powerLapse k).gmunu p) p dir = .nan ∧
      (⟨1, times, fun _ => powerLapse k⟩ : Dates).momentum (p 1) = .val (p 1 * √k / p 1 ^ k) := by
  constructor
  · unfold Slice.circular
    dsimp only
    rw [if_pos rfl, if_neg (not_or.2 ⟨not_le.2 r0, s0⟩), powerLapse_zamo k (by omega) _ _ _ _ r0]
    dsimp only
    have e : (powerLapse k).gmunu p 3 3 = p 1 * p 1 * Real.sin (p 2) * Real.sin (p 2) * 1 := rfl
    have hs : 0 < Real.sin (p 2) * Real.sin (p 2) := mul_self_pos.2 s0
    rw [e, if_neg (not_le.2 (by nlinarith [mul_pos (mul_pos r0 r0) hs])), if_pos]
    rw [Real.mul_self_sqrt (by positivity)]
    exact_mod_cast hk.le
  · unfold Dates.momentum
    rw [if_neg (by show ¬1 < 1; omega)]
    dsimp only
    rw [powerLapse_zamo k (by omega) _ _ _ _ r0]
    dsimp only
    have e1 : ((powerLapse k).gcov 2 2).val (p 1) (Real.pi / 2) 0 = 1 := rfl
    have e3 : ((powerLapse k).shift 2).val (p 1) (Real.pi / 2) 0 = 0 := rfl
    have e5 : (powerLapse k).lapse.val (p 1) (Real.pi / 2) 0 = p 1 ^ k := rfl
    simp only [e1, e3, e5, Real.sqrt_one, mul_zero, zero_mul, sub_zero, one_mul]
    rw [if_neg (by positivity)]

/-- **C139 (one slice).** From the last date on, `circularVelocity` is that of the last slice. -/
theorem circular_after (d : Dates) (h : d.Ordered) (b : Bool) (p : Vec) (dir : ℝ) (ht : d.times (d.nb - 1) ≤ p 0) :
    d.circular b p dir = some ((d.slice (d.nb - 1)).circular b ((d.slice (d.nb - 1)).gmunu p) p dir) := by
  have hp := h.1
  have hs := search_ordered h (it := d.nb - 1) (by omega) ht fun hk' => absurd hk' (by omega)
  have hG : (fun μ ν => (d.gmunu p μ ν).getD 0 : Tensor) = (d.slice (d.nb - 1)).gmunu p := by
    funext μ ν
    rw [Dates.gmunu, interp_after d h _ ht]
    rfl
  simp only [Dates.circular, hs, Option.map_some, hG]
  rw [if_pos (by omega)]

/-- **C139 refuted (dates).** Between the dates of two slices that differ, every circular velocity is refused: the norm of the velocity in a slice is
computed with the metric that is interpolated between both. -/
theorem circular_dates_wrong (p : Vec) (dir : ℝ) (hp : p 0 = 1 / 2) : (twoLapses 1 2).circular true p dir = some .throws := by
  have hs := search_ordered (twoLapses_ordered 1 2) (tt := p 0) (it := 0) (by norm_num [twoLapses]) (by norm_num [twoLapses, hp]) fun _ => by norm_num [twoLapses, hp]
  obtain ⟨G, hG⟩ : ∃ G : Tensor, G = fun μ ν => ((twoLapses 1 2).gmunu p μ ν).getD 0 := ⟨_, rfl⟩
  have g00 : G 0 0 = -5 / 2 := by
    rw [hG]
    simp only [Dates.gmunu, Dates.interp, hs, Option.map_some]
    rw [if_neg (by norm_num [twoLapses]), if_pos (Or.inr trivial)]
    show (_ : ℝ) = _
    norm_num [twoLapses, Slice.gmunu, const, hp]
  have key : ((twoLapses 1 2).slice 0).circular true G p dir = .throws := by
    unfold Slice.circular
    dsimp only
    rw [if_pos rfl]
    split
    · rfl
    rename_i hr
    rw [not_or, not_le] at hr
    have hz : ((twoLapses 1 2).slice 0).zamo (p 1) (p 2) (p 3) (Real.sin (p 2)) = .val 0 := by
      unfold Slice.zamo
      have := hr.1
      norm_num [twoLapses, const, hr.1.ne']
    rw [hz]
    dsimp only
    split
    · rfl
    rw [if_neg (by norm_num)]
    have e5 : ((twoLapses 1 2).slice 0).lapse.val (p 1) (p 2) (p 3) = 1 := rfl
    have e3 : (((twoLapses 1 2).slice 0).shift 2).val (p 1) (p 2) (p 3) = 0 := rfl
    rw [e5, e3]
    rw [if_pos]
    simp only [mul_zero, zero_div, sub_zero, Real.sqrt_one, mul_one, scalarProd, Fin.sum_univ_four, Matrix.cons_val, zero_mul, add_zero, g00]
    norm_num
  simp only [Dates.circular, hs, Option.map_some, ← hG]
  rw [if_neg (by norm_num [twoLapses]), if_pos (Or.inr trivial), key]
  rfl

/-- **C139 (matter).** The velocity of the matter of a star is a unit vector exactly where the factor of Lorentz is that of the field of velocities, whatever
the shift; its energy for the observers of the slices is that factor. -/
theorem matter_unit (d : StarData) (p u : Vec) (hu : d.velocity p = .val u)
    (hi : ∀ i, (d.slice.gcov i i).val (p 1) (p 2) (p 3) * (d.slice.gcon i i).val (p 1) (p 2) (p 3) = 1) :
    (sp (d.slice.gmunu p) u u = -1 ↔
      d.lorentz (p 1) (p 2) (p 3) ^ 2 * (1 - ∑ i, (d.slice.gcon i i).val (p 1) (p 2) (p 3) * d.v i (p 1) (p 2) (p 3) ^ 2) = 1) ∧
      d.slice.lapse.val (p 1) (p 2) (p 3) * u 0 = d.lorentz (p 1) (p 2) (p 3) := by
  unfold StarData.velocity at hu
  dsimp only at hu
  split at hu
  · cases hu
  rename_i h0
  split at hu
  · cases hu
  rename_i hN
  rw [not_or] at h0
  obtain ⟨r0, h0⟩ := h0
  have s0 : Real.sin (p 2) ≠ 0 := right_ne_zero_of_mul h0
  rw [Orb.val.injEq] at hu
  have i0 := hi 0
  have i1 := hi 1
  have i2 := hi 2
  have key : sp (d.slice.gmunu p) u u = -(d.lorentz (p 1) (p 2) (p 3) ^ 2 * (1 - ∑ i, (d.slice.gcon i i).val (p 1) (p 2) (p 3) * d.v i (p 1) (p 2) (p 3) ^ 2)) := by
    rw [← hu, ← scalarProd_eq]
    simp only [scalarProd, Fin.sum_univ_four, Fin.sum_univ_three, Slice.gmunu, Matrix.of_apply, Matrix.cons_val]
    generalize (d.slice.gcov 0 0).val (p 1) (p 2) (p 3) = a0 at *
    generalize (d.slice.gcov 1 1).val (p 1) (p 2) (p 3) = a1 at *
    generalize (d.slice.gcov 2 2).val (p 1) (p 2) (p 3) = a2 at *
    generalize (d.slice.gcon 0 0).val (p 1) (p 2) (p 3) = c0 at *
    generalize (d.slice.gcon 1 1).val (p 1) (p 2) (p 3) = c1 at *
    generalize (d.slice.gcon 2 2).val (p 1) (p 2) (p 3) = c2 at *
    generalize (d.slice.shift 0).val (p 1) (p 2) (p 3) = b0 at *
    generalize (d.slice.shift 1).val (p 1) (p 2) (p 3) = b1 at *
    generalize (d.slice.shift 2).val (p 1) (p 2) (p 3) = b2 at *
    generalize d.slice.lapse.val (p 1) (p 2) (p 3) = N at *
    generalize d.lorentz (p 1) (p 2) (p 3) = L at *
    generalize d.v 0 (p 1) (p 2) (p 3) = v0 at *
    generalize d.v 1 (p 1) (p 2) (p 3) = v1 at *
    generalize d.v 2 (p 1) (p 2) (p 3) = v2 at *
    generalize Real.sin (p 2) = S at *
    generalize p 1 = r at *
    field_simp
    linear_combination (r ^ 2 * S * N ^ 2 * L ^ 2) * ((c0 * v0 ^ 2) * i0 + (c1 * v1 ^ 2) * i1 + (c2 * v2 ^ 2) * i2)
  refine ⟨by rw [key]; exact ⟨fun h => by linarith, fun h => by linarith⟩, ?_⟩
  rw [← hu]
  show d.slice.lapse.val (p 1) (p 2) (p 3) * (d.lorentz (p 1) (p 2) (p 3) / d.slice.lapse.val (p 1) (p 2) (p 3)) = _
  field_simp

/-- Kepler's law for the lapse `1 - 1 / r`, at radius four: a speed of `1/√3`, in free fall. -/
noncomputable def point : Slice where
  lapse := ⟨fun r _ _ => 1 - 1 / r, fun r _ _ => 1 / r ^ 2, fun _ _ _ => 0, fun _ _ _ => 0⟩
  shift := fun _ => const 0
  gcov := fun i j => if i = j then const 1 else const 0
  gcon := fun i j => if i = j then const 1 else const 0
  kij := fun _ _ => const 0

theorem point_circular : Circular point ![0, 4, Real.pi / 2, 0] := by
  refine ⟨⟨?_, hasDerivAt_const _ _, ?_⟩, const_field 0 _, fun i => ?_, fun _ _ _ _ => rfl, fun _ _ _ _ => rfl, fun i _ _ _ _ => ?_, fun _ _ _ => ⟨rfl, rfl⟩, fun i => ?_, ?_, ?_⟩
  · show HasDerivAt (fun x : ℝ => 1 - 1 / x) (1 / (4 : ℝ) ^ 2) (4 : ℝ)
    refine ((hasDerivAt_const (4 : ℝ) (1 : ℝ)).sub ((hasDerivAt_inv (by norm_num : (4 : ℝ) ≠ 0)).congr_of_eventuallyEq
      (Filter.Eventually.of_forall fun x => one_div x))).congr_deriv (by norm_num)
  · show HasDerivAt (fun _ : ℝ => (1 : ℝ) - 1 / 4) (Real.sin (Real.pi / 2) * 0) 0
    rw [mul_zero]
    exact hasDerivAt_const _ _
  · rw [show point.gcov i i = const 1 from if_pos rfl]
    exact const_field 1 _
  · rw [show point.gcov i i = const 1 from if_pos rfl]
    rfl
  · rw [show point.gcov i i = const 1 from if_pos rfl, show point.gcon i i = const 1 from if_pos rfl]
    exact one_mul 1
  · show (1 : ℝ) - 1 / 4 ≠ 0
    norm_num
  · refine ⟨by show (4 : ℝ) ≠ 0; norm_num, ?_⟩
    show Real.sin (Real.pi / 2) ≠ 0
    rw [Real.sin_pi_div_two]
    exact one_ne_zero

example (dir : ℝ) : ∃ u, point.circular true (point.gmunu ![0, 4, Real.pi / 2, 0]) ![0, 4, Real.pi / 2, 0] dir = .val u ∧
    IsRotating (point.gmunu ![0, 4, Real.pi / 2, 0]) u ∧ IsFree point.gmunu ![0, 4, Real.pi / 2, 0] u ∧ 0 < u 3 := by
  have s1 : (0 : ℝ) < Real.sin ((![0, 4, Real.pi / 2, 0] : Vec) 2) := by
    show 0 < Real.sin (Real.pi / 2)
    rw [Real.sin_pi_div_two]
    exact one_pos
  have n0 : 0 < point.lapse.val ((![0, 4, Real.pi / 2, 0] : Vec) 1) ((![0, 4, Real.pi / 2, 0] : Vec) 2) ((![0, 4, Real.pi / 2, 0] : Vec) 3) := by
    show (0 : ℝ) < 1 - 1 / 4
    norm_num
  have hz : point.zamo 4 (Real.pi / 2) 0 (Real.sin (Real.pi / 2)) = .val √(1 / 3) := by
    have e1 : (point.gcov 2 2).val 4 (Real.pi / 2) 0 = 1 := rfl
    have e2 : (point.gcov 2 2).dr 4 (Real.pi / 2) 0 = 0 := rfl
    have e3 : (point.shift 2).val 4 (Real.pi / 2) 0 = 0 := rfl
    have e4 : (point.shift 2).dr 4 (Real.pi / 2) 0 = 0 := rfl
    have e5 : point.lapse.val 4 (Real.pi / 2) 0 = 3 / 4 := by show (1 : ℝ) - 1 / 4 = _; norm_num
    have e6 : point.lapse.dr 4 (Real.pi / 2) 0 = 1 / 16 := by show (1 : ℝ) / 4 ^ 2 = _; norm_num
    unfold Slice.zamo
    simp only [e1, e2, e3, e4, e5, e6, Real.sqrt_one, mul_zero, sub_zero, zero_div, zero_add, add_zero]
    rw [if_neg (by norm_num), if_neg (by norm_num), if_neg (by norm_num), if_neg (by norm_num), Orb.val.injEq]
    rw [show (4 * (1 / 16) / (3 / 4) * (1 / 4) : ℝ) = (1 / 2) ^ 2 * (1 / 3) by norm_num, Real.sqrt_mul (by norm_num), Real.sqrt_sq (by norm_num)]
    ring
  obtain ⟨u, hu⟩ := circular_exists point ![0, 4, Real.pi / 2, 0] dir √(1 / 3) point_circular (by show (0 : ℝ) < 4; norm_num) s1 hz
    (by rw [Real.sq_sqrt (by norm_num)]; norm_num)
  exact ⟨u, hu, circular_unit _ _ _ _ _ point_circular s1 n0 hu, circular_free _ _ _ _ _ point_circular rfl ⟨rfl, rfl, rfl⟩ hu,
    direction_wrong _ _ _ _ _ point_circular s1 n0 (by show (0 : ℝ) < 1 / 4 ^ 2; norm_num) ⟨rfl, rfl⟩ hu⟩

end Gyoto.Lorene
