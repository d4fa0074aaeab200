import Mathlib.Analysis.Calculus.Deriv.MeanValue
import Mathlib.Analysis.Calculus.Deriv.Inv
import Mathlib.Analysis.Calculus.Deriv.Pow
import Mathlib.Analysis.Real.Sqrt
import Mathlib.Tactic.FieldSimp
import Mathlib.Tactic.LinearCombination
import Mathlib.Tactic.Linarith
import Mathlib.Tactic.Positivity

/-!
# The algebra of the free orbits of Kerr, in the square root of the radius

`w` is the square root of the radius, `e` that of one minus the spin: the smallest bound orbit is at `w = 1 + e`.
-/

namespace Gyoto.Doughnut

/-- The denominator of the angular momentum. -/
theorem den_pos {e w : ℝ} (e0 : 0 < e) (hw : 1 + e ≤ w) : 0 < w ^ 3 - 2 * w + (1 - e ^ 2) := by
  obtain ⟨t, rfl⟩ : ∃ t, w = 1 + e + t := ⟨w - (1 + e), by ring⟩
  have t0 : 0 ≤ t := by linarith
  have : (1 + e + t) ^ 3 - 2 * (1 + e + t) + (1 - e ^ 2) = e * (1 + e) ^ 2 + t * (3 * (1 + e) ^ 2 - 2) + 3 * t ^ 2 * (1 + e) + t ^ 3 := by ring
  rw [this]
  have : 0 ≤ t * (3 * (1 + e) ^ 2 - 2) := mul_nonneg t0 (by nlinarith)
  positivity

/-- Slower than light. -/
theorem slow_pos {e w : ℝ} (e0 : 0 < e) (hw : 1 + e ≤ w) : 0 < w ^ 3 - 3 * w + 2 * (1 - e ^ 2) := by
  obtain ⟨t, rfl⟩ : ∃ t, w = 1 + e + t := ⟨w - (1 + e), by ring⟩
  have t0 : 0 ≤ t := by linarith
  have : (1 + e + t) ^ 3 - 3 * (1 + e + t) + 2 * (1 - e ^ 2) = e ^ 2 * (1 + e) + t * (3 * (1 + e) ^ 2 - 3) + 3 * t ^ 2 * (1 + e) + t ^ 3 := by ring
  rw [this]
  have : 0 ≤ t * (3 * (1 + e) ^ 2 - 3) := mul_nonneg t0 (by nlinarith)
  positivity

/-- Outside the horizon. -/
theorem horizon_pos {e w : ℝ} (e0 : 0 < e) (hw : 1 + e ≤ w) : 0 < w ^ 4 - 2 * w ^ 2 + (1 - e ^ 2) ^ 2 := by
  obtain ⟨t, rfl⟩ : ∃ t, w = 1 + e + t := ⟨w - (1 + e), by ring⟩
  have t0 : 0 ≤ t := by linarith
  have : (1 + e + t) ^ 4 - 2 * (1 + e + t) ^ 2 + (1 - e ^ 2) ^ 2 =
      2 * e ^ 2 * (1 + e) ^ 2 + t * (4 * (1 + e) * ((1 + e) ^ 2 - 1)) + t ^ 2 * (6 * (1 + e) ^ 2 - 2) + 4 * t ^ 3 * (1 + e) + t ^ 4 := by ring
  rw [this]
  have : 0 ≤ t * (4 * (1 + e) * ((1 + e) ^ 2 - 1)) := mul_nonneg t0 (mul_nonneg (by linarith) (by nlinarith))
  have : 0 ≤ t ^ 2 * (6 * (1 + e) ^ 2 - 2) := mul_nonneg (sq_nonneg t) (by nlinarith)
  positivity

/-- The polynomial of the smallest stable orbit. -/
def stab (a w : ℝ) : ℝ := w ^ 4 - 6 * w ^ 2 + 8 * a * w - 3 * a ^ 2

/-- It is negative up to the smallest bound orbit. -/
theorem stab_neg {e w : ℝ} (e0 : 0 < e) (e1 : e ≤ 1) (w0 : 0 < w) (hw : w ≤ 1 + e) : stab (1 - e ^ 2) w < 0 := by
  obtain ⟨a, ha⟩ : ∃ a, a = 1 - e ^ 2 := ⟨_, rfl⟩
  rw [← ha]
  have a0 : 0 ≤ a := by nlinarith
  have a1 : a < 1 := by nlinarith
  unfold stab
  rcases lt_or_ge w (3 / 4) with h | h
  · have h1 : w ^ 4 - 6 * w ^ 2 + 8 * a * w - 3 * a ^ 2 = w ^ 2 * (w ^ 2 - 2 / 3) - 3 * (a - 4 * w / 3) ^ 2 := by ring
    have h2 : w ^ 2 < 9 / 16 := by nlinarith
    have : w ^ 2 * (w ^ 2 - 2 / 3) < 0 := mul_neg_of_pos_of_neg (by positivity) (by linarith)
    rw [h1]
    nlinarith [sq_nonneg (a - 4 * w / 3)]
  · rcases le_or_gt w 1 with h' | h'
    · have h1 : w ^ 4 - 6 * w ^ 2 + 8 * a * w - 3 * a ^ 2 = -((1 - w) ^ 3 * (w + 3)) - (1 - a) * (8 * w - 3 * (1 + a)) := by ring
      have : 0 ≤ (1 - w) ^ 3 * (w + 3) := mul_nonneg (pow_nonneg (by linarith) 3) (by linarith)
      have : 0 < (1 - a) * (8 * w - 3 * (1 + a)) := mul_pos (by linarith) (by linarith)
      rw [h1]; linarith
    · have hb : a ≤ w * (2 - w) := by rw [ha]; nlinarith
      have h1 : w ^ 4 - 6 * w ^ 2 + 8 * a * w - 3 * a ^ 2 =
          -(2 * w ^ 2 * (w - 1) ^ 2) - (w * (2 - w) - a) * (8 * w - 3 * (a + w * (2 - w))) := by ring
      have : 0 < 2 * w ^ 2 * (w - 1) ^ 2 := by
        have : 0 < w - 1 := by linarith
        positivity
      have : 0 ≤ (w * (2 - w) - a) * (8 * w - 3 * (a + w * (2 - w))) := mul_nonneg (by linarith) (by nlinarith [sq_nonneg (w - 1)])
      rw [h1]; linarith

theorem quart_pos {e v : ℝ} (e0 : 0 < e) (hv : 1 + e ≤ v) : 0 < v ^ 4 - 4 * (1 - e ^ 2) * v + 3 * (1 - e ^ 2) ^ 2 := by
  obtain ⟨t, rfl⟩ : ∃ t, v = 1 + e + t := ⟨v - (1 + e), by ring⟩
  have t0 : 0 ≤ t := by linarith
  have : (1 + e + t) ^ 4 - 4 * (1 - e ^ 2) * (1 + e + t) + 3 * (1 - e ^ 2) ^ 2 =
      4 * e ^ 2 * (1 + e) ^ 2 + t * (4 * (1 + e) * (3 * e + e ^ 2)) + 6 * t ^ 2 * (1 + e) ^ 2 + 4 * t ^ 3 * (1 + e) + t ^ 4 := by ring
  rw [this]
  positivity

/-- Beyond the smallest bound orbit, the polynomial over the radius increases. -/
theorem stab_mono {e w v : ℝ} (e0 : 0 < e) (hw : 1 + e ≤ w) (hv : w < v) : stab (1 - e ^ 2) w * v ^ 2 < stab (1 - e ^ 2) v * w ^ 2 := by
  obtain ⟨m, hm, hm2⟩ : ∃ m : ℝ, 1 + e ≤ m ∧ m ^ 2 = w * v := by
    refine ⟨√(w * v), ?_, Real.sq_sqrt (by nlinarith)⟩
    apply Real.le_sqrt_of_sq_le
    nlinarith
  have q := quart_pos e0 hm
  have m0 : 0 < m := by linarith
  have hs : 2 * m ≤ w + v := by nlinarith [sq_nonneg (w - v)]
  have key : stab (1 - e ^ 2) v * w ^ 2 - stab (1 - e ^ 2) w * v ^ 2 =
      (v - w) * ((w + v) * (m ^ 4 + 3 * (1 - e ^ 2) ^ 2) - 8 * (1 - e ^ 2) * m ^ 2) := by
    rw [show m ^ 4 = (m ^ 2) ^ 2 by ring, hm2]
    unfold stab
    ring
  have p : 0 ≤ m ^ 4 + 3 * (1 - e ^ 2) ^ 2 := by positivity
  have h2 : 0 < (w + v) * (m ^ 4 + 3 * (1 - e ^ 2) ^ 2) - 8 * (1 - e ^ 2) * m ^ 2 := by
    have := mul_le_mul_of_nonneg_right hs p
    have : 0 < 2 * m * (m ^ 4 - 4 * (1 - e ^ 2) * m + 3 * (1 - e ^ 2) ^ 2) := by positivity
    nlinarith
  have := mul_pos (sub_pos.2 hv) h2
  linarith

/-- The smallest stable orbit is beyond the smallest bound one; the polynomial is negative before it and positive beyond. -/
theorem stab_sign {e ws : ℝ} (e0 : 0 < e) (e1 : e ≤ 1) (s0 : 0 < ws) (hs : stab (1 - e ^ 2) ws = 0) :
    1 + e < ws ∧ (∀ w, 1 + e ≤ w → w < ws → stab (1 - e ^ 2) w < 0) ∧ ∀ w, ws < w → 0 < stab (1 - e ^ 2) w := by
  have h1 : 1 + e < ws := by
    by_contra h
    have := stab_neg e0 e1 s0 (not_lt.1 h)
    linarith
  refine ⟨h1, fun w hw hws => ?_, fun w hw => ?_⟩
  · have := stab_mono e0 hw hws
    rw [hs, zero_mul] at this
    exact neg_of_mul_neg_left this (by positivity)
  · have := stab_mono e0 h1.le hw
    rw [hs, zero_mul] at this
    exact pos_of_mul_pos_left this (by positivity)

/-- The specific angular momentum of the free orbits. -/
noncomputable def ellW (a w : ℝ) : ℝ := (w ^ 4 - 2 * a * w + a ^ 2) / (w ^ 3 - 2 * w + a)

theorem ellW_deriv {a w : ℝ} (h : w ^ 3 - 2 * w + a ≠ 0) :
    HasDerivAt (ellW a) (w ^ 2 * stab a w / (w ^ 3 - 2 * w + a) ^ 2) w := by
  have d3 : HasDerivAt (fun w : ℝ => w ^ 3) (3 * w ^ 2) w := by simpa using hasDerivAt_pow 3 w
  have d4 : HasDerivAt (fun w : ℝ => w ^ 4) (4 * w ^ 3) w := by simpa using hasDerivAt_pow 4 w
  have d1 := hasDerivAt_id w
  have dn := (d4.sub (d1.const_mul (2 * a))).add_const (a ^ 2)
  have dd := (d3.sub (d1.const_mul 2)).add_const a
  refine (dn.div dd h).congr_deriv ?_
  unfold stab
  simp only [id, Pi.sub_apply]
  congr 1
  ring

theorem ellW_anti {e ws : ℝ} (e0 : 0 < e) (e1 : e ≤ 1) (s0 : 0 < ws) (hs : stab (1 - e ^ 2) ws = 0) :
    StrictAntiOn (ellW (1 - e ^ 2)) (Set.Icc (1 + e) ws) := by
  have hd : ∀ w, 1 + e ≤ w → HasDerivAt (ellW (1 - e ^ 2)) _ w := fun w hw => ellW_deriv (den_pos e0 hw).ne'
  obtain ⟨-, h2, -⟩ := stab_sign e0 e1 s0 hs
  refine strictAntiOn_of_deriv_neg (convex_Icc _ _) (fun w hw => (hd w hw.1).continuousAt.continuousWithinAt) ?_
  intro w hw
  rw [interior_Icc] at hw
  rw [(hd w hw.1.le).deriv]
  have := h2 w hw.1.le hw.2
  have := den_pos e0 hw.1.le
  have : 0 < w := by linarith [hw.1]
  exact div_neg_of_neg_of_pos (mul_neg_of_pos_of_neg (by positivity) (by assumption)) (by positivity)

theorem ellW_mono {e ws : ℝ} (e0 : 0 < e) (e1 : e ≤ 1) (s0 : 0 < ws) (hs : stab (1 - e ^ 2) ws = 0) :
    StrictMonoOn (ellW (1 - e ^ 2)) (Set.Ici ws) := by
  obtain ⟨h1, -, h3⟩ := stab_sign e0 e1 s0 hs
  have hd : ∀ w, ws ≤ w → HasDerivAt (ellW (1 - e ^ 2)) _ w := fun w hw => ellW_deriv (den_pos e0 (h1.le.trans hw)).ne'
  refine strictMonoOn_of_deriv_pos (convex_Ici _) (fun w hw => (hd w hw).continuousAt.continuousWithinAt) ?_
  intro w hw
  rw [interior_Ici] at hw
  have hw' : ws < w := hw
  rw [(hd w hw'.le).deriv]
  have := h3 w hw'
  have := den_pos e0 (h1.le.trans hw'.le)
  have : 0 < w := s0.trans hw'
  positivity

theorem ellW_bound {e : ℝ} (e0 : 0 < e) : ellW (1 - e ^ 2) (1 + e) = 2 * (1 + e) := by
  unfold ellW
  have := (den_pos e0 le_rfl).ne'
  rw [div_eq_iff this]
  ring

/-- Larger than the spin. -/
theorem ellW_gt {e w : ℝ} (e0 : 0 < e) (e1 : e ≤ 1) (hw : 1 + e ≤ w) : 1 - e ^ 2 < ellW (1 - e ^ 2) w := by
  have h := den_pos e0 hw
  unfold ellW
  rw [lt_div_iff₀ h]
  have : 0 < w ^ 3 * (w - (1 - e ^ 2)) := by
    have : 0 < w := by linarith
    have : 0 < w - (1 - e ^ 2) := by nlinarith
    positivity
  nlinarith

/-- `D` of the potential `½ ln (D/Δ)` in the plane of the equator, times the radius. -/
def dee (a l r : ℝ) : ℝ := r ^ 3 + (a ^ 2 - l ^ 2) * r + 2 * (l - a) ^ 2

/-- No torus reaches the escape speed outside the smallest bound orbit. -/
theorem dee_ge {e l r : ℝ} (e0 : 0 < e) (e1 : e ≤ 1) (l0 : 0 ≤ l) (hl : l ≤ 2 * (1 + e)) (hr : (1 + e) ^ 2 ≤ r) :
    r * (r ^ 2 - 2 * r + (1 - e ^ 2) ^ 2) + 2 * (r - (1 + e) ^ 2) ^ 2 ≤ dee (1 - e ^ 2) l r := by
  have key : dee (1 - e ^ 2) l r - (r * (r ^ 2 - 2 * r + (1 - e ^ 2) ^ 2) + 2 * (r - (1 + e) ^ 2) ^ 2) =
      (2 * (1 + e) - l) * ((2 * (1 + e) + l) * (r - 2) + 4 * (1 - e ^ 2)) := by
    unfold dee
    ring
  have : 0 ≤ (2 * (1 + e) + l) * (r - 2) + 4 * (1 - e ^ 2) := by
    rcases le_or_gt 2 r with h | h
    · have := mul_nonneg (show (0 : ℝ) ≤ 2 * (1 + e) + l by linarith) (sub_nonneg.2 h)
      nlinarith
    · have h1 : (2 * (1 + e) + l) * (2 - r) ≤ 4 * (1 + e) * (2 - r) := mul_le_mul_of_nonneg_right (by linarith) (by linarith)
      have h2 : 4 * (1 + e) * (2 - r) ≤ 4 * (1 + e) * (2 - (1 + e) ^ 2) := mul_le_mul_of_nonneg_left (by linarith) (by linarith)
      nlinarith
  have := mul_nonneg (sub_nonneg.2 hl) this
  linarith

/-- The factor that does not vanish. -/
theorem fac_pos {e x w : ℝ} (e0 : 0 < e) (e1 : e ≤ 1) (x0 : 0 ≤ x) (hx : x ≤ (1 + e) ^ 2) (hw : 1 + e ≤ w) :
    0 < x * (w ^ 3 - 2 * w - (1 - e ^ 2)) + w ^ 3 * (w + (1 - e ^ 2)) := by
  have a0 : 0 ≤ 1 - e ^ 2 := by nlinarith
  have w1 : 1 < w := by linarith
  have p : 0 < w ^ 3 * (w + (1 - e ^ 2)) := by positivity
  rcases le_or_gt 0 (w ^ 3 - 2 * w - (1 - e ^ 2)) with h | h
  · have := mul_nonneg x0 h
    linarith
  · have hxw : x ≤ w ^ 2 := hx.trans (by nlinarith)
    have h1 : w ^ 2 * (w ^ 3 - 2 * w - (1 - e ^ 2)) ≤ x * (w ^ 3 - 2 * w - (1 - e ^ 2)) := mul_le_mul_of_nonpos_right hxw h.le
    have h2 : w ^ 2 * (w ^ 3 - 2 * w - (1 - e ^ 2)) + w ^ 3 * (w + (1 - e ^ 2)) = w ^ 2 * ((w - 1) * (w * (w + 2) + (1 - e ^ 2))) := by ring
    have : 0 < w ^ 2 * ((w - 1) * (w * (w + 2) + (1 - e ^ 2))) := by
      have : 0 < w - 1 := by linarith
      positivity
    linarith

/-- `D/Δ`. -/
noncomputable def ratio (a l r : ℝ) : ℝ := dee a l r / (r * (r ^ 2 - 2 * r + a ^ 2))

theorem ratio_deriv {a l w : ℝ} (hw : 0 < w) (hd : w ^ 4 - 2 * w ^ 2 + a ^ 2 ≠ 0) (hA : w ^ 3 - 2 * w + a ≠ 0) :
    HasDerivAt (ratio a l) (2 * (w ^ 3 - 2 * w + a) * (l - ellW a w) * ((l - a) * (w ^ 3 - 2 * w - a) + w ^ 3 * (w + a)) /
      (w ^ 2 * (w ^ 2) * (w ^ 4 - 2 * w ^ 2 + a ^ 2) ^ 2)) (w ^ 2) := by
  obtain ⟨r, hr⟩ : ∃ r, r = w ^ 2 := ⟨_, rfl⟩
  have r0 : r ≠ 0 := by rw [hr]; positivity
  have hd' : r ^ 2 - 2 * r + a ^ 2 ≠ 0 := by rw [hr]; convert hd using 1; ring
  rw [← hr]
  have d3 : HasDerivAt (fun w : ℝ => w ^ 3) (3 * r ^ 2) r := by simpa using hasDerivAt_pow 3 r
  have d2 : HasDerivAt (fun w : ℝ => w ^ 2) (2 * r) r := by simpa using hasDerivAt_pow 2 r
  have d1 := hasDerivAt_id r
  have dn := (d3.add (d1.const_mul (a ^ 2 - l ^ 2))).add_const (2 * (l - a) ^ 2)
  have dd := d1.mul ((d2.sub (d1.const_mul 2)).add_const (a ^ 2))
  refine (dn.div dd (mul_ne_zero r0 hd')).congr_deriv ?_
  simp only [id, Pi.add_apply, Pi.sub_apply, Pi.mul_apply]
  have e : (w ^ 3 - 2 * w + a) * (l - ellW a w) = (l - a) * (w ^ 3 - 2 * w + a) - w ^ 3 * (w - a) := by
    unfold ellW
    rw [mul_sub, mul_div_cancel₀ _ hA]
    ring
  rw [show 2 * (w ^ 3 - 2 * w + a) * (l - ellW a w) = 2 * ((w ^ 3 - 2 * w + a) * (l - ellW a w)) by ring, e, hr]
  have hd2 : (w ^ 2) ^ 2 - 2 * w ^ 2 + a ^ 2 ≠ 0 := by rw [← hr]; exact hd'
  rw [div_eq_div_iff (pow_ne_zero 2 (mul_ne_zero (by positivity) hd2)) (mul_ne_zero (by positivity) (pow_ne_zero 2 hd))]
  ring

end Gyoto.Doughnut
