import Verif.Props.DoughnutShape

/-!
# C132: the tori of Kerr
-/

namespace Gyoto.Doughnut

open Gyoto.MetricAlg Gyoto.KerrBL Gyoto.Orbits Gyoto.Spacetime
open Gyoto.Transfer (Out)
open Gyoto.Functors (NearZero)
open Gyoto.SphAcc (Outside sigma_pos)

/-! ### In the square root of the radius -/

theorem kerrL_eq {a r : ℝ} (hr : 0 ≤ r) : kerrL a r = ellW a √r := by
  unfold kerrL ellW
  rw [pow_three_half hr]
  have : r * r = √r ^ 4 := by
    have := Real.sq_sqrt hr
    linear_combination (-(√r ^ 2) - r) * this
  rw [this, pow_two a]

/-- The spin is that of a black hole that turns with the torus. -/
theorem spin {a : ℝ} (h0 : 0 ≤ a) (h1 : a < 1) : ∃ e, 0 < e ∧ e ≤ 1 ∧ a = 1 - e ^ 2 ∧ kerrRmb a = (1 + e) ^ 2 ∧ √(kerrRmb a) = 1 + e ∧
    0 < √(kerrRms a) ∧ stab (1 - e ^ 2) √(kerrRms a) = 0 ∧ kerrRms a = √(kerrRms a) ^ 2 := by
  have hk : 0 < 1 - a := by linarith
  have hx := Real.sq_sqrt hk.le
  have hx0 := Real.sqrt_pos.2 hk
  have ha : a = 1 - √(1 - a) ^ 2 := by linarith
  have hR : kerrRmb a = (1 + √(1 - a)) ^ 2 := by unfold kerrRmb; linear_combination -hx
  obtain ⟨s0, s1⟩ := rms_spec (a := a) (by linarith) h1.le
  refine ⟨√(1 - a), hx0, ?_, ha, hR, ?_, Real.sqrt_pos.2 s0, ?_, (Real.sq_sqrt s0.le).symm⟩
  · rw [show (1 : ℝ) = √1 by simp]
    exact Real.sqrt_le_sqrt (by simp; linarith)
  · rw [hR, Real.sqrt_sq (by linarith)]
  · rw [← ha, stab, ← abs_of_nonneg h0, sq_abs]
    rw [abs_of_nonneg h0] at s1 ⊢
    exact s1

/-- The potential in the plane of the equator. -/
theorem plane_eq {a l r : ℝ} (hr : 0 < r) (hd : 0 < r ^ 2 - 2 * r + a ^ 2) (hD : 0 < dee a l r) :
    kerrPotential a ![0, r, Real.pi / 2, 0] l = 1 / 2 * Real.log (ratio a l r) := by
  have ho : Outside a ![0, r, Real.pi / 2, 0] := ⟨hr, by show 0 < r * r - 2 * r + a * a; nlinarith⟩
  have hsin : Real.sin ((![0, r, Real.pi / 2, 0] : Vec) 2) ≠ 0 := by show Real.sin (Real.pi / 2) ≠ 0; simp
  have s1 : Real.sin ((![0, r, Real.pi / 2, 0] : Vec) 2) = 1 := Real.sin_pi_div_two
  have c1 : Real.cos ((![0, r, Real.pi / 2, 0] : Vec) 2) = 0 := Real.cos_pi_div_two
  have e1 : (![0, r, Real.pi / 2, 0] : Vec) 1 = r := rfl
  have g00 : gmunu a ![0, r, Real.pi / 2, 0] 0 0 = -1 + 2 / r := by rw [gmunu_00, c1, e1]; field_simp; ring
  have g03 : gmunu a ![0, r, Real.pi / 2, 0] 0 3 = -2 * a / r := by rw [gmunu_03, c1, s1, e1]; field_simp; ring
  have g33 : gmunu a ![0, r, Real.pi / 2, 0] 3 3 = r ^ 2 + a ^ 2 + 2 * a ^ 2 / r := by rw [gmunu_33, c1, s1, e1]; field_simp; ring
  have hDD : gmunu a ![0, r, Real.pi / 2, 0] 3 3 + 2 * l * gmunu a ![0, r, Real.pi / 2, 0] 0 3 + l * l * gmunu a ![0, r, Real.pi / 2, 0] 0 0 =
      dee a l r / r := by
    rw [g00, g03, g33]
    unfold dee
    field_simp
    ring
  have hAA : gmunu a ![0, r, Real.pi / 2, 0] 0 3 * gmunu a ![0, r, Real.pi / 2, 0] 0 3 -
      gmunu a ![0, r, Real.pi / 2, 0] 0 0 * gmunu a ![0, r, Real.pi / 2, 0] 3 3 = r ^ 2 - 2 * r + a ^ 2 := by
    rw [g00, g03, g33]
    field_simp
    ring
  obtain ⟨u, hu⟩ := (turns_iff ho hsin l).2 (by rw [hDD]; positivity)
  rw [kerr_potential (regular ho hsin) hr hu.rotating hu.momentum]
  obtain ⟨e0, e3⟩ := kerr_lower a ![0, r, Real.pi / 2, 0] u
  have hl := hu.momentum
  rw [e0, e3] at hl
  have hn := hu.rotating.unit
  rw [sp_eq, hu.rotating.r, hu.rotating.theta] at hn
  have k := (turning (area_pos ho hsin) (by linear_combination hn) hl).1
  rw [hDD, hAA, ← e0] at k
  generalize lower (gmunu a ![0, r, Real.pi / 2, 0]) u 0 = E at *
  have hE : ratio a l r = (E ^ 2)⁻¹ := by
    have hE0 : E ^ 2 ≠ 0 := by
      intro z; rw [z, zero_mul] at k; linarith
    have hq : r * (r ^ 2 - 2 * r + a ^ 2) ≠ 0 := by positivity
    have k' : E ^ 2 * dee a l r = r * (r ^ 2 - 2 * r + a ^ 2) := by
      rw [← k]
      field_simp
    unfold ratio
    rw [← one_div, div_eq_div_iff hq hE0]
    linear_combination k'
  rw [hE, Real.log_inv, Real.log_pow, Real.log_abs]
  push_cast
  ring

/-- What the two radii and the potential between are, in Kerr. -/
structure Lobe (a l rk rc : ℝ) : Prop where
  cusp : kerrRmb a < rk ∧ rk < kerrRms a
  centre : kerrRms a < rc ∧ rc < 1000
  free : kerrL a rk = l ∧ kerrL a rc = l
  slow : StrictAntiOn (kerrL a) (Set.Icc (kerrRmb a) (kerrRms a))
  fast : StrictMonoOn (kerrL a) (Set.Ici (kerrRms a))
  only : ∀ r, kerrRmb a ≤ r → kerrL a r = l → r = rk ∨ r = rc
  down : StrictAntiOn (fun r => kerrPotential a ![0, r, Real.pi / 2, 0] l) (Set.Icc (kerrRmb a) rk)
  up : StrictMonoOn (fun r => kerrPotential a ![0, r, Real.pi / 2, 0] l) (Set.Icc rk rc)
  away : StrictAntiOn (fun r => kerrPotential a ![0, r, Real.pi / 2, 0] l) (Set.Ici rc)
  bound : ∀ r, kerrRmb a < r → 0 < kerrPotential a ![0, r, Real.pi / 2, 0] l
  far : ∀ r, 4 ≤ r → kerrPotential a ![0, r, Real.pi / 2, 0] l ≤ 4 / r
  cont : ContinuousOn (fun r => kerrPotential a ![0, r, Real.pi / 2, 0] l) (Set.Ici (kerrRmb a))

theorem dips {f f' : ℝ → ℝ} {S : Set ℝ} (hS : Convex ℝ S) (hf : ∀ x ∈ S, HasDerivAt f (f' x) x) :
    ((∀ x ∈ interior S, 0 < f' x) → StrictMonoOn f S) ∧ ((∀ x ∈ interior S, f' x < 0) → StrictAntiOn f S) := by
  have hc : ContinuousOn f S := fun x hx => (hf x hx).continuousAt.continuousWithinAt
  refine ⟨fun h => strictMonoOn_of_deriv_pos hS hc fun x hx => ?_, fun h => strictAntiOn_of_deriv_neg hS hc fun x hx => ?_⟩
  · rw [(hf x (interior_subset hx)).deriv]; exact h x hx
  · rw [(hf x (interior_subset hx)).deriv]; exact h x hx

theorem sqrt_range {e r : ℝ} (e0 : 0 < e) (hr : (1 + e) ^ 2 ≤ r) : 1 + e ≤ √r ∧ 0 < r ∧ r = √r ^ 2 := by
  have r0 : 0 < r := lt_of_lt_of_le (by positivity) hr
  exact ⟨Real.le_sqrt_of_sq_le hr, r0, (Real.sq_sqrt r0.le).symm⟩

set_option maxHeartbeats 1000000 in
/-- **C132** In Kerr with a spin from 0 to 1 (excluded), for a parameter between 0 and 1 (excluded), the angular momentum of the torus is that of a free orbit at
two radii: one between the smallest bound and the smallest stable orbits, one between the latter and 1000. From the smallest bound orbit outwards the
potential in the plane of the equator falls to the first, which is therefore the cusp, rises to the second, which is therefore the centre, and falls
beyond; it is positive there and falls at least as four over the radius. -/
theorem lobe {a lam : ℝ} (h0 : 0 ≤ a) (h1 : a < 1) (l0 : 0 < lam) (l1 : lam < 1) :
    ∃ rk rc, Lobe a (lam * (kerrL a (kerrRmb a) - kerrL a (kerrRms a)) + kerrL a (kerrRms a)) rk rc := by
  obtain ⟨e, e0, e1, ha, hmb, hwb, s0, hst, hms⟩ := spin h0 h1
  obtain ⟨ws, hws⟩ : ∃ ws, ws = √(kerrRms a) := ⟨_, rfl⟩
  rw [← hws] at s0 hst hms
  obtain ⟨b1, b2, b3⟩ := stab_sign e0 e1 s0 hst
  have ws0 : 0 ≤ kerrRms a := by rw [hms]; positivity
  have wb0 : 0 ≤ kerrRmb a := by rw [hmb]; positivity
  rw [kerrL_eq ws0, kerrL_eq wb0, hwb, ← hws]
  have anti := ellW_anti e0 e1 s0 hst
  have mono := ellW_mono e0 e1 s0 hst
  have hlb := ellW_bound e0
  subst ha
  have hlt : ellW (1 - e ^ 2) ws < ellW (1 - e ^ 2) (1 + e) := anti ⟨le_rfl, b1.le⟩ ⟨b1.le, le_rfl⟩ b1
  obtain ⟨l, hl⟩ : ∃ l, l = lam * (ellW (1 - e ^ 2) (1 + e) - ellW (1 - e ^ 2) ws) + ellW (1 - e ^ 2) ws := ⟨_, rfl⟩
  rw [← hl]
  have la : ellW (1 - e ^ 2) ws < l := by rw [hl]; nlinarith only [mul_pos l0 (sub_pos.2 hlt)]
  have lb : l < ellW (1 - e ^ 2) (1 + e) := by rw [hl]; nlinarith only [mul_pos (sub_pos.2 l1) (sub_pos.2 hlt)]
  have lga := ellW_gt e0 e1 b1.le
  have hcont : ∀ w, 1 + e ≤ w → ContinuousAt (ellW (1 - e ^ 2)) w := fun w hw => (ellW_deriv (den_pos e0 hw).ne').continuousAt
  -- the smallest stable orbit is below 16
  have ws4 : ws < 4 := by
    by_contra h
    have h4 : 4 ≤ ws := not_lt.1 h
    have : stab (1 - e ^ 2) ws = ws ^ 2 * (ws ^ 2 - 16) + 10 * (ws ^ 2 - 16) + 160 + 8 * (1 - e ^ 2) * ws - 3 * (1 - e ^ 2) ^ 2 := by unfold stab; ring
    have h16 : 0 ≤ ws ^ 2 - 16 := by nlinarith only [h4]
    have i1 : 0 ≤ ws ^ 2 * (ws ^ 2 - 16) := by positivity
    have i2 : 0 ≤ 8 * (1 - e ^ 2) * ws := by positivity
    have i3 : (1 - e ^ 2) ^ 2 ≤ 1 := pow_le_one₀ h0 h1.le
    linarith only [this, hst, i1, i2, i3, h16]
  have k31 : 31 < √1000 := Real.lt_sqrt_of_sq_lt (by norm_num)
  have far : l < ellW (1 - e ^ 2) √1000 := by
    have hd := den_pos (w := √1000) e0 (by linarith)
    have : 2 * (1 + e) < ellW (1 - e ^ 2) √1000 := by
      unfold ellW
      rw [lt_div_iff₀ hd]
      have p3 : 0 < √1000 ^ 3 := by positivity
      have q1 : 2 * (1 + e) * (√1000 ^ 3 - 2 * √1000 + (1 - e ^ 2)) ≤ 4 * (√1000 ^ 3 - 2 * √1000 + (1 - e ^ 2)) :=
        mul_le_mul_of_nonneg_right (by linarith) hd.le
      have q2 : 0 ≤ √1000 ^ 3 * (√1000 - 4) := mul_nonneg p3.le (by linarith)
      have q3 : (1 - e ^ 2) * √1000 ≤ 1 * √1000 := mul_le_mul_of_nonneg_right h1.le (by linarith only [k31])
      nlinarith only [q1, q2, q3, sq_nonneg (1 - e ^ 2), h0, h1, k31]
    linarith only [hlb, this, lb]
  -- the two radii
  obtain ⟨wk, ⟨k1, k2⟩, k3⟩ : ∃ w ∈ Set.Ioo (1 + e) ws, ellW (1 - e ^ 2) w = l :=
    intermediate_value_Ioo' b1.le (fun w hw => (hcont w hw.1).continuousWithinAt) ⟨la, lb⟩
  obtain ⟨wc, ⟨c1, c2⟩, c3⟩ : ∃ w ∈ Set.Ioo ws √1000, ellW (1 - e ^ 2) w = l :=
    intermediate_value_Ioo (by linarith) (fun w hw => (hcont w (b1.le.trans hw.1)).continuousWithinAt) ⟨la, far⟩
  have wk0 : 0 < wk := by linarith
  have wc0 : 0 < wc := by linarith
  have sk : √(wk ^ 2) = wk := Real.sqrt_sq wk0.le
  have sc : √(wc ^ 2) = wc := Real.sqrt_sq wc0.le
  -- the sign of the difference of the angular momenta
  have sgn1 : ∀ w, 1 + e ≤ w → w < wk → l < ellW (1 - e ^ 2) w := fun w h h' => by
    rw [← k3]; exact anti ⟨h, (h'.trans k2).le⟩ ⟨k1.le, k2.le⟩ h'
  have sgn2 : ∀ w, wk < w → w < wc → ellW (1 - e ^ 2) w < l := fun w h h' => by
    rcases le_total w ws with hw | hw
    · rw [← k3]; exact anti ⟨k1.le, k2.le⟩ ⟨(k1.trans h).le, hw⟩ h
    · rw [← c3]; exact mono hw c1.le h'
  have sgn3 : ∀ w, wc < w → l < ellW (1 - e ^ 2) w := fun w h => by
    rw [← c3]; exact mono c1.le (c1.trans h).le h
  -- the potential
  have hrb : ∀ r, kerrRmb (1 - e ^ 2) ≤ r → 1 + e ≤ √r ∧ 0 < r ∧ r = √r ^ 2 := fun r hr => sqrt_range e0 (by rw [← hmb]; exact hr)
  have hdelta : ∀ r, kerrRmb (1 - e ^ 2) ≤ r → 0 < r ^ 2 - 2 * r + (1 - e ^ 2) ^ 2 := fun r hr => by
    obtain ⟨x1, -, x3⟩ := hrb r hr
    have := horizon_pos e0 x1
    rw [x3]
    linarith [show (√r ^ 2) ^ 2 = √r ^ 4 by ring]
  have hdee : ∀ r, kerrRmb (1 - e ^ 2) ≤ r → r * (r ^ 2 - 2 * r + (1 - e ^ 2) ^ 2) ≤ dee (1 - e ^ 2) l r := fun r hr => by
    have := dee_ge (l := l) (r := r) e0 e1 (by linarith only [h0, la, lga]) (by linarith only [lb, hlb]) (by rw [← hmb]; exact hr)
    linarith only [this, sq_nonneg (r - (1 + e) ^ 2)]
  have hone : ∀ r, kerrRmb (1 - e ^ 2) ≤ r → 1 ≤ ratio (1 - e ^ 2) l r := fun r hr => by
    have p := mul_pos (hrb r hr).2.1 (hdelta r hr)
    unfold ratio
    rw [le_div_iff₀ p, one_mul]
    exact hdee r hr
  have hpot : ∀ r, kerrRmb (1 - e ^ 2) ≤ r → kerrPotential (1 - e ^ 2) ![0, r, Real.pi / 2, 0] l = 1 / 2 * Real.log (ratio (1 - e ^ 2) l r) :=
    fun r hr => plane_eq (hrb r hr).2.1 (hdelta r hr) (lt_of_lt_of_le (mul_pos (hrb r hr).2.1 (hdelta r hr)) (hdee r hr))
  obtain ⟨R, hR⟩ : ∃ R : ℝ → ℝ, R = fun r => 2 * (√r ^ 3 - 2 * √r + (1 - e ^ 2)) * (l - ellW (1 - e ^ 2) √r) *
      ((l - (1 - e ^ 2)) * (√r ^ 3 - 2 * √r - (1 - e ^ 2)) + √r ^ 3 * (√r + (1 - e ^ 2))) /
      (√r ^ 2 * (√r ^ 2) * (√r ^ 4 - 2 * √r ^ 2 + (1 - e ^ 2) ^ 2) ^ 2) := ⟨_, rfl⟩
  have hder : ∀ r, kerrRmb (1 - e ^ 2) ≤ r → HasDerivAt (ratio (1 - e ^ 2) l) (R r) r := fun r hr => by
    obtain ⟨x1, x2, x3⟩ := hrb r hr
    have := ratio_deriv (a := 1 - e ^ 2) (l := l) (w := √r) (by linarith) (horizon_pos e0 x1).ne' (den_pos e0 x1).ne'
    rw [← x3] at this
    rw [hR]
    simpa [← x3] using this
  have hsg : ∀ r, kerrRmb (1 - e ^ 2) ≤ r → ∃ q, 0 < q ∧ R r = q * (l - ellW (1 - e ^ 2) √r) := fun r hr => by
    obtain ⟨x1, x2, x3⟩ := hrb r hr
    have f := fac_pos (x := l - (1 - e ^ 2)) e0 e1 (by linarith only [la, lga]) (by nlinarith only [lb, hlb]) x1
    have d := den_pos e0 x1
    have o := horizon_pos e0 x1
    have w0 : 0 < √r := by linarith
    refine ⟨2 * (√r ^ 3 - 2 * √r + (1 - e ^ 2)) * ((l - (1 - e ^ 2)) * (√r ^ 3 - 2 * √r - (1 - e ^ 2)) + √r ^ 3 * (√r + (1 - e ^ 2))) /
      (√r ^ 2 * (√r ^ 2) * (√r ^ 4 - 2 * √r ^ 2 + (1 - e ^ 2) ^ 2) ^ 2), by positivity, ?_⟩
    rw [hR]
    ring
  have hlog : ∀ {x y}, kerrRmb (1 - e ^ 2) ≤ x → kerrRmb (1 - e ^ 2) ≤ y → ratio (1 - e ^ 2) l x < ratio (1 - e ^ 2) l y →
      kerrPotential (1 - e ^ 2) ![0, x, Real.pi / 2, 0] l < kerrPotential (1 - e ^ 2) ![0, y, Real.pi / 2, 0] l := fun {x y} hx hy h => by
    rw [hpot x hx, hpot y hy]
    have := Real.log_lt_log (lt_of_lt_of_le one_pos (hone x hx)) h
    linarith
  have hbk : kerrRmb (1 - e ^ 2) < wk ^ 2 := by rw [hmb]; nlinarith only [k1, e0]
  have hks : wk ^ 2 < kerrRms (1 - e ^ 2) := by rw [hms]; nlinarith only [k2, wk0]
  have hsc : kerrRms (1 - e ^ 2) < wc ^ 2 := by rw [hms]; nlinarith only [c1, s0]
  have hc1000 : wc ^ 2 < 1000 := by
    have := Real.sq_sqrt (show (0 : ℝ) ≤ 1000 by norm_num)
    nlinarith only [this, c2, wc0]
  have hbc : kerrRmb (1 - e ^ 2) < wc ^ 2 := hbk.trans (hks.trans hsc)
  have sq_lt : ∀ {r w : ℝ}, 0 ≤ r → 0 < w → (√r < w ↔ r < w ^ 2) := fun h h' => Real.sqrt_lt' h'
  refine ⟨wk ^ 2, wc ^ 2, ⟨hbk, hks⟩, ⟨hsc, hc1000⟩, ⟨?_, ?_⟩, ?_, ?_, ?_, ?_, ?_, ?_, ?_, ?_, ?_⟩
  · rw [kerrL_eq (by positivity), sk, k3]
  · rw [kerrL_eq (by positivity), sc, c3]
  · intro x hx y hy hxy
    obtain ⟨x1, x2, -⟩ := hrb x hx.1
    obtain ⟨y1, y2, -⟩ := hrb y hy.1
    rw [kerrL_eq x2.le, kerrL_eq y2.le]
    have hws' : √(kerrRms (1 - e ^ 2)) = ws := hws.symm
    exact anti ⟨x1, by rw [← hws']; exact Real.sqrt_le_sqrt hx.2⟩ ⟨y1, by rw [← hws']; exact Real.sqrt_le_sqrt hy.2⟩ (Real.sqrt_lt_sqrt x2.le hxy)
  · intro x hx y hy hxy
    have x2 : 0 < x := lt_of_lt_of_le (by rw [hms]; positivity) hx
    have y2 : 0 < y := x2.trans hxy
    rw [kerrL_eq x2.le, kerrL_eq y2.le]
    have hws' : √(kerrRms (1 - e ^ 2)) = ws := hws.symm
    exact mono (by rw [← hws']; exact Real.sqrt_le_sqrt hx) (by rw [← hws']; exact Real.sqrt_le_sqrt hy) (Real.sqrt_lt_sqrt x2.le hxy)
  · intro r hr h
    obtain ⟨x1, x2, x3⟩ := hrb r hr
    rw [kerrL_eq x2.le] at h
    rcases lt_trichotomy √r wk with y | y | y
    · exact absurd h (sgn1 _ x1 y).ne'
    · left; rw [x3, y]
    · rcases lt_trichotomy √r wc with z | z | z
      · exact absurd h (sgn2 _ y z).ne
      · right; rw [x3, z]
      · exact absurd h (sgn3 _ z).ne'
  · intro x hx y hy hxy
    refine hlog hy.1 hx.1 ((dips (convex_Icc (kerrRmb (1 - e ^ 2)) (wk ^ 2)) fun r hr => hder r hr.1).2 ?_ hx hy hxy)
    intro r hr
    rw [interior_Icc] at hr
    obtain ⟨x1, x2, -⟩ := hrb r hr.1.le
    obtain ⟨q, q0, hq⟩ := hsg r hr.1.le
    rw [hq]
    have := sgn1 _ x1 ((Real.sqrt_lt' wk0).2 hr.2)
    exact mul_neg_of_pos_of_neg q0 (by linarith)
  · intro x hx y hy hxy
    refine hlog (hbk.le.trans hx.1) (hbk.le.trans hy.1) ((dips (convex_Icc (wk ^ 2) (wc ^ 2)) fun r hr => hder r (hbk.le.trans hr.1)).1 ?_ hx hy hxy)
    intro r hr
    rw [interior_Icc] at hr
    obtain ⟨q, q0, hq⟩ := hsg r (hbk.le.trans hr.1.le)
    rw [hq]
    have := sgn2 _ (Real.lt_sqrt_of_sq_lt hr.1) ((Real.sqrt_lt' wc0).2 hr.2)
    exact mul_pos q0 (by linarith)
  · intro x hx y hy hxy
    refine hlog (hbc.le.trans hy) (hbc.le.trans hx) ((dips (convex_Ici (wc ^ 2)) fun r hr => hder r (hbc.le.trans hr)).2 ?_ hx hy hxy)
    intro r hr
    rw [interior_Ici] at hr
    have hr' : wc ^ 2 < r := hr
    obtain ⟨q, q0, hq⟩ := hsg r (hbc.le.trans hr'.le)
    rw [hq]
    have := sgn3 _ (Real.lt_sqrt_of_sq_lt hr')
    exact mul_neg_of_pos_of_neg q0 (by linarith)
  · intro r hr
    rw [hpot r hr.le]
    have hr' : (1 + e) ^ 2 < r := by rw [← hmb]; exact hr
    have p := mul_pos (hrb r hr.le).2.1 (hdelta r hr.le)
    have : 1 < ratio (1 - e ^ 2) l r := by
      have := dee_ge (l := l) (r := r) e0 e1 (by linarith only [h0, la, lga]) (by linarith only [lb, hlb]) hr'.le
      have q : 0 < (r - (1 + e) ^ 2) ^ 2 := pow_pos (by linarith only [hr']) 2
      unfold ratio
      rw [lt_div_iff₀ p, one_mul]
      linarith only [this, q]
    have := Real.log_pos this
    linarith only [this]
  · intro r hr
    have hr' : kerrRmb (1 - e ^ 2) ≤ r := by rw [hmb]; nlinarith only [hr, e0, e1]
    rw [hpot r hr']
    have p := mul_pos (hrb r hr').2.1 (hdelta r hr')
    have x0 : 0 < l - (1 - e ^ 2) := by linarith only [la, lga]
    have x4 : l - (1 - e ^ 2) ≤ 4 := by nlinarith only [lb, hlb, e1, e0]
    have r0 : 0 < r := by linarith only [hr]
    have : ratio (1 - e ^ 2) l r ≤ 1 + 8 / r := by
      unfold ratio
      rw [div_le_iff₀ p]
      have hx : (l - (1 - e ^ 2)) ^ 2 ≤ r ^ 2 := pow_le_pow_left₀ x0.le (by linarith only [x4, hr]) 2
      have e2 : (1 + 8 / r) * (r * (r ^ 2 - 2 * r + (1 - e ^ 2) ^ 2)) = r * (r ^ 2 - 2 * r + (1 - e ^ 2) ^ 2) + 8 * (r ^ 2 - 2 * r + (1 - e ^ 2) ^ 2) := by
        field_simp
      rw [e2]
      unfold dee
      nlinarith only [hx, hr, mul_nonneg r0.le (sq_nonneg l), sq_nonneg (1 - e ^ 2), mul_nonneg r0.le (sub_nonneg.2 hr)]
    have q : 0 < ratio (1 - e ^ 2) l r := lt_of_lt_of_le one_pos (hone r hr')
    have := Real.log_le_sub_one_of_pos q
    have e8 : 4 / r = 1 / 2 * (8 / r) := by ring
    rw [e8]
    linarith only [this, ‹ratio (1 - e ^ 2) l r ≤ 1 + 8 / r›]
  · have hc : ContinuousOn (fun r => 1 / 2 * Real.log (ratio (1 - e ^ 2) l r)) (Set.Ici (kerrRmb (1 - e ^ 2))) := by
      refine continuousOn_const.mul (ContinuousOn.log (fun r hr => (hder r hr).continuousAt.continuousWithinAt) fun r hr => ?_)
      have := hone r hr
      linarith only [this]
    exact hc.congr fun r hr => hpot r hr

theorem kerrL_cont {a r : ℝ} (h0 : 0 ≤ a) (h1 : a < 1) (hr : kerrRmb a ≤ r) : ContinuousAt (kerrL a) r := by
  obtain ⟨e, e0, e1, ha, hmb, -⟩ := spin h0 h1
  obtain ⟨x1, x2, -⟩ := sqrt_range e0 (show (1 + e) ^ 2 ≤ r by rw [← hmb]; exact hr)
  have h : ContinuousAt (fun r => ellW a √r) r := by
    refine ContinuousAt.comp (g := ellW a) ?_ Real.continuous_sqrt.continuousAt
    rw [ha]
    exact (ellW_deriv (den_pos e0 x1).ne').continuousAt
  refine h.congr ?_
  filter_upwards [lt_mem_nhds x2] with y hy
  exact (kerrL_eq hy.le).symm

/-- Next to a change of sign there is a zero. -/
theorem near {f : ℝ → ℝ} {x y : ℝ} (hf : ∀ z ∈ Set.uIcc x y, ContinuousAt f z) (h : f x * f y < 0) : ∃ z ∈ Set.uIcc x y, f z = 0 ∧ |x - z| ≤ |x - y| := by
  have hc : ContinuousOn f (Set.uIcc x y) := fun z hz => (hf z hz).continuousWithinAt
  have hz : (0 : ℝ) ∈ Set.uIcc (f x) (f y) := by
    rcases lt_or_ge (f x) 0 with k | k
    · exact Set.mem_uIcc.2 (.inl ⟨k.le, by nlinarith⟩)
    · exact Set.mem_uIcc.2 (.inr ⟨by nlinarith, k⟩)
  obtain ⟨z, hz1, hz2⟩ := intermediate_value_uIcc hc hz
  refine ⟨z, hz1, hz2, ?_⟩
  have := Set.abs_sub_left_of_mem_uIcc hz1
  rw [abs_sub_comm] at this
  rwa [abs_sub_comm x y]

/-- The searches of `lambda(lam)` in Kerr. -/
theorem searches {a lam l : ℝ} (h0 : 0 ≤ a) (h1 : a < 1) (l0 : 0 < lam) (l1 : lam < 1)
    (hl : l = lam * (kerrL a (kerrRmb a) - kerrL a (kerrRms a)) + kerrL a (kerrRms a)) :
    ∃ rk rc c c', Lobe a l rk rc ∧ root (fun r => kerrL a r - l) (kerrRmb a) (kerrRms a) = some c ∧
      root (fun r => kerrL a r - l) (kerrRms a) 1000 = some c' ∧
      (kerrRmb a ≤ c ∧ c ≤ kerrRms a ∧ (|kerrL a c - l| ≤ 1 / 1000000000 ∨ |c - rk| < 1 / 100000)) ∧
      kerrRms a ≤ c' ∧ c' ≤ 1000 ∧ (|kerrL a c' - l| ≤ 1 / 1000000000 ∨ |c' - rc| < 1 / 100000) := by
  obtain ⟨rk, rc, L⟩ := lobe h0 h1 l0 l1
  rw [← hl] at L
  have m1 : kerrRmb a < kerrRms a := L.cusp.1.trans L.cusp.2
  have m2 : kerrRms a < 1000 := L.centre.1.trans L.centre.2
  have v1 : l < kerrL a (kerrRmb a) := by
    rw [← L.free.1]; exact L.slow ⟨le_rfl, m1.le⟩ ⟨L.cusp.1.le, L.cusp.2.le⟩ L.cusp.1
  have v2 : kerrL a (kerrRms a) < l := by
    rw [← L.free.2]; exact L.fast (Set.mem_Ici.2 le_rfl) L.centre.1.le L.centre.1
  have v3 : l < kerrL a 1000 := by
    rw [← L.free.2]; exact L.fast L.centre.1.le m2.le L.centre.2
  have hcont : ∀ z, kerrRmb a ≤ z → ContinuousAt (fun r => kerrL a r - l) z := fun z hz => (kerrL_cont h0 h1 hz).sub continuousAt_const
  obtain ⟨c, hc, nc⟩ := root_ok (fun r => kerrL a r - l) (kerrRmb a) (kerrRms a) (by nlinarith)
  obtain ⟨c', hc', nc'⟩ := root_ok (fun r => kerrL a r - l) (kerrRms a) 1000 (by nlinarith)
  refine ⟨rk, rc, c, c', L, hc, hc', ?_, ?_⟩
  · obtain ⟨n1, n2⟩ := nc
    rw [Set.uIcc_of_le m1.le] at n1 n2
    refine ⟨n1.1, n1.2, n2.imp id fun ⟨y, hy, hy1, hy2⟩ => ?_⟩
    have hsub : ∀ z ∈ Set.uIcc c y, z ∈ Set.Icc (kerrRmb a) (kerrRms a) := fun z hz => Set.uIcc_subset_Icc n1 hy hz
    obtain ⟨z, z1, z2, z3⟩ := near (fun z hz => hcont z (hsub z hz).1) hy2
    rcases L.only z (hsub z z1).1 (by linarith) with e | e
    · rw [e] at z3; exact lt_of_le_of_lt z3 hy1
    · have := (hsub z z1).2
      have := L.centre.1
      linarith
  · obtain ⟨n1, n2⟩ := nc'
    rw [Set.uIcc_of_le m2.le] at n1 n2
    refine ⟨n1.1, n1.2, n2.imp id fun ⟨y, hy, hy1, hy2⟩ => ?_⟩
    have hsub : ∀ z ∈ Set.uIcc c' y, z ∈ Set.Icc (kerrRms a) 1000 := fun z hz => Set.uIcc_subset_Icc n1 hy hz
    obtain ⟨z, z1, z2, z3⟩ := near (fun z hz => hcont z (m1.le.trans (hsub z hz).1)) hy2
    rcases L.only z (m1.le.trans (hsub z z1).1) (by linarith) with e | e
    · have := (hsub z z1).1
      have := L.cusp.2
      linarith
    · rw [e] at z3; exact lt_of_le_of_lt z3 hy1

/-- **C132** The torus that fills its lobe is closed: in the plane of the equator the potential is above that of the cusp from the cusp to a radius beyond the
centre, and nowhere else outside the cusp. -/
theorem closed {a l rk rc : ℝ} (L : Lobe a l rk rc) :
    ∃ ro, rc < ro ∧ ∀ r, rk ≤ r → (kerrPotential a ![0, rk, Real.pi / 2, 0] l < kerrPotential a ![0, r, Real.pi / 2, 0] l ↔ rk < r ∧ r < ro) := by
  obtain ⟨W, hW⟩ : ∃ W : ℝ → ℝ, W = fun r => kerrPotential a ![0, r, Real.pi / 2, 0] l := ⟨_, rfl⟩
  have up := L.up
  have away := L.away
  have cont := L.cont
  have far := L.far
  have bound := L.bound rk L.cusp.1
  rw [← hW] at up away cont
  simp only [show ∀ r, kerrPotential a ![0, r, Real.pi / 2, 0] l = W r from fun r => by rw [hW]] at bound far ⊢
  have hkc : rk < rc := L.cusp.2.trans L.centre.1
  have hb : kerrRmb a ≤ rc := (L.cusp.1.trans hkc).le
  have top : W rk < W rc := up ⟨le_rfl, hkc.le⟩ ⟨hkc.le, le_rfl⟩ hkc
  obtain ⟨R, hR⟩ : ∃ R, R = max (max 4 (rc + 1)) (8 / W rk) := ⟨_, rfl⟩
  have R4 : 4 ≤ R := by rw [hR]; exact (le_max_left _ _).trans (le_max_left _ _)
  have Rc : rc < R := by rw [hR]; exact lt_of_lt_of_le (by linarith) ((le_max_right _ _).trans (le_max_left _ _))
  have R8 : 8 / W rk ≤ R := by rw [hR]; exact le_max_right _ _
  have low : W R < W rk := by
    have h1 := far R R4
    have : 4 / R < W rk := by
      rw [div_lt_iff₀ (by linarith)]
      rw [div_le_iff₀ bound] at R8
      nlinarith
    linarith
  obtain ⟨ro, ⟨o1, o2⟩, o3⟩ : ∃ r ∈ Set.Ioo rc R, W r = W rk :=
    intermediate_value_Ioo' Rc.le (cont.mono fun x hx => hb.trans hx.1) ⟨low, top⟩
  refine ⟨ro, o1, fun r hr => ⟨fun h => ⟨?_, ?_⟩, fun ⟨h1, h2⟩ => ?_⟩⟩
  · rcases hr.lt_or_eq with k | k
    · exact k
    · rw [k] at h; exact absurd h (lt_irrefl _)
  · by_contra k
    have := away.antitoneOn o1.le (o1.le.trans (not_lt.1 k)) (not_lt.1 k)
    linarith
  · rcases le_total r rc with k | k
    · exact up ⟨le_rfl, hkc.le⟩ ⟨hr, k⟩ h1
    · rw [← o3]; exact away k o1.le h2

/-- **C132** The cusp and the centre that the object has found in Kerr are these two radii, up to the tolerance of the search: each is less than 1e-5 from it, or the
angular momentum of the free orbit there is that of the torus up to 1e-9. -/
theorem located {a unit : ℝ} {s : Torus} (h0 : 0 ≤ a) (h1 : a < 1) (hs : Filled (kerrHole a unit) s) (l0 : 0 < s.lam) :
    ∃ rk rc c c', Lobe a s.l0 rk rc ∧ s.rin = some c ∧ s.centre = some c' ∧
      (|kerrL a c - s.l0| ≤ 1 / 1000000000 ∨ |c - rk| < 1 / 100000) ∧ (|kerrL a c' - s.l0| ≤ 1 / 1000000000 ∨ |c' - rc| < 1 / 100000) := by
  have hb := hs.below
  obtain ⟨rk, rc, c, c', L, hc, hc', k, k'⟩ := searches h0 h1 l0 (by linarith) hs.l0
  exact ⟨rk, rc, c, c', L, hs.rin.trans hc, hs.centre.trans hc', k.2.2, k'.2.2⟩

/-- **C132** Where the angular momentum of the torus is that of the free orbit, in the plane of the equator, the gas moves on that orbit. -/
theorem free_fall {a unit : ℝ} {s : Torus} {p : Vec} (h0 : 0 ≤ a) (h1 : a < 1) (hr : kerrRmb a ≤ p 1) (hθ : p 2 = Real.pi / 2)
    (hl : kerrL a (p 1) = s.l0) : ∃ u, s.velocity (kerrHole a unit) p = .ok u ∧ IsRotating (gmunu a p) u ∧ IsFree (gmunu a) p u := by
  obtain ⟨e, e0, e1, ha, hmb, -⟩ := spin h0 h1
  obtain ⟨x1, x2, x3⟩ := sqrt_range e0 (show (1 + e) ^ 2 ≤ p 1 by rw [← hmb]; exact hr)
  have hz := horizon_pos e0 x1
  rw [← ha] at hz
  have hd : 0 < p 1 * p 1 - 2 * p 1 + a * a := by
    have : p 1 * p 1 = √(p 1) ^ 4 := by
      rw [x3, Real.sqrt_sq (Real.sqrt_nonneg _)]; ring
    have : p 1 * p 1 - 2 * p 1 + a * a = √(p 1) ^ 4 - 2 * √(p 1) ^ 2 + a ^ 2 := by
      rw [this, ← x3]; ring
    rw [this]; exact hz
  have hsl : KerrSlow a 1 (p 1) := by
    have := slow_pos e0 x1
    rw [← ha] at this
    unfold KerrSlow
    linarith
  obtain ⟨k1, k2, -⟩ := kerr_circular (dir := 1) x2 hd.ne' hθ (.inl rfl) hsl
  have hs : Real.sin (p 2) ≠ 0 := by rw [hθ]; simp
  have hT : Turns (gmunu a p) s.l0 (kerrVel a p 1) := by
    refine ⟨k1, ?_⟩
    have hk := kerr_l x2 hθ hsl
    rw [hl] at hk
    have hne : lower (gmunu a p) (kerrVel a p 1) 0 ≠ 0 := by
      rw [(kerr_energy x2 hθ (.inl rfl) hsl).1]
      have d := den_pos e0 x1
      rw [← ha] at d
      have w0 : 0 < √(p 1) := by linarith
      unfold KerrSlow at hsl
      have q : 0 < √(√(p 1) ^ 3 * (√(p 1) ^ 3 - 3 * √(p 1) + 2 * a * 1)) := Real.sqrt_pos.2 (mul_pos (pow_pos w0 3) hsl)
      exact div_ne_zero (by linarith) q.ne'
    rw [hk]
    field_simp
  refine ⟨kerrVel a p 1, ?_, k1, k2⟩
  rcases e : s.adaf with _ | _
  · exact (velocity_kerr ⟨x2, hd⟩ hs e).1 _ hT
  · simp [Torus.velocity, e, kerrHole]

/-! ### An example -/

theorem rms_zero : kerrRms 0 = 6 := by
  unfold kerrRms
  norm_num

theorem rmb_zero : kerrRmb 0 = 4 := by
  unfold kerrRmb
  norm_num

theorem kerrL_zero {r : ℝ} (hr : 2 < r) : kerrL 0 r = √r * r / (r - 2) := by
  rw [kerrL_eq (by linarith)]
  unfold ellW
  have h := Real.sq_sqrt (show 0 ≤ r by linarith)
  have w0 : 0 < √r := Real.sqrt_pos.2 (by linarith)
  have e : √r ^ 3 - 2 * √r + 0 = √r * (r - 2) := by linear_combination √r * h
  have d : r - 2 ≠ 0 := by linarith
  rw [e, div_eq_div_iff (mul_ne_zero w0.ne' d) d]
  linear_combination (√r ^ 2 * (r - 2)) * h

/-- The torus around a Schwarzschild black hole half way between the two angular momenta: it is accepted. -/
theorem schwarzschild : ∃ s s' c c', Torus.new.call (.metric (some (kerrHole 0 1))) = .ok s ∧ s.call (.lambda (1 / 2)) = .ok s' ∧ Orderly s' ∧
    s'.metric = some (kerrHole 0 1) ∧ Filled (kerrHole 0 1) s' ∧ s'.lam = 1 / 2 ∧ s'.rin = some c ∧ s'.cusp = some c ∧ s'.centre = some c' ∧
    4.39 < c ∧ c < 4.51 ∧ 8.69 < c' ∧ c' < 8.91 ∧ 3.8371 < s'.l0 ∧ s'.l0 < 3.8372 ∧
    1 / 2 * Real.log 1.05 < kerrPotential 0 ![0, c, Real.pi / 2, 0] s'.l0 ∧ kerrPotential 0 ![0, c, Real.pi / 2, 0] s'.l0 < 1 / 2 * Real.log 1.08 ∧
    1 / 2 * Real.log 1.09 < kerrPotential 0 ![0, c', Real.pi / 2, 0] s'.l0 := by
  obtain ⟨s, hs⟩ : ∃ s : Torus, s = { Torus.new with metric := some (kerrHole 0 1) } := ⟨_, rfl⟩
  have call1 : Torus.new.call (.metric (some (kerrHole 0 1))) = .ok s := by
    rw [hs]; simp [Torus.call, Torus.again, Torus.new]
  have hm : s.metric = some (kerrHole 0 1) := by rw [hs]
  obtain ⟨l, hl⟩ : ∃ l, l = 1 / 2 * (kerrL 0 (kerrRmb 0) - kerrL 0 (kerrRms 0)) + kerrL 0 (kerrRms 0) := ⟨_, rfl⟩
  obtain ⟨rk, rc, c, c', L, hc, hc', ⟨q1, q2, q3⟩, q4, q5, q6⟩ := searches (a := 0) le_rfl one_pos (by norm_num) (by norm_num) hl
  have bnd : ∀ {x y z : ℝ}, 0 ≤ x → x ^ 2 < y → y < z ^ 2 → 0 < z → x < √y ∧ √y < z := fun h1 h2 h3 h4 =>
    ⟨Real.lt_sqrt_of_sq_lt h2, (Real.sqrt_lt' h4).2 h3⟩
  obtain ⟨a1, a2⟩ := bnd (x := 2.449489) (y := 6) (z := 2.44949) (by norm_num) (by norm_num) (by norm_num) (by norm_num)
  have hl1 : l = 2 + 3 / 4 * √6 := by
    rw [hl, rms_zero, rmb_zero, kerrL_zero (by norm_num), kerrL_zero (by norm_num), show √(4 : ℝ) = 2 by
      rw [show (4 : ℝ) = 2 ^ 2 by norm_num]; exact Real.sqrt_sq (by norm_num)]
    ring
  have l1 : 3.83711 < l := by rw [hl1]; norm_num at a1 ⊢; linarith
  have l2 : l < 3.837121 := by rw [hl1]; norm_num at a2 ⊢; linarith
  rw [rms_zero, rmb_zero] at *
  obtain ⟨b1, -⟩ := bnd (x := 2.0976) (y := 4.4) (z := 3) (by norm_num) (by norm_num) (by norm_num) (by norm_num)
  obtain ⟨-, b2⟩ := bnd (x := 2) (y := 4.5) (z := 2.12133) (by norm_num) (by norm_num) (by norm_num) (by norm_num)
  obtain ⟨-, b3⟩ := bnd (x := 2) (y := 8.7) (z := 2.9496) (by norm_num) (by norm_num) (by norm_num) (by norm_num)
  obtain ⟨b4, -⟩ := bnd (x := 2.98328) (y := 8.9) (z := 3) (by norm_num) (by norm_num) (by norm_num) (by norm_num)
  have v1 : l + 0.001 < kerrL 0 4.4 := by
    rw [kerrL_zero (by norm_num), lt_div_iff₀ (by norm_num)]; nlinarith only [b1, l2]
  have v2 : kerrL 0 4.5 < l - 0.001 := by
    rw [kerrL_zero (by norm_num), div_lt_iff₀ (by norm_num)]; nlinarith only [b2, l1]
  have v3 : kerrL 0 8.7 < l - 0.001 := by
    rw [kerrL_zero (by norm_num), div_lt_iff₀ (by norm_num)]; nlinarith only [b3, l1]
  have v4 : l + 0.001 < kerrL 0 8.9 := by
    rw [kerrL_zero (by norm_num), lt_div_iff₀ (by norm_num)]; nlinarith only [b4, l2]
  have i44 : (4.4 : ℝ) ∈ Set.Icc (4 : ℝ) 6 := by norm_num
  have i45 : (4.5 : ℝ) ∈ Set.Icc (4 : ℝ) 6 := by norm_num
  have i87 : (8.7 : ℝ) ∈ Set.Ici (6 : ℝ) := by norm_num
  have i89 : (8.9 : ℝ) ∈ Set.Ici (6 : ℝ) := by norm_num
  have sl := L.slow
  have fs := L.fast
  have lc := L.cusp
  have lcc := L.centre
  rw [rms_zero] at sl fs lc lcc
  rw [rmb_zero] at sl lc
  have irk : rk ∈ Set.Icc (4 : ℝ) 6 := ⟨lc.1.le, lc.2.le⟩
  have irc : rc ∈ Set.Ici (6 : ℝ) := lcc.1.le
  have f1 := L.free.1
  have f2 := L.free.2
  have rk1 : 4.4 < rk := by
    by_contra h
    have := sl.antitoneOn irk i44 (not_lt.1 h)
    linarith
  have rk2 : rk < 4.5 := by
    by_contra h
    have := sl.antitoneOn i45 irk (not_lt.1 h)
    linarith
  have rc1 : 8.7 < rc := by
    by_contra h
    have := fs.monotoneOn irc i87 (not_lt.1 h)
    linarith
  have rc2 : rc < 8.9 := by
    by_contra h
    have := fs.monotoneOn i89 irc (not_lt.1 h)
    linarith
  have ic : c ∈ Set.Icc (4 : ℝ) 6 := ⟨q1, q2⟩
  have ic' : c' ∈ Set.Ici (6 : ℝ) := q4
  have c1 : 4.39 < c := by
    by_contra h
    rcases q3 with q | q
    · have := sl.antitoneOn ic i44 (by norm_num at h ⊢; linarith)
      have := (abs_le.1 q).2
      norm_num at *
      linarith
    · have := (abs_lt.1 q).1
      norm_num at *
      linarith
  have c2 : c < 4.51 := by
    by_contra h
    rcases q3 with q | q
    · have := sl.antitoneOn i45 ic (by norm_num at h ⊢; linarith)
      have := (abs_le.1 q).1
      norm_num at *
      linarith
    · have := (abs_lt.1 q).2
      norm_num at *
      linarith
  have c3 : 8.69 < c' := by
    by_contra h
    rcases q6 with q | q
    · have := fs.monotoneOn ic' i87 (by norm_num at h ⊢; linarith)
      have := (abs_le.1 q).1
      norm_num at *
      linarith
    · have := (abs_lt.1 q).1
      norm_num at *
      linarith
  have c4 : c' < 8.91 := by
    by_contra h
    rcases q6 with q | q
    · have := fs.monotoneOn i89 ic' (by norm_num at h ⊢; linarith)
      have := (abs_le.1 q).2
      norm_num at *
      linarith
    · have := (abs_lt.1 q).2
      norm_num at *
      linarith
  clear v1 v2 v3 v4 i44 i45 i87 i89 sl fs irk irc q3 q6 b1 b2 b3 b4 rk1 rk2 rc1 rc2 f1 f2 ic ic'
  -- the potentials
  have ll : 14.7234 < l ^ 2 ∧ l ^ 2 < 14.7236 := by constructor <;> nlinarith only [l1, l2]
  have rat : ∀ r, 2 < r → dee 0 l r = r ^ 3 - l ^ 2 * (r - 2) ∧ 0 < r * (r ^ 2 - 2 * r + 0 ^ 2) := fun r hr =>
    ⟨by unfold dee; ring, mul_pos (by linarith) (by nlinarith)⟩
  have pl : ∀ r x, 2 < r → 0 < x → x * (r ^ 3 - 2 * r ^ 2) < r ^ 3 - l ^ 2 * (r - 2) →
      1 / 2 * Real.log x < kerrPotential 0 ![0, r, Real.pi / 2, 0] l := by
    intro r x hr x0 h
    obtain ⟨e, k⟩ := rat r hr
    have k' : 0 < r ^ 2 - 2 * r + 0 ^ 2 := pos_of_mul_pos_right k (by linarith)
    have kk : 0 < r ^ 3 - 2 * r ^ 2 := by linarith [show r * (r ^ 2 - 2 * r + 0 ^ 2) = r ^ 3 - 2 * r ^ 2 by ring]
    have hd : 0 < dee 0 l r := by rw [e]; linarith [mul_pos x0 kk]
    rw [plane_eq (by linarith) k' hd]
    have : x < ratio 0 l r := by
      unfold ratio
      rw [lt_div_iff₀ k, e]
      linarith [show x * (r * (r ^ 2 - 2 * r + 0 ^ 2)) = x * (r ^ 3 - 2 * r ^ 2) by ring]
    linarith [Real.log_lt_log x0 this]
  have pu : ∀ r x, 2 < r → 0 < r ^ 3 - l ^ 2 * (r - 2) → r ^ 3 - l ^ 2 * (r - 2) < x * (r ^ 3 - 2 * r ^ 2) →
      kerrPotential 0 ![0, r, Real.pi / 2, 0] l < 1 / 2 * Real.log x := by
    intro r x hr x0 h
    obtain ⟨e, k⟩ := rat r hr
    have k' : 0 < r ^ 2 - 2 * r + 0 ^ 2 := pos_of_mul_pos_right k (by linarith)
    have hd : 0 < dee 0 l r := by rw [e]; exact x0
    rw [plane_eq (by linarith) k' hd]
    have : ratio 0 l r < x := by
      unfold ratio
      rw [div_lt_iff₀ k, e]
      linarith [show x * (r * (r ^ 2 - 2 * r + 0 ^ 2)) = x * (r ^ 3 - 2 * r ^ 2) by ring]
    have p : 0 < ratio 0 l r := div_pos hd k
    linarith [Real.log_lt_log p this]
  have w1 : 1 / 2 * Real.log 1.05 < kerrPotential 0 ![0, c, Real.pi / 2, 0] l := by
    refine pl c 1.05 (by norm_num at c1; linarith) (by norm_num) ?_
    norm_num at c1 c2 ⊢
    nlinarith only [c1, c2, ll.2, mul_pos (sub_pos.2 c1) (sub_pos.2 c2), mul_pos (mul_pos (sub_pos.2 c1) (sub_pos.2 c2)) (sub_pos.2 c1)]
  have w2 : kerrPotential 0 ![0, c, Real.pi / 2, 0] l < 1 / 2 * Real.log 1.08 := by
    refine pu c 1.08 (by norm_num at c1; linarith) ?_ ?_
    · norm_num at c1 c2 ⊢
      nlinarith only [c1, c2, ll.2, mul_pos (sub_pos.2 c1) (sub_pos.2 c2), mul_pos (mul_pos (sub_pos.2 c1) (sub_pos.2 c2)) (sub_pos.2 c1)]
    · norm_num at c1 c2 ⊢
      nlinarith only [c1, c2, ll.1, mul_pos (sub_pos.2 c1) (sub_pos.2 c2), mul_pos (mul_pos (sub_pos.2 c1) (sub_pos.2 c2)) (sub_pos.2 c1)]
  have w3 : 1 / 2 * Real.log 1.09 < kerrPotential 0 ![0, c', Real.pi / 2, 0] l := by
    refine pl c' 1.09 (by norm_num at c3; linarith) (by norm_num) ?_
    norm_num at c3 c4 ⊢
    nlinarith only [c3, c4, ll.2, mul_pos (sub_pos.2 c3) (sub_pos.2 c4), mul_pos (mul_pos (sub_pos.2 c3) (sub_pos.2 c4)) (sub_pos.2 c3)]
  have w4 : kerrPotential 0 ![0, 5000, Real.pi / 2, 0] l < 1 / 2 * Real.log 1.05 := by
    refine pu 5000 1.05 (by norm_num) ?_ ?_
    · nlinarith only [ll.2]
    · nlinarith only [ll.1]
  have lg : Real.log 1.08 < Real.log 1.09 := Real.log_lt_log (by norm_num) (by norm_num)
  -- the outer radius
  obtain ⟨Ws, hWs⟩ : ∃ Ws, Ws = kerrPotential 0 ![0, c, Real.pi / 2, 0] l := ⟨_, rfl⟩
  obtain ⟨Wc, hWc⟩ : ∃ Wc, Wc = kerrPotential 0 ![0, c', Real.pi / 2, 0] l := ⟨_, rfl⟩
  have g0 : 0 < Wc - Ws := by rw [hWs, hWc]; linarith
  obtain ⟨ro, hro, -⟩ := root_ok ((kerrHole 0 1).rel l Ws (1 / (Wc - Ws))) c' 5000 (by
    have e1 : (kerrHole 0 1).rel l Ws (1 / (Wc - Ws)) c' = 1 := by
      show (kerrPotential 0 ![0, c', Real.pi / 2, 0] l - Ws) * (1 / (Wc - Ws)) = 1
      rw [← hWc]; field_simp
    have e2 : (kerrHole 0 1).rel l Ws (1 / (Wc - Ws)) 5000 < 0 := by
      show (kerrPotential 0 ![0, 5000, Real.pi / 2, 0] l - Ws) * (1 / (Wc - Ws)) < 0
      exact mul_neg_of_neg_of_pos (by rw [hWs]; linarith) (by positivity)
    rw [e1, one_mul]; exact e2)
  have hf : s.fill (kerrHole 0 1) (1 / 2) = { s with roche := true, rinner := false, lam := 1 / 2, l0 := l, rin := some c, cusp := some c, centre := some c', Ws := some Ws, Wc := some Wc, dW := some (some (1 / (Wc - Ws))) } := by
    have e1 : (1 / 2 * ((kerrHole 0 1).ell (kerrHole 0 1).rmb - (kerrHole 0 1).ell (kerrHole 0 1).rms) + (kerrHole 0 1).ell (kerrHole 0 1).rms) = l := by
      show 1 / 2 * (kerrL 0 (kerrRmb 0) - kerrL 0 (kerrRms 0)) + kerrL 0 (kerrRms 0) = l
      rw [rms_zero, rmb_zero]; exact hl.symm
    have e2 : root ((kerrHole 0 1).cross l) (kerrHole 0 1).rmb (kerrHole 0 1).rms = some c := by
      show root (fun r => kerrL 0 r - l) (kerrRmb 0) (kerrRms 0) = some c
      rw [rms_zero, rmb_zero]; exact hc
    have e3 : root ((kerrHole 0 1).cross l) (kerrHole 0 1).rms 1000 = some c' := by
      show root (fun r => kerrL 0 r - l) (kerrRms 0) 1000 = some c'
      rw [rms_zero]; exact hc'
    have e4 : s.changeCusp = false := by rw [hs]; rfl
    have e5 : (kerrHole 0 1).plane l c = Ws := hWs.symm
    have e6 : (kerrHole 0 1).plane l c' = Wc := hWc.symm
    simp only [Torus.fill, e1, e2, e3, e4, Option.map_some, e5, e6, gap, Option.bind_eq_bind, Option.bind_some, if_neg g0.ne', Bool.false_eq_true, if_false]
  have ho : (kerrHole 0 1).outer l 5000 (some Ws) (gap (some Wc) (some Ws)) (some c') = some ro := by
    simp only [Hole.outer, gap, Option.bind_eq_bind, Option.bind_some, if_neg g0.ne', hro]
  have call2 : s.call (.lambda (1 / 2)) = .ok { s with roche := true, rinner := false, lam := 1 / 2, l0 := l, rin := some c, cusp := some c, centre := some c', Ws := some Ws, Wc := some Wc, dW := some (some (1 / (Wc - Ws))), outer := some ro } := by
    show s.lambda (1 / 2) = _
    rw [lambda_some hm, if_neg (by norm_num), hf]
    simp only [Torus.close, ho, reduceCtorEq, if_false]
  refine ⟨s, _, c, c', call1, call2, ?_, hm, (lambda_ok hm call2).1, rfl, rfl, rfl, rfl, c1, c2, c3, c4, ?_, ?_, w1, w2, w3⟩
  · exact .step _ (.step _ .new call1 (by simp)) call2 (by simp)
  · show 3.8371 < l
    linarith
  · show l < 3.8372
    linarith

/-- The centre of that torus is in it, and the gas has a velocity there. -/
example : ∃ (s : Torus) (p : Vec), Orderly s ∧ Filled (kerrHole 0 1) s ∧ (∃ x, s.delta (kerrHole 0 1) p = .num x ∧ x < 0) ∧
    ∃ u, s.velocity (kerrHole 0 1) p = .ok u ∧ Turns (gmunu 0 p) s.l0 u := by
  obtain ⟨s1, s, c, c', k1, k2, ho, hm, hf, -, h1, h2, h3, c1, c2, c3, c4, l1, l2, w1, w2, w3⟩ := schwarzschild
  have hW : s.Ws = some (kerrPotential 0 ![0, c, Real.pi / 2, 0] s.l0) := by
    have := hf.Ws
    rw [h1] at this
    exact this
  have r0 : 0 < c' := by norm_num at c3; linarith
  have out : Outside 0 ![0, c', Real.pi / 2, 0] := ⟨r0, by show 0 < c' * c' - 2 * c' + 0 * 0; norm_num at c3; nlinarith⟩
  have hs : Real.sin ((![0, c', Real.pi / 2, 0] : Vec) 2) = 1 := Real.sin_pi_div_two
  have hs0 : Real.sin ((![0, c', Real.pi / 2, 0] : Vec) 2) ≠ 0 := by rw [hs]; norm_num
  have e1 : (![0, c', Real.pi / 2, 0] : Vec) 1 = c' := rfl
  have hc0 : Real.cos ((![0, c', Real.pi / 2, 0] : Vec) 2) = 0 := Real.cos_pi_div_two
  obtain ⟨u, hu⟩ := (turns_iff out hs0 s.l0).2 (by
    rw [gmunu_00, gmunu_03, gmunu_33, hs, hc0, e1]
    have e : (c' * c' + 0 * 0 + 2 * c' * (0 * 0) * (1 * 1) / (c' * c' + 0 * 0 * (0 * 0))) * (1 * 1) + 2 * s.l0 * (-2 * 0 * c' * (1 * 1) / (c' * c' + 0 * 0 * (0 * 0))) +
        s.l0 * s.l0 * (-1 + 2 * c' / (c' * c' + 0 * 0 * (0 * 0))) = c' ^ 2 - s.l0 ^ 2 + s.l0 ^ 2 * (2 / c') := by
      field_simp
      ring
    rw [e]
    have : 0 ≤ s.l0 ^ 2 * (2 / c') := by positivity
    norm_num at c3 l1 l2
    nlinarith)
  have hp := kerr_potential (regular out hs0) r0 hu.rotating hu.momentum
  have lg : Real.log 1.08 < Real.log 1.09 := Real.log_lt_log (by norm_num) (by norm_num)
  have hin := (inside_iff (unit := 1) out hs0 h1 h2 hW).2 ⟨by rw [e1]; norm_num at c2 c3; linarith, by rw [e1, hs]; norm_num at c2 c3; linarith, u, hu, by rw [← hp]; linarith⟩
  obtain ⟨x, hx, x0⟩ := hin
  have hd : s.adaf = false := by
    simp only [Torus.call, Torus.again, Torus.new, Bool.false_eq_true, if_false, Res.ok.injEq] at k1
    have k2' : s1.lambda (1 / 2) = .ok s := k2
    have m1 : s1.metric = some (kerrHole 0 1) := by rw [← k1]
    rw [lambda_some m1] at k2'
    split_ifs at k2'
    injection k2' with k2'
    rw [← k2', ← k1]
    rfl
  obtain ⟨v, hv, hv', -⟩ := gas_moves (unit := 1) out hs0 hd h1 h2 hW hx x0
  exact ⟨s, _, ho, hf, ⟨x, hx, x0⟩, v, hv, hv'⟩

/-- **C132** is not so with a negative spin: the radius that is taken for the smallest stable orbit is below that of the smallest bound one (C70), the angular
momentum there is larger, and that of the torus is above that of the smallest bound orbit, whatever the parameter between 0 and 1. -/
theorem negative_spin_wrong : ∃ a : ℝ, -1 < a ∧ a < 0 ∧ kerrRms a < kerrRmb a ∧
    ∀ lam, 0 < lam → lam < 1 → kerrL a (kerrRmb a) < lam * (kerrL a (kerrRmb a) - kerrL a (kerrRms a)) + kerrL a (kerrRms a) := by
  refine ⟨-(11 / 25), by norm_num, by norm_num, ?_⟩
  have hx : √(1 - -(11 / 25) : ℝ) = 6 / 5 := by
    rw [show (1 - -(11 / 25) : ℝ) = (6 / 5) ^ 2 by norm_num]
    exact Real.sqrt_sq (by norm_num)
  have hR : kerrRmb (-(11 / 25)) = (11 / 5) ^ 2 := by
    unfold kerrRmb
    rw [hx]
    norm_num
  obtain ⟨e, e0, e1, ha, -, -, s0, hst, hms⟩ := spin (a := 11 / 25) (by norm_num) (by norm_num)
  obtain ⟨b1, b2, b3⟩ := stab_sign e0 e1 s0 hst
  rw [← ha] at b2 b3 hst
  have he : 1 + e ≤ 2.1 := by nlinarith only [ha, e0]
  obtain ⟨w, hw⟩ : ∃ w, w = √(kerrRms (11 / 25)) := ⟨_, rfl⟩
  rw [← hw] at s0 hst hms b1 b2 b3
  have w1 : 2.1 ≤ w := by
    by_contra h
    have := b3 2.1 (not_le.1 h)
    unfold stab at this
    norm_num at this
  have w2 : w < 2.2 := by
    by_contra h
    rcases (not_lt.1 h).lt_or_eq with k | k
    · have := b2 2.2 (by linarith) k
      unfold stab at this
      norm_num at this
    · rw [← k] at hst
      unfold stab at hst
      norm_num at hst
  rw [rms_even, hms, hR]
  norm_num at w1 w2
  have hlt : kerrL (-(11 / 25)) ((11 / 5) ^ 2) < kerrL (-(11 / 25)) (w ^ 2) := by
    rw [kerrL_eq (by positivity), kerrL_eq (by positivity), Real.sqrt_sq (by norm_num), Real.sqrt_sq (by linarith)]
    have d : 0 < w ^ 3 - 2 * w + -(11 / 25) := by nlinarith only [w1, mul_nonneg (sub_nonneg.2 w1) (sub_nonneg.2 w1)]
    unfold ellW
    rw [lt_div_iff₀ d]
    norm_num
    nlinarith only [w1, w2, mul_nonneg (sub_nonneg.2 w1) (sub_nonneg.2 w2.le), mul_nonneg (mul_nonneg (sub_nonneg.2 w1) (sub_nonneg.2 w2.le)) (sub_nonneg.2 w1)]
  refine ⟨by nlinarith only [w1, w2], fun lam h0 h1 => ?_⟩
  nlinarith only [mul_pos (sub_pos.2 h1) (sub_pos.2 hlt)]

end Gyoto.Doughnut
