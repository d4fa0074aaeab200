import Verif.Model.Kappa
import Verif.Lemmas.Synch
import Mathlib.Analysis.SpecialFunctions.Gamma.BohrMollerup
import Mathlib.Analysis.SpecialFunctions.Pow.Asymptotics
import Mathlib.Analysis.Convex.SpecificFunctions.Basic
import Mathlib.Tactic.LinearCombination

/-! # Lemmas for the synchrotron of kappa distributions -/

namespace Gyoto.Synch

open Gyoto.Transfer (Out)
open Gyoto.Plasma Gyoto.Spec
open Filter Topology

/-! ## The bridge between two laws -/

/-- The value of the bridge. -/
noncomputable def br (e l h : ℝ) : ℝ := (l ^ (-e) + h ^ (-e)) ^ (-1 / e)

theorem bridge_eq (e : ℝ) {l h : ℝ} (hl : 0 < l) (hh : 0 < h) : bridge e l h = .ok (br e l h) := by
  unfold bridge br
  rw [if_neg, if_neg]
  · rintro (a | a) <;> linarith
  · rintro (a | a) <;> linarith

theorem bridge_zero (e : ℝ) {l h : ℝ} (hl : 0 ≤ l) (hh : 0 ≤ h) (h0 : l = 0 ∨ h = 0) : bridge e l h = .ok 0 := by
  unfold bridge
  rw [if_neg, if_pos h0]
  rintro (a | a) <;> linarith

theorem br_pos (e : ℝ) {l h : ℝ} (hl : 0 < l) (hh : 0 < h) : 0 < br e l h :=
  Real.rpow_pos_of_pos (add_pos (Real.rpow_pos_of_pos hl _) (Real.rpow_pos_of_pos hh _)) _

theorem br_comm (e l h : ℝ) : br e l h = br e h l := by
  unfold br; rw [add_comm]

theorem br_mul {e c l h : ℝ} (he : 0 < e) (hc : 0 < c) (hl : 0 < l) (hh : 0 < h) : br e (c * l) (c * h) = c * br e l h := by
  unfold br
  rw [Real.mul_rpow hc.le hl.le, Real.mul_rpow hc.le hh.le, ← mul_add, Real.mul_rpow (Real.rpow_pos_of_pos hc _).le
    (add_pos (Real.rpow_pos_of_pos hl _) (Real.rpow_pos_of_pos hh _)).le, ← Real.rpow_mul hc.le]
  have : -e * (-1 / e) = 1 := by field_simp
  rw [this, Real.rpow_one]

theorem br_mono {e l h l' h' : ℝ} (he : 0 < e) (hl : 0 < l) (hh : 0 < h) (h1 : l ≤ l') (h2 : h ≤ h') : br e l h ≤ br e l' h' := by
  unfold br
  refine Real.rpow_le_rpow_of_nonpos (add_pos (Real.rpow_pos_of_pos (hl.trans_le h1) _) (Real.rpow_pos_of_pos (hh.trans_le h2) _)) ?_ ?_
  · exact add_le_add (Real.rpow_le_rpow_of_nonpos hl h1 (by linarith)) (Real.rpow_le_rpow_of_nonpos hh h2 (by linarith))
  · exact div_nonpos_of_nonpos_of_nonneg (by norm_num) he.le

theorem br_lt_left {e l h : ℝ} (he : 0 < e) (hl : 0 < l) (hh : 0 < h) : br e l h < l := by
  have e1 : (l ^ (-e)) ^ (-1 / e) = l := by
    rw [← Real.rpow_mul hl.le]
    have : -e * (-1 / e) = 1 := by field_simp
    rw [this, Real.rpow_one]
  conv_rhs => rw [← e1]
  refine Real.rpow_lt_rpow_of_neg (Real.rpow_pos_of_pos hl _) ?_ (div_neg_of_neg_of_pos (by norm_num) he)
  linarith [Real.rpow_pos_of_pos hh (-e)]

theorem br_lt_right {e l h : ℝ} (he : 0 < e) (hl : 0 < l) (hh : 0 < h) : br e l h < h := by
  rw [br_comm]; exact br_lt_left he hh hl

/-- The bridge is lower for larger exponents by no more than at the crossing of the laws. -/
theorem br_exponent {e e' l h : ℝ} (he : 0 < e) (hee : e ≤ e') (hl : 0 < l) (hh : 0 < h) :
    br e' l h ≤ 2 ^ (1 / e - 1 / e') * br e l h := by
  have he' : 0 < e' := he.trans_le hee
  have u : 0 < l ^ (-e) := Real.rpow_pos_of_pos hl _
  have v : 0 < h ^ (-e) := Real.rpow_pos_of_pos hh _
  have u' : 0 < l ^ (-e') := Real.rpow_pos_of_pos hl _
  have v' : 0 < h ^ (-e') := Real.rpow_pos_of_pos hh _
  have pm := (convexOn_rpow (show 1 ≤ e' / e by rw [le_div_iff₀ he]; linarith)).2 (Set.mem_Ici.2 u.le) (Set.mem_Ici.2 v.le)
    (show (0 : ℝ) ≤ 1 / 2 by norm_num) (show (0 : ℝ) ≤ 1 / 2 by norm_num) (by norm_num)
  simp only [smul_eq_mul] at pm
  rw [← Real.rpow_mul hl.le, ← Real.rpow_mul hh.le] at pm
  have ee : -e * (e' / e) = -e' := by field_simp
  rw [ee] at pm
  have s : 0 < (1 / 2 * l ^ (-e) + 1 / 2 * h ^ (-e)) := by positivity
  have := Real.rpow_le_rpow_of_nonpos (Real.rpow_pos_of_pos s _) pm (div_nonpos_of_nonpos_of_nonneg (by norm_num : (-1 : ℝ) ≤ 0) he'.le)
  rw [← Real.rpow_mul s.le] at this
  have ee2 : e' / e * (-1 / e') = -1 / e := by field_simp
  rw [ee2, ← mul_add, ← mul_add, Real.mul_rpow (by norm_num) (by positivity), Real.mul_rpow (by norm_num) (by positivity)] at this
  have t1 : ((1 : ℝ) / 2) ^ (-1 / e') = 2 ^ (1 / e') := by
    rw [one_div, Real.inv_rpow (by norm_num), ← Real.rpow_neg (by norm_num)]; congr 1; ring
  have t2 : ((1 : ℝ) / 2) ^ (-1 / e) = 2 ^ (1 / e) := by
    rw [one_div, Real.inv_rpow (by norm_num), ← Real.rpow_neg (by norm_num)]; congr 1; ring
  rw [t1, t2] at this
  rw [Real.rpow_sub (by norm_num)]
  have p : (0 : ℝ) < 2 ^ (1 / e') := Real.rpow_pos_of_pos (by norm_num) _
  unfold br
  rw [div_mul_eq_mul_div, le_div_iff₀ p]
  linarith

/-- Two power laws: the bridge follows the steeper one to the left, -/
theorem br_left {e A B p r : ℝ} (he : 0 < e) (hA : 0 < A) (hB : 0 < B) (hpr : r < p) :
    Tendsto (fun x : ℝ => br e (A * x ^ p) (B * x ^ r) / x ^ p) (𝓝[>] 0) (𝓝 A) := by
  have t1 : Tendsto (fun x : ℝ => (A ^ (-e) + B ^ (-e) * x ^ ((p - r) * e)) ^ (-1 / e)) (𝓝[>] 0) (𝓝 ((A ^ (-e) + B ^ (-e) * 0) ^ (-1 / e))) := by
    have pos : 0 < (p - r) * e := mul_pos (by linarith) he
    have c : Tendsto (fun x : ℝ => x ^ ((p - r) * e)) (𝓝[>] 0) (𝓝 0) := by
      have := (Real.continuousAt_rpow_const 0 ((p - r) * e) (.inr pos.le)).tendsto
      rw [Real.zero_rpow pos.ne'] at this
      exact this.mono_left nhdsWithin_le_nhds
    refine Tendsto.rpow_const (tendsto_const_nhds.add (c.const_mul _)) (.inl ?_)
    have := Real.rpow_pos_of_pos hA (-e)
    rw [mul_zero, add_zero]; exact this.ne'
  have e1 : (A ^ (-e) + B ^ (-e) * 0) ^ (-1 / e) = A := by
    rw [mul_zero, add_zero, ← Real.rpow_mul hA.le]
    have : -e * (-1 / e) = 1 := by field_simp
    rw [this, Real.rpow_one]
  rw [e1] at t1
  refine t1.congr' ?_
  filter_upwards [self_mem_nhdsWithin] with x hx
  have hx : 0 < x := hx
  have q : B * x ^ r = x ^ p * (B * x ^ (r - p)) := by rw [Real.rpow_sub hx]; field_simp
  have xp := Real.rpow_pos_of_pos hx p
  rw [q, mul_comm A, br_mul he xp hA (mul_pos hB (Real.rpow_pos_of_pos hx _)), mul_div_cancel_left₀ _ xp.ne']
  unfold br
  rw [Real.mul_rpow hB.le (Real.rpow_pos_of_pos hx _).le, ← Real.rpow_mul hx.le]
  have : (r - p) * -e = (p - r) * e := by ring
  rw [this]

/-- and the other to the right. -/
theorem br_right {e A B p r : ℝ} (he : 0 < e) (hA : 0 < A) (hB : 0 < B) (hpr : r < p) :
    Tendsto (fun x : ℝ => br e (A * x ^ p) (B * x ^ r) / x ^ r) atTop (𝓝 B) := by
  have t1 : Tendsto (fun x : ℝ => (A ^ (-e) * x ^ (-((p - r) * e)) + B ^ (-e)) ^ (-1 / e)) atTop (𝓝 ((A ^ (-e) * 0 + B ^ (-e)) ^ (-1 / e))) := by
    have pos : 0 < (p - r) * e := mul_pos (by linarith) he
    refine Tendsto.rpow_const (((tendsto_rpow_neg_atTop pos).const_mul _).add tendsto_const_nhds) (.inl ?_)
    have := Real.rpow_pos_of_pos hB (-e)
    rw [mul_zero, zero_add]; exact this.ne'
  have e1 : (A ^ (-e) * 0 + B ^ (-e)) ^ (-1 / e) = B := by
    rw [mul_zero, zero_add, ← Real.rpow_mul hB.le]
    have : -e * (-1 / e) = 1 := by field_simp
    rw [this, Real.rpow_one]
  rw [e1] at t1
  refine t1.congr' ?_
  filter_upwards [eventually_gt_atTop 0] with x hx
  have q : A * x ^ p = x ^ r * (A * x ^ (p - r)) := by rw [Real.rpow_sub hx]; field_simp
  have xr := Real.rpow_pos_of_pos hx r
  rw [q, mul_comm B, br_mul he xr (mul_pos hA (Real.rpow_pos_of_pos hx _)) hB, mul_div_cancel_left₀ _ xr.ne']
  unfold br
  rw [Real.mul_rpow hA.le (Real.rpow_pos_of_pos hx _).le, ← Real.rpow_mul hx.le]
  have : (p - r) * -e = -((p - r) * e) := by ring
  rw [this]

/-! ## The object -/

/-- Where the coefficients are meant to be asked, at any angle. -/
structure Kappa.Fair (s : Kappa) (nu : ℝ) : Prop where
  kappa : 2 < s.kappa
  theta : 0 < s.theta
  nu0 : 0 < s.nu0
  hyp : 0 < s.hyp
  nu : 0 < nu

/-- The same, looked at across the field. -/
structure Kappa.Lit (s : Kappa) (nu : ℝ) : Prop extends s.Fair nu where
  low : 0 < s.angle
  high : s.angle < Real.pi

def Kappa.at (s : Kappa) (θ : ℝ) : Kappa := { s with angle := θ }

theorem Kappa.Fair.at {s : Kappa} {nu θ : ℝ} (h : s.Fair nu) (h0 : 0 < θ) (h1 : θ < Real.pi) : (s.at θ).Lit nu :=
  ⟨⟨h.kappa, h.theta, h.nu0, h.hyp, h.nu⟩, h0, h1⟩

theorem Kappa.Lit.sin {s : Kappa} {nu : ℝ} (h : s.Lit nu) : 0 < Real.sin s.angle := Real.sin_pos_of_pos_of_lt_pi h.low h.high

theorem Kappa.Lit.nuk {s : Kappa} {nu : ℝ} (h : s.Lit nu) : 0 < s.nuk := by
  have := h.sin; have := h.nu0; have := h.theta; have : 0 < s.kappa := by linarith [h.kappa]
  unfold Kappa.nuk; positivity

theorem Kappa.Lit.xpos {s : Kappa} {nu : ℝ} (h : s.Lit nu) : 0 < nu / s.nuk := div_pos h.nu h.nuk

theorem Kappa.Lit.X {s : Kappa} {nu : ℝ} (h : s.Lit nu) : s.X nu = .ok (nu / s.nuk) := by
  unfold Kappa.X
  rw [if_neg]
  rintro (e | e | e | e)
  · exact h.nuk.ne' e
  · exact absurd h.xpos (not_lt.2 e)
  · linarith [h.kappa]
  · linarith [h.theta]

theorem Kappa.Fair.noPole {s : Kappa} {nu : ℝ} (h : s.Fair nu) : ¬ s.Pole := by
  rintro ⟨m, e⟩
  have := h.kappa
  have hm : (0 : ℝ) ≤ m := Nat.cast_nonneg m
  rcases e with e | e | e | e <;> linarith

/-- The constants of the four laws. -/
noncomputable def Kappa.cl (s : Kappa) : ℝ :=
  Real.sin s.angle * 4 * Real.pi * Real.Gamma (s.kappa - 4 / 3) / ((3 : ℝ) ^ (7 / 3 : ℝ) * Real.Gamma (s.kappa - 2))

noncomputable def Kappa.ch (s : Kappa) : ℝ :=
  Real.sin s.angle * (3 : ℝ) ^ ((s.kappa - 1) / 2) * (s.kappa - 1) * (s.kappa - 2) / 4 * Real.Gamma (s.kappa / 4 - 1 / 3) *
    Real.Gamma (s.kappa / 4 + 4 / 3)

noncomputable def Kappa.dl (s : Kappa) : ℝ :=
  (3 : ℝ) ^ (1 / 6 : ℝ) * 10 / 41 * 2 * Real.pi / (s.theta * s.kappa) ^ (10 / 3 - s.kappa) * (s.kappa - 1) *
    (s.kappa - 2) * s.kappa / (3 * s.kappa - 1) * Real.Gamma (5 / 3) * s.hyp

noncomputable def Kappa.dh (s : Kappa) : ℝ :=
  Real.pi ^ (3 / 2 : ℝ) / 3 * (s.kappa - 1) * (s.kappa - 2) * s.kappa / (s.theta * s.kappa) ^ 3 *
    (2 * Real.Gamma (2 + s.kappa / 2) / (2 + s.kappa) - 1)

theorem Kappa.low_eq (s : Kappa) (X : ℝ) : s.low X = s.cl * X ^ (1 / 3 : ℝ) := by unfold Kappa.low Kappa.cl; ring
theorem Kappa.high_eq (s : Kappa) (X : ℝ) : s.high X = s.ch * X ^ (-(s.kappa - 2) / 2) := by unfold Kappa.high Kappa.ch; ring
theorem Kappa.alow_eq (s : Kappa) (X : ℝ) : s.alow X = s.dl * X ^ (-2 / 3 : ℝ) := by unfold Kappa.alow Kappa.dl; ring
theorem Kappa.ahigh_eq (s : Kappa) (X : ℝ) : s.ahigh X = s.dh * X ^ (-(1 + s.kappa) / 2) := by unfold Kappa.ahigh Kappa.dh; ring

theorem Kappa.Lit.cl {s : Kappa} {nu : ℝ} (h : s.Lit nu) : 0 < s.cl := by
  have k := h.kappa; have := h.sin
  have g1 : 0 < Real.Gamma (s.kappa - 4 / 3) := Real.Gamma_pos_of_pos (by linarith)
  have g2 : 0 < Real.Gamma (s.kappa - 2) := Real.Gamma_pos_of_pos (by linarith)
  have t : (0 : ℝ) < 3 ^ (7 / 3 : ℝ) := Real.rpow_pos_of_pos (by norm_num) _
  unfold Kappa.cl; positivity

theorem Kappa.Lit.ch {s : Kappa} {nu : ℝ} (h : s.Lit nu) : 0 < s.ch := by
  have k := h.kappa; have := h.sin
  have g1 : 0 < Real.Gamma (s.kappa / 4 - 1 / 3) := Real.Gamma_pos_of_pos (by linarith)
  have g2 : 0 < Real.Gamma (s.kappa / 4 + 4 / 3) := Real.Gamma_pos_of_pos (by linarith)
  have t : (0 : ℝ) < 3 ^ ((s.kappa - 1) / 2) := Real.rpow_pos_of_pos (by norm_num) _
  have k1 : 0 < s.kappa - 1 := by linarith
  have k2 : 0 < s.kappa - 2 := by linarith
  unfold Kappa.ch; positivity

theorem Kappa.Fair.dl {s : Kappa} {nu : ℝ} (h : s.Fair nu) : 0 < s.dl := by
  have k := h.kappa; have th := h.theta; have := h.hyp
  have k0 : 0 < s.kappa := by linarith
  have g1 : 0 < Real.Gamma (5 / 3) := Real.Gamma_pos_of_pos (by norm_num)
  have t : (0 : ℝ) < 3 ^ (1 / 6 : ℝ) := Real.rpow_pos_of_pos (by norm_num) _
  have t2 : 0 < (s.theta * s.kappa) ^ (10 / 3 - s.kappa) := Real.rpow_pos_of_pos (by positivity) _
  have k1 : 0 < s.kappa - 1 := by linarith
  have k2 : 0 < s.kappa - 2 := by linarith
  have k3 : 0 < 3 * s.kappa - 1 := by linarith
  unfold Kappa.dl; positivity

theorem gamma_factor {k : ℝ} (hk : 2 < k) : 0 < 2 * Real.Gamma (2 + k / 2) / (2 + k) - 1 := by
  have e : Real.Gamma (2 + k / 2) = (1 + k / 2) * Real.Gamma (1 + k / 2) := by
    rw [show 2 + k / 2 = (1 + k / 2) + 1 by ring, Real.Gamma_add_one (by linarith)]
  have m := Real.Gamma_strictMonoOn_Ici (show (2 : ℝ) ∈ Set.Ici 2 by simp) (show 1 + k / 2 ∈ Set.Ici 2 by simp; linarith) (by linarith)
  rw [Real.Gamma_two] at m
  rw [e, sub_pos, lt_div_iff₀ (by linarith)]
  nlinarith

theorem Kappa.Fair.dh {s : Kappa} {nu : ℝ} (h : s.Fair nu) : 0 < s.dh := by
  have k := h.kappa; have th := h.theta
  have k0 : 0 < s.kappa := by linarith
  have g := gamma_factor k
  have t : 0 < Real.pi ^ (3 / 2 : ℝ) := Real.rpow_pos_of_pos Real.pi_pos _
  have k1 : 0 < s.kappa - 1 := by linarith
  have k2 : 0 < s.kappa - 2 := by linarith
  unfold Kappa.dh
  exact mul_pos (by positivity) g

theorem Kappa.Lit.lowPos {s : Kappa} {nu X : ℝ} (h : s.Lit nu) (hX : 0 < X) : 0 < s.low X := by
  rw [Kappa.low_eq]; exact mul_pos h.cl (Real.rpow_pos_of_pos hX _)
theorem Kappa.Lit.highPos {s : Kappa} {nu X : ℝ} (h : s.Lit nu) (hX : 0 < X) : 0 < s.high X := by
  rw [Kappa.high_eq]; exact mul_pos h.ch (Real.rpow_pos_of_pos hX _)
theorem Kappa.Fair.alowPos {s : Kappa} {nu X : ℝ} (h : s.Fair nu) (hX : 0 < X) : 0 < s.alow X := by
  rw [Kappa.alow_eq]; exact mul_pos h.dl (Real.rpow_pos_of_pos hX _)
theorem Kappa.Fair.ahighPos {s : Kappa} {nu X : ℝ} (h : s.Fair nu) (hX : 0 < X) : 0 < s.ahigh X := by
  rw [Kappa.ahigh_eq]; exact mul_pos h.dh (Real.rpow_pos_of_pos hX _)

/-! ### The exponents -/

noncomputable def Kappa.eI (s : Kappa) : ℝ := 3 * s.kappa ^ (-3 / 2 : ℝ)
noncomputable def Kappa.eQ (s : Kappa) : ℝ := 3.7 * s.kappa ^ (-8 / 5 : ℝ)

theorem Kappa.Fair.eI {s : Kappa} {nu : ℝ} (h : s.Fair nu) : 0 < s.eI := by
  have := Real.rpow_pos_of_pos (show 0 < s.kappa by linarith [h.kappa]) (-3 / 2)
  unfold Kappa.eI; positivity
theorem Kappa.Fair.eQ {s : Kappa} {nu : ℝ} (h : s.Fair nu) : 0 < s.eQ := by
  have := Real.rpow_pos_of_pos (show 0 < s.kappa by linarith [h.kappa]) (-8 / 5)
  unfold Kappa.eQ; positivity

theorem Kappa.Lit.emission {s : Kappa} {nu : ℝ} (h : s.Lit nu) (e : ℝ) (l g : ℝ → ℝ) (hl : 0 < l (nu / s.nuk)) (hg : 0 < g (nu / s.nuk)) :
    s.emission nu e l g = .ok (s.front * br e (l (nu / s.nuk)) (g (nu / s.nuk))) := by
  unfold Kappa.emission
  rw [h.X, bind_ok, if_neg h.noPole, bridge_eq e hl hg, bind_ok]

theorem Kappa.Lit.absorption {s : Kappa} {nu : ℝ} (h : s.Lit nu) (e : ℝ) (l g : ℝ → ℝ) (hl : 0 < l (nu / s.nuk)) (hg : 0 < g (nu / s.nuk)) :
    s.absorption nu e l g = .ok (s.frontA nu * br e (l (nu / s.nuk)) (g (nu / s.nuk))) := by
  unfold Kappa.absorption
  rw [h.X, bind_ok, if_neg (by linarith [h.kappa]), bridge_eq e hl hg, bind_ok]

noncomputable def Kappa.jVal (s : Kappa) (nu : ℝ) : ℝ := s.front * br s.eI (s.low (nu / s.nuk)) (s.high (nu / s.nuk))

noncomputable def Kappa.jQVal (s : Kappa) (nu : ℝ) : ℝ :=
  s.front * br s.eQ (0.5 * s.low (nu / s.nuk)) (((4 / 5) ^ 2 + s.kappa / 50) * s.high (nu / s.nuk))

theorem Kappa.Lit.j {s : Kappa} {nu : ℝ} (h : s.Lit nu) : s.j nu = .ok (s.jVal nu) :=
  h.emission _ _ _ (h.lowPos h.xpos) (h.highPos h.xpos)

theorem Kappa.Lit.jQ {s : Kappa} {nu : ℝ} (h : s.Lit nu) : s.jQ nu = .ok (s.jQVal nu) := by
  have k := h.kappa
  refine h.emission _ _ _ ?_ ?_
  · have := h.lowPos h.xpos; positivity
  · have := h.highPos h.xpos; positivity

/-- The powers of the sine less one. -/
theorem sin_excess {x p : ℝ} (h0 : 0 < x) (h1 : x ≤ 1) (hp : p < 0) : 0 ≤ x ^ p - 1 := by
  have := Real.one_le_rpow_of_pos_of_le_one_of_nonpos h0 h1 hp.le
  linarith

theorem sin_excess_pos {x p : ℝ} (h0 : 0 < x) (h1 : x < 1) (hp : p < 0) : 0 < x ^ p - 1 := by
  have := Real.one_lt_rpow_of_pos_of_lt_one_of_neg h0 h1 hp
  linarith

/-- Off the right angle the sine is less than one, at the right angle it is one. -/
theorem sin_lt_one {θ : ℝ} (hc : Real.cos θ ≠ 0) : Real.sin θ < 1 := by
  refine lt_of_le_of_ne (Real.sin_le_one θ) fun e => hc ?_
  have := Real.sin_sq_add_cos_sq θ
  rw [e] at this
  exact pow_eq_zero_iff (two_ne_zero) |>.1 (by linarith)

theorem sin_eq_one {θ : ℝ} (hs : 0 < Real.sin θ) (hc : Real.cos θ = 0) : Real.sin θ = 1 := by
  have := Real.sin_sq_add_cos_sq θ
  rw [hc] at this
  nlinarith

noncomputable def Kappa.jVVal (s : Kappa) (nu : ℝ) : ℝ :=
  s.front * br s.eI (s.lowV (nu / s.nuk) * s.low (nu / s.nuk)) (s.highV (nu / s.nuk) * s.high (nu / s.nuk)) *
    Real.cos s.angle / |Real.cos s.angle|

theorem Kappa.Lit.lowV {s : Kappa} {nu : ℝ} (h : s.Lit nu) (hc : Real.cos s.angle ≠ 0) : 0 < s.lowV (nu / s.nuk) := by
  have k0 : 0 < s.kappa := by linarith [h.kappa]
  have th := h.theta
  have a := Real.rpow_pos_of_pos (sin_excess_pos h.sin (sin_lt_one hc) (show (-12 / 5 : ℝ) < 0 by norm_num)) (12 / 25)
  have b := Real.rpow_pos_of_pos k0 (-66 / 125)
  have c := Real.rpow_pos_of_pos h.xpos (-7 / 20)
  unfold Kappa.lowV; positivity

theorem Kappa.Lit.highV {s : Kappa} {nu : ℝ} (h : s.Lit nu) (hc : Real.cos s.angle ≠ 0) : 0 < s.highV (nu / s.nuk) := by
  have k0 : 0 < s.kappa := by linarith [h.kappa]
  have th := h.theta
  have a := Real.rpow_pos_of_pos (sin_excess_pos h.sin (sin_lt_one hc) (show (-5 / 2 : ℝ) < 0 by norm_num)) (11 / 25)
  have b := Real.rpow_pos_of_pos k0 (-11 / 25)
  have c := Real.rpow_pos_of_pos h.xpos (-1 / 2)
  unfold Kappa.highV; positivity

theorem Kappa.Lit.jV {s : Kappa} {nu : ℝ} (h : s.Lit nu) : s.jV nu = .ok (s.jVVal nu) := by
  unfold Kappa.jV
  rw [if_neg (not_le.2 h.sin)]
  by_cases hc : Real.cos s.angle = 0
  · have e : s.emission nu (3 * s.kappa ^ (-3 / 2 : ℝ)) (fun X => s.lowV X * s.low X) (fun X => s.highV X * s.high X) = .ok (s.front * 0) := by
      have s1 := sin_eq_one h.sin hc
      have z : ∀ X, s.lowV X = 0 := by
        intro X
        unfold Kappa.lowV
        rw [s1, Real.one_rpow, sub_self, Real.zero_rpow (by norm_num)]; ring
      have z' : ∀ X, s.highV X = 0 := by
        intro X
        unfold Kappa.highV
        rw [s1, Real.one_rpow, sub_self, Real.zero_rpow (by norm_num)]; ring
      unfold Kappa.emission
      rw [h.X, bind_ok, if_neg h.noPole]
      simp only [z, z', zero_mul]
      rw [bridge_zero _ le_rfl le_rfl (.inl rfl), bind_ok]
    rw [e, bind_ok]
    unfold Kappa.jVVal
    rw [hc]; simp
  · rw [h.emission _ (fun X => s.lowV X * s.low X) (fun X => s.highV X * s.high X) (mul_pos (h.lowV hc) (h.lowPos h.xpos)) (mul_pos (h.highV hc) (h.highPos h.xpos)), bind_ok]
    rfl

noncomputable def Kappa.eA (s : Kappa) : ℝ := (-7 / 4 + 8 / 5 * s.kappa) ^ (-43 / 50 : ℝ)
noncomputable def Kappa.fA (s : Kappa) : ℝ := (3 / s.kappa) ^ (19 / 4 : ℝ) + 3 / 5

theorem Kappa.Fair.eA {s : Kappa} {nu : ℝ} (h : s.Fair nu) : 0 < s.eA :=
  Real.rpow_pos_of_pos (by linarith [h.kappa]) _
theorem Kappa.Fair.fA {s : Kappa} {nu : ℝ} (h : s.Fair nu) : 0 < s.fA := by
  have := Real.rpow_pos_of_pos (show 0 < 3 / s.kappa by have := h.kappa; positivity) (19 / 4)
  unfold Kappa.fA; positivity

noncomputable def Kappa.aVal (s : Kappa) (nu : ℝ) : ℝ := s.frontA nu * br s.eA (s.alow (nu / s.nuk)) (s.ahigh (nu / s.nuk) * s.fA)

theorem Kappa.Lit.a {s : Kappa} {nu : ℝ} (h : s.Lit nu) : s.a nu = .ok (s.aVal nu) := by
  unfold Kappa.a
  rw [if_neg (by linarith [h.kappa])]
  exact h.absorption _ _ _ (h.alowPos h.xpos) (mul_pos (h.ahighPos h.xpos) h.fA)

noncomputable def Kappa.aQVal (s : Kappa) (nu : ℝ) : ℝ :=
  s.frontA nu * br (7 / 5 * s.kappa ^ (-23 / 20 : ℝ)) (25 / 48 * s.alow (nu / s.nuk))
    (s.ahigh (nu / s.nuk) * (21 ^ 2 * s.kappa ^ (-(12 / 5) ^ 2 : ℝ) + 11 / 20))

theorem Kappa.Lit.aQ {s : Kappa} {nu : ℝ} (h : s.Lit nu) : s.aQ nu = .ok (s.aQVal nu) := by
  have := Real.rpow_pos_of_pos (show 0 < s.kappa by linarith [h.kappa]) (-(12 / 5) ^ 2)
  refine h.absorption _ _ _ ?_ ?_
  · have := h.alowPos h.xpos; positivity
  · have := h.ahighPos h.xpos; positivity

/-- The two factors of `As_low` and `As_high` in `alphaVnuCGS`. -/
noncomputable def Kappa.lowAV (s : Kappa) (X : ℝ) : ℝ :=
  77 / 100 / s.theta * (Real.sin s.angle ^ (-114 / 50 : ℝ) - 1) ^ (223 / 500 : ℝ) * s.kappa ^ (-7 / 10 : ℝ) * X ^ (-7 / 20 : ℝ) * s.alow X

noncomputable def Kappa.highAV (s : Kappa) (X : ℝ) : ℝ :=
  s.ahigh X * 143 / 10 * s.theta ^ (-116 / 125 : ℝ) * (Real.sin s.angle ^ (-41 / 20 : ℝ) - 1) ^ (1 / 2 : ℝ) *
      (13 ^ 2 * s.kappa ^ (-8 : ℝ) + 13 / 2500 * s.kappa - 263 / 5000 + 47 / 200 / s.kappa) * X ^ (-0.5 : ℝ)

noncomputable def Kappa.aVVal (s : Kappa) (nu : ℝ) : ℝ :=
  s.frontA nu * br (61 / 50 * s.kappa ^ (-142 / 125 : ℝ) + 7 / 1000) (s.lowAV (nu / s.nuk)) (s.highAV (nu / s.nuk)) *
    Real.cos s.angle / |Real.cos s.angle|

theorem poly_pos {k : ℝ} (hk : 0 < k) : 0 < 13 ^ 2 * k ^ (-8 : ℝ) + 13 / 2500 * k - 263 / 5000 + 47 / 200 / k := by
  have a := Real.rpow_pos_of_pos hk (-8)
  have e : 13 / 2500 * k - 263 / 5000 + 47 / 200 / k = (13 / 2500 * k ^ 2 - 263 / 5000 * k + 47 / 200) / k := by field_simp
  have b : 0 < 13 / 2500 * k - 263 / 5000 + 47 / 200 / k := by
    rw [e]
    refine div_pos ?_ hk
    nlinarith [sq_nonneg (k - 5)]
  linarith [show (0 : ℝ) < 13 ^ 2 * k ^ (-8 : ℝ) by positivity]

theorem Kappa.Lit.lowAV {s : Kappa} {nu : ℝ} (h : s.Lit nu) (hc : Real.cos s.angle ≠ 0) : 0 < s.lowAV (nu / s.nuk) := by
  have k0 : 0 < s.kappa := by linarith [h.kappa]
  have th := h.theta
  have a := Real.rpow_pos_of_pos (sin_excess_pos h.sin (sin_lt_one hc) (show (-114 / 50 : ℝ) < 0 by norm_num)) (223 / 500)
  have b := Real.rpow_pos_of_pos k0 (-7 / 10)
  have c := Real.rpow_pos_of_pos h.xpos (-7 / 20)
  have d := h.alowPos h.xpos
  unfold Kappa.lowAV; positivity

theorem Kappa.Lit.highAV {s : Kappa} {nu : ℝ} (h : s.Lit nu) (hc : Real.cos s.angle ≠ 0) : 0 < s.highAV (nu / s.nuk) := by
  have k0 : 0 < s.kappa := by linarith [h.kappa]
  have th := h.theta
  have a := Real.rpow_pos_of_pos (sin_excess_pos h.sin (sin_lt_one hc) (show (-41 / 20 : ℝ) < 0 by norm_num)) (1 / 2)
  have b := Real.rpow_pos_of_pos th (-116 / 125)
  have c := Real.rpow_pos_of_pos h.xpos (-0.5)
  have d := h.ahighPos h.xpos
  have p := poly_pos k0
  unfold Kappa.highAV
  exact mul_pos (mul_pos (by positivity) p) c

theorem Kappa.Lit.aV {s : Kappa} {nu : ℝ} (h : s.Lit nu) : s.aV nu = .ok (s.aVVal nu) := by
  unfold Kappa.aV
  rw [if_neg (not_le.2 h.sin)]
  change bind (s.absorption nu (61 / 50 * s.kappa ^ (-142 / 125 : ℝ) + 7 / 1000) s.lowAV s.highAV) _ = _
  by_cases hc : Real.cos s.angle = 0
  · have e : s.absorption nu (61 / 50 * s.kappa ^ (-142 / 125 : ℝ) + 7 / 1000) s.lowAV s.highAV = .ok (s.frontA nu * 0) := by
      have s1 := sin_eq_one h.sin hc
      have z : ∀ X, s.lowAV X = 0 := by
        intro X
        unfold Kappa.lowAV
        rw [s1, Real.one_rpow, sub_self, Real.zero_rpow (by norm_num)]; ring
      have z' : ∀ X, s.highAV X = 0 := by
        intro X
        unfold Kappa.highAV
        rw [s1, Real.one_rpow, sub_self, Real.zero_rpow (by norm_num)]; ring
      unfold Kappa.absorption
      rw [h.X, bind_ok, if_neg (by linarith [h.kappa])]
      simp only [z, z']
      rw [bridge_zero _ le_rfl le_rfl (.inl rfl), bind_ok]
    rw [e, bind_ok]
    unfold Kappa.aVVal
    rw [hc]; simp
  · rw [h.absorption _ _ _ (h.lowAV hc) (h.highAV hc), bind_ok]
    rfl

/-! ### Rotation -/

/-- The indices that the tables have. -/
def Kappa.Tabulated (s : Kappa) : Prop := s.bin = 35 ∨ s.bin = 40 ∨ s.bin = 45 ∨ s.bin = 50

noncomputable def Kappa.rQVal (s : Kappa) (nu : ℝ) : ℝ :=
  s.n * (chargeCGS * s.nu0 * Real.sin s.angle) ^ 2 / (electronMassCGS * cCGS * nu ^ 3) * (rhoQ s.bin s.theta (nu / s.nuk)).getD 0

noncomputable def Kappa.rVVal (b : Bessel) (s : Kappa) (nu : ℝ) : ℝ :=
  2 * s.n * chargeCGS ^ 2 * s.nu0 * Real.cos s.angle * b.k0 (1 / s.theta) /
          (electronMassCGS * cCGS * nu ^ 2 * b.k2 (1 / s.theta)) * (rhoV s.bin s.theta (nu / s.nuk)).getD 0

theorem rhoQ_isSome {bin : ℤ} {th X : ℝ} : (∃ r, rhoQ bin th X = some r) ↔ bin = 35 ∨ bin = 40 ∨ bin = 45 ∨ bin = 50 := by
  unfold rhoQ
  constructor
  · rintro ⟨r, e⟩
    by_cases h1 : bin = 35
    · exact .inl h1
    by_cases h2 : bin = 40
    · exact .inr (.inl h2)
    by_cases h3 : bin = 45
    · exact .inr (.inr (.inl h3))
    by_cases h4 : bin = 50
    · exact .inr (.inr (.inr h4))
    rw [if_neg h1, if_neg h2, if_neg h3, if_neg h4] at e
    cases e
  · rintro (rfl | rfl | rfl | rfl) <;> exact ⟨_, rfl⟩

theorem rhoV_isSome {bin : ℤ} {th X : ℝ} : (∃ r, rhoV bin th X = some r) ↔ bin = 35 ∨ bin = 40 ∨ bin = 45 ∨ bin = 50 := by
  unfold rhoV
  constructor
  · rintro ⟨r, e⟩
    by_cases h1 : bin = 35
    · exact .inl h1
    by_cases h2 : bin = 40
    · exact .inr (.inl h2)
    by_cases h3 : bin = 45
    · exact .inr (.inr (.inl h3))
    by_cases h4 : bin = 50
    · exact .inr (.inr (.inr h4))
    rw [if_neg h1, if_neg h2, if_neg h3, if_neg h4] at e
    cases e
  · rintro (rfl | rfl | rfl | rfl) <;> exact ⟨_, rfl⟩

theorem Kappa.Lit.rQ {s : Kappa} {nu : ℝ} (h : s.Lit nu) (hx : 0.1 ≤ nu / s.nuk) (hb : s.Tabulated) : s.rQ nu = .ok (s.rQVal nu) := by
  obtain ⟨r, e⟩ := rhoQ_isSome (th := s.theta) (X := nu / s.nuk) |>.2 hb
  unfold Kappa.rQ Kappa.rQVal
  rw [h.X, bind_ok, if_neg (not_lt.2 hx)]
  simp only [e, Option.getD_some]

theorem Kappa.Lit.rV {b : Bessel} {s : Kappa} {nu : ℝ} (h : s.Lit nu) (hx : 0.1 ≤ nu / s.nuk) (hb : s.Tabulated)
    (hk : b.k2 (1 / s.theta) ≠ 0) : s.rV b nu = .ok (s.rVVal b nu) := by
  obtain ⟨r, e⟩ := rhoV_isSome (th := s.theta) (X := nu / s.nuk) |>.2 hb
  unfold Kappa.rV Kappa.rVVal
  rw [h.X, bind_ok, if_neg (not_lt.2 hx)]
  simp only [e, Option.getD_some]
  rw [if_neg hk]

theorem Kappa.Lit.rQ_throws {s : Kappa} {nu : ℝ} (h : s.Lit nu) (hx : nu / s.nuk < 0.1 ∨ ¬ s.Tabulated) : s.rQ nu = .throws := by
  unfold Kappa.rQ
  rw [h.X, bind_ok]
  by_cases hx' : nu / s.nuk < 0.1
  · rw [if_pos hx']
  · rw [if_neg hx']
    rcases e : rhoQ s.bin s.theta (nu / s.nuk) with _ | r
    · rfl
    · exact absurd (rhoQ_isSome.1 ⟨r, e⟩) (hx.resolve_left hx')

noncomputable def Kappa.vals (b : Bessel) (s : Kappa) (nu : ℝ) : Fin 11 → ℝ :=
  ![s.jVal nu, s.jQVal nu, 0, s.jVVal nu, s.aVal nu, s.aQVal nu, 0, s.aVVal nu, s.rQVal nu, 0, s.rVVal b nu]

theorem Kappa.Lit.coefs {b : Bessel} {s : Kappa} {nu : ℝ} (h : s.Lit nu) (hx : 0.1 ≤ nu / s.nuk) (hb : s.Tabulated)
    (hk : b.k2 (1 / s.theta) ≠ 0) : s.coefs b nu = .ok (s.vals b nu) := by
  unfold Kappa.coefs
  rw [h.j, bind_ok, h.jQ, bind_ok, h.jV, bind_ok, h.a, bind_ok, h.aQ, bind_ok, h.aV, bind_ok, h.rQ hx hb, bind_ok, h.rV hx hb hk, bind_ok]
  rfl

theorem Kappa.Lit.coefs_throws {b : Bessel} {s : Kappa} {nu : ℝ} (h : s.Lit nu) (hx : nu / s.nuk < 0.1 ∨ ¬ s.Tabulated) :
    s.coefs b nu = .throws := by
  unfold Kappa.coefs
  rw [h.j, bind_ok, h.jQ, bind_ok, h.jV, bind_ok, h.a, bind_ok, h.aQ, bind_ok, h.aV, bind_ok, h.rQ_throws hx]
  rfl

/-- A frequency that is high enough for the rotation at every angle. -/
def Kappa.Clear (s : Kappa) (nu : ℝ) : Prop := 0.1 * (s.nu0 * (s.theta * s.kappa) ^ 2) ≤ nu

theorem Kappa.Lit.clear {s : Kappa} {nu : ℝ} (h : s.Lit nu) (hc : s.Clear nu) : 0.1 ≤ nu / s.nuk := by
  rw [le_div_iff₀ h.nuk]
  refine le_trans ?_ hc
  have k0 : 0 < s.kappa := by linarith [h.kappa]
  have := h.theta; have := h.nu0
  have b := Real.sin_le_one s.angle
  have p : 0 < s.nu0 * (s.theta * s.kappa) ^ 2 := by positivity
  unfold Kappa.nuk
  nlinarith

/-- What one turn gives. -/
noncomputable def Kappa.outs (b : Bessel) (s : Kappa) (nu : ℝ) : Fin 11 → ℝ :=
  if s.averaged = false then toSI (s.vals b nu) else toSI fun i => mean 100 fun θ => (s.at θ).vals b nu i

theorem Kappa.passP_eq {b : Bessel} {s : Kappa} {nu : ℝ} (h : s.Fair nu) (hv : s.averaged = false → 0 < s.angle ∧ s.angle < Real.pi)
    (hx : s.Clear nu) (hb : s.Tabulated) (hk : b.k2 (1 / s.theta) ≠ 0) :
    s.passP b nu = .ok (if s.averaged = false then s else s.at (Real.pi - 0.01), s.outs b nu) := by
  unfold Kappa.passP Kappa.outs
  by_cases ha : s.averaged = false
  · have l : s.Lit nu := ⟨h, (hv ha).1, (hv ha).2⟩
    simp only [if_pos ha, l.coefs (l.clear hx) hb hk, bind_ok]
  · simp only [if_neg ha]
    have hsw : sweep 100 (fun th => ({ s with angle := th } : Kappa).coefs b nu) = .ok fun i => mean 100 fun θ => (s.at θ).vals b nu i :=
      sweep_eq (by norm_num) (fun θ h1 h2 => (h.at h1 h2).coefs ((h.at h1 h2).clear hx) hb hk)
    rw [hsw]
    simp only [bind_ok, angleAt_last (show 0 < 100 by norm_num)]
    rfl

theorem Kappa.pass_eq (b : Bessel) {s : Kappa} {nu : ℝ} (h : s.Fair nu) (hv : s.averaged = false → 0 < s.angle ∧ s.angle < Real.pi) :
    s.pass nu = .ok (if s.averaged = false then s else s.at (Real.pi - 0.01), s.outs b nu 0, s.outs b nu 4) := by
  unfold Kappa.pass Kappa.outs
  by_cases ha : s.averaged = false
  · have l : s.Lit nu := ⟨h, (hv ha).1, (hv ha).2⟩
    simp only [if_pos ha, l.j, l.a, bind_ok]
    rfl
  · simp only [if_neg ha]
    have hsw : sweep (ι := Fin 2) 100 (fun th => bind (({ s with angle := th } : Kappa).j nu) fun j =>
        bind (({ s with angle := th } : Kappa).a nu) fun a => .ok ![j, a]) =
        .ok fun i => mean 100 fun θ => ![(s.at θ).jVal nu, (s.at θ).aVal nu] i := by
      refine sweep_eq (by norm_num) fun θ h1 h2 => ?_
      have e1 := (h.at h1 h2).j
      have e2 := (h.at h1 h2).a
      unfold Kappa.at at e1 e2 ⊢
      rw [e1, bind_ok, e2, bind_ok]
    rw [hsw]
    simp only [bind_ok, angleAt_last (show 0 < 100 by norm_num)]
    rfl

/-- A sum that is stopped at one of its angles. -/
theorem sweep_throws {ι : Type} {N : ℕ} (hN : 0 < N) {f : ℝ → Out (ι → ℝ)} (h : ∀ j, j ≤ N → f (angleAt N j) ≠ .ub) {k : ℕ} (hk : k ≤ N)
    (ht : f (angleAt N k) = .throws) : sweep N f = .throws := by
  obtain ⟨F, hF⟩ : ∃ F : Out ((ι → ℝ) × (ι → ℝ)) → ℕ → Out ((ι → ℝ) × (ι → ℝ)), F = fun acc jj => bind acc fun (cur, prev) =>
      bind (f (angleAt N (jj + 1))) fun v => .ok ((fun i => cur i + 0.5 * 0.5 * ((Real.pi - 0.01 - 0.01) / (N : ℝ)) *
        (prev i + v i * Real.sin (angleAt N (jj + 1)))), fun i => v i * Real.sin (angleAt N (jj + 1))) := ⟨_, rfl⟩
  obtain ⟨S, hS⟩ : ∃ S : Out ((ι → ℝ) × (ι → ℝ)), S = bind (f (angleAt N 0)) fun v =>
      .ok ((fun _ => 0 : ι → ℝ), fun i => v i * Real.sin (angleAt N 0)) := ⟨_, rfl⟩
  have key : ∀ M, M ≤ N → (List.range M).foldl F S ≠ .ub ∧ (k ≤ M → (List.range M).foldl F S = .throws) := by
    intro M
    induction M with
    | zero =>
      intro _
      have h0 := h 0 (by omega)
      refine ⟨?_, fun hk0 => ?_⟩
      · rw [List.range_zero, List.foldl_nil, hS]
        rcases e : f (angleAt N 0) with v | _ | _
        · simp [bind]
        · simp [bind]
        · exact absurd e h0
      · obtain rfl : k = 0 := by omega
        rw [List.range_zero, List.foldl_nil, hS, ht]; rfl
    | succ M ih =>
      intro hM
      obtain ⟨i1, i2⟩ := ih (by omega)
      have h1 := h (M + 1) hM
      rw [List.range_succ, List.foldl_append, List.foldl_cons, List.foldl_nil]
      rcases e : (List.range M).foldl F S with v | _ | _
      · refine ⟨?_, fun hk1 => ?_⟩
        · rw [hF]
          simp only [bind]
          rcases e' : f (angleAt N (M + 1)) with v | _ | _
          · simp
          · simp
          · exact absurd e' h1
        · rcases Nat.lt_or_ge M k with hlt | hge
          · obtain rfl : k = M + 1 := by omega
            rw [hF]
            simp only [bind, ht]
          · rw [i2 hge] at e; cases e
      · rw [hF]
        simp [bind]
      · exact absurd e i1
  have := (key N le_rfl).2 hk
  unfold sweep
  rw [hF, hS] at this
  simp only at this ⊢
  rw [this]
  rfl

theorem middle_angle : angleAt 100 50 = Real.pi / 2 := by
  unfold angleAt; push_cast; ring

/-- Turns that leave the object as it is, or look along the last angle. -/
theorem each_fixed {σ β : Type} {f : σ → ℝ → Out (σ × β)} {g : ℝ → β} {A : ℝ → Prop} {s t : σ}
    (hs : ∀ nu, A nu → f s nu = .ok (t, g nu)) (ht : ∀ nu, A nu → f t nu = .ok (t, g nu)) {nus : List ℝ} (hn : ∀ nu ∈ nus, A nu) :
    each f s nus = .ok (if nus = [] then s else t, nus.map g) := by
  have key : ∀ l : List ℝ, (∀ nu ∈ l, A nu) → each f t l = .ok (t, l.map g) := by
    intro l
    induction l with
    | nil => intro _; rfl
    | cons nu l ih =>
      intro h
      simp [each, ht nu (h nu (by simp)), ih fun x hx => h x (by simp [hx])]
  cases nus with
  | nil => rfl
  | cons nu l => simp [each, hs nu (hn nu (by simp)), key l fun x hx => hn x (by simp [hx])]

end Gyoto.Synch
