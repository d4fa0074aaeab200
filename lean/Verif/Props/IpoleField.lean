import Verif.Model.IpoleField
import Verif.Model.KerrBL
import Verif.Lemmas.Plunge

/-!
# C149: the magnetic field by way of modified Kerr-Schild coordinates
-/

namespace Gyoto.IpoleField

open Gyoto.MetricAlg Gyoto.KerrBL

/-- The vector of the Kerr-Schild radius, in the coordinates of Boyer and Lindquist. -/
noncomputable def radial (a r : ℝ) : Vec := ![-2 * r / (r ^ 2 - 2 * r + a ^ 2), 1, 0, -a / (r ^ 2 - 2 * r + a ^ 2)]

private theorem ksm_eq (a r th : ℝ) (mu nu : Fin 4) :
    gcovKsm a r th mu nu = gcovKs a r th mu nu * ![1, r, Real.pi, 1] mu * ![1, r, Real.pi, 1] nu := by
  unfold gcovKsm
  fin_cases mu <;> fin_cases nu <;> simp [Fin.sum_univ_four, dxdX]

/-- The metric is the same in the two kinds of coordinates. -/
private theorem iso {a r th : ℝ} (hr : r ≠ 0) (hD : r ^ 2 - 2 * r + a ^ 2 ≠ 0) (hS : r * r + a * a * Real.cos th * Real.cos th ≠ 0)
    (pos : Vec) (h1 : pos 1 = r) (h2 : pos 2 = th) (u v : Vec) :
    ∑ mu, ucon a r u mu * ∑ nu, gcovKsm a r th mu nu * ucon a r v nu = sp (gmunu a pos) u v := by
  have hpi := Real.pi_ne_zero
  have hD' : r * r - 2 * r + a * a ≠ 0 := by intro h; exact hD (by linear_combination h)
  unfold gmunu
  simp only [h1, h2]
  rw [Plunge.sp_circ']
  simp only [Fin.sum_univ_four, ksm_eq]
  simp only [gcovKs, ucon, Matrix.cons_val_zero, Matrix.cons_val_one, Matrix.cons_val]
  have hc : Real.cos th * Real.cos th = 1 - Real.sin th * Real.sin th := by
    have := Real.sin_sq_add_cos_sq th
    linear_combination this
  have e : a * a * Real.cos th * Real.cos th = a * a * (1 - Real.sin th * Real.sin th) := by rw [← hc]; ring
  rw [e] at hS ⊢
  rw [hc]
  generalize Real.sin th = s at *
  have hS1 : r ^ 2 + a ^ 2 * (1 - s ^ 2) ≠ 0 := by intro h; exact hS (by linear_combination h)
  have hD1 : r * (r - 2) + a ^ 2 ≠ 0 := by intro h; exact hD (by linear_combination h)
  field_simp
  ring

private theorem back {a r b0 b1 b2 b3 : ℝ} (hr : r ≠ 0) (hD : r ^ 2 - 2 * r + a ^ 2 ≠ 0) :
    ucon a r ![b0 - b1 * 2 * r ^ 2 / (r ^ 2 - 2 * r + a ^ 2), b1 * r, b2 * Real.pi, b3 - b1 * a * r / (r ^ 2 - 2 * r + a ^ 2)] =
      ![b0, b1, b2, b3] := by
  have hpi := Real.pi_ne_zero
  have e : r * r - 2 * r + a * a = r ^ 2 - 2 * r + a ^ 2 := by ring
  unfold ucon
  rw [e]
  generalize r ^ 2 - 2 * r + a ^ 2 = D at *
  funext i
  fin_cases i
  · simp
    field_simp
    ring
  · simp
    field_simp
  · simp
  · simp
    field_simp
    ring

private theorem split {config : String} {a : ℝ} {cph vel B4 : Vec} (h : ipole config a cph vel = some B4) :
    0 < cph 1 ∧ ∃ B, primitive config (cph 1) (cph 2) = some B ∧ field a (cph 1) (cph 2) B vel = some B4 := by
  unfold ipole at h
  split_ifs at h with hr
  simp only [bind, Option.bind_eq_some_iff] at h
  exact ⟨not_le.1 hr, h⟩

/-- **C149.** The magnetic field is orthogonal to the velocity of the emitter, in the metric of Boyer and Lindquist, for every configuration. -/
theorem orthogonal {config : String} {a : ℝ} {cph vel B4 : Vec} (hu : sp (gmunu a cph) vel vel = -1)
    (h : ipole config a cph vel = some B4) : sp (gmunu a cph) B4 vel = 0 := by
  obtain ⟨hr, B, -, h⟩ := split h
  unfold field at h
  simp only at h
  split_ifs at h with hc
  push Not at hc
  obtain ⟨hD, hS, hU⟩ := hc
  have h := Option.some.inj h
  rw [← iso hr.ne' hD hS cph rfl rfl] at hu
  rw [← iso hr.ne' hD hS cph rfl rfl, ← h, back hr.ne' hD]
  generalize ucon a (cph 1) vel = U at *
  generalize hcov : (fun mu => ∑ nu, gcovKsm a (cph 1) (cph 2) mu nu * U nu) = W at *
  have hW : ∀ mu, ∑ nu, gcovKsm a (cph 1) (cph 2) mu nu * U nu = W mu := fun mu => by rw [← hcov]
  simp only [hW] at hu ⊢
  simp only [Fin.sum_univ_four, Matrix.cons_val_zero, Matrix.cons_val_one, Matrix.cons_val] at hu ⊢
  field_simp
  linear_combination (B.1 * W 1 + B.2.1 * W 2 + B.2.2 * W 3) * hu

/-- **C149.** It is then spacelike when it is not zero, and the caller can make it of unit norm. -/
theorem spacelike {config : String} {a : ℝ} {cph vel B4 : Vec} (hg : LorentzianAlong (gmunu a cph) vel)
    (hu : sp (gmunu a cph) vel vel = -1) (h : ipole config a cph vel = some B4) (h0 : B4 ≠ 0) : 0 < sp (gmunu a cph) B4 B4 :=
  hg.2.2 B4 h0 (by rw [sp_comm hg.1]; exact orthogonal hu h)

/-- Up to the velocity and a factor, the field is the primitive one. -/
private theorem shape {a r th : ℝ} (hr : r ≠ 0) {B : ℝ × ℝ × ℝ} {vel B4 : Vec} (h : field a r th B vel = some B4) :
    ∃ lam mu : ℝ, mu ≠ 0 ∧ B4 = lam • vel + mu • ((B.1 * r) • radial a r + ![0, 0, B.2.1 * Real.pi, B.2.2]) := by
  unfold field at h
  simp only at h
  split_ifs at h with hc
  push Not at hc
  obtain ⟨hD, hS, hU⟩ := hc
  have h := Option.some.inj h
  have hpi := Real.pi_ne_zero
  have e : r * r - 2 * r + a * a = r ^ 2 - 2 * r + a ^ 2 := by ring
  generalize hcov : (fun mu => ∑ nu, gcovKsm a r th mu nu * ucon a r vel nu) = W at *
  have hW : ∀ mu, ∑ nu, gcovKsm a r th mu nu * ucon a r vel nu = W mu := fun mu => by rw [← hcov]
  simp only [hW] at h
  generalize B.1 * W 1 + B.2.1 * W 2 + B.2.2 * W 3 = b0 at h
  refine ⟨b0 / ucon a r vel 0, 1 / ucon a r vel 0, one_div_ne_zero hU, ?_⟩
  rw [← h]
  simp only [ucon, radial, Matrix.cons_val_zero, Matrix.cons_val_one, Matrix.cons_val] at hU ⊢
  rw [e] at hU ⊢
  generalize r ^ 2 - 2 * r + a ^ 2 = D at *
  generalize hV : vel 0 + vel 1 * (2 * r / D) = V at *
  have hv0 : vel 0 = V - vel 1 * (2 * r / D) := by linear_combination hV
  funext i
  fin_cases i
  · simp [hv0]
    field_simp
    ring
  · simp
    field_simp
    ring
  · simp
    field_simp
    ring
  · simp
    field_simp
    ring

/-- **C149.** The toroidal field is the part of the azimuthal direction orthogonal to the velocity, up to a factor. -/
theorem toroidal {a : ℝ} {cph vel B4 : Vec} (h : ipole "Toroidal" a cph vel = some B4) :
    ∃ lam mu : ℝ, mu ≠ 0 ∧ B4 = lam • vel + mu • ![0, 0, 0, 1] := by
  obtain ⟨hr, B, hB, h⟩ := split h
  obtain ⟨lam, mu, h0, e⟩ := shape hr.ne' h
  have hB : B = (0, 0, 1) := by
    unfold primitive at hB
    simp at hB
    exact hB.symm
  refine ⟨lam, mu, h0, ?_⟩
  rw [e, hB]
  simp

/-- **C149.** The toroidal field is never zero, so always spacelike. -/
theorem toroidal_spacelike {a : ℝ} {cph vel B4 : Vec} (hg : LorentzianAlong (gmunu a cph) vel) (hu : sp (gmunu a cph) vel vel = -1)
    (h : ipole "Toroidal" a cph vel = some B4) : 0 < sp (gmunu a cph) B4 B4 := by
  obtain ⟨hr, -⟩ := split h
  obtain ⟨lam, mu, h0, e⟩ := toroidal h
  refine spacelike hg hu h fun hz => ?_
  rw [hz] at e
  have hp : 0 ≤ sp (gmunu a cph) ![0, 0, 0, 1] ![0, 0, 0, 1] := by
    unfold gmunu
    rw [Plunge.sp_circ']
    have h1 := mul_self_nonneg (Real.sin (cph 2))
    have h2 := mul_self_nonneg (Real.cos (cph 2))
    have h3 := mul_self_nonneg a
    simp only [Matrix.cons_val_zero, Matrix.cons_val_one, Matrix.cons_val, mul_zero, zero_add, add_zero, mul_one]
    positivity
  by_cases hl : lam = 0
  · have := congrFun e 3
    simp [hl] at this
    exact h0 this.symm
  · have hv : vel = (-(mu / lam)) • ![0, 0, 0, 1] := by
      funext i
      have := congrFun e i
      simp only [Pi.zero_apply, Pi.add_apply, Pi.smul_apply, smul_eq_mul] at this ⊢
      field_simp
      linear_combination (-1) * this
    rw [hv, sp_smul_left, sp_smul_right] at hu
    have := mul_nonneg (mul_self_nonneg (-(mu / lam))) hp
    linarith

private theorem gdet_eq {r th : ℝ} (h : √(Real.pi * Real.pi * r ^ 6 * Real.sin th ^ 2) ≠ 0) : 0 < √(Real.pi * Real.pi * r ^ 6 * Real.sin th ^ 2) :=
  lt_of_le_of_ne (Real.sqrt_nonneg _) h.symm

private theorem small_pos : 0 < Real.sin (0.025 * Real.pi) ∧ 0 < Real.cos (0.025 * Real.pi) := by
  have hpi := Real.pi_pos
  exact ⟨Real.sin_pos_of_pos_of_lt_pi (by positivity) (by linarith), Real.cos_pos_of_mem_Ioo ⟨by linarith, by linarith⟩⟩

/-- **C149.** The radial field is the part of the radial direction of Kerr-Schild orthogonal to the velocity, up to a factor. -/
theorem radial_ok {a : ℝ} {cph vel B4 : Vec} (h : ipole "Radial" a cph vel = some B4) :
    ∃ lam mu : ℝ, mu * Real.sin (cph 2) ≠ 0 ∧ B4 = lam • vel + mu • radial a (cph 1) := by
  obtain ⟨hr, B, hB, h⟩ := split h
  obtain ⟨lam, mu, h0, e⟩ := shape hr.ne' h
  unfold primitive at hB
  simp only [if_neg (show ¬ ("Radial" = "Vertical") by decide), if_true] at hB
  split_ifs at hB with hg
  have hg' := gdet_eq hg
  have hB := Option.some.inj hB
  obtain ⟨hs, -⟩ := small_pos
  have hth : Real.sin (cph 2) ≠ 0 := by
    intro h'
    apply hg
    rw [h']
    simp
  generalize √(Real.pi * Real.pi * cph 1 ^ 6 * Real.sin (cph 2) ^ 2) = G at *
  refine ⟨lam, mu * (B.1 * cph 1), ?_, ?_⟩
  · have : B.1 = 2 * Real.sin (cph 2) * Real.sin (0.025 * Real.pi) / (0.025 * G) := by
      rw [← hB, Real.cos_sub, Real.cos_add]
      simp only
      field_simp
      ring
    rw [this]
    have := hr.ne'
    have := hg'.ne'
    have := hs.ne'
    positivity
  · have b2 : B.2.1 = 0 := by
      rw [← hB]
      exact div_eq_zero_iff.2 (Or.inl (by ring))
    have b3 : B.2.2 = 0 := by rw [← hB]
    have z : (![0, 0, 0, 0] : Vec) = 0 := by
      funext i
      fin_cases i <;> rfl
    rw [e, b2, b3, zero_mul, z, add_zero, smul_smul]

/-- **C149.** The vertical field is, up to a factor and to the velocity, along a direction upwards: its radial component has the sign of the
cosine, and its component on the colatitude is negative. -/
theorem vertical_partial {a : ℝ} {cph vel B4 : Vec} (h : ipole "Vertical" a cph vel = some B4) :
    ∃ lam mu x y : ℝ, mu ≠ 0 ∧ 0 < x ∧ 0 < y ∧
      B4 = lam • vel + mu • ((x * Real.cos (cph 2)) • radial a (cph 1) + ![0, 0, -(y * Real.sin (cph 2)), 0]) := by
  obtain ⟨hr, B, hB, h⟩ := split h
  obtain ⟨lam, mu, h0, e⟩ := shape hr.ne' h
  unfold primitive at hB
  simp only [if_true] at hB
  split_ifs at hB with hg
  have hg' := gdet_eq hg
  have hB := Option.some.inj hB
  obtain ⟨hs, hc⟩ := small_pos
  generalize √(Real.pi * Real.pi * cph 1 ^ 6 * Real.sin (cph 2) ^ 2) = G at *
  have he : 0 < Real.exp (Real.log (cph 1) + 0.025) - Real.exp (Real.log (cph 1) - 0.025) :=
    sub_pos.2 (Real.exp_lt_exp.2 (by linarith [show (0 : ℝ) < 0.025 by norm_num]))
  have hp1 := Real.exp_pos (Real.log (cph 1) + 0.025)
  have hp2 := Real.exp_pos (Real.log (cph 1) - 0.025)
  have hpi := Real.pi_pos
  generalize Real.exp (Real.log (cph 1) + 0.025) = E at *
  generalize Real.exp (Real.log (cph 1) - 0.025) = E' at *
  refine ⟨lam, mu, (E + E') * Real.sin (0.025 * Real.pi) / (0.025 * G) * cph 1, (E - E') * Real.cos (0.025 * Real.pi) / (0.025 * G) * Real.pi, h0,
    by positivity, by positivity, ?_⟩
  rw [e, ← hB, Real.sin_sub, Real.sin_add]
  simp only
  have q1 : -(E' * (Real.sin (cph 2) * Real.cos (0.025 * Real.pi) - Real.cos (cph 2) * Real.sin (0.025 * Real.pi)) -
      E' * (Real.sin (cph 2) * Real.cos (0.025 * Real.pi) + Real.cos (cph 2) * Real.sin (0.025 * Real.pi)) +
      E * (Real.sin (cph 2) * Real.cos (0.025 * Real.pi) - Real.cos (cph 2) * Real.sin (0.025 * Real.pi)) -
      E * (Real.sin (cph 2) * Real.cos (0.025 * Real.pi) + Real.cos (cph 2) * Real.sin (0.025 * Real.pi))) / (2 * 0.025 * G) * cph 1 =
      (E + E') * Real.sin (0.025 * Real.pi) / (0.025 * G) * cph 1 * Real.cos (cph 2) := by
    field_simp
    ring
  have q2 : (E' * (Real.sin (cph 2) * Real.cos (0.025 * Real.pi) - Real.cos (cph 2) * Real.sin (0.025 * Real.pi)) +
      E' * (Real.sin (cph 2) * Real.cos (0.025 * Real.pi) + Real.cos (cph 2) * Real.sin (0.025 * Real.pi)) -
      E * (Real.sin (cph 2) * Real.cos (0.025 * Real.pi) - Real.cos (cph 2) * Real.sin (0.025 * Real.pi)) -
      E * (Real.sin (cph 2) * Real.cos (0.025 * Real.pi) + Real.cos (cph 2) * Real.sin (0.025 * Real.pi))) / (2 * 0.025 * G) * Real.pi =
      -((E - E') * Real.cos (0.025 * Real.pi) / (0.025 * G) * Real.pi * Real.sin (cph 2)) := by
    field_simp
    ring
  rw [q1, q2]

/-- **C149.** Every other name is refused, among them those that `computeB4vect` knows. -/
theorem refused {config : String} (h1 : config ≠ "Vertical") (h2 : config ≠ "Radial") (h3 : config ≠ "Toroidal") (a : ℝ) (cph vel : Vec) :
    ipole config a cph vel = none := by
  unfold ipole primitive
  simp [h1, h2, h3]

/-- An emitter at rest at radius 4 of a black hole without rotation. -/
example : ∃ B4, ipole "Toroidal" 0 ![0, 4, Real.pi / 2, 0] ![√2, 0, 0, 0] = some B4 ∧
    sp (gmunu 0 ![0, 4, Real.pi / 2, 0]) B4 ![√2, 0, 0, 0] = 0 := by
  have h2 : √(2 : ℝ) ≠ 0 := (Real.sqrt_pos.2 (by norm_num)).ne'
  have hs : √(2 : ℝ) * √2 = 2 := Real.mul_self_sqrt (by norm_num)
  obtain ⟨B4, h⟩ : ∃ B4, ipole "Toroidal" 0 ![0, 4, Real.pi / 2, 0] ![√2, 0, 0, 0] = some B4 := by
    unfold ipole primitive field
    rw [if_neg (by norm_num)]
    simp only [bind, Option.bind, if_neg (show ¬ ("Toroidal" = "Vertical") by decide), if_neg (show ¬ ("Toroidal" = "Radial") by decide), if_true]
    rw [if_neg]
    · exact ⟨_, rfl⟩
    · push Not
      refine ⟨by norm_num, by norm_num, ?_⟩
      simp [ucon]
  refine ⟨B4, h, orthogonal ?_ h⟩
  unfold gmunu
  rw [Plunge.sp_circ']
  simp
  linear_combination (-1 / 2) * hs

end Gyoto.IpoleField
