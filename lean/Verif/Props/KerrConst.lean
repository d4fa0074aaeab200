import Verif.Props.KerrMotion
import Verif.Lemmas.MetricAlg
import Mathlib.LinearAlgebra.Matrix.NonsingularInverse

/-!
# Momenta, constants of motion and their restoration in the Kerr metric
-/

namespace Gyoto.KerrBL

open Gyoto.MetricAlg Gyoto.Spacetime Matrix

/-- A point where the coordinates are regular. -/
structure Regular (a : ℝ) (x : Vec) : Prop where
  sigma : x 1 * x 1 + a * a * (Real.cos (x 2) * Real.cos (x 2)) ≠ 0
  delta : x 1 * x 1 - 2 * x 1 + a * a ≠ 0
  axis : Real.sin (x 2) ≠ 0

theorem gmunu_00 (a : ℝ) (x : Vec) : gmunu a x 0 0 = -1 + 2 * x 1 / (x 1 * x 1 + a * a * (Real.cos (x 2) * Real.cos (x 2))) := rfl
theorem gmunu_11 (a : ℝ) (x : Vec) : gmunu a x 1 1 =
    (x 1 * x 1 + a * a * (Real.cos (x 2) * Real.cos (x 2))) / (x 1 * x 1 - 2 * x 1 + a * a) := rfl
theorem gmunu_22 (a : ℝ) (x : Vec) : gmunu a x 2 2 = x 1 * x 1 + a * a * (Real.cos (x 2) * Real.cos (x 2)) := rfl
theorem gmunu_33 (a : ℝ) (x : Vec) : gmunu a x 3 3 =
    (x 1 * x 1 + a * a + 2 * x 1 * (a * a) * (Real.sin (x 2) * Real.sin (x 2)) /
      (x 1 * x 1 + a * a * (Real.cos (x 2) * Real.cos (x 2)))) * (Real.sin (x 2) * Real.sin (x 2)) := rfl
theorem gmunu_03 (a : ℝ) (x : Vec) : gmunu a x 0 3 =
    -2 * a * x 1 * (Real.sin (x 2) * Real.sin (x 2)) / (x 1 * x 1 + a * a * (Real.cos (x 2) * Real.cos (x 2))) := rfl

/-- `g_{tφ}² - g_{tt} g_{φφ} = Δ sin² θ`. -/
theorem det_eq {a : ℝ} {x : Vec} (h : x 1 * x 1 + a * a * (Real.cos (x 2) * Real.cos (x 2)) ≠ 0) :
    gmunu a x 0 3 * gmunu a x 0 3 - gmunu a x 0 0 * gmunu a x 3 3 =
      (x 1 * x 1 - 2 * x 1 + a * a) * (Real.sin (x 2) * Real.sin (x 2)) := by
  have hsc := Real.sin_sq_add_cos_sq (x 2)
  rw [gmunu_00, gmunu_33, gmunu_03]
  generalize x 1 = r at *
  generalize Real.sin (x 2) = s at *
  generalize Real.cos (x 2) = c at *
  obtain ⟨S, hS⟩ : ∃ S, S = r * r + a * a * (c * c) := ⟨_, rfl⟩
  rw [← hS] at h
  simp only [← hS]
  field_simp
  grind

/-- A product with the metric, written out. -/
theorem lower_eq (a : ℝ) (x v : Vec) (μ : Fin 4) : ∑ ν, gmunu a x μ ν * v ν =
    ![gmunu a x 0 0 * v 0 + gmunu a x 0 3 * v 3, gmunu a x 1 1 * v 1, gmunu a x 2 2 * v 2,
      gmunu a x 0 3 * v 0 + gmunu a x 3 3 * v 3] μ := by
  rw [Fin.sum_univ_four]
  fin_cases μ
  · show gmunu a x 0 0 * v 0 + 0 * v 1 + 0 * v 2 + gmunu a x 0 3 * v 3 = _; simp
  · show 0 * v 0 + gmunu a x 1 1 * v 1 + 0 * v 2 + 0 * v 3 = _; simp
  · show 0 * v 0 + 0 * v 1 + gmunu a x 2 2 * v 2 + 0 * v 3 = _; simp
  · show gmunu a x 0 3 * v 0 + 0 * v 1 + 0 * v 2 + gmunu a x 3 3 * v 3 = _; simp

theorem raise_eq (a : ℝ) (x p : Vec) (μ : Fin 4) : ∑ ν, gmunuUp a x μ ν * p ν =
    ![gmunuUp a x 0 0 * p 0 + gmunuUp a x 0 3 * p 3, gmunuUp a x 1 1 * p 1, gmunuUp a x 2 2 * p 2,
      gmunuUp a x 0 3 * p 0 + gmunuUp a x 3 3 * p 3] μ := by
  rw [Fin.sum_univ_four]
  fin_cases μ
  · show gmunuUp a x 0 0 * p 0 + 0 * p 1 + 0 * p 2 + gmunuUp a x 0 3 * p 3 = _; simp
  · show 0 * p 0 + gmunuUp a x 1 1 * p 1 + 0 * p 2 + 0 * p 3 = _; simp
  · show 0 * p 0 + 0 * p 1 + gmunuUp a x 2 2 * p 2 + 0 * p 3 = _; simp
  · show gmunuUp a x 0 3 * p 0 + 0 * p 1 + 0 * p 2 + gmunuUp a x 3 3 * p 3 = _; simp

/-! ### C67: momenta and velocities -/

/-- C67. With the constants of the motion that `computeCst` gives, `MakeMomentum` lowers the index of the velocity. -/
theorem momentum_lower (a : ℝ) (x v : Vec) (μ : Fin 4) :
    makeMomentum a (computeCst a x v) x v μ = ∑ ν, gmunu a x μ ν * v ν := by
  rw [lower_eq]
  fin_cases μ <;> simp [makeMomentum, computeCst] <;> ring

/-- C67. `MakeCoord` raises the index of a momentum whose components along `t` and `φ` are `-E` and `L`. -/
theorem coord_raise {a : ℝ} {cst : Cst} {x p : Vec} (h : Regular a x) (hE : p 0 = -cst.E) (hL : p 3 = cst.L) (μ : Fin 4) :
    makeCoord a cst x p μ = ∑ ν, gmunuUp a x μ ν * p ν := by
  obtain ⟨h4, h5, h3⟩ := h
  have hsc := Real.sin_sq_add_cos_sq (x 2)
  have hdet := det_eq h4
  rw [raise_eq]
  simp only [makeCoord]
  rw [hdet, show cst.E = -p 0 by rw [hE, neg_neg], ← hL, upCoef_eq, upCoef_eq]
  rw [gmunu_00, gmunu_33, gmunu_03]
  simp only [gmunuUp, circ]
  generalize x 1 = r at *
  generalize Real.sin (x 2) = s at *
  generalize Real.cos (x 2) = c at *
  clear hE hL
  generalize p 0 = p0 at *
  generalize p 1 = p1 at *
  generalize p 2 = p2 at *
  generalize p 3 = p3 at *
  obtain ⟨S, hS⟩ : ∃ S, S = r * r + a * a * (c * c) := ⟨_, rfl⟩
  obtain ⟨D, hD⟩ : ∃ D, D = r * r - 2 * r + a * a := ⟨_, rfl⟩
  clear hdet
  rw [← hS] at h4
  rw [← hD] at h5
  simp only [← hS, ← hD]
  fin_cases μ <;> simp <;> field_simp <;> grind

theorem lower_raise {a : ℝ} {x : Vec} (h : Regular a x) (p : Vec) (μ : Fin 4) :
    ∑ ν, gmunuUp a x μ ν * ∑ l, gmunu a x ν l * p l = p μ := by
  have e := up_inverse h.sigma h.delta h.axis
  have : gmunuUp a x *ᵥ (gmunu a x *ᵥ p) = p := by rw [Matrix.mulVec_mulVec, e, Matrix.one_mulVec]
  exact congrFun this μ

theorem raise_lower {a : ℝ} {x : Vec} (h : Regular a x) (p : Vec) (μ : Fin 4) :
    ∑ ν, gmunu a x μ ν * ∑ l, gmunuUp a x ν l * p l = p μ := by
  have e : gmunu a x * gmunuUp a x = 1 := _root_.mul_eq_one_comm.1 (up_inverse h.sigma h.delta h.axis)
  have : gmunu a x *ᵥ (gmunuUp a x *ᵥ p) = p := by rw [Matrix.mulVec_mulVec, e, Matrix.one_mulVec]
  exact congrFun this μ

/-- C67. From velocity to momentum and back. -/
theorem coord_momentum {a : ℝ} {x v : Vec} (h : Regular a x) :
    makeCoord a (computeCst a x v) x (makeMomentum a (computeCst a x v) x v) = v := by
  funext μ
  rw [coord_raise h rfl rfl]
  simp only [momentum_lower]
  exact lower_raise h v μ

/-- C67. From momentum to velocity and back, whatever the constants. -/
theorem momentum_coord {a : ℝ} {cst : Cst} {x p : Vec} (h : Regular a x) (hE : p 0 = -cst.E) (hL : p 3 = cst.L) :
    makeMomentum a cst x (makeCoord a cst x p) = p := by
  have e : ∀ μ, ∑ ν, gmunu a x μ ν * makeCoord a cst x p ν = p μ := by
    intro μ
    simp only [coord_raise h hE hL]
    exact raise_lower h p μ
  funext μ
  have e1 := e 1
  have e2 := e 2
  rw [lower_eq] at e1 e2
  fin_cases μ
  · exact hE.symm
  · exact e1
  · exact e2
  · exact hL.symm

/-- C67. The constants of the motion found from a velocity made from a momentum are those of the momentum. -/
theorem cst_coord {a : ℝ} {cst : Cst} {x p : Vec} (h : Regular a x) (hE : p 0 = -cst.E) (hL : p 3 = cst.L) :
    (computeCst a x (makeCoord a cst x p)).E = cst.E ∧ (computeCst a x (makeCoord a cst x p)).L = cst.L ∧
      (computeCst a x (makeCoord a cst x p)).Q =
        carter a (computeCst a x (makeCoord a cst x p)).mu cst.E cst.L (x 2) (p 2) := by
  have e : ∀ μ, ∑ ν, gmunu a x μ ν * makeCoord a cst x p ν = p μ := by
    intro μ
    simp only [coord_raise h hE hL]
    exact raise_lower h p μ
  have e0 := e 0
  have e2 := e 2
  have e3 := e 3
  rw [lower_eq] at e0 e2 e3
  simp only [Matrix.cons_val] at e0 e2 e3
  have k1 : (computeCst a x (makeCoord a cst x p)).E = cst.E := by
    simp only [computeCst]; linear_combination -e0 - hE
  have k2 : (computeCst a x (makeCoord a cst x p)).L = cst.L := by
    simp only [computeCst]; linear_combination e3 + hL
  refine ⟨k1, k2, ?_⟩
  rw [← k1, ← k2, ← e2]
  simp only [computeCst, carter]
  ring

/-- C67. The constants computed from a velocity: the mass is 0 or 1, according to which of the norms 0 and -1 is closer; the energy
and the angular momentum are those of the momentum; Carter's constant; and its inverse, or 1. -/
theorem computeCst_spec (a : ℝ) (x v : Vec) :
    ((computeCst a x v).mu = 0 ∧ -(1 / 2) < sp (gmunu a x) v v ∨ (computeCst a x v).mu = 1 ∧ sp (gmunu a x) v v ≤ -(1 / 2)) ∧
      (computeCst a x v).E = -∑ ν, gmunu a x 0 ν * v ν ∧ (computeCst a x v).L = ∑ ν, gmunu a x 3 ν * v ν ∧
      (computeCst a x v).Q = carter a (computeCst a x v).mu (computeCst a x v).E (computeCst a x v).L (x 2)
        (∑ ν, gmunu a x 2 ν * v ν) ∧
      ((computeCst a x v).Q = 0 ∧ (computeCst a x v).Qm1 = 1 ∨ (computeCst a x v).Q * (computeCst a x v).Qm1 = 1) := by
  refine ⟨?_, ?_, ?_, ?_, ?_⟩
  · have e : scalarProdOpt a x v v = sp (gmunu a x) v v := by rw [scalarProd_opt, scalarProd_eq]
    simp only [computeCst, e]
    have key : |sp (gmunu a x) v v| < |sp (gmunu a x) v v + 1| ↔ -(1 / 2) < sp (gmunu a x) v v := by
      rw [← sq_lt_sq]
      constructor <;> intro h <;> nlinarith
    by_cases h : -(1 / 2) < sp (gmunu a x) v v
    · rw [if_pos (key.2 h)]; exact Or.inl ⟨rfl, h⟩
    · rw [if_neg (fun h' => h (key.1 h'))]; exact Or.inr ⟨rfl, not_lt.1 h⟩
  · rw [lower_eq]; simp [computeCst]; ring
  · rw [lower_eq]; simp [computeCst]; ring
  · rw [lower_eq]
    simp only [computeCst, carter, Matrix.cons_val]
    generalize (if |scalarProdOpt a x v v| < |scalarProdOpt a x v v + 1| then (0 : ℝ) else 1) = m
    ring
  · by_cases h : (computeCst a x v).Q = 0
    · exact Or.inl ⟨h, if_pos h⟩
    · right
      rw [show (computeCst a x v).Qm1 = 1 / (computeCst a x v).Q from if_neg h]
      field_simp

/-- C67. The derivatives of the coordinates that `diff` returns are those that `MakeCoord` computes. -/
theorem diff_coord {a rsink : ℝ} {cst : Cst} {x p dx dp : Vec} (h : diff a rsink cst x p = .ok dx dp) (hE : p 0 = -cst.E)
    (hL : p 3 = cst.L) : dx = makeCoord a cst x p := by
  obtain ⟨-, -, h3, h4, h5⟩ := diff_ok_iff.1 ⟨_, _, h⟩
  funext μ
  rw [hamilton_x h hE hL, coord_raise ⟨h4, h5, h3⟩ hE hL]

/-! ### C68: restoring the norm and Carter's constant -/

theorem sp_eq (a : ℝ) (x u v : Vec) : sp (gmunu a x) u v =
    gmunu a x 0 0 * u 0 * v 0 + gmunu a x 1 1 * u 1 * v 1 + gmunu a x 2 2 * u 2 * v 2 + gmunu a x 3 3 * u 3 * v 3 +
      gmunu a x 0 3 * u 0 * v 3 + gmunu a x 0 3 * u 3 * v 0 := by
  rw [← scalarProd_eq, ← scalarProd_opt]
  rfl

/-- The same velocity with another radial component. -/
def withR (v : Vec) (rd : ℝ) : Vec := ![v 0, rd, v 2, v 3]

/-- What the norm lacks without the radial component. -/
noncomputable def excess (a mass : ℝ) (x v : Vec) : ℝ := sp (gmunu a x) (withR v 0) (withR v 0) + mass

theorem sp_withR (a mass : ℝ) (x v : Vec) (rd : ℝ) :
    sp (gmunu a x) (withR v rd) (withR v rd) = gmunu a x 1 1 * rd ^ 2 + excess a mass x v - mass := by
  unfold excess
  rw [sp_eq, sp_eq]
  simp only [withR, Matrix.cons_val]
  ring

/-- What `Normalize4v` computes, in terms of `argrac` and its threshold. -/
theorem normalize_eq {a mass : ℝ} {x v : Vec} (hm : mass = 0 ∨ mass = 1) :
    normalize4v a mass x v =
      let arglim : ℝ := if mass = 0 then 1e-4 else 1e-7
      let argrac := -excess a mass x v / gmunu a x 1 1
      let argrac' := if argrac < 0 ∧ |argrac| < arglim then 0 else argrac
      if argrac' < 0 ∧ |argrac'| > arglim then
        if (if 1 - a * a < 0 then false else decide (x 1 / (1 + √(1 - a * a)) < 2)) then
          .ok (if v 1 > 0 then 0 else 0 * -1) else .error
      else if argrac' < 0 then .nan
      else .ok (if v 1 > 0 then √argrac' else √argrac' * -1) := by
  unfold normalize4v excess
  rw [sp_eq]
  simp only [withR, Matrix.cons_val]
  rcases hm with rfl | rfl
  · rw [if_pos rfl, if_pos rfl]
    congr 3 <;> ring_nf
  · rw [if_neg one_ne_zero, if_pos one_pos, if_neg one_ne_zero]
    congr 3 <;> ring_nf

theorem grr_pos {a : ℝ} {x : Vec} (hr : 0 < x 1) (hd : 0 < x 1 * x 1 - 2 * x 1 + a * a) : 0 < gmunu a x 1 1 := by
  rw [gmunu_11]
  have := mul_pos hr hr
  have := mul_self_nonneg (a * Real.cos (x 2))
  exact div_pos (by nlinarith) hd

/-- C68. Outside the horizon, when the other components leave room for it, `Normalize4v` gives the velocity the norm asked for and
keeps the sign of its radial component. -/
theorem normalize_ok {a mass : ℝ} {x v : Vec} (hm : mass = 0 ∨ mass = 1) (hr : 0 < x 1)
    (hd : 0 < x 1 * x 1 - 2 * x 1 + a * a) (he : excess a mass x v ≤ 0) :
    ∃ rd, normalize4v a mass x v = .ok rd ∧ sp (gmunu a x) (withR v rd) (withR v rd) = -mass ∧ (0 < v 1 → 0 ≤ rd) ∧
      (v 1 ≤ 0 → rd ≤ 0) := by
  have hg := grr_pos hr hd
  have h0 : 0 ≤ -excess a mass x v / gmunu a x 1 1 := div_nonneg (by linarith) hg.le
  rw [normalize_eq hm]
  dsimp only
  have h1 : ¬(-excess a mass x v / gmunu a x 1 1 < 0) := not_lt.2 h0
  simp only [h1, false_and, if_false]
  refine ⟨_, rfl, ?_, ?_, ?_⟩
  · rw [sp_withR a mass]
    have e : (if v 1 > 0 then √(-excess a mass x v / gmunu a x 1 1) else √(-excess a mass x v / gmunu a x 1 1) * -1) ^ 2 =
        -excess a mass x v / gmunu a x 1 1 := by
      split_ifs
      · exact Real.sq_sqrt h0
      · rw [mul_pow, Real.sq_sqrt h0]; norm_num
    rw [e]
    field_simp
    ring
  · intro h
    rw [if_pos h]
    exact Real.sqrt_nonneg _
  · intro h
    rw [if_neg (not_lt.2 h)]
    linarith [Real.sqrt_nonneg (-excess a mass x v / gmunu a x 1 1)]

/-- C68. A velocity that has the norm asked for is left as it is. -/
theorem normalize_id {a mass : ℝ} {x v : Vec} (hm : mass = 0 ∨ mass = 1) (hr : 0 < x 1)
    (hd : 0 < x 1 * x 1 - 2 * x 1 + a * a) (hv : sp (gmunu a x) v v = -mass) : normalize4v a mass x v = .ok (v 1) := by
  have hg := grr_pos hr hd
  have hv' : withR v (v 1) = v := by
    funext i
    fin_cases i <;> rfl
  have e := sp_withR a mass x v (v 1)
  rw [hv', hv] at e
  have he : excess a mass x v ≤ 0 := by nlinarith [mul_nonneg hg.le (sq_nonneg (v 1))]
  obtain ⟨rd, h, h1, h2, h3⟩ := normalize_ok hm hr hd he
  rw [h]
  rw [sp_withR a mass] at h1
  have e2 : rd ^ 2 = v 1 ^ 2 := by
    have : gmunu a x 1 1 * (rd ^ 2 - v 1 ^ 2) = 0 := by linarith
    rcases mul_eq_zero.1 this with h | h
    · exact absurd h hg.ne'
    · linarith
  rcases sq_eq_sq_iff_eq_or_eq_neg.1 e2 with h4 | h4
  · rw [h4]
  · rcases lt_or_ge 0 (v 1) with h5 | h5
    · linarith [h2 h5]
    · have := h3 h5
      have : v 1 = 0 := by linarith
      rw [h4, this, neg_zero]

/-- C68. When the other components leave no room, the radial one is set to zero (and the norm stays too large) if what is missing is
small or the horizon is near; otherwise it is an error. -/
theorem normalize_excess {a mass : ℝ} {x v : Vec} (hm : mass = 0 ∨ mass = 1) (hr : 0 < x 1)
    (hd : 0 < x 1 * x 1 - 2 * x 1 + a * a) (he : 0 < excess a mass x v) :
    normalize4v a mass x v = .ok 0 ∧ -mass < sp (gmunu a x) (withR v 0) (withR v 0) ∧
        (excess a mass x v < (if mass = 0 then 1e-4 else 1e-7) * gmunu a x 1 1 ∨ x 1 < 2 * (1 + √(1 - a * a))) ∨
      normalize4v a mass x v = .error ∧ (if mass = 0 then 1e-4 else 1e-7) * gmunu a x 1 1 < excess a mass x v ∨
      normalize4v a mass x v = .nan ∧ (if mass = 0 then 1e-4 else 1e-7) * gmunu a x 1 1 = excess a mass x v := by
  have hg := grr_pos hr hd
  have hb : -mass < sp (gmunu a x) (withR v 0) (withR v 0) := by
    unfold excess at he; linarith
  have h0 : -excess a mass x v / gmunu a x 1 1 < 0 := div_neg_of_neg_of_pos (by linarith) hg
  have habs : |-excess a mass x v / gmunu a x 1 1| = excess a mass x v / gmunu a x 1 1 := by
    rw [abs_of_neg h0]; ring
  have hlim : 0 < (if mass = 0 then (1e-4 : ℝ) else 1e-7) := by split_ifs <;> norm_num
  rw [normalize_eq hm]
  dsimp only
  generalize (if mass = 0 then (1e-4 : ℝ) else 1e-7) = lim at *
  have q1 : excess a mass x v / gmunu a x 1 1 < lim ↔ excess a mass x v < lim * gmunu a x 1 1 := div_lt_iff₀ hg
  have q2 : excess a mass x v / gmunu a x 1 1 > lim ↔ lim * gmunu a x 1 1 < excess a mass x v := lt_div_iff₀ hg
  rcases lt_trichotomy (excess a mass x v / gmunu a x 1 1) lim with h | h | h
  · left
    have e : (if -excess a mass x v / gmunu a x 1 1 < 0 ∧ |-excess a mass x v / gmunu a x 1 1| < lim then (0 : ℝ)
        else -excess a mass x v / gmunu a x 1 1) = 0 := if_pos ⟨h0, by rw [habs]; exact h⟩
    have : ¬((0 : ℝ) < 0 ∧ |(0 : ℝ)| > lim) := fun h => lt_irrefl _ h.1
    rw [e, if_neg this, if_neg (lt_irrefl _)]
    refine ⟨?_, hb, Or.inl (q1.1 h)⟩
    simp
  · right; right
    have e : (if -excess a mass x v / gmunu a x 1 1 < 0 ∧ |-excess a mass x v / gmunu a x 1 1| < lim then (0 : ℝ)
        else -excess a mass x v / gmunu a x 1 1) = -excess a mass x v / gmunu a x 1 1 :=
      if_neg (by rw [habs]; rintro ⟨-, h'⟩; exact absurd h h'.ne)
    rw [e, habs, if_neg (by rintro ⟨-, h'⟩; exact absurd h h'.ne'), if_pos h0]
    refine ⟨rfl, ?_⟩
    rw [div_eq_iff hg.ne'] at h
    exact h.symm
  · have e : (if -excess a mass x v / gmunu a x 1 1 < 0 ∧ |-excess a mass x v / gmunu a x 1 1| < lim then (0 : ℝ)
        else -excess a mass x v / gmunu a x 1 1) = -excess a mass x v / gmunu a x 1 1 :=
      if_neg (by rw [habs]; rintro ⟨-, h'⟩; exact absurd h (not_lt.2 h'.le))
    rw [e, habs, if_pos ⟨h0, h⟩]
    by_cases hn : (if 1 - a * a < 0 then false else decide (x 1 / (1 + √(1 - a * a)) < 2)) = true
    · left
      rw [if_pos hn]
      refine ⟨by simp, hb, Or.inr ?_⟩
      by_cases ha : 1 - a * a < 0
      · rw [if_pos ha] at hn; cases hn
      · rw [if_neg ha, decide_eq_true_eq, div_lt_iff₀ (by positivity)] at hn
        exact hn
    · right; left
      rw [if_neg hn]
      exact ⟨rfl, q2.1 h⟩

/-- C68. With a positive Carter's constant, `CheckCons` keeps the derivative of the colatitude if the constant is right to one part
in a million, otherwise restores it exactly, with the same sign, when the colatitude can be reached with that constant. -/
theorem carter_ok {a : ℝ} {cst : Cst} {near : Bool} {x v : Vec}
    (hS : 0 < x 1 * x 1 + a * a * (Real.cos (x 2) * Real.cos (x 2))) (hQ : 0 < cst.Q) (hQm : cst.Q * cst.Qm1 = 1)
    (hreach : carter a cst.mu cst.E cst.L (x 2) 0 ≤ cst.Q) :
    ∃ th, checkCarter a cst near x v = .ok th ∧
      (th = v 2 ∧ |carter a cst.mu cst.E cst.L (x 2) (gmunu a x 2 2 * th) - cst.Q| ≤ 1e-6 * cst.Q ∨
        carter a cst.mu cst.E cst.L (x 2) (gmunu a x 2 2 * th) = cst.Q) ∧ (0 ≤ v 2 → 0 ≤ th) ∧ (v 2 < 0 → th ≤ 0) := by
  have hc0 : carter a cst.mu cst.E cst.L (x 2) 0 = Real.cos (x 2) * Real.cos (x 2) *
      (a * a * (cst.mu * cst.mu - cst.E * cst.E) + cst.L * cst.L * (1 / (Real.sin (x 2) * Real.sin (x 2)))) := by
    unfold carter; ring
  have hc : ∀ th, carter a cst.mu cst.E cst.L (x 2) (gmunu a x 2 2 * th) =
      (x 1 * x 1 + a * a * (Real.cos (x 2) * Real.cos (x 2))) ^ 2 * th ^ 2 + carter a cst.mu cst.E cst.L (x 2) 0 := by
    intro th
    rw [gmunu_22]
    unfold carter; ring
  have hQm' : cst.Qm1 = 1 / cst.Q := by rw [eq_div_iff hQ.ne']; linarith
  unfold checkCarter
  dsimp only
  rw [← hc0, hQm']
  generalize carter a cst.mu cst.E cst.L (x 2) 0 = C0 at *
  generalize x 1 * x 1 + a * a * (Real.cos (x 2) * Real.cos (x 2)) = S at *
  by_cases h : |S * S * v 2 * v 2 + C0 - cst.Q| * (1 / cst.Q) > 1e-6
  · rw [if_pos h]
    have h1 : ¬(cst.Q - C0 < 0) := not_lt.2 (by linarith)
    simp only [h1, false_and, if_false]
    refine ⟨_, rfl, Or.inr ?_, ?_, ?_⟩
    · rw [hc]
      have e : (if v 2 < 0 then √(cst.Q - C0) / S * -1 else √(cst.Q - C0) / S) ^ 2 = (cst.Q - C0) / S ^ 2 := by
        split_ifs
        · rw [mul_pow, div_pow, Real.sq_sqrt (by linarith)]; ring
        · rw [div_pow, Real.sq_sqrt (by linarith)]
      rw [e]
      field_simp
      ring
    · intro hv
      rw [if_neg (not_lt.2 hv)]
      positivity
    · intro hv
      rw [if_pos hv]
      have : 0 ≤ √(cst.Q - C0) / S := by positivity
      linarith
  · rw [if_neg h]
    refine ⟨_, rfl, Or.inl ⟨rfl, ?_⟩, id, le_of_lt⟩
    rw [hc]
    rw [gt_iff_lt, not_lt, mul_one_div, div_le_iff₀ hQ] at h
    rw [show S ^ 2 * v 2 ^ 2 + C0 - cst.Q = S * S * v 2 * v 2 + C0 - cst.Q by ring]
    exact h

/-- Finding: with a negative Carter's constant, `CheckCons` never restores it, however wrong it is. -/
theorem carter_negative_wrong {a : ℝ} {cst : Cst} {near : Bool} {x v : Vec} (hQ : cst.Q < 0) (hQm : cst.Q * cst.Qm1 = 1) :
    checkCarter a cst near x v = .ok (v 2) := by
  have hn : cst.Qm1 < 0 := by
    by_contra h
    push Not at h
    nlinarith
  unfold checkCarter
  dsimp only
  rw [if_neg]
  rw [gt_iff_lt, not_lt]
  have := mul_nonneg_of_nonpos_of_nonpos (neg_nonpos.2 (abs_nonneg (((x 1 * x 1 + a * a * (Real.cos (x 2) * Real.cos (x 2))) *
    (x 1 * x 1 + a * a * (Real.cos (x 2) * Real.cos (x 2))) * v 2 * v 2 + Real.cos (x 2) * Real.cos (x 2) *
    (a * a * (cst.mu * cst.mu - cst.E * cst.E) + cst.L * cst.L * (1 / (Real.sin (x 2) * Real.sin (x 2))))) - cst.Q))) hn.le
  nlinarith

/-- C68, partial: with a positive Carter's constant that the colatitude allows, `CheckCons` returns momenta with the energy and the
angular momentum of the constants, a Carter's constant right to one part in a million, and the mass of the constants when the other
components leave room for it. -/
theorem checkCons_partial {a : ℝ} {cst : Cst} {near : Bool} {x p : Vec} (hreg : Regular a x) (hr : 0 < x 1)
    (hd : 0 < x 1 * x 1 - 2 * x 1 + a * a) (hm : cst.mu = 0 ∨ cst.mu = 1) (hE : p 0 = -cst.E) (hL : p 3 = cst.L)
    (hQ : 0 < cst.Q) (hQm : cst.Q * cst.Qm1 = 1) (hreach : carter a cst.mu cst.E cst.L (x 2) 0 ≤ cst.Q) {p' : Vec}
    (h : checkCons a cst near x p = .ok p') : p' 0 = -cst.E ∧ p' 3 = cst.L ∧
      |carter a cst.mu cst.E cst.L (x 2) (p' 2) - cst.Q| ≤ 1e-6 * cst.Q ∧
      (2 * hamiltonian (gmunuUp a) x p' = -cst.mu ∨ p' 1 = 0 ∧ -cst.mu < 2 * hamiltonian (gmunuUp a) x p') := by
  have hS : 0 < x 1 * x 1 + a * a * (Real.cos (x 2) * Real.cos (x 2)) := by
    have := mul_pos hr hr
    have := mul_self_nonneg (a * Real.cos (x 2))
    nlinarith
  obtain ⟨th, h1, h2, -, -⟩ := carter_ok (near := near) (v := makeCoord a cst x p) hS hQ hQm hreach
  unfold checkCons at h
  dsimp only at h
  rw [h1] at h
  dsimp only at h
  generalize hv : makeCoord a cst x p = v at *
  have hw : (![v 0, v 1, th, v 3] : Vec) = withR ![v 0, 0, th, v 3] (v 1) := by
    funext i; fin_cases i <;> rfl
  have hw' : ∀ rd, (![v 0, rd, th, v 3] : Vec) = withR ![v 0, v 1, th, v 3] rd := by
    intro rd; funext i; fin_cases i <;> rfl
  -- the velocity kept along `t` and `φ` is that of the constants
  have hlow : ∀ rd, ∀ μ, makeMomentum a cst x ![v 0, rd, th, v 3] μ = ∑ ν, gmunu a x μ ν * (![v 0, rd, th, v 3] : Vec) ν := by
    intro rd
    have e : ∀ μ, ∑ ν, gmunu a x μ ν * v ν = p μ := by
      intro μ
      rw [← hv]
      simp only [coord_raise hreg hE hL]
      exact raise_lower hreg p μ
    have e0 := e 0
    have e3 := e 3
    rw [lower_eq] at e0 e3
    simp only [Matrix.cons_val] at e0 e3
    intro μ
    rw [lower_eq]
    fin_cases μ <;> simp [makeMomentum]
    · linarith
    · linarith
  have hH : ∀ rd, 2 * hamiltonian (gmunuUp a) x (makeMomentum a cst x ![v 0, rd, th, v 3]) =
      sp (gmunu a x) ![v 0, rd, th, v 3] ![v 0, rd, th, v 3] := by
    intro rd
    generalize hu : (![v 0, rd, th, v 3] : Vec) = u at *
    have hl := hlow rd
    rw [hu] at hl
    have e1 : hamiltonian (gmunuUp a) x (makeMomentum a cst x u) = (∑ μ, (∑ ν, gmunu a x μ ν * u ν) * u μ) / 2 := by
      unfold hamiltonian
      congr 1
      apply Finset.sum_congr rfl
      intro μ _
      rw [← lower_raise hreg u μ, Finset.mul_sum, ← hl μ]
      apply Finset.sum_congr rfl
      intro ν _
      rw [← hl ν]
      ring
    rw [e1, Fin.sum_univ_four]
    simp only [lower_eq, Matrix.cons_val]
    rw [sp_eq]
    ring
  cases h3 : normalize4v a cst.mu x ![v 0, v 1, th, v 3] with
  | error => rw [h3] at h; cases h
  | nan => rw [h3] at h; cases h
  | ok rd =>
    rw [h3] at h
    simp only [ConsRes.ok.injEq] at h
    subst h
    refine ⟨rfl, rfl, ?_, ?_⟩
    · show |carter a cst.mu cst.E cst.L (x 2) (gmunu a x 2 2 * th) - cst.Q| ≤ _
      rcases h2 with ⟨-, h2⟩ | h2
      · exact h2
      · rw [h2, sub_self, abs_zero]; positivity
    · rw [hH]
      rcases le_or_gt (excess a cst.mu x ![v 0, v 1, th, v 3]) 0 with he | he
      · obtain ⟨rd', k1, k2, -⟩ := normalize_ok hm hr hd he
        rw [h3, NormRes.ok.injEq] at k1
        subst k1
        rw [← hw'] at k2
        exact Or.inl k2
      · rcases normalize_excess hm hr hd he with ⟨k1, k2, -⟩ | ⟨k1, -⟩ | ⟨k1, -⟩
        · rw [h3, NormRes.ok.injEq] at k1
          subst k1
          rw [← hw'] at k2
          refine Or.inr ⟨?_, k2⟩
          show gmunu a x 1 1 * 0 = 0
          ring
        · rw [h3] at k1; cases k1
        · rw [h3] at k1; cases k1

/-! ### Examples -/

theorem regular_example : Regular 0 ![0, 4, Real.pi / 2, 0] := by
  constructor <;> simp <;> norm_num

example : computeCst 0 ![0, 4, Real.pi / 2, 0] ![2, 0, 0, 1 / 4] = ⟨1, 1, 4, 0, 1⟩ := by
  have e : scalarProdOpt 0 ![0, 4, Real.pi / 2, 0] ![2, 0, 0, 1 / 4] ![2, 0, 0, 1 / 4] = -1 := by
    rw [scalarProd_opt, scalarProd_eq, sp_eq, gmunu_00, gmunu_11, gmunu_22, gmunu_33, gmunu_03]
    simp only [Matrix.cons_val, Real.sin_pi_div_two, Real.cos_pi_div_two]
    norm_num
  unfold computeCst
  simp only [e]
  simp only [gmunu_00, gmunu_22, gmunu_33, gmunu_03, Matrix.cons_val, Real.sin_pi_div_two, Real.cos_pi_div_two]
  norm_num

example : makeCoord 0 ⟨1, 1, 4, 0, 1⟩ ![0, 4, Real.pi / 2, 0] ![-1, 0, 0, 4] = ![2, 0, 0, 1 / 4] := by
  unfold makeCoord
  simp only [gmunu_00, gmunu_33, gmunu_03, Matrix.cons_val, Real.sin_pi_div_two, Real.cos_pi_div_two]
  norm_num

/-- A photon at radius 4 without spin, whose radial component was lost. -/
example : excess 0 0 ![0, 4, Real.pi / 2, 0] ![2, 5, 0, 1 / 4] = -1 := by
  unfold excess withR
  rw [sp_eq, gmunu_00, gmunu_11, gmunu_22, gmunu_33, gmunu_03]
  simp only [Matrix.cons_val, Real.sin_pi_div_two, Real.cos_pi_div_two]
  norm_num

/-- A massive particle with the same components needs no radial motion. -/
example : normalize4v 0 1 ![0, 4, Real.pi / 2, 0] ![2, 0, 0, 1 / 4] = .ok 0 := by
  have h := normalize_id (a := 0) (mass := 1) (x := ![0, 4, Real.pi / 2, 0]) (v := ![2, 0, 0, 1 / 4]) (Or.inr rfl) (by simp)
    (by simp; norm_num) (by
      rw [sp_eq, gmunu_00, gmunu_11, gmunu_22, gmunu_33, gmunu_03]
      simp only [Matrix.cons_val, Real.sin_pi_div_two, Real.cos_pi_div_two]
      norm_num)
  simpa using h

/-- A particle that is far too fast, away from the horizon: an error. -/
example : normalize4v 0 1 ![0, 100, Real.pi / 2, 0] ![1, 0, 0, 1] = .error := by
  have hx : excess 0 1 ![0, 100, Real.pi / 2, 0] ![1, 0, 0, 1] = 10000 + 1 / 50 := by
    unfold excess withR
    rw [sp_eq, gmunu_00, gmunu_11, gmunu_22, gmunu_33, gmunu_03]
    simp only [Matrix.cons_val, Real.sin_pi_div_two, Real.cos_pi_div_two]
    norm_num
  have hg : gmunu 0 ![0, 100, Real.pi / 2, 0] 1 1 = 50 / 49 := by
    rw [gmunu_11]
    simp only [Matrix.cons_val, Real.cos_pi_div_two]
    norm_num
  rcases normalize_excess (a := 0) (mass := 1) (x := ![0, 100, Real.pi / 2, 0]) (v := ![1, 0, 0, 1]) (Or.inr rfl) (by simp)
    (by simp; norm_num) (by rw [hx]; norm_num) with ⟨-, -, h | h⟩ | h | h
  · rw [hx, hg] at h; norm_num at h
  · simp at h; norm_num at h
  · exact h.1
  · rw [hx, hg] at h; norm_num at h

/-- A Carter's constant of 9 that has drifted to 4 is restored. -/
example : checkCarter 0 ⟨0, 1, 0, 9, 1 / 9⟩ false ![0, 2, Real.pi / 3, 0] ![1, 0, 1 / 2, 0] = .ok (3 / 4) := by
  have e : √(9 : ℝ) = 3 := by rw [show (9 : ℝ) = 3 ^ 2 by norm_num]; exact Real.sqrt_sq (by norm_num)
  unfold checkCarter
  simp only [Matrix.cons_val]
  norm_num [e]

end Gyoto.KerrBL
