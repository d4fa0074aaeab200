import Verif.Props.DoughnutShape
import Verif.Props.PolarSpot
import Mathlib.Analysis.SpecialFunctions.Pow.Deriv

/-!
# C133: the gas and the magnetic field of the Polish doughnut
-/

namespace Gyoto.Doughnut

open Gyoto.MetricAlg Gyoto.KerrBL Gyoto.Orbits Gyoto.Spacetime
open Gyoto.Transfer (Out)
open Gyoto.SphAcc (Outside sigma_pos protonMassCGS)
open Gyoto.Synch

/-! ### The algebra of the enthalpy -/

/-- What the gas is made of: an enthalpy, the rest energy, the pressure of the gas and that of the field. -/
structure Mixture (K : ℝ) (f : ℝ) (G : Gas) (x pg pm : ℝ) : Prop where
  enthalpy : 0 < x
  polytrope : pg = K * x ^ (5 / 3 : ℝ)
  rest : G.n * (muElec * atomicMassCGS * c2CGS) = x - pg
  field : 0 ≤ G.B
  strength : G.B ^ 2 = f * pm

theorem unit_pos : 0 < c2CGS * muElec * atomicMassCGS := by
  unfold c2CGS muElec atomicMassCGS
  norm_num

theorem rp (x : ℝ) (hx : 0 < x) : x ^ (1 + 2 / 3 : ℝ) = x * x ^ (2 / 3 : ℝ) ∧ x ^ (5 / 3 : ℝ) = x * x ^ (2 / 3 : ℝ) := by
  have h : x ^ (1 + 2 / 3 : ℝ) = x * x ^ (2 / 3 : ℝ) := by rw [Real.rpow_add hx, Real.rpow_one]
  refine ⟨h, ?_⟩
  rw [← h]; norm_num

theorem rp_profile {E q : ℝ} (hE : 0 < E) (hq : 0 ≤ q) : (E * q ^ (3 / 2 : ℝ)) ^ (2 / 3 : ℝ) = E ^ (2 / 3 : ℝ) * q := by
  rw [Real.mul_rpow hE.le (Real.rpow_nonneg hq _), ← Real.rpow_mul hq]
  norm_num

/-- The constants of the two pressures. -/
structure Consts (s : Torus) (D c k km : ℝ) : Prop where
  kpos : 0 < k
  gas : k * s.enthalpy ^ (2 / 3 : ℝ) * (5 / 2 * (1 + 1 / s.beta)) = D
  mag : km * c ^ (2 / 3 : ℝ) * s.beta = k

theorem consts {s : Torus} {D c : ℝ} (ha : s.averaged = false) (hE : 0 < s.enthalpy) (hb : 0 < s.beta) (hD : 0 < D) (hc : 0 < c) :
    ∃ k km, s.kappas D c = .num (k, km) ∧ Consts s D c k km := by
  have e1 : s.enthalpy ^ (-(2 / 3) : ℝ) * s.enthalpy ^ (2 / 3 : ℝ) = 1 := by rw [← Real.rpow_add hE]; norm_num
  have e2 : c ^ (-(2 / 3) : ℝ) * c ^ (2 / 3 : ℝ) = 1 := by rw [← Real.rpow_add hc]; norm_num
  have p1 := Real.rpow_pos_of_pos hE (-(2 / 3))
  have hb' : 0 < 1 + 1 / s.beta := by positivity
  obtain ⟨B, hB⟩ : ∃ B, B = 1 + 1 / s.beta := ⟨_, rfl⟩
  rw [← hB] at hb'
  refine ⟨s.enthalpy ^ (-(2 / 3) : ℝ) * D / ((3 / 2 + 1) * B), c ^ (-(2 / 3) : ℝ) / s.beta * (s.enthalpy ^ (-(2 / 3) : ℝ) * D / ((3 / 2 + 1) * B)), ?_, ?_, ?_, ?_⟩
  · unfold Torus.kappas
    simp only [ha, Bool.false_eq_true, if_false, if_neg hb.ne', ← hB, if_neg hb'.ne']
  · positivity
  · rw [← hB]
    field_simp
    linear_combination 5 * e1
  · have : c ^ (-(2 / 3) : ℝ) / s.beta * (s.enthalpy ^ (-(2 / 3) : ℝ) * D / ((3 / 2 + 1) * B)) * c ^ (2 / 3 : ℝ) * s.beta =
        (c ^ (-(2 / 3) : ℝ) * c ^ (2 / 3 : ℝ)) * (s.enthalpy ^ (-(2 / 3) : ℝ) * D / ((3 / 2 + 1) * B)) := by
      field_simp
    rw [this, e2, one_mul]

theorem consts_avg {s : Torus} {D c : ℝ} (ha : s.averaged = true) (hE : 0 < s.enthalpy) (hD : 0 < D) :
    ∃ k, s.kappas D c = .num (k, 0) ∧ 0 < k ∧ k * s.enthalpy ^ (2 / 3 : ℝ) * (5 / 2) = D := by
  have e1 : s.enthalpy ^ (-(2 / 3) : ℝ) * s.enthalpy ^ (2 / 3 : ℝ) = 1 := by rw [← Real.rpow_add hE]; norm_num
  have p1 := Real.rpow_pos_of_pos hE (-(2 / 3))
  refine ⟨s.enthalpy ^ (-(2 / 3) : ℝ) * D / (3 / 2 + 1), ?_, by positivity, ?_⟩
  · unfold Torus.kappas; simp only [ha, if_true]
  · field_simp
    linear_combination 5 * e1

/-- The enthalpy, and the balance. -/
theorem balance {s : Torus} {D c A w k km : ℝ} (hE : 0 < s.enthalpy) (hc : 0 < c) (hA : 0 < A) (hw : 0 < w) (hk : 0 < k) (hm : 0 ≤ km)
    (hs : (k + km * c ^ (2 / 3 : ℝ)) * s.enthalpy ^ (2 / 3 : ℝ) * (5 / 2) = D) :
    0 < s.profile k km w c A ∧ (k + km * A ^ (2 / 3 : ℝ)) * s.profile k km w c A ^ (2 / 3 : ℝ) = 2 / 5 * (w * D) ∧
      0 < k + km * A ^ (2 / 3 : ℝ) ∧ 0 < w * (k + km * c ^ (2 / 3 : ℝ)) / (k + km * A ^ (2 / 3 : ℝ)) := by
  have pc := Real.rpow_pos_of_pos hc (2 / 3)
  have pA := Real.rpow_pos_of_pos hA (2 / 3)
  have h1 : 0 < k + km * A ^ (2 / 3 : ℝ) := by positivity
  have h2 : 0 < k + km * c ^ (2 / 3 : ℝ) := by positivity
  have hq : 0 < w * (k + km * c ^ (2 / 3 : ℝ)) / (k + km * A ^ (2 / 3 : ℝ)) := div_pos (mul_pos hw h2) h1
  refine ⟨mul_pos hE (Real.rpow_pos_of_pos hq _), ?_, h1, hq⟩
  unfold Torus.profile
  rw [rp_profile hE hq.le]
  generalize k + km * A ^ (2 / 3 : ℝ) = S at *
  field_simp
  linear_combination 2 * hs

theorem density_eq {k x : ℝ} (hx : 0 < x) : density k x * (muElec * atomicMassCGS * c2CGS) = x - k * x ^ (5 / 3 : ℝ) ∧
    (0 < density k x ↔ k * x ^ (2 / 3 : ℝ) < 1) ∧ (density k x < 0 ↔ 1 < k * x ^ (2 / 3 : ℝ)) := by
  obtain ⟨h1, h2⟩ := rp x hx
  have u := unit_pos
  unfold density
  rw [h1, h2]
  refine ⟨?_, ?_, ?_⟩
  · obtain ⟨U, hU⟩ : ∃ U, U = c2CGS * muElec * atomicMassCGS := ⟨_, rfl⟩
    rw [show muElec * atomicMassCGS * c2CGS = U by rw [hU]; ring, ← hU]
    rw [← hU] at u
    field_simp
  · rw [div_pos_iff_of_pos_right u, show x - k * (x * x ^ (2 / 3 : ℝ)) = x * (1 - k * x ^ (2 / 3 : ℝ)) by ring, mul_pos_iff_of_pos_left hx, sub_pos]
  · rw [div_neg_iff, show x - k * (x * x ^ (2 / 3 : ℝ)) = x * (1 - k * x ^ (2 / 3 : ℝ)) by ring]
    constructor
    · rintro (⟨-, h⟩ | ⟨h, -⟩)
      · linarith
      · by_contra hc
        have := mul_nonneg hx.le (show 0 ≤ 1 - k * x ^ (2 / 3 : ℝ) by linarith)
        linarith
    · intro h
      exact .inr ⟨mul_neg_of_pos_of_neg hx (by linarith), u⟩

/-- Where the gas is computed. -/
theorem gas_iff {s : Torus} {D c A w k km : ℝ} (hE : 0 < s.enthalpy) (hc : 0 < c) (hA : 0 < A) (hw : 0 < w) (hk : 0 < k) (hm : 0 ≤ km)
    (e : s.kappas D c = .num (k, km)) (G : Gas) :
    s.gas D c A w = .num G ↔ 0 ≤ density k (s.profile k km w c A) ∧ 0 < density k s.enthalpy ∧ s.field k km A (s.profile k km w c A) = .num G.B ∧
      G.n = density k (s.profile k km w c A) ∧
      G.T = s.temperature * density k s.enthalpy ^ (-(2 / 3) : ℝ) * density k (s.profile k km w c A) ^ (2 / 3 : ℝ) := by
  obtain ⟨x0, -, h1, h2⟩ := balance (s := s) (D := (k + km * c ^ (2 / 3 : ℝ)) * s.enthalpy ^ (2 / 3 : ℝ) * (5 / 2)) hE hc hA hw hk hm rfl
  unfold Torus.gas
  rw [if_neg (by push Not; exact ⟨hE, hc, hA⟩)]
  simp only [e]
  rw [if_neg h1.ne', if_neg (not_lt.2 h2.le)]
  generalize s.profile k km w c A = x at *
  by_cases c1 : density k x < 0 ∨ density k s.enthalpy < 0
  · rw [if_pos c1]
    constructor
    · intro h; cases h
    · rintro ⟨a, b, -⟩
      rcases c1 with c1 | c1 <;> linarith
  · rw [if_neg c1]
    push Not at c1
    by_cases c2 : density k s.enthalpy = 0
    · rw [if_pos c2]
      constructor
      · intro h; cases h
      · rintro ⟨a, b, -⟩; linarith
    · rw [if_neg c2]
      have c3 := lt_of_le_of_ne c1.2 (Ne.symm c2)
      rcases f : s.field k km A x with B | _ | _
      · constructor
        · intro h
          injection h with h
          rw [← h]
          exact ⟨c1.1, c3, rfl, rfl, rfl⟩
        · rintro ⟨-, -, a, b, d⟩
          injection a with a
          rcases G with ⟨n, T, B'⟩
          subst a b d
          rfl
      · constructor
        · intro h; cases h
        · rintro ⟨-, -, a, -⟩; cases a
      · constructor
        · intro h; cases h
        · rintro ⟨-, -, a, -⟩; cases a

/-- The field of the pressure. -/
theorem field_eq {s : Torus} {k km A x : ℝ} (hm : s.magnetization = -1) (ha : s.averaged = false) (hA : 0 < A) (hx : 0 < x) (hk : 0 ≤ km) :
    ∃ B, s.field k km A x = .num B ∧ 0 ≤ B ∧ B ^ 2 = 8 * Real.pi * (km * A ^ (2 / 3 : ℝ) * x ^ (5 / 3 : ℝ)) := by
  have pA := Real.rpow_pos_of_pos hA (2 / 3)
  have px := Real.rpow_pos_of_pos hx (5 / 3)
  have e : x ^ (1 + 2 / 3 : ℝ) = x ^ (5 / 3 : ℝ) := by norm_num
  have h0 : 0 ≤ 8 * Real.pi * (km * A ^ (2 / 3 : ℝ) * x ^ (5 / 3 : ℝ)) := by have := Real.pi_pos; positivity
  refine ⟨_, ?_, Real.sqrt_nonneg _, Real.sq_sqrt h0⟩
  unfold Torus.field Torus.pressure
  simp only [hm, ha, e, ne_eq, not_true_eq_false, if_false, Bool.false_eq_true, if_neg (not_lt.2 h0)]

theorem field_avg {s : Torus} {k km A x : ℝ} (hm : s.magnetization = -1) (ha : s.averaged = true) (hb : 0 < s.beta) (hx : 0 < x) (hk : 0 ≤ k) :
    ∃ B, s.field k km A x = .num B ∧ 0 ≤ B ∧ B ^ 2 = 24 * Real.pi * (k * x ^ (5 / 3 : ℝ) / s.beta) := by
  have px := Real.rpow_pos_of_pos hx (5 / 3)
  have e : x ^ (1 + 2 / 3 : ℝ) = x ^ (5 / 3 : ℝ) := by norm_num
  have h0 : 0 ≤ 24 * Real.pi * (k * x ^ (5 / 3 : ℝ) / s.beta) := by have := Real.pi_pos; positivity
  refine ⟨_, ?_, Real.sqrt_nonneg _, Real.sq_sqrt h0⟩
  unfold Torus.field Torus.pressure
  simp only [hm, ha, e, ne_eq, not_true_eq_false, if_false, if_true, if_neg hb.ne', if_neg (not_lt.2 h0)]

theorem Consts.sum {s : Torus} {D c k km : ℝ} (h : Consts s D c k km) (hb : 0 < s.beta) (hc : 0 < c) :
    0 < km ∧ (k + km * c ^ (2 / 3 : ℝ)) * s.enthalpy ^ (2 / 3 : ℝ) * (5 / 2) = D := by
  have pc := Real.rpow_pos_of_pos hc (2 / 3)
  have h0 := h.kpos
  have hm := h.mag
  have hg := h.gas
  constructor
  · have : 0 < km * (c ^ (2 / 3 : ℝ) * s.beta) := by rw [← mul_assoc, hm]; exact h0
    exact pos_of_mul_pos_left this (by positivity)
  · have : km * c ^ (2 / 3 : ℝ) = k / s.beta := by rw [← hm]; field_simp
    rw [this, ← hg]
    field_simp

theorem profile_centre {s : Torus} {k km c : ℝ} (h : 0 < k + km * c ^ (2 / 3 : ℝ)) : s.profile k km 1 c c = s.enthalpy := by
  unfold Torus.profile
  rw [one_mul, div_self h.ne', Real.one_rpow, mul_one]

/-- **C133** With an ordered field the gas is in the equilibrium of Komissarov: there are constants such that at every height above the surface, wherever the
gas is computed, the sum of the pressures is two fifths of the enthalpy times the difference of potential with the surface; the pressure of the gas follows a
polytrope, that of the field is to that of the gas as the area of the orbits to the area at the centre, to the power two thirds, over the parameter; density,
field and temperature are those of this mixture; and at the centre the enthalpy and the temperature are those that were set. -/
theorem equilibrium {s : Torus} {D c : ℝ} (ha : s.averaged = false) (hm : s.magnetization = -1) (hE : 0 < s.enthalpy) (hb : 0 < s.beta) (hD : 0 < D)
    (hc : 0 < c) :
    ∃ K nc, 0 < K ∧ ∀ A w G, 0 < A → 0 < w → s.gas D c A w = .num G →
      ∃ x pg pm, Mixture K (8 * Real.pi) G x pg pm ∧ pg + pm = 2 / 5 * (w * D) * x ∧ pm * s.beta * c ^ (2 / 3 : ℝ) = pg * A ^ (2 / 3 : ℝ) ∧
        0 < nc ∧ G.T * nc ^ (2 / 3 : ℝ) = s.temperature * G.n ^ (2 / 3 : ℝ) ∧ (A = c → w = 1 → x = s.enthalpy ∧ G.n = nc ∧ G.T = s.temperature) := by
  obtain ⟨k, km, e, C⟩ := consts ha hE hb hD hc
  obtain ⟨km0, hs⟩ := C.sum hb hc
  refine ⟨k, density k s.enthalpy, C.kpos, fun A w G hA hw h => ?_⟩
  obtain ⟨g1, g2, g3, g4, g5⟩ := (gas_iff hE hc hA hw C.kpos km0.le e G).1 h
  obtain ⟨x0, hx, h1, -⟩ := balance hE hc hA hw C.kpos km0.le hs
  have hpc : s.profile k km 1 c c = s.enthalpy := profile_centre (by have := C.kpos; have := Real.rpow_pos_of_pos hc (2 / 3); positivity)
  have hcen : A = c → w = 1 → s.profile k km w c A = s.enthalpy := fun e1 e2 => by rw [e1, e2, hpc]
  generalize s.profile k km w c A = x at *
  obtain ⟨B, f1, f2, f3⟩ := field_eq (k := k) hm ha hA x0 km0.le
  obtain rfl : G.B = B := by rw [g3] at f1; injection f1
  have pn := Real.rpow_pos_of_pos g2 (2 / 3)
  have hT : G.T * density k s.enthalpy ^ (2 / 3 : ℝ) = s.temperature * G.n ^ (2 / 3 : ℝ) := by
    have : density k s.enthalpy ^ (-(2 / 3) : ℝ) * density k s.enthalpy ^ (2 / 3 : ℝ) = 1 := by rw [← Real.rpow_add g2]; norm_num
    rw [g5, g4]
    linear_combination (s.temperature * density k x ^ (2 / 3 : ℝ)) * this
  refine ⟨x, k * x ^ (5 / 3 : ℝ), km * A ^ (2 / 3 : ℝ) * x ^ (5 / 3 : ℝ), ⟨x0, rfl, ?_, f2, f3⟩, ?_, ?_, g2, hT, fun e1 e2 => ?_⟩
  · rw [g4]; exact (density_eq x0).1
  · rw [(rp x x0).2]
    linear_combination x * hx
  · linear_combination (A ^ (2 / 3 : ℝ) * x ^ (5 / 3 : ℝ)) * C.mag
  · have hxe := hcen e1 e2
    refine ⟨hxe, by rw [g4, hxe], ?_⟩
    rw [g4, hxe] at hT
    exact mul_right_cancel₀ pn.ne' hT

/-- **C133** With a tangled field the gas alone is in equilibrium, and the pressure of the field is that of the gas over the parameter. -/
theorem equilibrium_averaged {s : Torus} {D c : ℝ} (ha : s.averaged = true) (hm : s.magnetization = -1) (hE : 0 < s.enthalpy) (hb : 0 < s.beta)
    (hD : 0 < D) (hc : 0 < c) :
    ∃ K nc, 0 < K ∧ ∀ A w G, 0 < A → 0 < w → s.gas D c A w = .num G →
      ∃ x pg pm, Mixture K (24 * Real.pi) G x pg pm ∧ pg = 2 / 5 * (w * D) * x ∧ pm * s.beta = pg ∧
        0 < nc ∧ G.T * nc ^ (2 / 3 : ℝ) = s.temperature * G.n ^ (2 / 3 : ℝ) ∧ (A = c → w = 1 → x = s.enthalpy ∧ G.n = nc ∧ G.T = s.temperature) := by
  obtain ⟨k, e, k0, hs⟩ := consts_avg (c := c) ha hE hD
  refine ⟨k, density k s.enthalpy, k0, fun A w G hA hw h => ?_⟩
  obtain ⟨g1, g2, g3, g4, g5⟩ := (gas_iff hE hc hA hw k0 le_rfl e G).1 h
  obtain ⟨x0, hx, h1, -⟩ := balance (km := 0) (D := D) hE hc hA hw k0 le_rfl (by rw [zero_mul, add_zero]; exact hs)
  have hpc : s.profile k 0 1 c c = s.enthalpy := profile_centre (by simpa using k0)
  have hcen : A = c → w = 1 → s.profile k 0 w c A = s.enthalpy := fun e1 e2 => by rw [e1, e2, hpc]
  generalize s.profile k 0 w c A = x at *
  obtain ⟨B, f1, f2, f3⟩ := field_avg (km := 0) (A := A) hm ha hb x0 k0.le
  obtain rfl : G.B = B := by rw [g3] at f1; injection f1
  have pn := Real.rpow_pos_of_pos g2 (2 / 3)
  have hT : G.T * density k s.enthalpy ^ (2 / 3 : ℝ) = s.temperature * G.n ^ (2 / 3 : ℝ) := by
    have : density k s.enthalpy ^ (-(2 / 3) : ℝ) * density k s.enthalpy ^ (2 / 3 : ℝ) = 1 := by rw [← Real.rpow_add g2]; norm_num
    rw [g5, g4]
    linear_combination (s.temperature * density k x ^ (2 / 3 : ℝ)) * this
  refine ⟨x, k * x ^ (5 / 3 : ℝ), k * x ^ (5 / 3 : ℝ) / s.beta, ⟨x0, rfl, ?_, f2, f3⟩, ?_, by field_simp, g2, hT, fun e1 e2 => ?_⟩
  · rw [g4]; exact (density_eq x0).1
  · rw [(rp x x0).2]
    linear_combination x * hx
  · have hxe := hcen e1 e2
    refine ⟨hxe, by rw [g4, hxe], ?_⟩
    rw [g4, hxe] at hT
    exact mul_right_cancel₀ pn.ne' hT

/-- **C133** Below a difference of potential of five halves there is gas everywhere: a density, a temperature and a field, all positive. -/
theorem gas_there {s : Torus} {D c A w : ℝ} (hm : s.magnetization = -1) (hE : 0 < s.enthalpy) (hT : 0 < s.temperature) (hb : 0 < s.beta) (hD : 0 < D)
    (hc : 0 < c) (hA : 0 < A) (hw : 0 < w) (h1 : D < 5 / 2) (h2 : w * D < 5 / 2) :
    ∃ G, s.gas D c A w = .num G ∧ 0 < G.n ∧ 0 < G.T ∧ 0 < G.B := by
  have pA := Real.rpow_pos_of_pos hA (2 / 3)
  have pc := Real.rpow_pos_of_pos hc (2 / 3)
  have pE := Real.rpow_pos_of_pos hE (2 / 3)
  rcases ha : s.averaged with _ | _
  · obtain ⟨k, km, e, C⟩ := consts ha hE hb hD hc
    obtain ⟨km0, hs⟩ := C.sum hb hc
    have k0 := C.kpos
    obtain ⟨x0, hx, h3, -⟩ := balance hE hc hA hw k0 km0.le hs
    generalize hxx : s.profile k km w c A = x at *
    obtain ⟨B, f1, f2, f3⟩ := field_eq (k := k) hm ha hA x0 km0.le
    have px := Real.rpow_pos_of_pos x0 (2 / 3)
    have px' := Real.rpow_pos_of_pos x0 (5 / 3)
    have n0 : 0 < density k x := (density_eq x0).2.1.2 (by nlinarith only [hx, h2, mul_pos (mul_pos km0 pA) px])
    have nc0 : 0 < density k s.enthalpy := (density_eq hE).2.1.2 (by nlinarith only [hs, h1, mul_pos (mul_pos km0 pc) pE])
    refine ⟨⟨density k x, s.temperature * density k s.enthalpy ^ (-(2 / 3) : ℝ) * density k x ^ (2 / 3 : ℝ), B⟩, ?_, n0, ?_, ?_⟩
    · rw [gas_iff hE hc hA hw k0 km0.le e, hxx]
      exact ⟨n0.le, nc0, f1, rfl, rfl⟩
    · have := Real.rpow_pos_of_pos nc0 (-(2 / 3))
      have := Real.rpow_pos_of_pos n0 (2 / 3)
      positivity
    · have : 0 < B ^ 2 := by rw [f3]; have := Real.pi_pos; positivity
      exact lt_of_le_of_ne f2 (by rintro rfl; norm_num at this)
  · obtain ⟨k, e, k0, hs⟩ := consts_avg (c := c) ha hE hD
    obtain ⟨x0, hx, h3, -⟩ := balance (km := 0) (D := D) hE hc hA hw k0 le_rfl (by rw [zero_mul, add_zero]; exact hs)
    generalize hxx : s.profile k 0 w c A = x at *
    obtain ⟨B, f1, f2, f3⟩ := field_avg (km := 0) (A := A) hm ha hb x0 k0.le
    have px := Real.rpow_pos_of_pos x0 (2 / 3)
    have px' := Real.rpow_pos_of_pos x0 (5 / 3)
    rw [zero_mul, add_zero] at hx
    have n0 : 0 < density k x := (density_eq x0).2.1.2 (by linarith only [hx, h2])
    have nc0 : 0 < density k s.enthalpy := (density_eq hE).2.1.2 (by linarith only [hs, h1])
    refine ⟨⟨density k x, s.temperature * density k s.enthalpy ^ (-(2 / 3) : ℝ) * density k x ^ (2 / 3 : ℝ), B⟩, ?_, n0, ?_, ?_⟩
    · rw [gas_iff hE hc hA hw k0 le_rfl e, hxx]
      exact ⟨n0.le, nc0, f1, rfl, rfl⟩
    · have := Real.rpow_pos_of_pos nc0 (-(2 / 3))
      have := Real.rpow_pos_of_pos n0 (2 / 3)
      positivity
    · have : 0 < B ^ 2 := by rw [f3]; have := Real.pi_pos; positivity
      exact lt_of_le_of_ne f2 (by rintro rfl; norm_num at this)

/-- **C133** The equation of Euler with an azimuthal field: along any path on which the potential and the area of the orbits are differentiable, the mixture of
`equilibrium` can be followed, and the gradient of the pressure of the gas over the enthalpy, plus that of area times magnetic pressure over area times
enthalpy, is the gradient of the potential. -/
theorem euler {s : Torus} {D c : ℝ} (ha : s.averaged = false) (hm : s.magnetization = -1) (hE : 0 < s.enthalpy) (hb : 0 < s.beta) (hD : 0 < D)
    (hc : 0 < c) {A W : ℝ → ℝ} {G : ℝ → Gas} {A' W' t0 : ℝ} (Ws : ℝ) (hA : ∀ t, 0 < A t) (hW : ∀ t, Ws < W t) (dA : HasDerivAt A A' t0) (dW : HasDerivAt W W' t0)
    (hG : ∀ t, s.gas D c (A t) ((W t - Ws) * (1 / D)) = .num (G t)) :
    ∃ K, ∃ x pg pm : ℝ → ℝ, ∃ pg' q', (∀ t, Mixture K (8 * Real.pi) (G t) (x t) (pg t) (pm t)) ∧ HasDerivAt pg pg' t0 ∧
      HasDerivAt (fun t => A t * pm t) q' t0 ∧ pg' / x t0 + q' / (A t0 * x t0) = W' := by
  obtain ⟨k, km, e, C⟩ := consts ha hE hb hD hc
  obtain ⟨km0, hs⟩ := C.sum hb hc
  have k0 := C.kpos
  have hw : ∀ t, 0 < (W t - Ws) * (1 / D) := fun t => mul_pos (by linarith [hW t]) (by positivity)
  have pc := Real.rpow_pos_of_pos hc (2 / 3)
  obtain ⟨x, hx⟩ : ∃ x : ℝ → ℝ, x = fun t => s.profile k km ((W t - Ws) * (1 / D)) c (A t) := ⟨_, rfl⟩
  have bal := fun t => balance hE hc (hA t) (hw t) k0 km0.le hs
  have x0 : ∀ t, 0 < x t := fun t => by rw [hx]; exact (bal t).1
  have hxb : ∀ t, (k + km * A t ^ (2 / 3 : ℝ)) * x t ^ (2 / 3 : ℝ) = 2 / 5 * (W t - Ws) := fun t => by
    rw [hx]
    refine (bal t).2.1.trans ?_
    field_simp
  -- the enthalpy is differentiable
  have dAp : HasDerivAt (fun t => A t ^ (2 / 3 : ℝ)) (A' * (2 / 3) * A t0 ^ (2 / 3 - 1 : ℝ)) t0 := dA.rpow_const (.inl (hA t0).ne')
  have dx : ∃ x', HasDerivAt x x' t0 := by
    have d1 := ((dW.sub_const Ws).mul_const (1 / D)).mul_const (k + km * c ^ (2 / 3 : ℝ))
    have d2 := (dAp.const_mul km).const_add k
    have d3 := d1.div d2 (bal t0).2.2.1.ne'
    have d4 := (d3.rpow_const (p := 3 / 2) (.inl (bal t0).2.2.2.ne')).const_mul s.enthalpy
    rw [hx]
    exact ⟨_, d4⟩
  obtain ⟨x', dx⟩ := dx
  have dAx := dA.mul dx
  have A0 := hA t0
  have y0 : 0 < A t0 * x t0 := mul_pos A0 (x0 t0)
  have pw : ∀ t, (A t * x t) ^ (2 / 3 : ℝ) = A t ^ (2 / 3 : ℝ) * x t ^ (2 / 3 : ℝ) := fun t => Real.mul_rpow (hA t).le (x0 t).le
  have pw5 : ∀ t, (A t * x t) ^ (5 / 3 : ℝ) = A t * (A t ^ (2 / 3 : ℝ) * x t ^ (5 / 3 : ℝ)) := fun t => by
    rw [(rp _ (mul_pos (hA t) (x0 t))).2, pw, (rp _ (x0 t)).2]; ring
  have m13 : ∀ z : ℝ, 0 < z → z ^ (2 / 3 : ℝ) = z * z ^ (2 / 3 - 1 : ℝ) := fun z hz => by
    rw [Real.rpow_sub_one hz.ne']; field_simp
  have m53 : ∀ z : ℝ, 0 < z → z ^ (5 / 3 - 1 : ℝ) = z * z ^ (2 / 3 - 1 : ℝ) := fun z hz => by
    rw [← m13 z hz]; norm_num
  have dpg := (dx.rpow_const (p := 5 / 3) (.inl (x0 t0).ne')).const_mul k
  have dpm := (dAx.rpow_const (p := 5 / 3) (.inl y0.ne')).const_mul km
  have dpm' := dpm.congr_of_eventuallyEq (f₁ := fun t => A t * (km * A t ^ (2 / 3 : ℝ) * x t ^ (5 / 3 : ℝ))) (Filter.Eventually.of_forall fun t => by
    show A t * (km * A t ^ (2 / 3 : ℝ) * x t ^ (5 / 3 : ℝ)) = km * (A t * x t) ^ (5 / 3 : ℝ)
    rw [pw5]; ring)
  refine ⟨k, x, fun t => k * x t ^ (5 / 3 : ℝ), fun t => km * A t ^ (2 / 3 : ℝ) * x t ^ (5 / 3 : ℝ), _, _, fun t => ?_, dpg, dpm', ?_⟩
  · obtain ⟨g1, g2, g3, g4, g5⟩ := (gas_iff hE hc (hA t) (hw t) k0 km0.le e (G t)).1 (hG t)
    have hxt : s.profile k km ((W t - Ws) * (1 / D)) c (A t) = x t := by rw [hx]
    rw [hxt] at g3 g4
    obtain ⟨B, f1, f2, f3⟩ := field_eq (k := k) hm ha (hA t) (x0 t) km0.le
    obtain hB : (G t).B = B := by rw [g3] at f1; injection f1
    rw [← hB] at f2 f3
    exact ⟨x0 t, rfl, by rw [g4]; exact (density_eq (x0 t)).1, f2, f3⟩
  · -- the derivative of the balance
    have dy1 := (dx.rpow_const (p := 2 / 3) (.inl (x0 t0).ne')).const_mul k
    have dy2 := (dAx.rpow_const (p := 2 / 3) (.inl y0.ne')).const_mul km
    have dy := dy1.add dy2
    have dz := ((dW.sub_const Ws).const_mul (2 / 5))
    have same : ((fun y => k * x y ^ (2 / 3 : ℝ)) + fun y => km * (A * x) y ^ (2 / 3 : ℝ)) = fun t => 2 / 5 * (W t - Ws) := by
      funext t
      show k * x t ^ (2 / 3 : ℝ) + km * (A t * x t) ^ (2 / 3 : ℝ) = _
      rw [pw, ← hxb t]; ring
    have := dy.unique (by rw [same]; exact dz)
    rw [m53 _ (x0 t0), m53 _ (show 0 < (A * x) t0 from y0)]
    have ey : (A * x) t0 = A t0 * x t0 := rfl
    rw [ey] at this ⊢
    have q1 := (x0 t0).ne'
    have q2 := A0.ne'
    generalize x t0 ^ (2 / 3 - 1 : ℝ) = u at *
    generalize (A t0 * x t0) ^ (2 / 3 - 1 : ℝ) = v at *
    field_simp
    field_simp at this
    linear_combination this

end Gyoto.Doughnut
