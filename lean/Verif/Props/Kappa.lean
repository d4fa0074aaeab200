import Verif.Lemmas.Kappa
import Mathlib.Analysis.SpecialFunctions.Trigonometric.Bounds

/-! # C114: what electrons with a kappa distribution emit and absorb (`lib/KappaDistributionSynchrotronSpectrum.C`) -/

namespace Gyoto.Synch

open Gyoto.Transfer (Out)
open Gyoto.Plasma Gyoto.Spec
open Filter Topology

/-- Whatever the setters are given, the temperature stays positive. -/
theorem kappa_temperature (l : List KappaCall) : 0.005 ≤ (Kappa.new.run l).theta := by
  have : ∀ (l : List KappaCall) (s : Kappa), 0.005 ≤ s.theta → 0.005 ≤ (s.run l).theta := by
    intro l
    induction l with
    | nil => intro s h; exact h
    | cons c l ih =>
      intro s h
      refine ih (s.call c) ?_
      cases c <;> first | exact h | exact le_max_right _ _
  exact this l _ (by norm_num [Kappa.new])

/-- A plasma for the examples. -/
noncomputable def kappaCalls : List KappaCall :=
  [.numberdensityCGS 1e5, .angle 1, .cyclotronFreq 1e8, .thetae 10, .kappaindex 3.5, .hypergeometric 0.5]

theorem someKappa : Kappa.new.run kappaCalls = ⟨1e5, 1, 1e8, 10, 3.5, 0.5, false⟩ := by
  simp only [Kappa.run, kappaCalls, List.foldl_cons, List.foldl_nil, Kappa.call, Kappa.new]
  congr 1
  norm_num

theorem someKappa_lit {nu : ℝ} (h : 0 < nu) : (Kappa.new.run kappaCalls).Lit nu := by
  rw [someKappa]
  have := Real.pi_gt_three
  refine ⟨⟨by norm_num, by norm_num, by norm_num, by norm_num, h⟩, by norm_num, ?_⟩
  simp only; linarith

/-- Example. -/
example : 0.005 ≤ (Kappa.new.run [.thetae (-3), .kappaindex 4]).theta := kappa_temperature _

theorem Kappa.front_pos {s : Kappa} (h0 : 0 < s.nu0) (hn : 0 < s.n) : 0 < s.front := by
  unfold Kappa.front chargeCGS cCGS; positivity

theorem Kappa.frontA_pos {s : Kappa} {nu : ℝ} (h0 : 0 < nu) (hn : 0 < s.n) : 0 < s.frontA nu := by
  unfold Kappa.frontA chargeCGS electronMassCGS cCGS; positivity

/-- For an index above 2 the plasma emits and absorbs, in both polarisations. -/
theorem kappa_positive {s : Kappa} {nu : ℝ} (h : s.Lit nu) (hn : 0 < s.n) :
    ∃ i q a aq, s.j nu = .ok i ∧ s.jQ nu = .ok q ∧ s.a nu = .ok a ∧ s.aQ nu = .ok aq ∧ 0 < i ∧ 0 < q ∧ 0 < a ∧ 0 < aq := by
  have k := h.kappa
  have l := h.lowPos h.xpos
  have g := h.highPos h.xpos
  have al := h.alowPos h.xpos
  have ag := h.ahighPos h.xpos
  have fp := Kappa.front_pos h.nu0 hn
  have fa := Kappa.frontA_pos (s := s) h.nu hn
  have := Real.rpow_pos_of_pos (show 0 < s.kappa by linarith) (-(12 / 5) ^ 2)
  exact ⟨_, _, _, _, h.j, h.jQ, h.a, h.aQ, mul_pos fp (br_pos _ l g), mul_pos fp (br_pos _ (by positivity) (by positivity)),
    mul_pos fa (br_pos _ al (mul_pos ag h.fA)), mul_pos fa (br_pos _ (by positivity) (by positivity))⟩

/-- Example. -/
example : ∃ i q a aq, (Kappa.new.run kappaCalls).j 2.3e11 = .ok i ∧ (Kappa.new.run kappaCalls).jQ 2.3e11 = .ok q ∧
    (Kappa.new.run kappaCalls).a 2.3e11 = .ok a ∧ (Kappa.new.run kappaCalls).aQ 2.3e11 = .ok aq ∧ 0 < i ∧ 0 < q ∧ 0 < a ∧ 0 < aq :=
  kappa_positive (someKappa_lit (by norm_num)) (by rw [someKappa]; norm_num)

theorem Kappa.Lit.of_nu {s : Kappa} {a b : ℝ} (h : s.Lit a) (hb : 0 < b) : s.Lit b :=
  ⟨⟨h.kappa, h.theta, h.nu0, h.hyp, hb⟩, h.low, h.high⟩

/-- The emission follows the two laws of the theory: `nu^(1/3)` at low frequencies, as any synchrotron, and `nu^(-(κ-2)/2)` at high ones,
as a power law of the energies with index `κ-1`; everywhere it is less than both. -/
theorem kappa_emission_laws {s : Kappa} (h : s.Lit 1) (hn : 0 < s.n) : ∃ (f : ℝ → ℝ) (A B : ℝ), 0 < A ∧ 0 < B ∧
    (∀ nu, 0 < nu → s.j nu = .ok (f nu) ∧ 0 < f nu ∧ f nu < A * nu ^ (1 / 3 : ℝ) ∧ f nu < B * nu ^ (-(s.kappa - 2) / 2)) ∧
    Tendsto (fun nu => f nu / nu ^ (1 / 3 : ℝ)) (𝓝[>] 0) (𝓝 A) ∧
    Tendsto (fun nu => f nu / nu ^ (-(s.kappa - 2) / 2)) atTop (𝓝 B) := by
  have k := h.kappa
  have fp := Kappa.front_pos h.nu0 hn
  have np := h.nuk
  obtain ⟨A0, hA0⟩ : ∃ A0, A0 = s.cl / s.nuk ^ (1 / 3 : ℝ) := ⟨_, rfl⟩
  obtain ⟨B0, hB0⟩ : ∃ B0, B0 = s.ch / s.nuk ^ (-(s.kappa - 2) / 2) := ⟨_, rfl⟩
  have pA : 0 < A0 := by rw [hA0]; exact div_pos h.cl (Real.rpow_pos_of_pos np _)
  have pB : 0 < B0 := by rw [hB0]; exact div_pos h.ch (Real.rpow_pos_of_pos np _)
  have val : ∀ nu, 0 < nu → s.jVal nu = s.front * br s.eI (A0 * nu ^ (1 / 3 : ℝ)) (B0 * nu ^ (-(s.kappa - 2) / 2)) := by
    intro nu hnu
    unfold Kappa.jVal
    rw [Kappa.low_eq, Kappa.high_eq, Real.div_rpow hnu.le np.le, Real.div_rpow hnu.le np.le, hA0, hB0]
    congr 2 <;> ring
  refine ⟨s.jVal, s.front * A0, s.front * B0, mul_pos fp pA, mul_pos fp pB, fun nu hnu => ?_, ?_, ?_⟩
  · have l := mul_pos pA (Real.rpow_pos_of_pos hnu (1 / 3))
    have g := mul_pos pB (Real.rpow_pos_of_pos hnu (-(s.kappa - 2) / 2))
    refine ⟨(h.of_nu hnu).j, ?_, ?_, ?_⟩ <;> rw [val nu hnu]
    · exact mul_pos fp (br_pos _ l g)
    · rw [mul_assoc]; exact mul_lt_mul_of_pos_left (br_lt_left h.eI l g) fp
    · rw [mul_assoc]; exact mul_lt_mul_of_pos_left (br_lt_right h.eI l g) fp
  · refine ((br_left h.eI pA pB (show -(s.kappa - 2) / 2 < 1 / 3 by linarith)).const_mul s.front).congr' ?_
    filter_upwards [self_mem_nhdsWithin] with x hx
    rw [val x hx]; ring
  · refine ((br_right h.eI pA pB (show -(s.kappa - 2) / 2 < 1 / 3 by linarith)).const_mul s.front).congr' ?_
    filter_upwards [eventually_gt_atTop 0] with x hx
    rw [val x hx]; ring

/-- So does the absorption: `nu^(-5/3)` and `nu^(-(κ+3)/2)`. -/
theorem kappa_absorption_laws {s : Kappa} (h : s.Lit 1) (hn : 0 < s.n) : ∃ (f : ℝ → ℝ) (A B : ℝ), 0 < A ∧ 0 < B ∧
    (∀ nu, 0 < nu → s.a nu = .ok (f nu) ∧ 0 < f nu ∧ f nu < A * nu ^ (-5 / 3 : ℝ) ∧ f nu < B * nu ^ (-(s.kappa + 3) / 2)) ∧
    Tendsto (fun nu => f nu / nu ^ (-5 / 3 : ℝ)) (𝓝[>] 0) (𝓝 A) ∧
    Tendsto (fun nu => f nu / nu ^ (-(s.kappa + 3) / 2)) atTop (𝓝 B) := by
  have k := h.kappa
  have fp := Kappa.frontA_pos (s := s) one_pos hn
  have np := h.nuk
  obtain ⟨A0, hA0⟩ : ∃ A0, A0 = s.dl / s.nuk ^ (-2 / 3 : ℝ) := ⟨_, rfl⟩
  obtain ⟨B0, hB0⟩ : ∃ B0, B0 = s.dh * s.fA / s.nuk ^ (-(1 + s.kappa) / 2) := ⟨_, rfl⟩
  have pA : 0 < A0 := by rw [hA0]; exact div_pos h.dl (Real.rpow_pos_of_pos np _)
  have pB : 0 < B0 := by rw [hB0]; exact div_pos (mul_pos h.dh h.fA) (Real.rpow_pos_of_pos np _)
  have val : ∀ nu, 0 < nu → s.aVal nu = s.frontA 1 * (br s.eA (A0 * nu ^ (-2 / 3 : ℝ)) (B0 * nu ^ (-(1 + s.kappa) / 2)) / nu) := by
    intro nu hnu
    unfold Kappa.aVal Kappa.frontA
    rw [Kappa.alow_eq, Kappa.ahigh_eq, Real.div_rpow hnu.le np.le, Real.div_rpow hnu.le np.le]
    have e1 : s.dl * (nu ^ (-2 / 3 : ℝ) / s.nuk ^ (-2 / 3 : ℝ)) = A0 * nu ^ (-2 / 3 : ℝ) := by rw [hA0]; ring
    have e2 : s.dh * (nu ^ (-(1 + s.kappa) / 2) / s.nuk ^ (-(1 + s.kappa) / 2)) * s.fA = B0 * nu ^ (-(1 + s.kappa) / 2) := by rw [hB0]; ring
    rw [e1, e2]
    unfold electronMassCGS cCGS
    field_simp
  have p1 : ∀ nu : ℝ, 0 < nu → nu ^ (-5 / 3 : ℝ) = nu ^ (-2 / 3 : ℝ) / nu := fun nu hnu => by
    rw [show (-5 / 3 : ℝ) = -2 / 3 - 1 by norm_num, Real.rpow_sub_one hnu.ne']
  have p2 : ∀ nu : ℝ, 0 < nu → nu ^ (-(s.kappa + 3) / 2) = nu ^ (-(1 + s.kappa) / 2) / nu := fun nu hnu => by
    rw [show -(s.kappa + 3) / 2 = -(1 + s.kappa) / 2 - 1 by ring, Real.rpow_sub_one hnu.ne']
  refine ⟨s.aVal, s.frontA 1 * A0, s.frontA 1 * B0, mul_pos fp pA, mul_pos fp pB, fun nu hnu => ?_, ?_, ?_⟩
  · have l := mul_pos pA (Real.rpow_pos_of_pos hnu (-2 / 3))
    have g := mul_pos pB (Real.rpow_pos_of_pos hnu (-(1 + s.kappa) / 2))
    refine ⟨(h.of_nu hnu).a, ?_, ?_, ?_⟩ <;> rw [val nu hnu]
    · exact mul_pos fp (div_pos (br_pos _ l g) hnu)
    · rw [mul_assoc, p1 nu hnu, ← mul_div_assoc A0]
      exact mul_lt_mul_of_pos_left (div_lt_div_of_pos_right (br_lt_left h.eA l g) hnu) fp
    · rw [mul_assoc, p2 nu hnu, ← mul_div_assoc B0]
      exact mul_lt_mul_of_pos_left (div_lt_div_of_pos_right (br_lt_right h.eA l g) hnu) fp
  · refine ((br_left h.eA pA pB (show -(1 + s.kappa) / 2 < -2 / 3 by linarith)).const_mul (s.frontA 1)).congr' ?_
    filter_upwards [self_mem_nhdsWithin] with x hx
    have hx : 0 < x := hx
    have := (Real.rpow_pos_of_pos hx (-2 / 3)).ne'
    rw [val x hx, p1 x hx]
    field_simp
  · refine ((br_right h.eA pA pB (show -(1 + s.kappa) / 2 < -2 / 3 by linarith)).const_mul (s.frontA 1)).congr' ?_
    filter_upwards [eventually_gt_atTop 0] with x hx
    have := (Real.rpow_pos_of_pos hx (-(1 + s.kappa) / 2)).ne'
    rw [val x hx, p2 x hx]
    field_simp

/-- Example of the two theorems above. -/
example : (Kappa.new.run kappaCalls).Lit 1 ∧ 0 < (Kappa.new.run kappaCalls).n :=
  ⟨someKappa_lit one_pos, by rw [someKappa]; norm_num⟩

/-- A stronger field moves the whole spectrum to higher frequencies: the emission grows with it, the absorption falls. -/
theorem kappa_field {s : Kappa} {nu c : ℝ} (h : s.Lit nu) (hc : 0 < c) : ∃ i i' a a', s.j nu = .ok i ∧
    ({ s with nu0 := c * s.nu0 } : Kappa).j (c * nu) = .ok i' ∧ s.a nu = .ok a ∧ ({ s with nu0 := c * s.nu0 } : Kappa).a (c * nu) = .ok a' ∧
    i' = c * i ∧ a' = a / c := by
  have h' : ({ s with nu0 := c * s.nu0 } : Kappa).Lit (c * nu) :=
    ⟨⟨h.kappa, h.theta, mul_pos hc h.nu0, h.hyp, mul_pos hc h.nu⟩, h.low, h.high⟩
  have e : c * nu / ({ s with nu0 := c * s.nu0 } : Kappa).nuk = nu / s.nuk := by
    have := h.nuk.ne'
    have e1 : ({ s with nu0 := c * s.nu0 } : Kappa).nuk = c * s.nuk := by unfold Kappa.nuk; ring
    rw [e1]; field_simp
  refine ⟨_, _, _, _, h.j, h'.j, h.a, h'.a, ?_, ?_⟩
  · unfold Kappa.jVal
    rw [e]
    have e2 : ({ s with nu0 := c * s.nu0 } : Kappa).front = c * s.front := by unfold Kappa.front; ring
    rw [e2, mul_assoc]
    rfl
  · unfold Kappa.aVal
    rw [e]
    have e2 : ({ s with nu0 := c * s.nu0 } : Kappa).frontA (c * nu) = s.frontA nu / c := by
      unfold Kappa.frontA electronMassCGS cCGS
      have := h.nu.ne'
      field_simp
    rw [e2, div_mul_eq_mul_div]
    rfl

/-- Example. -/
example : ∃ i i' a a', (Kappa.new.run kappaCalls).j 1e11 = .ok i ∧
    ({ Kappa.new.run kappaCalls with nu0 := 2 * (Kappa.new.run kappaCalls).nu0 } : Kappa).j (2 * 1e11) = .ok i' ∧
    (Kappa.new.run kappaCalls).a 1e11 = .ok a ∧
    ({ Kappa.new.run kappaCalls with nu0 := 2 * (Kappa.new.run kappaCalls).nu0 } : Kappa).a (2 * 1e11) = .ok a' ∧ i' = 2 * i ∧ a' = a / 2 :=
  kappa_field (someKappa_lit (by norm_num)) (by norm_num)

/-- The range of the indices of the tables. -/
theorem Kappa.Tabulated.range {s : Kappa} (h : s.Tabulated) : 3.5 ≤ s.kappa ∧ s.kappa ≤ 5.1 := by
  unfold Kappa.Tabulated Kappa.bin at h
  rcases h with h | h | h | h <;> rw [Int.floor_eq_iff] at h <;> push_cast at h <;> constructor <;> norm_num <;> linarith [h.1, h.2]

theorem exponents {k : ℝ} (h1 : 3.5 ≤ k) (h2 : k ≤ 5.1) :
    3 * k ^ (-3 / 2 : ℝ) ≤ 3.7 * k ^ (-8 / 5 : ℝ) ∧ (2 : ℝ) ^ (1 / (3 * k ^ (-3 / 2 : ℝ)) - 1 / (3.7 * k ^ (-8 / 5 : ℝ))) ≤ 1.26 := by
  have k0 : 0 < k := by linarith
  obtain ⟨t, ht⟩ : ∃ t, t = k ^ (1 / 10 : ℝ) := ⟨_, rfl⟩
  obtain ⟨u, hu⟩ : ∃ u, u = k ^ (3 / 2 : ℝ) := ⟨_, rfl⟩
  have t0 : 0 < t := by rw [ht]; exact Real.rpow_pos_of_pos k0 _
  have u0 : 0 < u := by rw [hu]; exact Real.rpow_pos_of_pos k0 _
  have t10 : t ^ 10 = k := by
    rw [ht, ← Real.rpow_natCast, ← Real.rpow_mul k0.le]; norm_num
  have u2 : u ^ 2 = k ^ 3 := by
    rw [hu, ← Real.rpow_natCast, ← Real.rpow_mul k0.le, ← Real.rpow_natCast]; norm_num
  have t1 : 1.13 ≤ t := by
    by_contra hlt
    have : t ^ 10 < 1.13 ^ 10 := pow_lt_pow_left₀ (not_le.1 hlt) t0.le (by norm_num)
    rw [t10] at this
    norm_num at this h1
    linarith
  have t2 : t ≤ 1.23 := by
    by_contra hlt
    have : (1.23 : ℝ) ^ 10 < t ^ 10 := pow_lt_pow_left₀ (not_le.1 hlt) (by norm_num) (by norm_num)
    rw [t10] at this
    norm_num at this h2
    linarith
  have u1 : u ≤ 11.9 := by
    by_contra hlt
    have : (11.9 : ℝ) ^ 2 < u ^ 2 := pow_lt_pow_left₀ (not_le.1 hlt) (by norm_num) (by norm_num)
    have k3 : k ^ 3 ≤ 5.1 ^ 3 := pow_le_pow_left₀ k0.le h2 3
    rw [u2] at this
    norm_num at this k3
    linarith
  have a1 : k ^ (-3 / 2 : ℝ) = u⁻¹ := by
    rw [hu, ← Real.rpow_neg k0.le]; norm_num
  have a2 : k ^ (-8 / 5 : ℝ) = (u * t)⁻¹ := by
    rw [hu, ht, ← Real.rpow_add k0, ← Real.rpow_neg k0.le]; norm_num
  rw [a1, a2]
  constructor
  · have e : 3.7 * (u * t)⁻¹ = 3.7 / t * u⁻¹ := by field_simp
    rw [e]
    refine mul_le_mul_of_nonneg_right ?_ (inv_pos.2 u0).le
    rw [le_div_iff₀ t0]
    norm_num at t2 ⊢
    linarith
  · have e : 1 / (3 * u⁻¹) - 1 / (3.7 * (u * t)⁻¹) = u * (1 / 3 - t / 3.7) := by field_simp
    rw [e]
    have d0 : 0 ≤ 1 / 3 - t / 3.7 := by norm_num at t2 ⊢; linarith
    have d1 : 1 / 3 - t / 3.7 ≤ 1 / 3 - 1.13 / 3.7 := by
      have := div_le_div_of_nonneg_right t1 (show (0 : ℝ) ≤ 3.7 by norm_num)
      linarith
    have d : u * (1 / 3 - t / 3.7) ≤ 1 / 3 := by
      refine (mul_le_mul u1 d1 d0 (by norm_num)).trans ?_
      norm_num
    refine (Real.rpow_le_rpow_of_exponent_le (by norm_num) d).trans ?_
    have : (2 : ℝ) ^ (1 / 3 : ℝ) ≤ (1.26 ^ 3) ^ (1 / 3 : ℝ) := Real.rpow_le_rpow (by norm_num) (by norm_num) (by norm_num)
    refine this.trans ?_
    rw [← Real.rpow_natCast, ← Real.rpow_mul (by norm_num)]
    norm_num

/-- For the indices that have tables the linearly polarised part is less than the whole. -/
theorem kappa_linear {s : Kappa} {nu : ℝ} (h : s.Lit nu) (hn : 0 < s.n) (h1 : 3.5 ≤ s.kappa) (h2 : s.kappa ≤ 5.1) :
    ∃ i q, s.j nu = .ok i ∧ s.jQ nu = .ok q ∧ 0 < q ∧ q ≤ 0.935 * i := by
  have l := h.lowPos h.xpos
  have g := h.highPos h.xpos
  have fp := Kappa.front_pos h.nu0 hn
  obtain ⟨c, hc⟩ : ∃ c, c = (4 / 5) ^ 2 + s.kappa / 50 := ⟨_, rfl⟩
  have c1 : 0.5 ≤ c := by rw [hc]; norm_num at h1 ⊢; linarith
  have c2 : c ≤ 0.742 := by rw [hc]; norm_num at h2 ⊢; linarith
  have c0 : 0 < c := by linarith
  obtain ⟨x1, x2⟩ := exponents h1 h2
  have b1 : br s.eQ (0.5 * s.low (nu / s.nuk)) (c * s.high (nu / s.nuk)) ≤ c * br s.eQ (s.low (nu / s.nuk)) (s.high (nu / s.nuk)) := by
    rw [← br_mul h.eQ c0 l g]
    exact br_mono h.eQ (by positivity) (by positivity) (mul_le_mul_of_nonneg_right c1 l.le) le_rfl
  have b2 := br_exponent h.eI x1 l g
  have p := br_pos s.eI l g
  refine ⟨_, _, h.j, h.jQ, ?_, ?_⟩
  · unfold Kappa.jQVal
    rw [← hc]
    exact mul_pos fp (br_pos _ (by positivity) (by positivity))
  · unfold Kappa.jQVal Kappa.jVal
    rw [← hc]
    have b3 : br s.eQ (s.low (nu / s.nuk)) (s.high (nu / s.nuk)) ≤ 1.26 * br s.eI (s.low (nu / s.nuk)) (s.high (nu / s.nuk)) :=
      b2.trans (mul_le_mul_of_nonneg_right x2 p.le)
    have b4 : c * br s.eQ (s.low (nu / s.nuk)) (s.high (nu / s.nuk)) ≤ 0.742 * (1.26 * br s.eI (s.low (nu / s.nuk)) (s.high (nu / s.nuk))) :=
      mul_le_mul c2 b3 (br_pos _ l g).le (by norm_num)
    have : br s.eQ (0.5 * s.low (nu / s.nuk)) (c * s.high (nu / s.nuk)) ≤ 0.935 * br s.eI (s.low (nu / s.nuk)) (s.high (nu / s.nuk)) := by
      refine (b1.trans b4).trans ?_
      rw [← mul_assoc]
      exact mul_le_mul_of_nonneg_right (by norm_num) p.le
    calc _ ≤ s.front * (0.935 * br s.eI (s.low (nu / s.nuk)) (s.high (nu / s.nuk))) := mul_le_mul_of_nonneg_left this fp.le
      _ = _ := by ring

/-- Example. -/
example : ∃ i q, (Kappa.new.run kappaCalls).j 2.3e11 = .ok i ∧ (Kappa.new.run kappaCalls).jQ 2.3e11 = .ok q ∧ 0 < q ∧ q ≤ 0.935 * i :=
  kappa_linear (someKappa_lit (by norm_num)) (by rw [someKappa]; norm_num) (by rw [someKappa]) (by rw [someKappa]; norm_num)

/-- The size of the circular part, from bounds of its two factors. -/
theorem circular_bound {s : Kappa} {nu m : ℝ} (h : s.Lit nu) (hn : 0 < s.n) (hm : 0 < m) (h1 : s.lowV (nu / s.nuk) ≤ m)
    (h2 : s.highV (nu / s.nuk) ≤ m) : |s.jVVal nu| ≤ m * s.jVal nu := by
  have l := h.lowPos h.xpos
  have g := h.highPos h.xpos
  have fp := Kappa.front_pos h.nu0 hn
  by_cases hc : Real.cos s.angle = 0
  · have : s.jVVal nu = 0 := by unfold Kappa.jVVal; rw [hc]; simp
    rw [this, abs_zero]
    exact mul_nonneg hm.le (mul_pos fp (br_pos _ l g)).le
  · have a := h.lowV hc
    have b := h.highV hc
    unfold Kappa.jVVal Kappa.jVal
    rw [mul_div_assoc, abs_mul, abs_div, abs_abs, div_self (abs_pos.2 hc).ne', mul_one,
      abs_of_pos (mul_pos fp (br_pos _ (mul_pos a l) (mul_pos b g)))]
    have : br s.eI (s.lowV (nu / s.nuk) * s.low (nu / s.nuk)) (s.highV (nu / s.nuk) * s.high (nu / s.nuk)) ≤
        m * br s.eI (s.low (nu / s.nuk)) (s.high (nu / s.nuk)) := by
      rw [← br_mul h.eI hm l g]
      exact br_mono h.eI (mul_pos a l) (mul_pos b g) (mul_le_mul_of_nonneg_right h1 l.le) (mul_le_mul_of_nonneg_right h2 g.le)
    calc _ ≤ s.front * (m * br s.eI (s.low (nu / s.nuk)) (s.high (nu / s.nuk))) := mul_le_mul_of_nonneg_left this fp.le
      _ = _ := by ring

theorem rpow_small {y c p : ℝ} (h0 : 0 ≤ y) (h1 : y ≤ c) (hc : 1 ≤ c) (hp0 : 0 ≤ p) (hp : p ≤ 1) : y ^ p ≤ c := by
  refine (Real.rpow_le_rpow h0 h1 hp0).trans ?_
  calc c ^ p ≤ c ^ (1 : ℝ) := Real.rpow_le_rpow_of_exponent_le hc hp
    _ = c := Real.rpow_one c

/-- The full claim would be that what is emitted is a beam of light wherever it is given. It is for hot electrons seen well off the field, at the
indices and frequencies that the polarised `radiativeQ` accepts. -/
theorem kappa_beam_partial {s : Kappa} {nu : ℝ} (h : s.Lit nu) (hn : 0 < s.n) (h1 : 3.5 ≤ s.kappa) (h2 : s.kappa ≤ 5.1)
    (hx : 0.1 ≤ nu / s.nuk) (hth : 10 ≤ s.theta) (hs : 1 / 2 ≤ Real.sin s.angle ^ 2) :
    ∃ i q v, s.j nu = .ok i ∧ s.jQ nu = .ok q ∧ s.jV nu = .ok v ∧ IsBeam i q 0 v := by
  obtain ⟨i, q, hi, hq, qpos, hqi⟩ := kappa_linear h hn h1 h2
  have ei := h.j
  rw [hi] at ei
  cases ei
  have k0 : 0 < s.kappa := by linarith
  have th := h.theta
  have sp := h.sin
  obtain ⟨S, hS⟩ : ∃ S, S = Real.sin s.angle ^ 2 := ⟨_, rfl⟩
  have S0 : 0 < S := by rw [hS]; positivity
  have S1 : 1 / 2 ≤ S := by rw [hS]; exact hs
  have sq : ∀ p : ℝ, Real.sin s.angle ^ p = S ^ (p / 2) := fun p => by
    rw [hS, ← Real.rpow_natCast, ← Real.rpow_mul sp.le]; congr 1; push_cast; ring
  have half : ∀ p : ℝ, p ≤ 0 → S ^ p ≤ 2 ^ (-p) := fun p hp => by
    refine (Real.rpow_le_rpow_of_nonpos (by norm_num) S1 hp).trans (le_of_eq ?_)
    rw [one_div, Real.inv_rpow (by norm_num), ← Real.rpow_neg (by norm_num)]
  have w1 : Real.sin s.angle ^ (-12 / 5 : ℝ) ≤ 2.5 := by
    rw [sq]
    refine (half _ (by norm_num)).trans ?_
    have : (2 : ℝ) ^ (-(-12 / 5 / 2) : ℝ) = (2 ^ 6 : ℝ) ^ (1 / 5 : ℝ) := by
      rw [← Real.rpow_natCast, ← Real.rpow_mul (by norm_num)]; norm_num
    rw [this]
    have := Real.rpow_le_rpow (show (0 : ℝ) ≤ 2 ^ 6 by norm_num) (show (2 : ℝ) ^ 6 ≤ 2.5 ^ 5 by norm_num) (show (0 : ℝ) ≤ 1 / 5 by norm_num)
    refine this.trans ?_
    rw [← Real.rpow_natCast, ← Real.rpow_mul (by norm_num)]; norm_num
  have w2 : Real.sin s.angle ^ (-5 / 2 : ℝ) ≤ 2.5 := by
    rw [sq]
    refine (half _ (by norm_num)).trans ?_
    have : (2 : ℝ) ^ (-(-5 / 2 / 2) : ℝ) = (2 ^ 5 : ℝ) ^ (1 / 4 : ℝ) := by
      rw [← Real.rpow_natCast, ← Real.rpow_mul (by norm_num)]; norm_num
    rw [this]
    have := Real.rpow_le_rpow (show (0 : ℝ) ≤ 2 ^ 5 by norm_num) (show (2 : ℝ) ^ 5 ≤ 2.5 ^ 4 by norm_num) (show (0 : ℝ) ≤ 1 / 4 by norm_num)
    refine this.trans ?_
    rw [← Real.rpow_natCast, ← Real.rpow_mul (by norm_num)]; norm_num
  have z1 := sin_excess sp (Real.sin_le_one s.angle) (show (-12 / 5 : ℝ) < 0 by norm_num)
  have z2 := sin_excess sp (Real.sin_le_one s.angle) (show (-5 / 2 : ℝ) < 0 by norm_num)
  have y1 : (Real.sin s.angle ^ (-12 / 5 : ℝ) - 1) ^ (12 / 25 : ℝ) ≤ 1.5 :=
    rpow_small z1 (by norm_num at w1 ⊢; linarith) (by norm_num) (by norm_num) (by norm_num)
  have y2 : (Real.sin s.angle ^ (-5 / 2 : ℝ) - 1) ^ (11 / 25 : ℝ) ≤ 1.5 :=
    rpow_small z2 (by norm_num at w2 ⊢; linarith) (by norm_num) (by norm_num) (by norm_num)
  have r0 : (0.1 : ℝ) ^ (-1 / 2 : ℝ) ≤ 3.17 := by
    have : (0.1 : ℝ) ^ (-1 / 2 : ℝ) = √10 := by
      rw [show (0.1 : ℝ) = 10⁻¹ by norm_num, Real.inv_rpow (by norm_num), ← Real.rpow_neg (by norm_num), Real.sqrt_eq_rpow]; norm_num
    rw [this]
    exact Real.sqrt_le_iff.2 ⟨by norm_num, by norm_num⟩
  have X1 : (nu / s.nuk) ^ (-1 / 2 : ℝ) ≤ 3.17 := (Real.rpow_le_rpow_of_nonpos (by norm_num) hx (by norm_num)).trans r0
  have X2 : (nu / s.nuk) ^ (-7 / 20 : ℝ) ≤ 3.17 := by
    refine (Real.rpow_le_rpow_of_nonpos (by norm_num) hx (by norm_num)).trans (le_trans ?_ r0)
    exact Real.rpow_le_rpow_of_exponent_ge (by norm_num) (by norm_num) (by norm_num)
  have k1 : s.kappa ^ (-66 / 125 : ℝ) ≤ 1 := Real.rpow_le_one_of_one_le_of_nonpos (by linarith) (by norm_num)
  have k2 : s.kappa ^ (-11 / 25 : ℝ) ≤ 0.7 := by
    refine (Real.rpow_le_rpow_of_exponent_le (by linarith) (show (-11 / 25 : ℝ) ≤ -2 / 5 by norm_num)).trans ?_
    refine (Real.rpow_le_rpow_of_nonpos (by norm_num) h1 (by norm_num)).trans ?_
    have e : (3.5 : ℝ) ^ (-2 / 5 : ℝ) = ((3.5 ^ 2)⁻¹ : ℝ) ^ (1 / 5 : ℝ) := by
      rw [Real.inv_rpow (by norm_num), ← Real.rpow_neg (by norm_num), ← Real.rpow_natCast, ← Real.rpow_mul (by norm_num)]; norm_num
    rw [e]
    have := Real.rpow_le_rpow (show (0 : ℝ) ≤ (3.5 ^ 2)⁻¹ by norm_num) (show ((3.5 : ℝ) ^ 2)⁻¹ ≤ 0.7 ^ 5 by norm_num)
      (show (0 : ℝ) ≤ 1 / 5 by norm_num)
    refine this.trans ?_
    rw [← Real.rpow_natCast, ← Real.rpow_mul (by norm_num)]; norm_num
  have t1 : s.theta⁻¹ ≤ 0.1 := by
    rw [inv_le_comm₀ th (by norm_num)]; norm_num; linarith
  have p1 := Real.rpow_nonneg z1 (12 / 25)
  have p2 := Real.rpow_nonneg z2 (11 / 25)
  have p3 := (Real.rpow_pos_of_pos k0 (-66 / 125)).le
  have p4 := (Real.rpow_pos_of_pos k0 (-11 / 25)).le
  have p5 := (Real.rpow_pos_of_pos h.xpos (-7 / 20)).le
  have p6 := (Real.rpow_pos_of_pos h.xpos (-1 / 2)).le
  have p7 := (inv_pos.2 th).le
  have A : s.lowV (nu / s.nuk) ≤ 0.3 := by
    unfold Kappa.lowV
    rw [div_eq_mul_inv _ s.theta]
    have := mul_le_mul (mul_le_mul (mul_le_mul (mul_le_mul_of_nonneg_left y1 (show (0 : ℝ) ≤ (3 / 4) ^ 2 by norm_num)) k1 p3 (by norm_num)) t1 p7
      (by norm_num)) X2 p5 (by norm_num)
    refine this.trans ?_
    norm_num
  have B : s.highV (nu / s.nuk) ≤ 0.3 := by
    unfold Kappa.highV
    rw [div_eq_mul_inv _ s.theta]
    have := mul_le_mul (mul_le_mul (mul_le_mul (mul_le_mul_of_nonneg_left y2 (show (0 : ℝ) ≤ (7 / 8) ^ 2 by norm_num)) k2 p4 (by norm_num)) t1 p7
      (by norm_num)) X1 p6 (by norm_num)
    refine this.trans ?_
    norm_num
  have cb := circular_bound h hn (by norm_num) A B
  have ipos : 0 < s.jVal nu := mul_pos (Kappa.front_pos h.nu0 hn) (br_pos _ (h.lowPos h.xpos) (h.highPos h.xpos))
  refine ⟨_, q, _, h.j, hq, h.jV, ipos.le, ?_⟩
  have q2 : q ^ 2 ≤ (0.935 * s.jVal nu) ^ 2 := pow_le_pow_left₀ qpos.le hqi 2
  have v2 : s.jVVal nu ^ 2 ≤ (0.3 * s.jVal nu) ^ 2 := sq_le_sq.2 (by rw [abs_of_nonneg (show 0 ≤ 0.3 * s.jVal nu by positivity)]; exact cb)
  have i2 := sq_nonneg (s.jVal nu)
  norm_num at q2 v2 ⊢
  nlinarith

/-- Example: at a right angle. -/
example : ∃ i q v, (({ Kappa.new.run kappaCalls with angle := Real.pi / 2 } : Kappa)).j 2.3e11 = .ok i ∧
    (({ Kappa.new.run kappaCalls with angle := Real.pi / 2 } : Kappa)).jQ 2.3e11 = .ok q ∧
    (({ Kappa.new.run kappaCalls with angle := Real.pi / 2 } : Kappa)).jV 2.3e11 = .ok v ∧ IsBeam i q 0 v := by
  rw [someKappa]
  have := Real.pi_pos
  refine kappa_beam_partial ⟨⟨by norm_num, by norm_num, by norm_num, by norm_num, by norm_num⟩, by simp only; linarith, by simp only; linarith⟩
    (by norm_num) (by norm_num) (by norm_num) ?_ (by norm_num) (by norm_num)
  norm_num [Kappa.nuk]

/-- But electrons that are barely warm are said to emit more circular polarisation than light, also where the polarised `radiativeQ` answers. -/
theorem kappa_circular_wrong (b : Bessel) (hb : b.k2 200 ≠ 0) : ∃ (l : List KappaCall) (nu : ℝ) (s' : Kappa) (v : Fin 11 → ℝ), 0 < nu ∧
    (Kappa.new.run l).radiativeQP b [nu] = .ok (s', [v]) ∧ 0 < v 0 ∧ 20 * v 0 < v 3 := by
  obtain ⟨l, hl⟩ : ∃ l, l = [KappaCall.numberdensityCGS 1, .angle (Real.pi / 4), .cyclotronFreq 1, .thetae 0.001, .kappaindex 4] := ⟨_, rfl⟩
  obtain ⟨s, hs⟩ : ∃ s : Kappa, s = ⟨1, Real.pi / 4, 1, 0.005, 4, 1, false⟩ := ⟨_, rfl⟩
  have e : Kappa.new.run l = s := by
    rw [hl, hs]
    simp only [Kappa.run, List.foldl_cons, List.foldl_nil, Kappa.call, Kappa.new]
    congr 1
    norm_num
  have pp := Real.pi_pos
  have lit1 : s.Lit 1 := by
    rw [hs]
    exact ⟨⟨by norm_num, by norm_num, by norm_num, by norm_num, by norm_num⟩, by simp only; linarith, by simp only; linarith⟩
  have np := lit1.nuk
  have lit : s.Lit s.nuk := lit1.of_nu np
  have one : s.nuk / s.nuk = 1 := div_self np.ne'
  have tab : s.Tabulated := by
    rw [hs]
    refine .inr (.inl ?_)
    unfold Kappa.bin
    rw [Int.floor_eq_iff]
    norm_num
  have hb' : b.k2 (1 / s.theta) ≠ 0 := by rw [hs]; norm_num; exact hb
  have co := lit.coefs (b := b) (by rw [one]; norm_num) tab hb'
  have ha : s.averaged = false := by rw [hs]
  refine ⟨l, s.nuk, s, toSI (s.vals b s.nuk), np, ?_, ?_, ?_⟩
  · rw [e]
    unfold Kappa.radiativeQP
    simp only [each, Kappa.passP, if_pos ha, co, bind_ok]
  · rw [toSI_j (i := 0) _ (by decide)]
    refine mul_pos (mul_pos (Kappa.front_pos lit.nu0 (by rw [hs]; norm_num)) (br_pos _ (lit.lowPos lit.xpos) (lit.highPos lit.xpos))) ?_
    unfold jnuToSI inuToSI; norm_num
  · rw [toSI_j (i := 0) _ (by decide), toSI_j (i := 3) _ (by decide)]
    change 20 * (s.jVal s.nuk * jnuToSI) < s.jVVal s.nuk * jnuToSI
    have jp : 0 < jnuToSI := by unfold jnuToSI inuToSI; norm_num
    rw [← mul_assoc]
    refine mul_lt_mul_of_pos_right ?_ jp
    have cp : 0 < Real.cos s.angle := by rw [hs]; simp only; rw [Real.cos_pi_div_four]; positivity
    unfold Kappa.jVVal Kappa.jVal
    rw [abs_of_pos cp, mul_div_assoc, div_self cp.ne', mul_one, one]
    have fp := Kappa.front_pos lit.nu0 (show 0 < s.n by rw [hs]; norm_num)
    have l0 := lit.lowPos one_pos
    have h0 := lit.highPos one_pos
    have sq : Real.sin s.angle ^ 2 = 1 / 2 := by
      rw [hs]; simp only; rw [Real.sin_pi_div_four, div_pow, Real.sq_sqrt (by norm_num)]; norm_num
    have big : ∀ p : ℝ, p ≤ -2 → 1 ≤ Real.sin s.angle ^ p - 1 := by
      intro p hp
      have h2 : Real.sin s.angle ^ (-2 : ℝ) = 2 := by
        rw [Real.rpow_neg lit.sin.le, Real.rpow_two, sq]; norm_num
      have := Real.rpow_le_rpow_of_exponent_ge lit.sin (Real.sin_le_one _) hp
      rw [h2] at this
      linarith
    have k1 : ∀ p : ℝ, -1 ≤ p → 1 / 4 ≤ s.kappa ^ p := by
      intro p hp
      have hk : s.kappa = 4 := by rw [hs]
      have := Real.rpow_le_rpow_of_exponent_le (show (1 : ℝ) ≤ 4 by norm_num) hp
      rw [Real.rpow_neg_one] at this
      rw [hk]
      linarith
    have hth : s.theta⁻¹ = 200 := by rw [hs]; norm_num
    have A : 25 ≤ s.lowV 1 := by
      unfold Kappa.lowV
      rw [Real.one_rpow, mul_one, div_eq_mul_inv _ s.theta, hth]
      have a := Real.one_le_rpow (big (-12 / 5) (by norm_num)) (show (0 : ℝ) ≤ 12 / 25 by norm_num)
      have c := k1 (-66 / 125) (by norm_num)
      nlinarith
    have B : 25 ≤ s.highV 1 := by
      unfold Kappa.highV
      rw [Real.one_rpow, mul_one, div_eq_mul_inv _ s.theta, hth]
      have a := Real.one_le_rpow (big (-5 / 2) (by norm_num)) (show (0 : ℝ) ≤ 11 / 25 by norm_num)
      have c := k1 (-11 / 25) (by norm_num)
      nlinarith
    have m := br_mono lit.eI (mul_pos (show (0 : ℝ) < 25 by norm_num) l0) (mul_pos (show (0 : ℝ) < 25 by norm_num) h0)
      (mul_le_mul_of_nonneg_right A l0.le) (mul_le_mul_of_nonneg_right B h0.le)
    rw [br_mul lit.eI (by norm_num) l0 h0] at m
    have p := br_pos s.eI l0 h0
    have := mul_le_mul_of_nonneg_left m fp.le
    have q := mul_pos fp p
    nlinarith

/-- What the unpolarised `radiativeQ` gives, and the polarised one where it answers: the same intensities, each frequency by itself, whatever the
others; the object afterwards. -/
theorem kappa_results (b : Bessel) {s : Kappa} {nus : List ℝ} (hv : s.averaged = false → 0 < s.angle ∧ s.angle < Real.pi) (hn : ∀ nu ∈ nus, s.Fair nu) :
    ∃ g : ℝ → Fin 11 → ℝ, (∃ s', s.radiativeQ nus = .ok (s', nus.map fun nu => (g nu 0, g nu 4)) ∧
        (s.averaged = false → s' = s) ∧ (s.averaged = true → nus ≠ [] → s'.angle = Real.pi - 0.01)) ∧
      (s.Tabulated → b.k2 (1 / s.theta) ≠ 0 → (∀ nu ∈ nus, s.Clear nu) → ∃ s', s.radiativeQP b nus = .ok (s', nus.map g) ∧
        (s.averaged = false → s' = s) ∧ (s.averaged = true → nus ≠ [] → s'.angle = Real.pi - 0.01)) := by
  have fairAt : ∀ nu, s.Fair nu → (s.at (Real.pi - 0.01)).Fair nu := fun nu h => ⟨h.kappa, h.theta, h.nu0, h.hyp, h.nu⟩
  have pi3 := Real.pi_gt_three
  obtain ⟨t, ht⟩ : ∃ t, t = if s.averaged = false then s else s.at (Real.pi - 0.01) := ⟨_, rfl⟩
  have tt : (if t.averaged = false then t else t.at (Real.pi - 0.01)) = t := by
    by_cases ha : s.averaged = false
    · rw [if_pos ha] at ht; rw [ht, if_pos ha]
    · rw [if_neg ha] at ht; rw [ht, if_neg (show ¬(s.at (Real.pi - 0.01)).averaged = false from ha)]; rfl
  have tv : t.averaged = false → 0 < t.angle ∧ t.angle < Real.pi := by
    by_cases ha : s.averaged = false
    · rw [if_pos ha] at ht; rw [ht]; exact hv
    · rw [if_neg ha] at ht; rw [ht]; exact fun h => absurd h ha
  have tf : ∀ nu, s.Fair nu → t.Fair nu := fun nu h => by
    rw [ht]; split
    · exact h
    · exact fairAt nu h
  have same : t.outs b = s.outs b := by
    by_cases ha : s.averaged = false
    · rw [if_pos ha] at ht; rw [ht]
    · rw [if_neg ha] at ht; rw [ht]
      funext nu
      unfold Kappa.outs
      rw [if_neg ha, if_neg (show ¬(s.at (Real.pi - 0.01)).averaged = false from ha)]
      rfl
  have fin : ∀ r : Kappa, r = (if nus = [] then s else t) → (s.averaged = false → r = s) ∧
      (s.averaged = true → nus ≠ [] → r.angle = Real.pi - 0.01) := by
    intro r hr
    constructor
    · intro ha
      rw [if_pos ha] at ht
      rw [hr, ht]; split <;> rfl
    · intro ha hne
      rw [if_neg (by simp [ha])] at ht
      rw [hr, if_neg hne, ht]; rfl
  refine ⟨s.outs b, ⟨if nus = [] then s else t, ?_, fin _ rfl⟩, fun hb hk hx => ⟨if nus = [] then s else t, ?_, fin _ rfl⟩⟩
  · refine each_fixed (A := fun nu => s.Fair nu) (fun nu h => ?_) (fun nu h => ?_) hn
    · rw [Kappa.pass_eq b h hv, ht]
    · rw [Kappa.pass_eq b (tf nu h) tv, tt, same]
  · refine each_fixed (A := fun nu => s.Fair nu ∧ s.Clear nu) (fun nu h => ?_) (fun nu h => ?_) fun nu h => ⟨hn nu h, hx nu h⟩
    · rw [Kappa.passP_eq h.1 hv h.2 hb hk, ht]
    · have hb' : t.Tabulated := by rw [ht]; split <;> exact hb
      have hk' : b.k2 (1 / t.theta) ≠ 0 := by rw [ht]; split <;> exact hk
      have hx' : t.Clear nu := by rw [ht]; split <;> exact h.2
      rw [Kappa.passP_eq (tf nu h.1) tv hx' hb' hk', tt, same]

theorem someKappa_tabulated : (Kappa.new.run kappaCalls).Tabulated := by
  rw [someKappa]
  refine .inl ?_
  unfold Kappa.bin
  rw [Int.floor_eq_iff]
  norm_num

/-- Example: two frequencies, averaged. -/
example : ∃ (g : ℝ → Fin 11 → ℝ) (s' : Kappa), ((Kappa.new.run kappaCalls).call (.averaged true)).radiativeQP ⟨fun _ => 1, fun _ => 1, fun _ => 1⟩ [2.3e11, 1e12] =
    .ok (s', ([2.3e11, 1e12] : List ℝ).map g) ∧ s'.angle = Real.pi - 0.01 := by
  obtain ⟨g, -, h⟩ := kappa_results ⟨fun _ => 1, fun _ => 1, fun _ => 1⟩ (s := (Kappa.new.run kappaCalls).call (.averaged true)) (nus := [2.3e11, 1e12])
    (fun e => by simp [Kappa.call] at e) (by
      intro nu h
      have : 0 < nu := by simp at h; rcases h with rfl | rfl <;> norm_num
      have l := someKappa_lit this
      exact ⟨l.kappa, l.theta, l.nu0, l.hyp, l.nu⟩)
  obtain ⟨s', e, -, k⟩ := h someKappa_tabulated (by norm_num) (by
    intro nu h
    simp at h
    rcases h with rfl | rfl <;> rw [someKappa] <;> norm_num [Kappa.Clear, Kappa.call])
  exact ⟨g, s', e, k rfl (by simp)⟩

/-- The mean over the directions is that of what the object gives at each; circular polarisation and rotation cancel out in it. -/
theorem kappa_averaged {b : Bessel} {s : Kappa} {nu : ℝ} (ha : s.averaged = true) (h : s.Fair nu) (hx : s.Clear nu) (hb : s.Tabulated)
    (hk : b.k2 (1 / s.theta) ≠ 0) : ∃ s' v, s.radiativeQP b [nu] = .ok (s', [v]) ∧ v 3 = 0 ∧ v 7 = 0 ∧ v 10 = 0 ∧ ∃ g : ℝ → Fin 11 → ℝ,
      (∀ θ, 0 < θ → θ < Real.pi → ∃ t, ({ s with angle := θ, averaged := false } : Kappa).radiativeQP b [nu] = .ok (t, [g θ])) ∧
      ∀ i, v i = mean 100 fun θ => g θ i := by
  have e := Kappa.passP_eq h (fun e => by simp [ha] at e) hx hb hk
  have odd : ∀ i : Fin 11, (∀ θ, (s.at (Real.pi - θ)).vals b nu i = -(s.at θ).vals b nu i) → s.outs b nu i = 0 := by
    intro i hi
    have m : mean 100 (fun θ => (s.at θ).vals b nu i) = 0 := mean_odd (by norm_num) hi
    unfold Kappa.outs
    rw [if_neg (by simp [ha])]
    by_cases h4 : i.1 < 4
    · rw [toSI_j _ h4, m, zero_mul]
    · rw [toSI_a _ h4, m, zero_mul]
  have nk : ∀ θ, (s.at (Real.pi - θ)).nuk = (s.at θ).nuk := fun θ => by unfold Kappa.nuk Kappa.at; rw [Real.sin_pi_sub]
  refine ⟨if s.averaged = false then s else s.at (Real.pi - 0.01), s.outs b nu, ?_, odd 3 fun θ => ?_, odd 7 fun θ => ?_, odd 10 fun θ => ?_,
    fun θ => ({ s with angle := θ, averaged := false } : Kappa).outs b nu, fun θ h1 h2 => ?_, fun i => ?_⟩
  · unfold Kappa.radiativeQP
    simp only [each, e, bind_ok]
  · change (s.at (Real.pi - θ)).jVVal nu = -(s.at θ).jVVal nu
    unfold Kappa.jVVal Kappa.lowV Kappa.highV Kappa.low Kappa.high Kappa.eI Kappa.front
    rw [nk]
    simp only [Kappa.at, Real.sin_pi_sub, Real.cos_pi_sub, abs_neg]
    ring
  · change (s.at (Real.pi - θ)).aVVal nu = -(s.at θ).aVVal nu
    unfold Kappa.aVVal Kappa.lowAV Kappa.highAV Kappa.alow Kappa.ahigh Kappa.frontA
    rw [nk]
    simp only [Kappa.at, Real.sin_pi_sub, Real.cos_pi_sub, abs_neg]
    ring
  · change (s.at (Real.pi - θ)).rVVal b nu = -(s.at θ).rVVal b nu
    unfold Kappa.rVVal
    rw [nk]
    simp only [Kappa.at, Kappa.bin, Real.cos_pi_sub]
    ring
  · have f : ({ s with angle := θ, averaged := false } : Kappa).Fair nu := ⟨h.kappa, h.theta, h.nu0, h.hyp, h.nu⟩
    have e' := Kappa.passP_eq (b := b) f (fun _ => ⟨h1, h2⟩) hx hb hk
    refine ⟨{ s with angle := θ, averaged := false }, ?_⟩
    unfold Kappa.radiativeQP
    simp only [each, e', bind_ok]
    rfl
  · have : ∀ θ, ({ s with angle := θ, averaged := false } : Kappa).outs b nu i = toSI ((s.at θ).vals b nu) i := fun θ => by
      simp only [Kappa.outs, if_true]; rfl
    simp only [this]
    unfold Kappa.outs
    simp only [ha, Bool.true_eq_false, if_false]
    by_cases hi : i.1 < 4
    · simp only [toSI_j _ hi]
      rw [mul_comm, ← mean_mul]
      exact mean_congr (by norm_num) fun θ _ _ => by ring
    · simp only [toSI_a _ hi]
      rw [mul_comm, ← mean_mul]
      exact mean_congr (by norm_num) fun θ _ _ => by ring

/-- Example. -/
example : ((Kappa.new.run kappaCalls).call (.averaged true)).averaged = true ∧ ((Kappa.new.run kappaCalls).call (.averaged true)).Clear 2.3e11 := by
  refine ⟨rfl, ?_⟩
  rw [someKappa]
  norm_num [Kappa.Clear, Kappa.call]

/-- The polarised `radiativeQ` answers if, and only if, the index has a table and no frequency is below a tenth of `nuk`; of the mean,
below a tenth of the greatest `nuk` of all angles. Otherwise it throws: also the intensities, which do not need the tables, are lost. -/
theorem kappa_accepts {b : Bessel} {s : Kappa} (hk : b.k2 (1 / s.theta) ≠ 0) (hv : s.averaged = false → 0 < s.angle ∧ s.angle < Real.pi)
    {nus : List ℝ} (hn : ∀ nu ∈ nus, s.Fair nu) (hne : nus ≠ []) :
    ((∃ r, s.radiativeQP b nus = .ok r) ↔ s.Tabulated ∧ ∀ nu ∈ nus,
      if s.averaged = true then 0.1 * (s.nu0 * (s.theta * s.kappa) ^ 2) ≤ nu else 0.1 ≤ nu / s.nuk) ∧
    ((¬∃ r, s.radiativeQP b nus = .ok r) → s.radiativeQP b nus = .throws) := by
  obtain ⟨Good, hG⟩ : ∃ Good : ℝ → Prop, Good = fun nu => s.Tabulated ∧
      if s.averaged = true then 0.1 * (s.nu0 * (s.theta * s.kappa) ^ 2) ≤ nu else 0.1 ≤ nu / s.nuk := ⟨_, rfl⟩
  obtain ⟨Same, hSame⟩ : ∃ Same : Kappa → Prop, Same = fun t => t = s ∨ s.averaged = true ∧ t = s.at (Real.pi - 0.01) := ⟨_, rfl⟩
  have good : ∀ t nu, Same t → s.Fair nu → Good nu → ∃ t' v, Same t' ∧ t.passP b nu = .ok (t', v) := by
    intro t nu ht f hg
    rw [hG] at hg
    rw [hSame] at ht ⊢
    by_cases ha : s.averaged = true
    · rw [if_pos ha] at hg
      have na : ¬ t.averaged = false := by rcases ht with rfl | ⟨_, rfl⟩ <;> simp [Kappa.at, ha]
      have f' : t.Fair nu := by rcases ht with rfl | ⟨_, rfl⟩ <;> exact ⟨f.kappa, f.theta, f.nu0, f.hyp, f.nu⟩
      have c' : t.Clear nu := by rcases ht with rfl | ⟨_, rfl⟩ <;> exact hg.2
      have b' : t.Tabulated := by rcases ht with rfl | ⟨_, rfl⟩ <;> exact hg.1
      have k' : b.k2 (1 / t.theta) ≠ 0 := by rcases ht with rfl | ⟨_, rfl⟩ <;> exact hk
      refine ⟨_, _, ?_, Kappa.passP_eq f' (fun h => absurd h na) c' b' k'⟩
      rw [if_neg na]
      refine .inr ⟨ha, ?_⟩
      rcases ht with rfl | ⟨_, rfl⟩ <;> rfl
    · have hf : s.averaged = false := by simpa using ha
      obtain rfl : t = s := ht.resolve_right fun h => ha h.1
      rw [if_neg ha] at hg
      have l : t.Lit nu := ⟨f, (hv hf).1, (hv hf).2⟩
      refine ⟨t, toSI (t.vals b nu), .inl rfl, ?_⟩
      simp only [Kappa.passP, if_pos hf, l.coefs hg.2 hg.1 hk, bind_ok]
  have bad : ∀ t nu, Same t → s.Fair nu → ¬ Good nu → t.passP b nu = .throws := by
    intro t nu ht f hg
    rw [hG] at hg
    beta_reduce at hg
    rw [hSame] at ht
    by_cases ha : s.averaged = true
    · rw [if_pos ha] at hg
      have na : ¬ t.averaged = false := by rcases ht with rfl | ⟨_, rfl⟩ <;> simp [Kappa.at, ha]
      have same : ∀ θ, ({ t with angle := θ } : Kappa) = s.at θ := by rcases ht with rfl | ⟨_, rfl⟩ <;> intro θ <;> rfl
      have sw : sweep 100 (fun th => ({ t with angle := th } : Kappa).coefs b nu) = .throws := by
        refine sweep_throws (by norm_num) (k := 50) ?_ (by norm_num) ?_
        · intro j hj e
          obtain ⟨a1, a2⟩ := angle_mem (N := 100) (by norm_num) hj
          have l := f.at a1 a2
          rw [same] at e
          by_cases hx : 0.1 ≤ nu / (s.at (angleAt 100 j)).nuk ∧ s.Tabulated
          · rw [l.coefs hx.1 hx.2 hk] at e; cases e
          · rw [l.coefs_throws (by
              by_contra h
              rw [not_or, not_lt, not_not] at h
              exact hx h)] at e
            cases e
        · have pp := Real.pi_pos
          have l : (s.at (Real.pi / 2)).Lit nu := f.at (by linarith) (by linarith)
          simp only [same, middle_angle]
          refine l.coefs_throws ?_
          by_cases hb : s.Tabulated
          · refine .inl ?_
            have : ¬ 0.1 * (s.nu0 * (s.theta * s.kappa) ^ 2) ≤ nu := fun h => hg ⟨hb, h⟩
            rw [div_lt_iff₀ l.nuk]
            have e : (s.at (Real.pi / 2)).nuk = s.nu0 * (s.theta * s.kappa) ^ 2 := by
              unfold Kappa.nuk Kappa.at; rw [Real.sin_pi_div_two, mul_one]
            rw [e]
            exact not_le.1 this
          · exact .inr hb
      unfold Kappa.passP
      rw [if_neg na, sw]
      rfl
    · have hf : s.averaged = false := by simpa using ha
      obtain rfl : t = s := ht.resolve_right fun h => ha h.1
      rw [if_neg ha] at hg
      have l : t.Lit nu := ⟨f, (hv hf).1, (hv hf).2⟩
      have : t.coefs b nu = .throws := l.coefs_throws (by
        by_contra h
        rw [not_or, not_lt, not_not] at h
        exact hg ⟨h.2, h.1⟩)
      unfold Kappa.passP
      rw [if_pos hf, this]
      rfl
  have run : ∀ (l : List ℝ) (t : Kappa), Same t → (∀ nu ∈ l, s.Fair nu) →
      ((∀ nu ∈ l, Good nu) → ∃ r, each (Kappa.passP b) t l = .ok r) ∧
      ((¬∀ nu ∈ l, Good nu) → each (Kappa.passP b) t l = .throws) := by
    intro l
    induction l with
    | nil => intro t _ _; exact ⟨fun _ => ⟨_, rfl⟩, fun h => absurd (by simp) h⟩
    | cons nu l ih =>
      intro t ht hl
      have f := hl nu (by simp)
      by_cases hg : Good nu
      · obtain ⟨t', v, ht', e⟩ := good t nu ht f hg
        obtain ⟨i1, i2⟩ := ih t' ht' fun x hx => hl x (by simp [hx])
        constructor
        · intro h
          obtain ⟨r, er⟩ := i1 fun x hx => h x (by simp [hx])
          exact ⟨(r.1, v :: r.2), by simp [each, e, er]⟩
        · intro h
          have : ¬∀ nu ∈ l, Good nu := fun h' => h fun x hx => by
            rcases List.mem_cons.1 hx with rfl | hx
            · exact hg
            · exact h' x hx
          simp only [each, e, bind_ok, i2 this]
          rfl
      · refine ⟨fun h => absurd (h nu (by simp)) hg, fun _ => ?_⟩
        simp only [each, bad t nu ht f hg]
        rfl
  obtain ⟨r1, r2⟩ := run nus s (by rw [hSame]; exact .inl rfl) hn
  have conv : (∀ nu ∈ nus, Good nu) ↔ s.Tabulated ∧ ∀ nu ∈ nus,
      if s.averaged = true then 0.1 * (s.nu0 * (s.theta * s.kappa) ^ 2) ≤ nu else 0.1 ≤ nu / s.nuk := by
    rw [hG]
    constructor
    · intro h
      obtain ⟨x, hx⟩ := List.exists_mem_of_ne_nil nus hne
      exact ⟨(h x hx).1, fun nu hnu => (h nu hnu).2⟩
    · intro h nu hnu
      exact ⟨h.1, h.2 nu hnu⟩
  unfold Kappa.radiativeQP
  refine ⟨⟨fun ⟨r, hr⟩ => ?_, fun h => r1 (conv.2 h)⟩, fun h => r2 fun hg => h (r1 hg)⟩
  rw [← conv]
  by_contra hg
  rw [r2 hg] at hr
  cases hr

/-- Example: one low frequency and nothing is given of the others, though the unpolarised `radiativeQ` gives them all. -/
example : (Kappa.new.run kappaCalls).radiativeQP ⟨fun _ => 1, fun _ => 1, fun _ => 1⟩ [2.3e11, 1e9] = .throws ∧
    ∃ s' g, (Kappa.new.run kappaCalls).radiativeQ [2.3e11, 1e9] = .ok (s', ([2.3e11, 1e9] : List ℝ).map g) := by
  have f : ∀ nu ∈ ([2.3e11, 1e9] : List ℝ), (Kappa.new.run kappaCalls).Fair nu := by
    intro nu h
    have : 0 < nu := by simp at h; rcases h with rfl | rfl <;> norm_num
    exact (someKappa_lit this).toFair
  have v := someKappa_lit one_pos
  constructor
  · obtain ⟨i, t⟩ := kappa_accepts (b := ⟨fun _ => 1, fun _ => 1, fun _ => 1⟩) (by norm_num) (fun _ => ⟨v.low, v.high⟩) f (by simp)
    refine t fun h => ?_
    have := (i.1 h).2 1e9 (by simp)
    rw [if_neg (by rw [someKappa]; simp), le_div_iff₀ v.nuk, someKappa] at this
    have s1 : 1 / 2 < Real.sin 1 := by
      have := Real.sin_gt_sub_cube (x := 1) one_pos
      norm_num at this ⊢
      linarith
    unfold Kappa.nuk at this
    norm_num at this
    linarith
  · obtain ⟨g, ⟨s', e, _⟩, _⟩ := kappa_results ⟨fun _ => 1, fun _ => 1, fun _ => 1⟩ (fun _ => ⟨v.low, v.high⟩) f
    exact ⟨s', _, e⟩

/-- The message says that the rotation is defined for the indices 3.5, 4, 4.5 and 5 only; but an index is taken for the last tenth below it. -/
theorem near_index_wrong : ∃ s : Kappa, s.kappa = 3.59 ∧ ∀ b : Bessel, b.k2 (1 / s.theta) ≠ 0 → (∃ r, s.radiativeQP b [2.3e11] = .ok r) ∧
    ({ s with kappa := 3.6 } : Kappa).radiativeQP b [2.3e11] = .throws := by
  refine ⟨⟨1e5, 1, 1e8, 10, 3.59, 0.5, false⟩, rfl, fun b hb => ?_⟩
  have pi3 := Real.pi_gt_three
  have f1 : ∀ nu ∈ [(2.3e11 : ℝ)], (⟨1e5, 1, 1e8, 10, 3.59, 0.5, false⟩ : Kappa).Fair nu := by
    intro nu h
    simp at h; subst h
    exact ⟨by norm_num, by norm_num, by norm_num, by norm_num, by norm_num⟩
  have f2 : ∀ nu ∈ [(2.3e11 : ℝ)], (⟨1e5, 1, 1e8, 10, 3.6, 0.5, false⟩ : Kappa).Fair nu := by
    intro nu h
    simp at h; subst h
    exact ⟨by norm_num, by norm_num, by norm_num, by norm_num, by norm_num⟩
  have v : ∀ k : ℝ, (⟨1e5, 1, 1e8, 10, k, 0.5, false⟩ : Kappa).averaged = false → (0 : ℝ) < 1 ∧ (1 : ℝ) < Real.pi :=
    fun _ _ => ⟨by norm_num, by linarith⟩
  constructor
  · refine (kappa_accepts (by exact hb) (v _) f1 (by simp)).1.2 ⟨.inl ?_, fun nu h => ?_⟩
    · unfold Kappa.bin
      rw [Int.floor_eq_iff]
      norm_num
    · have l : (⟨1e5, 1, 1e8, 10, 3.59, 0.5, false⟩ : Kappa).Lit nu := ⟨f1 nu h, by norm_num, by simp only; linarith⟩
      simp only [Bool.false_eq_true, if_false]
      refine l.clear ?_
      simp at h; subst h
      norm_num [Kappa.Clear]
  · refine (kappa_accepts (by exact hb) (v _) f2 (by simp)).2 fun h => ?_
    have := ((kappa_accepts (by exact hb) (v _) f2 (by simp)).1.1 h).1
    have e : (⟨1e5, 1, 1e8, 10, 3.6, 0.5, false⟩ : Kappa).bin = 36 := by
      unfold Kappa.bin
      rw [Int.floor_eq_iff]
      norm_num
    unfold Kappa.Tabulated at this
    rw [e] at this
    omega

/-- A new object has no index: it gives no number until it is given one, and says nothing. -/
theorem no_index_wrong (l : List KappaCall) (h : ∀ k, KappaCall.kappaindex k ∉ l) (nu : ℝ) : (Kappa.new.run l).j nu = .ub := by
  have : ∀ (l : List KappaCall) (s : Kappa), (∀ k, KappaCall.kappaindex k ∉ l) → s.kappa = 0 → (s.run l).kappa = 0 := by
    intro l
    induction l with
    | nil => intro s _ h; exact h
    | cons c l ih =>
      intro s hl h
      refine ih (s.call c) (fun k hk => hl k (by simp [hk])) ?_
      cases c with
      | kappaindex k => exact absurd (List.mem_cons_self) (hl k)
      | _ => exact h
  have k := this l Kappa.new h rfl
  unfold Kappa.j Kappa.emission Kappa.X
  rw [if_pos (.inr (.inr (.inl k.le)))]
  rfl

/-- Example. -/
example : (Kappa.new.run [.numberdensityCGS 1e5, .angle 1, .cyclotronFreq 1e8, .thetae 10]).j 1e11 = .ub := no_index_wrong _ (by simp) _

/-- What a slab adds is less than `j ds`, -/
theorem kappa_increment_partial {s : Kappa} {nu ds : ℝ} (h : s.Lit nu) (hn : 0 < s.n) (hd : 0 < ds) : ∃ j a v, s.j nu = .ok j ∧ s.a nu = .ok a ∧
    s.increment nu ds = .ok v ∧ 0 < v ∧ v ≤ slab (j * jnuToSI) (a * anuToSI) ds := by
  obtain ⟨j, _, a, _, hj, _, ha, _, jp, _, ap, _⟩ := kappa_positive h hn
  refine ⟨j, a, _, hj, ha, by unfold Kappa.increment; rw [hj, bind_ok, ha, bind_ok], ?_, ?_⟩
  · unfold inuToSI; positivity
  · have key : a * (ds * 100) * Real.exp (-a * (ds * 100)) ≤ 1 - Real.exp (-a * (ds * 100)) := by
      obtain ⟨x, hx⟩ : ∃ x, x = a * (ds * 100) := ⟨_, rfl⟩
      rw [show -a * (ds * 100) = -x by rw [hx]; ring, ← hx]
      have e1 : Real.exp x * Real.exp (-x) = 1 := by rw [← Real.exp_add, add_neg_cancel, Real.exp_zero]
      have e2 := Real.add_one_le_exp x
      have e3 := Real.exp_pos (-x)
      nlinarith
    have e : slab (j * jnuToSI) (a * anuToSI) ds = j / a * inuToSI * (1 - Real.exp (-a * (ds * 100))) := by
      unfold slab anuToSI jnuToSI
      rw [show -(a * 100) * ds = -a * (ds * 100) by ring]
      field_simp
    rw [e]
    have e2 : j * (ds * 100) * Real.exp (-a * (ds * 100)) * inuToSI = j / a * inuToSI * (a * (ds * 100) * Real.exp (-a * (ds * 100))) := by
      field_simp
    rw [e2]
    exact mul_le_mul_of_nonneg_left key (by unfold inuToSI; positivity)

/-- but it vanishes for deep slabs, from which `j/a` leaves. -/
theorem kappa_increment_wrong {s : Kappa} {nu : ℝ} (h : s.Lit nu) (hn : 0 < s.n) : ∃ (f : ℝ → ℝ) (j a : ℝ), s.j nu = .ok j ∧ s.a nu = .ok a ∧
    (∀ ds, s.increment nu ds = .ok (f ds)) ∧ Tendsto f atTop (𝓝 0) ∧
    Tendsto (slab (j * jnuToSI) (a * anuToSI)) atTop (𝓝 (j * jnuToSI / (a * anuToSI))) ∧ 0 < j * jnuToSI / (a * anuToSI) := by
  obtain ⟨j, _, a, _, hj, _, ha, _, jp, _, ap, _⟩ := kappa_positive h hn
  have lim : Tendsto (fun ds : ℝ => a * (ds * 100)) atTop atTop :=
    (tendsto_id.atTop_mul_const (by norm_num : (0 : ℝ) < 100)).const_mul_atTop ap
  refine ⟨fun ds => j * (ds * 100) * Real.exp (-a * (ds * 100)) * inuToSI, j, a, hj, ha, fun ds => ?_, ?_, ?_, ?_⟩
  · unfold Kappa.increment
    rw [hj, bind_ok, ha, bind_ok]
  · have t := (Real.tendsto_pow_mul_exp_neg_atTop_nhds_zero 1).comp lim
    have t2 := t.const_mul (j * inuToSI / a)
    rw [mul_zero] at t2
    refine t2.congr fun ds => ?_
    simp only [Function.comp, pow_one]
    have e2 : -a * (ds * 100) = -(a * (ds * 100)) := by ring
    rw [e2]
    field_simp
  · have t := (Real.tendsto_exp_neg_atTop_nhds_zero).comp lim
    have t2 := (t.const_sub 1).const_mul (j * jnuToSI / (a * anuToSI))
    rw [sub_zero, mul_one] at t2
    refine t2.congr fun ds => ?_
    unfold slab anuToSI
    simp only [Function.comp]
    have e1 : -(a * 100) * ds = -(a * (ds * 100)) := by ring
    rw [e1]
  · unfold jnuToSI inuToSI anuToSI; positivity

/-- Example of the two theorems above. -/
example : ∃ j a v, (Kappa.new.run kappaCalls).j 2.3e11 = .ok j ∧ (Kappa.new.run kappaCalls).a 2.3e11 = .ok a ∧
    (Kappa.new.run kappaCalls).increment 2.3e11 1e12 = .ok v ∧ 0 < v ∧ v ≤ slab (j * jnuToSI) (a * anuToSI) 1e12 :=
  kappa_increment_partial (someKappa_lit (by norm_num)) (by rw [someKappa]; norm_num) (by norm_num)

end Gyoto.Synch
