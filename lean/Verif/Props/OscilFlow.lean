import Verif.Props.OscilTorus

/-!
# C125, C126: the velocity of the torus with oscillations, and its emission
-/

namespace Gyoto.OscTorus

open Gyoto.MetricAlg Gyoto.KerrBL Gyoto.Spec.Oscil Gyoto.Spacetime
open Gyoto.Transfer (Out)

/-! ## C125: the velocity -/

/-- What the code has computed when it returns. -/
theorem get_ok {o : Osc} {a : ℝ} {pos v : Vec} (hs : o.spin = some a) (h : o.getVelocity pos = .ok v) :
    ∃ x y, o.xy pos = .ok (x, y) ∧ DefTorus.Inv (gmunu a pos) (gmunuUp a pos) ∧ Real.sin (pos 2) ≠ 0 ∧
      ∃ ut, ut ≤ 0 ∧ ut ^ 2 * o.denom a pos =
        -1 - gmunuUp a pos 1 1 * o.ur (pos 0) (pos 3) x y ^ 2 - gmunuUp a pos 2 2 * o.uth (pos 0) (pos 3) x y ^ 2 ∧
      v 0 = ut * (gmunuUp a pos 0 0 - o.cache.lc * gmunuUp a pos 0 3) ∧ v 1 = gmunuUp a pos 1 1 * o.ur (pos 0) (pos 3) x y ∧
      v 2 = gmunuUp a pos 2 2 * o.uth (pos 0) (pos 3) x y ∧ v 3 = ut * (gmunuUp a pos 0 3 - o.cache.lc * gmunuUp a pos 3 3) := by
  unfold Osc.getVelocity at h
  simp only [hs] at h
  obtain ⟨p, hp, h⟩ := bind_ok h
  by_cases hc : Real.sin (pos 2) = 0 ∨ pos 1 * pos 1 - 2 * pos 1 + a * a = 0 ∨
          pos 1 * pos 1 + a * a * (Real.cos (pos 2) * Real.cos (pos 2)) = 0 ∨ o.denom a pos = 0
  · rw [if_pos hc] at h; cases h
  rw [if_neg hc] at h
  by_cases hn : (-1 - gmunuUp a pos 1 1 * o.ur (pos 0) (pos 3) p.1 p.2 * o.ur (pos 0) (pos 3) p.1 p.2 -
      gmunuUp a pos 2 2 * o.uth (pos 0) (pos 3) p.1 p.2 * o.uth (pos 0) (pos 3) p.1 p.2) / o.denom a pos < 0
  · rw [if_pos hn] at h; cases h
  rw [if_neg hn] at h
  injection h with h
  push Not at hc
  obtain ⟨h1, h2, h3, h4⟩ := hc
  refine ⟨p.1, p.2, hp, DefTorus.inv h3 h2 h1, h1, -√((-1 - gmunuUp a pos 1 1 * o.ur (pos 0) (pos 3) p.1 p.2 * o.ur (pos 0) (pos 3) p.1 p.2 -
      gmunuUp a pos 2 2 * o.uth (pos 0) (pos 3) p.1 p.2 * o.uth (pos 0) (pos 3) p.1 p.2) / o.denom a pos), ?_, ?_, ?_, ?_, ?_, ?_⟩
  · exact neg_nonpos.2 (Real.sqrt_nonneg _)
  · rw [neg_sq, Real.sq_sqrt (not_lt.1 hn)]; field_simp
  · rw [← h]; simp only [Matrix.cons_val]; ring
  · rw [← h]; rfl
  · rw [← h]; rfl
  · rw [← h]; simp only [Matrix.cons_val]; ring

/-- C125. Wherever a velocity is returned, whatever the kind and the intensity, it is a unit vector, its angular momentum per energy is that of the
centre, and its covariant components in the section are those of the oscillation. -/
theorem velocity {o : Osc} {a : ℝ} {pos v : Vec} (hs : o.spin = some a) (h : o.getVelocity pos = .ok v) :
    sp (gmunu a pos) v v = -1 ∧ lower (gmunu a pos) v 3 = -o.cache.lc * lower (gmunu a pos) v 0 ∧ lower (gmunu a pos) v 0 ≤ 0 ∧
    ∃ x y, o.xy pos = .ok (x, y) ∧ gmunu a pos 1 1 * v 1 = o.ur (pos 0) (pos 3) x y ∧ gmunu a pos 2 2 * v 2 = o.uth (pos 0) (pos 3) x y := by
  obtain ⟨x, y, hx, i, -, ut, hu, hn, v0, v1, v2, v3⟩ := get_ok hs h
  have e : lower (gmunu a pos) v 0 = ut := by
    rw [DefTorus.lower_0, v0, v3]; linear_combination ut * i.e1 - ut * o.cache.lc * i.e3
  have e3 : lower (gmunu a pos) v 3 = -o.cache.lc * ut := by
    rw [DefTorus.lower_3, v0, v3]; linear_combination ut * i.e2 - ut * o.cache.lc * i.e4
  have hsp : sp (gmunu a pos) v v = v 0 * lower (gmunu a pos) v 0 + v 3 * lower (gmunu a pos) v 3 +
      gmunu a pos 1 1 * v 1 ^ 2 + gmunu a pos 2 2 * v 2 ^ 2 := by
    rw [sp_eq, DefTorus.lower_0, DefTorus.lower_3]; ring
  refine ⟨?_, by rw [e, e3], by rw [e]; exact hu, x, y, hx, ?_, ?_⟩
  · rw [hsp, e, e3, v0, v1, v2, v3]
    unfold Osc.denom at hn
    linear_combination hn + gmunuUp a pos 1 1 * o.ur (pos 0) (pos 3) x y ^ 2 * i.e5 + gmunuUp a pos 2 2 * o.uth (pos 0) (pos 3) x y ^ 2 * i.e6
  · rw [v1]; linear_combination o.ur (pos 0) (pos 3) x y * i.e5
  · rw [v2]; linear_combination o.uth (pos 0) (pos 3) x y * i.e6

/-- C125. Out of the ergosphere the gas moves to the future. -/
theorem future {o : Osc} {a : ℝ} {pos v : Vec} (hs : o.spin = some a) (h : o.getVelocity pos = .ok v) (hr : 0 < pos 1)
    (hd : 0 < pos 1 * pos 1 - 2 * pos 1 + a * a) (he : gmunu a pos 0 0 < 0) : 0 < v 0 := by
  obtain ⟨x, y, hx, i, hsin, ut, hu, hn, v0, -, -, -⟩ := get_ok hs h
  obtain ⟨q, hpp, -, -⟩ := JetFlow.kerr_out hr hd hsin
  have p1 : 0 < gmunuUp a pos 1 1 := by
    rcases lt_trichotomy (gmunuUp a pos 1 1) 0 with z | z | z
    · nlinarith [i.e5, q.rr]
    · have := i.e5; rw [z, zero_mul] at this; norm_num at this
    · exact z
  have p2 : 0 < gmunuUp a pos 2 2 := by
    rcases lt_trichotomy (gmunuUp a pos 2 2) 0 with z | z | z
    · nlinarith [i.e6, q.hh]
    · have := i.e6; rw [z, zero_mul] at this; norm_num at this
    · exact z
  have hneg : ut ^ 2 * o.denom a pos < 0 := by
    rw [hn]
    nlinarith [mul_nonneg p1.le (sq_nonneg (o.ur (pos 0) (pos 3) x y)), mul_nonneg p2.le (sq_nonneg (o.uth (pos 0) (pos 3) x y))]
  have hu' : ut < 0 := by
    refine lt_of_le_of_ne hu fun h0 => ?_
    rw [h0] at hneg; norm_num at hneg
  have hM : gmunuUp a pos 0 0 + o.cache.lc * o.cache.lc * gmunuUp a pos 3 3 - 2 * o.cache.lc * gmunuUp a pos 0 3 < 0 := by
    by_contra hcon
    have := mul_nonneg (sq_nonneg ut) (not_lt.1 hcon)
    unfold Osc.denom at hneg
    linarith
  have hdet := q.det
  obtain ⟨e1, e2, e3, e4, -, -⟩ := i
  generalize gmunuUp a pos 0 0 = A at *
  generalize gmunuUp a pos 0 3 = B at *
  generalize gmunuUp a pos 3 3 = C at *
  generalize gmunu a pos 0 0 = tt at *
  generalize gmunu a pos 0 3 = tp at *
  generalize gmunu a pos 3 3 = pp at *
  generalize o.cache.lc = l at *
  have a1 : A * (tt * pp - tp ^ 2) = pp := by linear_combination pp * e1 - tp * e2
  have a2 : B * (tt * pp - tp ^ 2) = -tp := by linear_combination pp * e3 - tp * e4
  have a3 : C * (tt * pp - tp ^ 2) = tt := by linear_combination tt * e4 - tp * e3
  have m : 0 < pp + 2 * l * tp + l ^ 2 * tt := by
    have := mul_pos_of_neg_of_neg hM hdet
    have e : (A + l * l * C - 2 * l * B) * (tt * pp - tp ^ 2) = pp + 2 * l * tp + l ^ 2 * tt := by
      linear_combination a1 + l * l * a3 - 2 * l * a2
    rw [← e]; exact this
  have k : 0 < pp + l * tp := by
    rcases le_or_gt 0 (l * tp) with z | z
    · linarith
    · nlinarith [mul_nonneg (sq_nonneg l) (neg_nonneg.2 he.le)]
  have k2 : A - l * B < 0 := by
    by_contra hcon
    have := mul_nonpos_of_nonneg_of_nonpos (not_lt.1 hcon) hdet.le
    have e : (A - l * B) * (tt * pp - tp ^ 2) = pp + l * tp := by linear_combination a1 - l * a2
    linarith
  rw [v0]
  exact mul_pos_of_neg_of_neg hu' k2

/-- The torus of C122 with the same centre. -/
noncomputable def slender (a c : ℝ) : DefTorus.Torus := ⟨a, c, 1, 0, .radialTranslation⟩

theorem utCentral_pos {a c : ℝ} (hc : CentreOk a c) (ha : a ≤ 1) (h1 : 1 < c) (hs : Orbits.KerrSlow a 1 c) : 0 < utCentral2 a c := by
  have C := DefTorus.centre_data (s := slender a c) ⟨hc.1, hc.2.1, one_ne_zero, hc.2.2.1⟩ ha h1 hs
  have hO : Omega a c = 1 / (√c ^ 3 + a) := C.omega
  have hw := C.pos.ne'
  have hsum : 0 < √c ^ 3 + a := C.sum
  have e0 : gmunu a (posc c) 0 0 = -1 + 2 / √c ^ 2 := C.gtt
  have e3 : gmunu a (posc c) 0 3 = -2 * a / √c ^ 2 := C.gtp
  have e33 : gmunu a (posc c) 3 3 = √c ^ 4 + a ^ 2 + 2 * a ^ 2 / √c ^ 2 := C.gpp
  have hw' : 0 < √c := C.pos
  unfold Orbits.KerrSlow at hs
  unfold utCentral2
  have e : gmunu a (posc c) 0 0 + gmunu a (posc c) 3 3 * Omega a c * Omega a c + 2 * gmunu a (posc c) 0 3 * Omega a c =
      -(√c ^ 3 * (√c ^ 3 - 3 * √c + 2 * a * 1) / (√c ^ 3 + a) ^ 2) := by
    rw [e0, e3, e33, hO]
    generalize √c = w at *
    field_simp; ring
  rw [e]
  have : 0 < √c ^ 3 * (√c ^ 3 - 3 * √c + 2 * a * 1) / (√c ^ 3 + a) ^ 2 := by positivity
  exact div_pos_of_neg_of_neg (by norm_num) (by linarith)

/-- C125. At the centre, in a mode other than the translations or without intensity, the gas is on the free circular orbit. -/
theorem centre {o : Osc} {a : ℝ} (hR : Regular o a) (ha : a ≤ 1) (h1 : 1 < o.c) (hs : Orbits.KerrSlow a 1 o.c) (hK : 0 < o.K) (hr : 0 < o.rho)
    {o' : Osc} (hup : o.update = .done o') (t φ : ℝ) (hk : o.I = 0 ∨ o.kind ≠ .radial ∧ o.kind ≠ .vertical) :
    ∃ u, o'.getVelocity ![t, o.c, Real.pi / 2, φ] = .ok u ∧ IsRotating (gmunu a ![t, o.c, Real.pi / 2, φ]) u ∧
      IsFree (gmunu a) ![t, o.c, Real.pi / 2, φ] u ∧ 0 < u 3 := by
  have hcen := hR.centre
  obtain ⟨k, hm, hu⟩ := update_eq hR
  rw [hu] at hup
  injection hup with hup
  have hl : o'.cache.lc = lc a o.c := by
    rw [← hup]
    show k.lc = _
    rw [(modeValues_keeps hm).2.2.2.1]; rfl
  have hsp : o'.spin = some a := by rw [← hup]; exact hR.spin
  have hxy := (xy_ok (o := o') (a := a) hsp (by rw [← hup]; exact hcen) (by rw [← hup]; exact hR.index) (by rw [← hup]; exact hK)
    (by rw [← hup]; exact hr) (by rw [← hup]; exact utCentral_pos hcen ha h1 hs)).2 ![t, o.c, Real.pi / 2, φ]
  have hc' : o'.c = o.c := by rw [← hup]; rfl
  have z1 : (![t, o.c, Real.pi / 2, φ] : Vec) 1 - o'.c = 0 := by rw [hc']; exact sub_self _
  have z2 : Real.pi / 2 - (![t, o.c, Real.pi / 2, φ] : Vec) 2 = 0 := sub_self _
  rw [z1, z2, mul_zero, mul_zero, zero_div] at hxy
  have hk' : o'.I = 0 ∨ o'.kind ≠ .radial ∧ o'.kind ≠ .vertical := by rw [← hup]; exact hk
  have hflow : o'.I = 0 ∨ o'.flow 0 0 = (0, 0) := by
    rcases hk' with q | q
    · exact Or.inl q
    · right
      unfold Osc.flow
      rcases hkk : o'.kind <;> simp [hkk] at q ⊢
  have hur : o'.ur t φ 0 0 = 0 := by
    unfold Osc.ur
    rcases hflow with q | q
    · rw [q]; ring
    · rw [q]; ring
  have huth : o'.uth t φ 0 0 = 0 := by
    unfold Osc.uth
    rcases hflow with q | q
    · rw [q]; ring
    · rw [q]; ring
  have C := DefTorus.centre_data (s := slender a o.c) ⟨hcen.1, hcen.2.1, one_ne_zero, hcen.2.2.1⟩ ha h1 hs
  have hc := Orbits.kerr_circular (a := a) (dir := 1) (pos := ![t, o.c, Real.pi / 2, φ]) hcen.1 hcen.2.1.ne' rfl (Or.inl rfl) hs
  rw [one_mul] at hc
  obtain ⟨l1, l2⟩ := C.lc
  have l2 : lc a o.c = (√o.c ^ 4 - 2 * a * √o.c + a ^ 2) / (√o.c ^ 3 - 2 * √o.c + a) := l2
  refine ⟨Orbits.kerrVel a ![t, o.c, Real.pi / 2, φ] 1, ?_, hc⟩
  have hS : o.c * o.c + a * a * (Real.cos (Real.pi / 2) * Real.cos (Real.pi / 2)) ≠ 0 := by
    rw [Real.cos_pi_div_two, mul_zero, mul_zero, add_zero]; exact mul_ne_zero hcen.1.ne' hcen.1.ne'
  have hsin : Real.sin (Real.pi / 2) ≠ 0 := by rw [Real.sin_pi_div_two]; exact one_ne_zero
  have i := DefTorus.inv (a := a) (pos := ![t, o.c, Real.pi / 2, φ]) hS hcen.2.1.ne' hsin
  have low0 : lower (gmunu a ![t, o.c, Real.pi / 2, φ]) (Orbits.kerrVel a ![t, o.c, Real.pi / 2, φ] 1) 0 =
    -(√o.c ^ 3 - 2 * √o.c + a) * Orbits.kerrVel a ![t, o.c, Real.pi / 2, φ] 1 3 := C.low0
  have low3 : lower (gmunu a ![t, o.c, Real.pi / 2, φ]) (Orbits.kerrVel a ![t, o.c, Real.pi / 2, φ] 1) 3 =
    (√o.c ^ 4 - 2 * a * √o.c + a ^ 2) * Orbits.kerrVel a ![t, o.c, Real.pi / 2, φ] 1 3 := C.low3
  have hslow : 0 < √o.c ^ 3 - 2 * √o.c + a := C.slow
  have hI0 : lower (gmunu a ![t, o.c, Real.pi / 2, φ]) (Orbits.kerrVel a ![t, o.c, Real.pi / 2, φ] 1) 0 < 0 := by
    rw [low0]; nlinarith [mul_pos hslow hc.2.2]
  have hI3 : lower (gmunu a ![t, o.c, Real.pi / 2, φ]) (Orbits.kerrVel a ![t, o.c, Real.pi / 2, φ] 1) 3 =
      -o'.cache.lc * lower (gmunu a ![t, o.c, Real.pi / 2, φ]) (Orbits.kerrVel a ![t, o.c, Real.pi / 2, φ] 1) 0 := by
    rw [low0, low3, hl, l2]
    generalize √o.c ^ 3 - 2 * √o.c + a = D at *
    field_simp
  clear low0 low3
  have hrot := hc.1
  generalize Orbits.kerrVel a ![t, o.c, Real.pi / 2, φ] 1 = u at *
  have hun := hrot.unit
  have hsp2 : sp (gmunu a ![t, o.c, Real.pi / 2, φ]) u u = u 0 * lower (gmunu a ![t, o.c, Real.pi / 2, φ]) u 0 +
      u 3 * lower (gmunu a ![t, o.c, Real.pi / 2, φ]) u 3 := by
    rw [sp_eq, DefTorus.lower_0, DefTorus.lower_3, hrot.r, hrot.theta]; ring
  rw [hsp2] at hun
  have e0 : u 0 = gmunuUp a ![t, o.c, Real.pi / 2, φ] 0 0 * lower (gmunu a ![t, o.c, Real.pi / 2, φ]) u 0 +
      gmunuUp a ![t, o.c, Real.pi / 2, φ] 0 3 * lower (gmunu a ![t, o.c, Real.pi / 2, φ]) u 3 := by
    rw [DefTorus.lower_0, DefTorus.lower_3]; linear_combination (-u 0) * i.e1 - u 3 * i.e2
  have e3 : u 3 = gmunuUp a ![t, o.c, Real.pi / 2, φ] 0 3 * lower (gmunu a ![t, o.c, Real.pi / 2, φ]) u 0 +
      gmunuUp a ![t, o.c, Real.pi / 2, φ] 3 3 * lower (gmunu a ![t, o.c, Real.pi / 2, φ]) u 3 := by
    rw [DefTorus.lower_0, DefTorus.lower_3]; linear_combination (-u 0) * i.e3 - u 3 * i.e4
  rw [hI3] at e0 e3 hun
  have hden : lower (gmunu a ![t, o.c, Real.pi / 2, φ]) u 0 ^ 2 * o'.denom a ![t, o.c, Real.pi / 2, φ] = -1 := by
    unfold Osc.denom
    rw [e0, e3] at hun
    linear_combination hun
  generalize lower (gmunu a ![t, o.c, Real.pi / 2, φ]) u 0 = ut at *
  have hd0 : o'.denom a ![t, o.c, Real.pi / 2, φ] ≠ 0 := by
    intro h; rw [h, mul_zero] at hden; norm_num at hden
  have hq : (-1 - gmunuUp a ![t, o.c, Real.pi / 2, φ] 1 1 * 0 * 0 - gmunuUp a ![t, o.c, Real.pi / 2, φ] 2 2 * 0 * 0) /
      o'.denom a ![t, o.c, Real.pi / 2, φ] = ut ^ 2 := by
    rw [mul_zero, mul_zero, sub_zero, sub_zero, ← hden]; field_simp
  have hroot : √(ut ^ 2) = -ut := by rw [← neg_sq, Real.sqrt_sq (by linarith)]
  unfold Osc.getVelocity
  simp only [hsp]
  rw [hxy]
  simp only [HitQ.Out.bind]
  have hur' : o'.ur ((![t, o.c, Real.pi / 2, φ] : Vec) 0) ((![t, o.c, Real.pi / 2, φ] : Vec) 3) 0 0 = 0 := hur
  have huth' : o'.uth ((![t, o.c, Real.pi / 2, φ] : Vec) 0) ((![t, o.c, Real.pi / 2, φ] : Vec) 3) 0 0 = 0 := huth
  rw [hur', huth', hq, hroot]
  refine (if_neg ?_).trans ((if_neg (not_lt.2 (sq_nonneg ut))).trans ?_)
  · push Not
    exact ⟨hsin, hcen.2.1.ne', hS, hd0⟩
  congr 1
  funext j
  fin_cases j
  · show gmunuUp a _ 0 0 * -(-ut) + gmunuUp a _ 0 3 * (-o'.cache.lc * -(-ut)) = u 0
    rw [e0]; ring
  · show gmunuUp a _ 1 1 * 0 = u 1
    rw [hrot.r, mul_zero]
  · show gmunuUp a _ 2 2 * 0 = u 2
    rw [hrot.theta, mul_zero]
  · show gmunuUp a _ 3 3 * (-o'.cache.lc * -(-ut)) + gmunuUp a _ 0 3 * -(-ut) = u 3
    rw [e3]; ring

theorem sample_slow : Orbits.KerrSlow 0 1 16 := by
  unfold Orbits.KerrSlow
  rw [show (16 : ℝ) = 4 ^ 2 by norm_num, Real.sqrt_sq (by norm_num)]; norm_num

example : ∃ o' u, (sample .x).update = .done o' ∧ o'.getVelocity ![0, 16, Real.pi / 2, 0] = .ok u ∧ IsFree (gmunu 0) ![0, 16, Real.pi / 2, 0] u := by
  obtain ⟨k, hk, -⟩ := modes (sample_regular .x)
  obtain ⟨u, h1, -, h2, -⟩ := centre (sample_regular .x) (by norm_num) (by norm_num [sample]) sample_slow (by norm_num [sample, Osc.new])
    (by norm_num [sample]) hk 0 0 (Or.inr ⟨by simp [sample], by simp [sample]⟩)
  exact ⟨_, u, hk, h1, h2⟩

/-- C125. The velocity in the section is along the gradient of the mode. -/
theorem flow_gradient (o : Osc) (x y : ℝ) :
    HasDerivAt (fun z => o.shape z y) (o.flow x y).1 x ∧ HasDerivAt (fun z => o.shape x z) (o.flow x y).2 y := by
  unfold Osc.shape Osc.flow
  rcases o.kind <;> simp only
  · exact ⟨hasDerivAt_id x, hasDerivAt_const _ _⟩
  · exact ⟨hasDerivAt_const _ _, hasDerivAt_id y⟩
  · exact ⟨by simpa using (hasDerivAt_id x).mul_const y, by simpa using (hasDerivAt_id y).const_mul x⟩
  · exact ⟨quad_deriv' _ 1 _ x, quad_deriv _ _ y⟩
  · exact ⟨quad_deriv' _ 1 _ x, quad_deriv _ _ y⟩

/-- The velocity in the section, `(dx/dt, dy/dt)`, that the code gives to the gas where the metric and the rotation are those of the centre (the
slender torus): `dx/dt = u_r / (√g_rr β c u^t)`, `dy/dt = -u_θ / (√g_θθ β c u^t)`. -/
noncomputable def Osc.drift (o : Osc) (a t φ x y : ℝ) : ℝ × ℝ :=
  (o.ur t φ x y / (√o.cache.grr * √(o.beta2 a) * o.c * √(utCentral2 a o.c)),
   -(o.uth t φ x y / (√o.cache.ghh * √(o.beta2 a) * o.c * √(utCentral2 a o.c))))

theorem drift_eq {o : Osc} {a : ℝ} (hc : CentreOk a o.c) (hO : 0 < Omega a o.c) (hg : o.cache.grr = gmunu a (posc o.c) 1 1)
    (hh : o.cache.ghh = gmunu a (posc o.c) 2 2) (hn : 0 < o.n) (hK : 0 < o.K) (hr : 0 < o.rho) (hu : 0 < utCentral2 a o.c) (t φ x y : ℝ) :
    o.drift a t φ x y = (-(o.I * o.cache.alpha * Omega a o.c / √(2 * (o.n + 1)) * (o.flow x y).1 * Real.sin (o.phase t φ)),
      -(o.I * o.cache.alpha * Omega a o.c / √(2 * (o.n + 1)) * (o.flow x y).2 * Real.sin (o.phase t φ))) := by
  have hp : 0 < o.pressure / o.rho := div_pos (mul_pos hK (Real.rpow_pos_of_pos hr _)) hr
  have hb : √(o.beta2 a) * o.c * √(utCentral2 a o.c) = √(2 * (o.n + 1)) * √(o.pressure / o.rho) / Omega a o.c := by
    have h1 : o.beta2 a = 2 * (o.n + 1) * (o.pressure / o.rho) / (o.c ^ 2 * utCentral2 a o.c * Omega a o.c ^ 2) := by
      unfold Osc.beta2 Osc.poly
      have := hn.ne'
      field_simp
    have h2 : √(o.beta2 a) = √(2 * (o.n + 1)) * √(o.pressure / o.rho) / (o.c * √(utCentral2 a o.c) * Omega a o.c) := by
      have hc0 := hc.1
      have e1 : √(2 * (o.n + 1) * (o.pressure / o.rho)) = √(2 * (o.n + 1)) * √(o.pressure / o.rho) := Real.sqrt_mul (by positivity) _
      have e2 : √(o.c ^ 2 * utCentral2 a o.c * Omega a o.c ^ 2) = o.c * √(utCentral2 a o.c) * Omega a o.c := by
        rw [Real.sqrt_mul (by positivity), Real.sqrt_mul (by positivity), Real.sqrt_sq hc.1.le, Real.sqrt_sq hO.le]
      rw [h1, Real.sqrt_div (by positivity), e1, e2]
    rw [h2]
    have := hc.1.ne'
    have := (Real.sqrt_pos.2 hu).ne'
    field_simp
  have g1 : √o.cache.grr ≠ 0 := by
    rw [hg, grr_c]
    exact (Real.sqrt_pos.2 (div_pos (pow_pos hc.1 2) hc.2.1)).ne'
  have g2 : √o.cache.ghh ≠ 0 := by
    rw [hh, ghh_c]
    exact (Real.sqrt_pos.2 (pow_pos hc.1 2)).ne'
  have s1 : √(2 * (o.n + 1)) ≠ 0 := (Real.sqrt_pos.2 (by positivity)).ne'
  have s2 : √(o.pressure / o.rho) ≠ 0 := (Real.sqrt_pos.2 hp).ne'
  have b1 (G : ℝ) : G * √(o.beta2 a) * o.c * √(utCentral2 a o.c) = G * (√(2 * (o.n + 1)) * √(o.pressure / o.rho) / Omega a o.c) := by
    rw [← hb]; ring
  unfold Osc.drift Osc.ur Osc.uth
  rw [b1, b1]
  have := hO.ne'
  generalize √(2 * (o.n + 1)) = A at *
  generalize √(o.pressure / o.rho) = B at *
  generalize √o.cache.grr = G at *
  generalize √o.cache.ghh = H at *
  refine Prod.ext ?_ ?_ <;> simp only
  · field_simp
  · field_simp

/-- The rate of the function of the surface for the gas: linear in the intensity, with a rest of second order. -/
theorem surface_rate (o : Osc) (Om t φ x y V1 V2 : ℝ) (hO : o.cache.Omega = Om) (I : ℝ) :
    HasDerivAt (fun e => ({ o with I := I } : Osc).f (t + e) (φ + Om * e) (x + e * (I * V1)) (y + e * (I * V2)))
      (I * (2 * (o.cache.omr2 * x * V1 + o.cache.omth2 * y * V2) + o.cache.sigma ^ 2 * o.cache.alpha * Om * o.shape x y * Real.sin (o.phase t φ)) +
        I ^ 2 * (o.cache.sigma * o.cache.alpha * ((o.flow x y).1 * V1 + (o.flow x y).2 * V2) * Real.cos (o.phase t φ))) 0 := by
  have hx : HasDerivAt (fun e : ℝ => x + e * (I * V1)) (I * V1) 0 := by
    simpa using ((hasDerivAt_id (0 : ℝ)).mul_const (I * V1)).const_add x
  have hy : HasDerivAt (fun e : ℝ => y + e * (I * V2)) (I * V2) 0 := by
    simpa using ((hasDerivAt_id (0 : ℝ)).mul_const (I * V2)).const_add y
  have hph : HasDerivAt (fun e : ℝ => o.phase (t + e) (φ + Om * e)) (-(Om * o.cache.sigma)) 0 := by
    have h1 : HasDerivAt (fun e : ℝ => o.phase t φ + e * (-(Om * o.cache.sigma))) (-(Om * o.cache.sigma)) 0 := by
      simpa using ((hasDerivAt_id (0 : ℝ)).mul_const (-(Om * o.cache.sigma))).const_add (o.phase t φ)
    have e : (fun e : ℝ => o.phase (t + e) (φ + Om * e)) = fun e : ℝ => o.phase t φ + e * (-(Om * o.cache.sigma)) := by
      funext e
      unfold Osc.phase
      rw [hO]; ring
    rw [e]; exact h1
  have hsh : HasDerivAt (fun e : ℝ => o.shape (x + e * (I * V1)) (y + e * (I * V2))) ((o.flow x y).1 * (I * V1) + (o.flow x y).2 * (I * V2)) 0 := by
    have sq (w : ℝ) (u : ℝ → ℝ) (u0 du : ℝ) (h0 : u 0 = u0) (hu : HasDerivAt u du 0) : HasDerivAt (fun e => w * u e * u e) (2 * w * u0 * du) 0 := by
      refine ((hu.const_mul w).mul hu).congr_deriv ?_
      rw [h0]; ring
    have hx0 : x + 0 * (I * V1) = x := by ring
    have hy0 : y + 0 * (I * V2) = y := by ring
    unfold Osc.shape Osc.flow
    rcases o.kind <;> simp only
    · exact hx.congr_deriv (by ring)
    · exact hy.congr_deriv (by ring)
    · refine (hx.mul hy).congr_deriv ?_
      rw [hx0, hy0]; ring
    · refine (((sq o.cache.w1 _ _ _ hx0 hx).const_add 1).add (sq o.cache.w2 _ _ _ hy0 hy)).congr_deriv ?_
      ring
    · refine (((sq o.cache.w1 _ _ _ hx0 hx).const_add 1).add (sq o.cache.w2 _ _ _ hy0 hy)).congr_deriv ?_
      ring
  have hcos := hph.cos
  have h0 : o.phase (t + 0) (φ + Om * 0) = o.phase t φ := by rw [add_zero, mul_zero, add_zero]
  have h1 := ((hx.const_mul o.cache.omr2).mul hx).add ((hy.const_mul o.cache.omth2).mul hy)
  have h2 := (hsh.const_mul (I * o.cache.sigma * o.cache.alpha)).mul hcos
  have h3 := (h1.sub_const 1).add h2
  refine h3.congr_deriv ?_
  simp only [h0, zero_mul, add_zero]
  ring

/-- What the surface needs on its edge, from the equation of the mode. -/
theorem edge {o : Osc} {s2 : ℝ} (hm : IsMode o.n o.cache.omr2 o.cache.omth2 s2 o.shape) (hn : 0 < o.n) {x y : ℝ}
    (h : o.cache.omr2 * x ^ 2 + o.cache.omth2 * y ^ 2 = 1) :
    s2 * o.shape x y = o.cache.omr2 * x * (o.flow x y).1 + o.cache.omth2 * y * (o.flow x y).2 := by
  obtain ⟨-, -, Wx, Wy, Wxx, Wyy, h1, h2, -, -, h5⟩ := hm
  obtain ⟨f1, f2⟩ := flow_gradient o x y
  have e1 := (h1 x y).unique f1
  have e2 := (h2 x y).unique f2
  have := h5 x y
  rw [e1, e2] at this
  have hF : 1 - o.cache.omr2 * x ^ 2 - o.cache.omth2 * y ^ 2 = 0 := by linarith
  rw [hF, zero_mul, zero_add] at this
  have : 2 * o.n * (s2 * o.shape x y - (o.cache.omr2 * x * (o.flow x y).1 + o.cache.omth2 * y * (o.flow x y).2)) = 0 := by linear_combination this
  have h2n : 2 * o.n ≠ 0 := by positivity
  linarith [(mul_eq_zero.1 this).resolve_left h2n]

/-- The conditions on a torus that has been updated. -/
structure Updated (o : Osc) (a : ℝ) : Prop where
  reg : Regular o a
  done : o.update = .done o
  small : a ≤ 1
  out : 1 < o.c
  slow : Orbits.KerrSlow a 1 o.c
  K : 0 < o.K
  rho : 0 < o.rho

theorem Updated.values {o : Osc} {a : ℝ} (h : Updated o a) : 0 < o.cache.sigma ∧ 0 < o.cache.alpha ∧ o.cache.Omega = Omega a o.c ∧ 0 < Omega a o.c ∧
    o.cache.omr2 = omr2 a o.c ∧ o.cache.omth2 = omth2 a o.c ∧ o.cache.grr = gmunu a (posc o.c) 1 1 ∧ o.cache.ghh = gmunu a (posc o.c) 2 2 ∧
    IsMode o.n o.cache.omr2 o.cache.omth2 (o.cache.sigma ^ 2) o.shape := by
  obtain ⟨k, hm, hu⟩ := update_eq h.reg
  obtain ⟨k', hm', a1, a2, a3, a4, a5, a6, a7, a8, a9⟩ :=
    modeValues_some (o := o.withCentre a) (p := omr2 a o.c) (q := omth2 a o.c) h.reg.index h.reg.stable (h.reg.stable.trans h.reg.lt) h.reg.lt
  rw [hm] at hm'
  injection hm' with hm'
  subst hm'
  rw [h.done] at hu
  injection hu with hu
  have hk : o.cache = k := congrArg Osc.cache hu
  have C := DefTorus.centre_data (s := slender a o.c) ⟨h.reg.centre.1, h.reg.centre.2.1, one_ne_zero, h.reg.centre.2.2.1⟩ h.small h.out h.slow
  have hO : 0 < Omega a o.c := by
    have e : Omega a o.c = 1 / (√o.c ^ 3 + a) := C.omega
    rw [e]; exact one_div_pos.2 C.sum
  rw [hk]
  refine ⟨a1, a2, a5, hO, a3, a4, a7, a8, ?_⟩
  rw [a3, a4]
  have : o.shape = ({ o.withCentre a with cache := k } : Osc).shape := by rw [← hu]
  rw [this]
  exact a9

/-- C125 for the index 1: at first order in the intensity, and in the metric of the centre, the surface follows the gas in each mode. -/
theorem surface_partial {o : Osc} {a : ℝ} (h : Updated o a) (hn : o.n = 1) (t φ x y : ℝ) (hs : omr2 a o.c * x ^ 2 + omth2 a o.c * y ^ 2 = 1) :
    FollowsFirstOrder (fun I => ({ o with I := I } : Osc).f) (fun I => ({ o with I := I } : Osc).drift a t φ x y) (Omega a o.c) t φ x y := by
  obtain ⟨v1, v2, v3, v4, v5, v6, v7, v8, v9⟩ := h.values
  have hd (I : ℝ) := drift_eq (o := { o with I := I }) h.reg.centre v4 v7 v8 h.reg.index h.K h.rho
    (utCentral_pos h.reg.centre h.small h.out h.slow) t φ x y
  have hroot : √(2 * (o.n + 1)) = 2 := by
    rw [hn, show (2 : ℝ) * (1 + 1) = 2 ^ 2 by norm_num, Real.sqrt_sq (by norm_num)]
  have he := edge v9 h.reg.index (x := x) (y := y) (by rw [v5, v6]; exact hs)
  refine ⟨fun I => I ^ 2 * (o.cache.sigma * o.cache.alpha * ((o.flow x y).1 * -(o.cache.alpha * Omega a o.c / 2 * (o.flow x y).1 * Real.sin (o.phase t φ)) +
    (o.flow x y).2 * -(o.cache.alpha * Omega a o.c / 2 * (o.flow x y).2 * Real.sin (o.phase t φ))) * Real.cos (o.phase t φ)), fun I => ?_, by ring, ?_⟩
  · have := surface_rate o (Omega a o.c) t φ x y (-(o.cache.alpha * Omega a o.c / 2 * (o.flow x y).1 * Real.sin (o.phase t φ)))
      (-(o.cache.alpha * Omega a o.c / 2 * (o.flow x y).2 * Real.sin (o.phase t φ))) v3 I
    have e1 : (({ o with I := I } : Osc).drift a t φ x y) = (I * -(o.cache.alpha * Omega a o.c / 2 * (o.flow x y).1 * Real.sin (o.phase t φ)),
        I * -(o.cache.alpha * Omega a o.c / 2 * (o.flow x y).2 * Real.sin (o.phase t φ))) := by
      rw [hd I]
      show (-(I * o.cache.alpha * Omega a o.c / √(2 * (o.n + 1)) * (o.flow x y).1 * Real.sin (o.phase t φ)),
        -(I * o.cache.alpha * Omega a o.c / √(2 * (o.n + 1)) * (o.flow x y).2 * Real.sin (o.phase t φ))) = _
      rw [hroot]
      refine Prod.ext ?_ ?_ <;> simp only <;> ring
    beta_reduce
    rw [e1]
    refine this.congr_deriv ?_
    linear_combination (I * o.cache.alpha * Omega a o.c * Real.sin (o.phase t φ)) * he
  · have := ((hasDerivAt_id (0 : ℝ)).pow 2).mul_const (o.cache.sigma * o.cache.alpha * ((o.flow x y).1 *
      -(o.cache.alpha * Omega a o.c / 2 * (o.flow x y).1 * Real.sin (o.phase t φ)) +
      (o.flow x y).2 * -(o.cache.alpha * Omega a o.c / 2 * (o.flow x y).2 * Real.sin (o.phase t φ))) * Real.cos (o.phase t φ))
    refine this.congr_deriv ?_
    simp

/-- C125, full statement refuted: for any other index the surface does not follow the gas, at any point of the surface and date where the mode has an
effect. -/
theorem surface_wrong {o : Osc} {a : ℝ} (h : Updated o a) (hn : o.n ≠ 1) (t φ x y : ℝ) (hs : omr2 a o.c * x ^ 2 + omth2 a o.c * y ^ 2 = 1)
    (h1 : o.shape x y ≠ 0) (h2 : Real.sin (o.phase t φ) ≠ 0) :
    ¬ FollowsFirstOrder (fun I => ({ o with I := I } : Osc).f) (fun I => ({ o with I := I } : Osc).drift a t φ x y) (Omega a o.c) t φ x y := by
  obtain ⟨v1, v2, v3, v4, v5, v6, v7, v8, v9⟩ := h.values
  have hd (I : ℝ) := drift_eq (o := { o with I := I }) h.reg.centre v4 v7 v8 h.reg.index h.K h.rho
    (utCentral_pos h.reg.centre h.small h.out h.slow) t φ x y
  have he := edge v9 h.reg.index (x := x) (y := y) (by rw [v5, v6]; exact hs)
  have hi := h.reg.index
  have hpos : 0 < 2 * (o.n + 1) := by positivity
  have hroot : √(2 * (o.n + 1)) ≠ 2 := by
    intro h0
    have := Real.sq_sqrt hpos.le
    rw [h0] at this
    exact hn (by linarith)
  have hR0 : √(2 * (o.n + 1)) ≠ 0 := (Real.sqrt_pos.2 hpos).ne'
  generalize hRd : √(2 * (o.n + 1)) = R at *
  rintro ⟨Q, q1, -, q3⟩
  have e1 (I : ℝ) : (({ o with I := I } : Osc).drift a t φ x y) = (I * -(o.cache.alpha * Omega a o.c / R * (o.flow x y).1 * Real.sin (o.phase t φ)),
      I * -(o.cache.alpha * Omega a o.c / R * (o.flow x y).2 * Real.sin (o.phase t φ))) := by
    rw [hd I]
    show (-(I * o.cache.alpha * Omega a o.c / √(2 * (o.n + 1)) * (o.flow x y).1 * Real.sin (o.phase t φ)),
      -(I * o.cache.alpha * Omega a o.c / √(2 * (o.n + 1)) * (o.flow x y).2 * Real.sin (o.phase t φ))) = _
    rw [hRd]
    refine Prod.ext ?_ ?_ <;> simp only <;> ring
  obtain ⟨B, hB⟩ : ∃ B, B = o.cache.sigma * o.cache.alpha * ((o.flow x y).1 * -(o.cache.alpha * Omega a o.c / R * (o.flow x y).1 * Real.sin (o.phase t φ)) +
    (o.flow x y).2 * -(o.cache.alpha * Omega a o.c / R * (o.flow x y).2 * Real.sin (o.phase t φ))) * Real.cos (o.phase t φ) := ⟨_, rfl⟩
  have hQ (I : ℝ) : Q I = I * (o.cache.alpha * Omega a o.c * Real.sin (o.phase t φ) * (o.cache.sigma ^ 2 * o.shape x y) * (1 - 2 / R)) + I ^ 2 * B := by
    have := surface_rate o (Omega a o.c) t φ x y (-(o.cache.alpha * Omega a o.c / R * (o.flow x y).1 * Real.sin (o.phase t φ)))
      (-(o.cache.alpha * Omega a o.c / R * (o.flow x y).2 * Real.sin (o.phase t φ))) v3 I
    have q := q1 I
    beta_reduce at q
    rw [e1] at q
    rw [q.unique this, hB]
    linear_combination (I * o.cache.alpha * Omega a o.c * Real.sin (o.phase t φ) * (2 / R)) * he
  have hQ' : HasDerivAt Q (o.cache.alpha * Omega a o.c * Real.sin (o.phase t φ) * (o.cache.sigma ^ 2 * o.shape x y) * (1 - 2 / R)) 0 := by
    have e : Q = fun I => I * (o.cache.alpha * Omega a o.c * Real.sin (o.phase t φ) * (o.cache.sigma ^ 2 * o.shape x y) * (1 - 2 / R)) + I ^ 2 * B :=
      funext hQ
    rw [e]
    refine (((hasDerivAt_id (0 : ℝ)).mul_const _).add (((hasDerivAt_id (0 : ℝ)).pow 2).mul_const B)).congr_deriv ?_
    simp
  have hz := q3.unique hQ'
  have hR2 : 1 - 2 / R ≠ 0 := by
    intro h0
    have : 2 / R = 1 := by linarith
    rw [div_eq_one_iff_eq hR0] at this
    exact hroot this.symm
  exact mul_ne_zero (mul_ne_zero (mul_ne_zero (mul_ne_zero v2.ne' v4.ne') h2) (mul_ne_zero (pow_ne_zero 2 v1.ne') h1)) hR2 hz.symm

/-- The torus at 16 gravitational radii with the index `n`, updated. -/
theorem sample_updated (k : Perturb) {n : ℝ} (hn : 0 < n) : ∃ c, Updated ({ sample k with n := n, cache := c } : Osc) 0 := by
  have hr : Regular ({ sample k with n := n } : Osc) 0 :=
    ⟨rfl, rfl, (sample_regular k).centre, (sample_regular k).stable, (sample_regular k).ne, hn⟩
  obtain ⟨c, hk, -⟩ := modes hr
  refine ⟨c, ⟨rfl, rfl, (sample_regular k).centre, (sample_regular k).stable, (sample_regular k).ne, hn⟩, (update_idem hk).1, by norm_num, ?_, sample_slow, ?_, ?_⟩
  · norm_num [sample]
  · norm_num [sample, Osc.new]
  · norm_num [sample]

/-- A point of the surface of a torus of index 3 in the vertical mode that does not follow the gas. -/
example : ∃ o : Osc, o.n = 3 ∧ ∃ t φ x y, ¬ FollowsFirstOrder (fun I => ({ o with I := I } : Osc).f)
    (fun I => ({ o with I := I } : Osc).drift 0 t φ x y) (Omega 0 o.c) t φ x y := by
  obtain ⟨c, h⟩ := sample_updated .vertical (n := 3) (by norm_num)
  obtain ⟨v1, -, v3, v4, -⟩ := h.values
  have hne : c.Omega * c.sigma ≠ 0 := by
    have e : c.Omega = Omega 0 16 := v3
    rw [e]
    exact mul_ne_zero v4.ne' v1.ne'
  refine ⟨{ sample .vertical with n := 3, cache := c }, rfl, -(Real.pi / 2) / (c.Omega * c.sigma), 0, 0, 1, surface_wrong h (by norm_num) _ _ _ _ ?_ ?_ ?_⟩
  · rw [omth2_zero]; ring
  · show (1 : ℝ) ≠ 0
    exact one_ne_zero
  · have : ({ sample .vertical with n := 3, cache := c } : Osc).phase (-(Real.pi / 2) / (c.Omega * c.sigma)) 0 = Real.pi / 2 := by
      show ((0 : ℕ) : ℝ) * 0 - c.Omega * (c.sigma + ((0 : ℕ) : ℝ)) * (-(Real.pi / 2) / (c.Omega * c.sigma)) = _
      rw [Nat.cast_zero, add_zero]
      generalize c.Omega * c.sigma = A at *
      field_simp; ring
    rw [this, Real.sin_pi_div_two]; exact one_ne_zero

/-- A torus of index 1 whose surface does. -/
example : ∃ o : Osc, o.n = 1 ∧ o.kind = .vertical ∧ ∀ t φ, FollowsFirstOrder (fun I => ({ o with I := I } : Osc).f)
    (fun I => ({ o with I := I } : Osc).drift 0 t φ 0 1) (Omega 0 o.c) t φ 0 1 := by
  obtain ⟨c, h⟩ := sample_updated .vertical (n := 1) (by norm_num)
  exact ⟨_, rfl, rfl, fun t φ => surface_partial h rfl t φ 0 1 (by rw [omth2_zero]; ring)⟩

/-! ## C126: the emission -/

/-- C126. The lines of a file that does not end with a line feed are read as they are. -/
theorem read_partial {rows : List (ℝ × ℝ)} (h0 : rows ≠ []) (h : ∀ r ∈ rows, r.2 ≠ 0) (prev : Option (ℝ × ℝ)) : readArea false prev rows = .ok rows := by
  induction rows generalizing prev with
  | nil => exact absurd rfl h0
  | cons r rest ih =>
    have hr : r.2 ≠ 0 := h r (by simp)
    have e : readArea false prev (r :: rest) = if r.2 = 0 then .ok [] else if rest.isEmpty ∧ false = false then .ok [r]
        else HitQ.Out.bind (readArea false (some r) rest) fun l => .ok (r :: l) := by
      cases prev <;> rfl
    rw [e, if_neg hr]
    cases rest with
    | nil => rw [if_pos ⟨rfl, rfl⟩]
    | cons r' rest =>
      rw [if_neg (by simp), ih (by simp) (fun q hq => h q (by simp [hq]))]
      rfl

/-- C126, full statement refuted: "the rows are the lines of the file". A file that ends with a line feed has its last line twice. -/
theorem newline_wrong {rows : List (ℝ × ℝ)} (h : ∀ r ∈ rows, r.2 ≠ 0) (last : ℝ × ℝ) (hl : last.2 ≠ 0) (prev : Option (ℝ × ℝ)) :
    readArea true prev (rows ++ [last]) = .ok (rows ++ [last, last]) := by
  have e (prev : Option (ℝ × ℝ)) (r : ℝ × ℝ) (rest : List (ℝ × ℝ)) (hr : r.2 ≠ 0) :
      readArea true prev (r :: rest) = HitQ.Out.bind (readArea true (some r) rest) fun l => .ok (r :: l) := by
    have : readArea true prev (r :: rest) = if r.2 = 0 then .ok [] else if rest.isEmpty ∧ true = false then .ok [r]
        else HitQ.Out.bind (readArea true (some r) rest) fun l => .ok (r :: l) := by
      cases prev <;> rfl
    rw [this, if_neg hr, if_neg (by simp)]
  induction rows generalizing prev with
  | nil =>
    show readArea true prev (last :: []) = _
    rw [e _ _ _ hl]
    have : readArea true (some last) [] = .ok [last] := by
      show Out.ok (if last.2 = 0 then [] else [last]) = _
      rw [if_neg hl]
    rw [this]; rfl
  | cons r rest ih =>
    show readArea true prev (r :: (rest ++ [last])) = _
    rw [e _ _ _ (h r (by simp)), ih (fun q hq => h q (by simp [hq]))]
    rfl

example : readArea true none [(0, 1), (1, 2)] = .ok [(0, 1), (1, 2), (1, 2)] :=
  newline_wrong (rows := [(0, 1)]) (by simp) (1, 2) (by norm_num) none

/-- C126, full statement refuted: a file without numbers reads what was never written; a line with a zero area hides all that follow. -/
theorem read_wrong (newline : Bool) : readArea newline none [] = .ub ∧
    ∀ (t : ℝ) (rest : List (ℝ × ℝ)), readArea newline none ((t, 0) :: rest) = .ok [] := by
  refine ⟨rfl, fun t rest => ?_⟩
  show (if ((t, 0) : ℝ × ℝ).2 = 0 then Out.ok [] else _) = _
  rw [if_pos rfl]

/-- The seeking stops at the first date that is not passed. -/
theorem seek_mid {t : ℝ} (pre : List (ℝ × ℝ)) (r : ℝ × ℝ) (post : List (ℝ × ℝ)) (h : ∀ q ∈ pre, q.1 < t) (hr : t ≤ r.1 ∨ post = []) :
    seek t (pre ++ r :: post) = pre.length := by
  induction pre with
  | nil =>
    cases post with
    | nil => rfl
    | cons r' post =>
      rcases hr with hr | hr
      · show (if t > r.1 then _ else 0) = 0
        rw [if_neg (not_lt.2 hr)]
      · cases hr
  | cons q pre ih =>
    have hq : q.1 < t := h q (by simp)
    have ih := ih (fun z hz => h z (by simp [hz]))
    cases pre with
    | nil =>
      show (if t > q.1 then seek t (r :: post) + 1 else 0) = 1
      rw [if_pos hq]
      have : seek t (r :: post) = 0 := ih
      rw [this]
    | cons q' pre =>
      show (if t > q.1 then seek t (q' :: (pre ++ r :: post)) + 1 else 0) = _
      rw [if_pos hq]
      have : seek t (q' :: (pre ++ r :: post)) = (q' :: pre).length := ih
      rw [this]; rfl

/-- C126. Before the first date, the area is the first. -/
theorem area_first (r : ℝ × ℝ) (rest : List (ℝ × ℝ)) {t : ℝ} (h : t ≤ r.1) : areaAt (r :: rest) t = .ok r.2 := by
  have e := seek_mid (t := t) [] r rest (by simp) (Or.inl h)
  simp only [List.nil_append, List.length_nil] at e
  unfold areaAt
  simp [e]

/-- C126. After the last date, the area is the last. -/
theorem area_last (pre : List (ℝ × ℝ)) (r : ℝ × ℝ) {t : ℝ} (h : ∀ q ∈ pre, q.1 < t) : areaAt (pre ++ [r]) t = .ok r.2 := by
  have e := seek_mid (t := t) pre r [] h (Or.inr rfl)
  unfold areaAt
  simp [e]

/-- C126, what is computed between two dates that are not the last ones. -/
theorem area_inner (pre : List (ℝ × ℝ)) (l r : ℝ × ℝ) (r' : ℝ × ℝ) (post : List (ℝ × ℝ)) {t : ℝ} (h : ∀ q ∈ pre, q.1 < t) (hl : l.1 < t) (hr : t ≤ r.1) :
    areaAt (pre ++ l :: r :: r' :: post) t = .ok (l.2 - (t - l.1) * (r.2 - l.2) / (r.1 - l.1)) := by
  have e := seek_mid (t := t) (pre ++ [l]) r (r' :: post) (by
    intro q hq
    rcases List.mem_append.1 hq with q1 | q1
    · exact h q q1
    · rw [List.mem_singleton.1 q1]; exact hl) (Or.inl hr)
  rw [List.append_assoc, List.singleton_append, List.length_append, List.length_singleton] at e
  have e1 : (pre ++ l :: r :: r' :: post)[pre.length + 1]? = some r := by
    rw [List.getElem?_append_right (by omega)]; simp
  have e2 : (pre ++ l :: r :: r' :: post)[pre.length]? = some l := by
    rw [List.getElem?_append_right le_rfl]; simp
  have hd : l.1 - r.1 ≠ 0 := by linarith
  have hd' : r.1 - l.1 ≠ 0 := by linarith
  unfold areaAt
  simp only [e, e1]
  rw [if_neg (by simp), Nat.add_sub_cancel, e2]
  simp only
  rw [if_neg hd]
  congr 1
  have : l.1 - r.1 = -(r.1 - l.1) := by ring
  rw [this, div_neg]; ring

/-- C126, full statement refuted: "the area is interpolated". Between two dates the value has the slope with the wrong sign: it is on the line through the
two only if their areas are the same. -/
theorem area_wrong (pre : List (ℝ × ℝ)) (l r : ℝ × ℝ) (r' : ℝ × ℝ) (post : List (ℝ × ℝ)) {t : ℝ} (h : ∀ q ∈ pre, q.1 < t) (hl : l.1 < t) (hr : t ≤ r.1) :
    ∃ A, areaAt (pre ++ l :: r :: r' :: post) t = .ok A ∧ (OnLine l r t A ↔ l.2 = r.2) := by
  refine ⟨_, area_inner pre l r r' post h hl hr, ?_⟩
  have hd' : r.1 - l.1 ≠ 0 := by linarith
  have ht : t - l.1 ≠ 0 := by linarith
  unfold OnLine
  have e : (l.2 - (t - l.1) * (r.2 - l.2) / (r.1 - l.1)) * (r.1 - l.1) = l.2 * (r.1 - l.1) - (t - l.1) * (r.2 - l.2) := by
    field_simp
  rw [e]
  constructor
  · intro q
    have : (t - l.1) * (r.2 - l.2) = 0 := by linarith
    linarith [(mul_eq_zero.1 this).resolve_left ht]
  · intro q
    rw [q]; ring

/-- C126, the areas that do not change are interpolated. -/
theorem area_partial (pre : List (ℝ × ℝ)) (l r : ℝ × ℝ) (r' : ℝ × ℝ) (post : List (ℝ × ℝ)) {t : ℝ} (h : ∀ q ∈ pre, q.1 < t) (hl : l.1 < t) (hr : t ≤ r.1)
    (he : l.2 = r.2) : areaAt (pre ++ l :: r :: r' :: post) t = .ok r.2 := by
  rw [area_inner pre l r r' post h hl hr, he, sub_self, mul_zero, zero_div, sub_zero]

example : areaAt [(0, 1), (1, 3), (2, 3)] 1 = .ok (-1) := by
  have := area_inner [] (0, 1) (1, 3) (2, 3) [] (t := 1) (by simp) (by norm_num) (by norm_num)
  norm_num at this
  exact this

/-- C126, full statement refuted: the last interval is not interpolated, its end is taken. -/
theorem last_wrong (l r : ℝ × ℝ) {t : ℝ} (hl : l.1 < t) (hr : t < r.1) (hne : l.2 ≠ r.2) :
    areaAt [l, r] t = .ok r.2 ∧ ¬ OnLine l r t r.2 := by
  refine ⟨area_last [l] r (by simpa using hl), ?_⟩
  unfold OnLine
  intro h
  have : (r.1 - t) * (r.2 - l.2) = 0 := by linarith
  rcases mul_eq_zero.1 this with q | q
  · linarith
  · exact hne (by linarith)

example : areaAt [(0, 1), (1, 3)] (1 / 2) = .ok 3 := (last_wrong (0, 1) (1, 3) (by norm_num) (by norm_num) (by norm_num)).1

/-- C126. A date above the period is brought into it by whole periods, another is kept. -/
theorem reduce {P t : ℝ} (hP : 0 < P) :
    (t ≤ P → reduceDate P t = t) ∧ (P < t → 0 < reduceDate P t ∧ reduceDate P t ≤ P ∧ ∃ k : ℕ, reduceDate P t = t - k * P) := by
  refine ⟨fun h => if_neg (not_lt.2 h), fun h => ?_⟩
  have e : reduceDate P t = t - P * ((⌈t / P⌉ : ℤ) - 1 : ℝ) := if_pos h
  have h1 := Int.ceil_lt_add_one (t / P)
  have h2 := Int.le_ceil (t / P)
  have htP : t / P * P = t := by field_simp
  rw [e]
  refine ⟨?_, ?_, ?_⟩
  · have := mul_lt_mul_of_pos_right h1 hP
    nlinarith
  · have := mul_le_mul_of_nonneg_right h2 hP.le
    nlinarith
  · have h3 : 1 ≤ ⌈t / P⌉ := by
      rw [Int.one_le_ceil_iff]
      exact div_pos (hP.trans h) hP
    refine ⟨(⌈t / P⌉ - 1).toNat, ?_⟩
    have : (((⌈t / P⌉ - 1).toNat : ℕ) : ℝ) = ((⌈t / P⌉ - 1 : ℤ) : ℝ) := by
      rw [← Int.cast_natCast, Int.toNat_of_nonneg (by omega)]
    rw [this]; push_cast; ring

theorem reduce_add {P t : ℝ} (hP : 0 < P) (ht : 0 < t) : reduceDate P (t + P) = reduceDate P t := by
  have e : (t + P) / P = t / P + 1 := by field_simp
  have e1 : reduceDate P (t + P) = t - P * ((⌈t / P⌉ : ℤ) - 1 : ℝ) := by
    have : reduceDate P (t + P) = t + P - P * ((⌈(t + P) / P⌉ : ℤ) - 1 : ℝ) := if_pos (by linarith)
    rw [this, e, Int.ceil_add_one]
    push_cast; ring
  rcases le_or_gt t P with h | h
  · rw [e1, (reduce hP).1 h]
    have : ⌈t / P⌉ = 1 := by
      rw [Int.ceil_eq_iff]
      constructor
      · norm_num; positivity
      · rw [div_le_iff₀ hP]; push_cast; linarith
    rw [this]; norm_num
  · rw [e1]
    exact (if_pos h).symm

/-- C126. At positive dates the emission has the period of the oscillation. -/
theorem emission_periodic (o : Osc) (s : Areas) (rt : Bool) {t : ℝ} (ht : 0 < t) :
    o.emission s rt (t + 2 * Real.pi / (o.cache.Omega * o.cache.sigma)) = o.emission s rt t := by
  unfold Osc.emission
  by_cases h : o.cache.Omega * o.cache.sigma ≤ 0
  · simp only [h, if_true]
  · rw [reduce_add (div_pos (by have := Real.pi_pos; positivity) (not_le.1 h)) ht]

/-- C126. What is emitted: one without a file, else one over the area, for the modes that are symmetric and change the section. -/
theorem emission_ok {o : Osc} {s : Areas} {rt : Bool} {t e : ℝ} (h : o.emission s rt t = .ok e) :
    rt = false ∧ 0 < e ∧ (s.cross = false ∧ e = 1 ∨ s.cross = true ∧ o.mode = 0 ∧ o.kind ≠ .vertical ∧ o.kind ≠ .x ∧
      areaAt s.rows (reduceDate (2 * Real.pi / (o.cache.Omega * o.cache.sigma)) t) = .ok (1 / e)) := by
  unfold Osc.emission at h
  cases rt with
  | true => simp at h
  | false =>
    refine ⟨rfl, ?_⟩
    simp only [Bool.false_eq_true, if_false] at h
    cases hc : s.cross with
    | false =>
      rw [hc, if_pos rfl] at h
      injection h with h
      exact ⟨by rw [← h]; norm_num, Or.inl ⟨rfl, h.symm⟩⟩
    | true =>
      rw [hc] at h
      rw [if_neg (by simp)] at h
      by_cases hm : o.mode = 0
      · rw [if_neg (not_not.2 hm)] at h
        by_cases hk : o.kind = .vertical ∨ o.kind = .x
        · rw [if_pos hk] at h; cases h
        rw [if_neg hk] at h
        push Not at hk
        by_cases hO : o.cache.Omega * o.cache.sigma ≤ 0
        · rw [if_pos hO] at h; cases h
        rw [if_neg hO] at h
        obtain ⟨A, h1, h2⟩ := bind_ok h
        by_cases hA : A ≤ 0
        · rw [if_pos hA] at h2; cases h2
        rw [if_neg hA] at h2
        injection h2 with h2
        have hA := not_le.1 hA
        refine ⟨by rw [← h2]; positivity, Or.inr ⟨rfl, hm, hk.1, hk.2, ?_⟩⟩
        rw [h1, ← h2, one_div_one_div]
      · rw [if_pos hm] at h; cases h

/-- C126, full statement refuted: "with positive areas there is an emission". With the areas 1, 3, 3 at the dates 0, 1 and 2 and a period above 1, it is an
error at the date 1. -/
theorem bright_wrong {o : Osc} {s : Areas} (hm : o.mode = 0) (hk : o.kind ≠ .vertical ∧ o.kind ≠ .x) (hp : 0 < o.cache.Omega * o.cache.sigma)
    (hP : 1 ≤ 2 * Real.pi / (o.cache.Omega * o.cache.sigma)) (hc : s.cross = true) (hrows : s.rows = [(0, 1), (1, 3), (2, 3)]) :
    o.emission s false 1 = .throws := by
  have hd : reduceDate (2 * Real.pi / (o.cache.Omega * o.cache.sigma)) 1 = 1 := (reduce (by linarith)).1 hP
  have ha := area_inner [] (0, 1) (1, 3) (2, 3) [] (t := 1) (by simp) (by norm_num) (by norm_num)
  unfold Osc.emission
  rw [hd, hrows]
  simp only [Bool.false_eq_true, if_false, hc, hm, hk.1, hk.2, not_le.2 hp, ne_eq, not_true_eq_false, or_self, Bool.true_eq_false]
  rw [List.nil_append] at ha
  rw [ha]
  show (if _ ≤ (0 : ℝ) then Out.throws else _) = _
  rw [if_pos (by norm_num)]

/-- C126, full statement refuted: dates before zero are not brought into the period. A quarter of a period before zero the area is the first, three quarters
of a period after it is the last. -/
theorem negative_wrong {o : Osc} {s : Areas} {P : ℝ} (hm : o.mode = 0) (hk : o.kind ≠ .vertical ∧ o.kind ≠ .x) (hp : 0 < o.cache.Omega * o.cache.sigma)
    (hP : P = 2 * Real.pi / (o.cache.Omega * o.cache.sigma)) (hc : s.cross = true) (hrows : s.rows = [(0, 1), (P / 2, 2), (P, 4)]) :
    o.emission s false (-(P / 4)) = .ok 1 ∧ o.emission s false (-(P / 4) + P) = .ok (1 / 4) := by
  have hP0 : 0 < P := by rw [hP]; exact div_pos (by have := Real.pi_pos; positivity) hp
  have d1 : reduceDate P (-(P / 4)) = -(P / 4) := (reduce hP0).1 (by linarith)
  have d2 : reduceDate P (-(P / 4) + P) = -(P / 4) + P := (reduce hP0).1 (by linarith)
  have a1 := area_first (0, 1) [(P / 2, 2), (P, 4)] (t := -(P / 4)) (by show -(P / 4) ≤ 0; linarith)
  have a2 := area_last [(0, 1), (P / 2, 2)] (P, 4) (t := -(P / 4) + P) (by
    intro q hq
    simp only [List.mem_cons, List.not_mem_nil, or_false] at hq
    rcases hq with rfl | rfl
    · show (0 : ℝ) < _; linarith
    · show P / 2 < _; linarith)
  have a2 : areaAt [(0, 1), (P / 2, 2), (P, 4)] (-(P / 4) + P) = .ok 4 := a2
  have a1 : areaAt [(0, 1), (P / 2, 2), (P, 4)] (-(P / 4)) = .ok 1 := a1
  unfold Osc.emission
  rw [← hP, d1, d2, hrows, a1, a2]
  simp only [Bool.false_eq_true, if_false, hc, hm, hk.1, hk.2, not_le.2 hp, ne_eq, not_true_eq_false, or_self, Bool.true_eq_false]
  constructor
  · show (if (1 : ℝ) ≤ 0 then Out.throws else Out.ok (1 / 1)) = _
    rw [if_neg (by norm_num)]; norm_num
  · show (if (4 : ℝ) ≤ 0 then Out.throws else Out.ok (1 / 4)) = _
    rw [if_neg (by norm_num)]

/-- C126. A copy emits as the original. -/
theorem copy_partial (o : Osc) (s : Areas) (rt : Bool) (t : ℝ) : o.emission s.copy rt t = o.emission s rt t := rfl

/-- C126, full statement refuted: a copy has lost the name of its file. -/
theorem copy_wrong (s : Areas) (h : s.file ≠ "") : s.copy.file ≠ s.file ∧ s.copy.cross = s.cross ∧ s.copy.rows = s.rows := ⟨fun e => h e.symm, rfl, rfl⟩

/-- A torus and a table to which all these apply: the breathing mode at 16 gravitational radii. -/
example : ∃ o : Osc, o.mode = 0 ∧ o.kind = .breathing ∧ 0 < o.cache.Omega * o.cache.sigma ∧ ∀ s : Areas, s.cross = true →
    s.rows = [(0, 1), (2 * Real.pi / (o.cache.Omega * o.cache.sigma) / 2, 2), (2 * Real.pi / (o.cache.Omega * o.cache.sigma), 4)] →
    o.emission s false (-(2 * Real.pi / (o.cache.Omega * o.cache.sigma) / 4)) = .ok 1 := by
  obtain ⟨c, h⟩ := sample_updated .breathing (n := 1) (by norm_num)
  obtain ⟨v1, -, v3, v4, -⟩ := h.values
  have hp : 0 < ({ sample .breathing with n := 1, cache := c } : Osc).cache.Omega * ({ sample .breathing with n := 1, cache := c } : Osc).cache.sigma := by
    rw [v3]; exact mul_pos v4 v1
  exact ⟨_, rfl, rfl, hp, fun s hs hr => (negative_wrong rfl ⟨by simp [sample], by simp [sample]⟩ hp rfl hs hr).1⟩

end Gyoto.OscTorus
