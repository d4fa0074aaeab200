import Verif.Lemmas.StokesStep
import Verif.Props.Transfer
import Verif.Props.HitQuantities

/-!
# C116: what a cell of polarised plasma sends and lets pass
-/

namespace Gyoto.StokesStep

open Gyoto.Emission (Mueller)
open Gyoto.Transfer
open Matrix

/-- The matrix of absorption of a cell, in the basis of the screen, which the angle `chi` separates from that of the plasma. -/
noncomputable def matrixOf (m : Cell) (chi : ℝ) : Mueller :=
  turn (Real.sin (2 * chi)) (Real.cos (2 * chi)) * absorption (m.a 0) (m.a 1) (m.a 2) (m.a 3) (m.r 0) (m.r 1) (m.r 2) *
    turn (-Real.sin (2 * chi)) (Real.cos (2 * chi))

/-- The emission in the same basis. -/
noncomputable def emissionOf (m : Cell) (chi : ℝ) : Fin 4 → ℝ := turn (Real.sin (2 * chi)) (Real.cos (2 * chi)) *ᵥ m.j

theorem matrix_eq (m : Cell) (chi : ℝ) : Kmat (rotate (m.coefs chi)) = matrixOf m chi := rotate_absorption _ (sc m chi)

theorem emission_eq (m : Cell) (chi : ℝ) : turned m chi = emissionOf m chi := by
  funext i
  fin_cases i <;> simp [turned, emissionOf, Evpa.rotateJsChi, Evpa.rotateJs, turn, mulVec, dotProduct, Fin.sum_univ_four]

/-- **C116.** Matter that absorbs all kinds of light never stops the computation, whatever it emits and the length. -/
theorem step_ok {m : Cell} (h : Absorbs m.a) (chi : ℝ) {L : ℝ} (hL : 0 ≤ L) : ∃ S O, step m chi L = .ok (S, O) := by
  rw [step_eq h chi hL]
  split
  · exact ⟨_, _, rfl⟩
  · exact ⟨_, _, rfl⟩

theorem middling_not {m : Cell} {L : ℝ} (h : Middling m L) : ¬ (m.a 0 * L > 100) ∧ ¬ √(depth2 m L) < 1e-3 :=
  ⟨not_lt.2 h.1, fun e => absurd (depth_small e) (not_lt.2 h.2)⟩

theorem pmat_middling {m : Cell} {L : ℝ} (h : Middling m L) (chi : ℝ) (j : Fin 4 → ℝ) :
    pmat m chi L *ᵥ j = emitted (Kmat (rotate (m.coefs chi))) j L := by
  unfold pmat emitted
  rw [if_neg (middling_not h).1, if_neg (middling_not h).2]

/-- What the step returns in the general case. -/
theorem step_middling {m : Cell} (h : Absorbs m.a) (hj : Beam m.j) (hp : 0 < m.j 0) (chi : ℝ) {L : ℝ} (hL : 0 < L) (hm : Middling m L)
    (hb : ¬ Balanced m) : step m chi L = .ok (emitted (Kmat (rotate (m.coefs chi))) (turned m chi) L,
      NormedSpace.exp (-L • Kmat (rotate (m.coefs chi)))) := by
  have hT : (rotate (m.coefs chi)).Theta ≠ 0 := fun e => hb ((theta_coefs m chi).1 e)
  have pos := emitted_bright (regular (rate_pos h chi)) (turned_beam hj chi) (by rw [turned_zero]; exact hp) hL
  rw [step_eq h chi hL.le, pmat_middling hm, if_neg (not_le.2 pos), if_neg hT]

/-- **C116.** A cell neither thin nor thick that emits light and absorbs gives the exact solution of the equation of transfer over its
length. (The statement wanted has no condition on the depth nor on the balance: see `grey_wrong` and `dark_wrong`.) -/
theorem exact_partial {m : Cell} (h : Absorbs m.a) (hj : Beam m.j) (hp : 0 < m.j 0) (chi : ℝ) {L : ℝ} (hL : 0 < L) (hm : Middling m L)
    (hb : ¬ Balanced m) : ∃ S O, step m chi L = .ok (S, O) ∧ IsPassage (matrixOf m chi) (emissionOf m chi) L S O := by
  have hK := regular (rate_pos h chi)
  refine ⟨_, _, step_middling h hj hp chi hL hm hb, ⟨_, emitted_zero _ _, rfl, fun s i => ?_⟩, fun X => ⟨flow (Kmat (rotate (m.coefs chi))) X,
    flow_zero _ _, rfl, fun s i => ?_⟩⟩
  · refine (emitted_deriv hK _ s i).congr_deriv ?_
    rw [← matrix_eq, ← emission_eq, emitted_eq, mulVec_mulVec, Matrix.mul_nonsing_inv _ hK, one_mulVec]
    simp
  · rw [← matrix_eq]
    exact flow_deriv _ X s i

/-- **C116.** What a cell adds is light: not more polarised than bright, if the emission is and, for a thin cell, if it is not
completely polarised (see `thin_wrong`). -/
theorem sends_beams_partial {m : Cell} (h : Absorbs m.a) (hj : Beam m.j) (chi : ℝ) {L : ℝ} (hL : 0 ≤ L)
    (ht : depth2 m L < 1e-6 → 1e-6 * m.j 0 ^ 2 ≤ m.j 0 ^ 2 - m.j 1 ^ 2 - m.j 2 ^ 2 - m.j 3 ^ 2) {S : Fin 4 → ℝ} {O : Mueller}
    (hs : step m chi L = .ok (S, O)) : Beam S := by
  have hr := rate_pos h chi
  rw [step_eq h chi hL] at hs
  have hb : Beam (pmat m chi L *ᵥ turned m chi) := by
    unfold pmat
    split_ifs with h1 h2
    · exact source_beam hr (turned_beam hj chi)
    · exact thin_beam chi hL (depth_small h2) hj (ht (depth_small h2))
    · exact emitted_beam (regular hr) (turned_beam hj chi) hL
  split at hs
  · cases hs
    exact beam_zero
  · cases hs
    exact hb

/-- **C116.** A cell lets light pass as light, and not more of it than what enters. -/
theorem passes_beams {m : Cell} (h : Absorbs m.a) (chi : ℝ) {L : ℝ} (hL : 0 ≤ L) {S : Fin 4 → ℝ} {O : Mueller}
    (hs : step m chi L = .ok (S, O)) {X : Fin 4 → ℝ} (hX : Beam X) : Beam (O *ᵥ X) ∧ (O *ᵥ X) 0 ≤ X 0 := by
  have hr := rate_pos h chi
  rw [step_eq h chi hL] at hs
  have one : Beam ((1 : Mueller) *ᵥ X) ∧ ((1 : Mueller) *ᵥ X) 0 ≤ X 0 := by rw [one_mulVec]; exact ⟨hX, le_refl _⟩
  split at hs
  · cases hs
    exact one
  · cases hs
    split_ifs with hT
    · exact one
    · exact ⟨flow_beam _ hX L, flow_fainter hr.le hX hL⟩

/-- A ray: the cells crossed, the nearest to the observer first, with the angle and the length for each. -/
def Crosses (l : List (Cell × ℝ × ℝ)) (r : List ((Fin 4 → ℝ) × Mueller)) : Prop :=
  List.Forall₂ (fun c x => step c.1 c.2.1 c.2.2 = .ok x) l r

/-- **C116.** What is received from a ray is light, whatever the number of cells. -/
theorem ray_beam {l : List (Cell × ℝ × ℝ)} {r : List ((Fin 4 → ℝ) × Mueller)} (hc : Crosses l r)
    (h : ∀ c ∈ l, Absorbs c.1.a ∧ Beam c.1.j ∧ 0 ≤ c.2.2 ∧
      (depth2 c.1 c.2.2 < 1e-6 → 1e-6 * c.1.j 0 ^ 2 ≤ c.1.j 0 ^ 2 - c.1.j 1 ^ 2 - c.1.j 2 ^ 2 - c.1.j 3 ^ 2)) :
    Beam (HitQ.observedStokes r) := by
  induction hc with
  | nil => exact beam_zero
  | @cons c x l r hx _ ih =>
    obtain ⟨h1, h2, h3, h4⟩ := h c (by simp)
    have hr := ih fun c hc => h c (by simp [hc])
    exact beam_add (sends_beams_partial h1 h2 c.2.1 h3 h4 hx) (passes_beams h1 c.2.1 h3 hx hr).1

/-- **C116.** Cutting a cell in two changes nothing. -/
theorem cut {m : Cell} (h : Absorbs m.a) (hj : Beam m.j) (hp : 0 < m.j 0) (hb : ¬ Balanced m) (chi : ℝ) {L1 L2 : ℝ} (h1 : 0 < L1)
    (h2 : 0 < L2) (m1 : Middling m L1) (m2 : Middling m L2) (m12 : Middling m (L1 + L2)) :
    ∃ S S1 S2 O O1 O2, step m chi (L1 + L2) = .ok (S, O) ∧ step m chi L1 = .ok (S1, O1) ∧ step m chi L2 = .ok (S2, O2) ∧
      S = HitQ.observedStokes [(S1, O1), (S2, O2)] ∧ O = O1 * O2 := by
  refine ⟨_, _, _, _, _, _, step_middling h hj hp chi (by linarith) m12 hb, step_middling h hj hp chi h1 m1 hb,
    step_middling h hj hp chi h2 m2 hb, ?_, exp_split _ _ _⟩
  have hK := regular (rate_pos h chi)
  simp only [HitQ.observedStokes, mulVec_zero, add_zero]
  generalize Kmat (rotate (m.coefs chi)) = K at *
  have c : K⁻¹ * NormedSpace.exp (-L1 • K) = NormedSpace.exp (-L1 • K) * K⁻¹ := by
    calc K⁻¹ * NormedSpace.exp (-L1 • K) = K⁻¹ * (NormedSpace.exp (-L1 • K) * K) * K⁻¹ := by
          rw [mul_assoc, mul_assoc, Matrix.mul_nonsing_inv _ hK, mul_one]
      _ = NormedSpace.exp (-L1 • K) * K⁻¹ := by
          rw [exp_comm, ← mul_assoc, Matrix.nonsing_inv_mul _ hK, one_mul]
  unfold emitted
  rw [mulVec_mulVec, ← add_mulVec, ← mul_assoc, ← c, exp_split]
  congr 1
  rw [mul_assoc, ← mul_add]
  congr 1
  noncomm_ring

theorem absorb_unpolarised (m : Cell) (chi B : ℝ) (hj : m.j = B • m.a) :
    Kmat (rotate (m.coefs chi)) *ᵥ unpolarised B = turned m chi := by
  funext i
  fin_cases i <;>
    simp [Kmat, unpolarised, mulVec, dotProduct, Fin.sum_univ_four, turned, Evpa.rotateJsChi, Evpa.rotateJs, rotate, Cell.coefs, hj] <;> ring

/-- **C116.** Matter in thermal equilibrium — which emits what it absorbs of black-body light — leaves black-body light unchanged,
whatever its polarised absorption and rotation. -/
theorem equilibrium {m : Cell} (h : Absorbs m.a) (hb : ¬ Balanced m) {B : ℝ} (hB : 0 < B) (hj : m.j = B • m.a) (chi : ℝ) {L : ℝ}
    (hL : 0 < L) (hm : Middling m L) : ∃ S O, step m chi L = .ok (S, O) ∧ S + O *ᵥ unpolarised B = unpolarised B := by
  have hjb : Beam m.j := by
    rw [hj]
    exact beam_smul hB.le ⟨h.1.le, h.2.le⟩
  have hp : 0 < m.j 0 := by rw [hj]; simpa using mul_pos hB h.1
  have hK := regular (rate_pos h chi)
  refine ⟨_, _, step_middling h hjb hp chi hL hm hb, ?_⟩
  rw [emitted, ← absorb_unpolarised m chi B hj, mulVec_mulVec, mul_assoc, sub_mul, one_mul, exp_comm, ← mul_one_sub, ← mul_assoc,
    Matrix.nonsing_inv_mul _ hK, one_mul, sub_mulVec, one_mulVec]
  simp

/-- **C116.** When it is thick it sends black-body light, which is not polarised. -/
theorem thick_thermal {m : Cell} (h : Absorbs m.a) {B : ℝ} (hB : 0 < B) (hj : m.j = B • m.a) (chi : ℝ) {L : ℝ} (hL : 100 < m.a 0 * L) :
    ∃ O, step m chi L = .ok (unpolarised B, O) := by
  have hK := regular (rate_pos h chi)
  have hL0 : 0 ≤ L := by
    by_contra hn
    push Not at hn
    have := mul_neg_of_pos_of_neg h.1 hn
    linarith
  have e : pmat m chi L *ᵥ turned m chi = unpolarised B := by
    unfold pmat
    rw [if_pos hL, ← absorb_unpolarised m chi B hj, mulVec_mulVec, Matrix.nonsing_inv_mul _ hK, one_mulVec]
  rw [step_eq h chi hL0, e, if_neg (by simpa [unpolarised] using hB)]
  exact ⟨_, rfl⟩

/-! ### Examples -/

/-- A hot cell with polarised absorption and Faraday rotation. -/
noncomputable def exCell : Cell := ⟨![6, 2, 0, 1], ![3, 1, 0, 0.5], ![0.2, 0, 2]⟩

theorem ex_absorbs : Absorbs exCell.a := by simp [Absorbs, exCell]; norm_num

theorem ex_beam : Beam exCell.j := by simp [Beam, Plasma.IsBeam, exCell]; norm_num

theorem ex_middling {L : ℝ} (h : 1 ≤ L) (h' : L ≤ 2) : Middling exCell L := by
  refine ⟨by norm_num [exCell]; linarith, ?_⟩
  norm_num [depth2, exCell]
  nlinarith

theorem ex_unbalanced : ¬ Balanced exCell := by simp [Balanced, exCell]; norm_num

/-- Example of `exact_partial`, `sends_beams_partial` and `passes_beams`. -/
example : ∃ S O, step exCell 0.3 1 = .ok (S, O) ∧ IsPassage (matrixOf exCell 0.3) (emissionOf exCell 0.3) 1 S O ∧ Beam S ∧
    Beam (O *ᵥ ![1, 1, 0, 0]) := by
  obtain ⟨S, O, h1, h2⟩ := exact_partial ex_absorbs ex_beam (by norm_num [exCell]) 0.3 one_pos (ex_middling le_rfl one_le_two)
    ex_unbalanced
  exact ⟨S, O, h1, h2, sends_beams_partial ex_absorbs ex_beam 0.3 zero_le_one
    (fun h => absurd (ex_middling le_rfl one_le_two).2 (not_le.2 h)) h1,
    (passes_beams ex_absorbs 0.3 zero_le_one h1 (by simp [Beam, Plasma.IsBeam])).1⟩

/-- Example of `ray_beam`: three cells, the field turning from one to the next. -/
example : ∃ r, Crosses [(exCell, 0, 1), (exCell, 0.5, 1), (exCell, 1, 2)] r ∧ Beam (HitQ.observedStokes r) := by
  obtain ⟨S1, O1, h1⟩ := step_ok ex_absorbs 0 zero_le_one
  obtain ⟨S2, O2, h2⟩ := step_ok ex_absorbs 0.5 zero_le_one
  obtain ⟨S3, O3, h3⟩ := step_ok ex_absorbs 1 zero_le_two
  have hc : Crosses [(exCell, 0, 1), (exCell, 0.5, 1), (exCell, 1, 2)] [(S1, O1), (S2, O2), (S3, O3)] := by
    simp [Crosses, h1, h2, h3]
  refine ⟨_, hc, ray_beam hc ?_⟩
  intro c hcm
  simp only [List.mem_cons, List.not_mem_nil, or_false] at hcm
  rcases hcm with rfl | rfl | rfl
  · exact ⟨ex_absorbs, ex_beam, zero_le_one, fun h => absurd (ex_middling le_rfl one_le_two).2 (not_le.2 h)⟩
  · exact ⟨ex_absorbs, ex_beam, zero_le_one, fun h => absurd (ex_middling le_rfl one_le_two).2 (not_le.2 h)⟩
  · exact ⟨ex_absorbs, ex_beam, zero_le_two, fun h => absurd (ex_middling one_le_two le_rfl).2 (not_le.2 h)⟩

/-- Example of `cut`. -/
example : ∃ S S1 S2 O O1 O2, step exCell 0.3 (1 + 1) = .ok (S, O) ∧ step exCell 0.3 1 = .ok (S1, O1) ∧ step exCell 0.3 1 = .ok (S2, O2) ∧
    S = HitQ.observedStokes [(S1, O1), (S2, O2)] ∧ O = O1 * O2 :=
  cut ex_absorbs ex_beam (by norm_num [exCell]) ex_unbalanced 0.3 one_pos one_pos (ex_middling le_rfl one_le_two)
    (ex_middling le_rfl one_le_two) (ex_middling (by norm_num) (by norm_num))

/-- Example of `equilibrium` and `thick_thermal`: the cell emits twice what it absorbs. -/
example : (∃ S O, step exCell 0.3 1 = .ok (S, O) ∧ S + O *ᵥ unpolarised 2 = unpolarised 2) ∧
    ∃ O, step exCell 0.3 50 = .ok (unpolarised 2, O) := by
  have hj : exCell.j = (2 : ℝ) • exCell.a := by
    funext i
    fin_cases i <;> norm_num [exCell]
  exact ⟨equilibrium ex_absorbs ex_unbalanced two_pos hj 0.3 one_pos (ex_middling le_rfl one_le_two),
    thick_thermal ex_absorbs two_pos hj 0.3 (by norm_num [exCell])⟩

/-! ### Findings -/

/-- **Finding (C116).** A cell that absorbs and emits nothing is transparent: the matrix is the identity, which is not the solution
of the equation of transfer. -/
theorem dark_wrong {m : Cell} (h : Absorbs m.a) (hj : m.j = 0) (chi : ℝ) {L : ℝ} (hL : 0 < L) :
    step m chi L = .ok (0, 1) ∧ ¬ IsPassage (matrixOf m chi) (emissionOf m chi) L 0 1 := by
  constructor
  · have e : turned m chi = 0 := by
      funext i
      fin_cases i <;> simp [turned, Evpa.rotateJsChi, Evpa.rotateJs, hj]
    rw [step_eq h chi hL.le, e, mulVec_zero, if_pos (by simp)]
  · intro hp
    obtain ⟨f, f0, fL, fd⟩ := hp.carried (unpolarised 1)
    have hn := n2_decay (rotate (m.coefs chi)) (x := f) (fun s i => by rw [matrix_eq]; exact fd s i) hL.le
    have e : n2 (unpolarised 1) = 1 := by simp [n2, unpolarised]
    rw [fL, f0, one_mulVec, e, mul_one] at hn
    have : Real.exp (-(2 * rate (rotate (m.coefs chi)) * L)) < 1 := by
      rw [Real.exp_lt_one_iff]
      have := mul_pos (rate_pos h chi) hL
      linarith
    linarith

example : step { exCell with j := 0 } 0.3 30 = .ok (0, 1) :=
  (dark_wrong (m := { exCell with j := 0 }) ex_absorbs rfl 0.3 (by norm_num)).1

/-- A cell without polarisation. -/
noncomputable def grey (j a : ℝ) : Cell := ⟨unpolarised j, unpolarised a, 0⟩

theorem grey_step {j a : ℝ} (hj : 0 < j) (ha : 0 < a) (chi : ℝ) {L : ℝ} (hL : 0 < L) (hm : Middling (grey j a) L) :
    step (grey j a) chi L = .ok (unpolarised (j / a * (1 - Real.exp (-(a * L)))), 1) := by
  have hA : Absorbs (grey j a).a := by simpa [Absorbs, grey, unpolarised] using ⟨ha, pow_pos ha 2⟩
  have hK := regular (rate_pos hA chi)
  have hKe : Kmat (rotate ((grey j a).coefs chi)) = a • (1 : Mueller) := by
    ext i k
    fin_cases i <;> fin_cases k <;> simp [Kmat, rotate, grey, unpolarised, Cell.coefs]
  have hT : (rotate ((grey j a).coefs chi)).Theta = 0 := by
    rw [theta_coefs]
    simp [grey, unpolarised]
  have hu : turned (grey j a) chi = unpolarised j := by
    funext i
    fin_cases i <;> simp [turned, Evpa.rotateJsChi, Evpa.rotateJs, grey, unpolarised]
  have he : pmat (grey j a) chi L *ᵥ turned (grey j a) chi = unpolarised (j / a * (1 - Real.exp (-(a * L)))) := by
    rw [pmat_middling hm, emitted_eq, flow, hKe, smul_smul, exp_scalar, hu]
    have hinv : (a • (1 : Mueller))⁻¹ = a⁻¹ • (1 : Mueller) := by
      refine Matrix.inv_eq_left_inv ?_
      rw [smul_mul_smul_comm, one_mul, inv_mul_cancel₀ ha.ne', one_smul]
    rw [hinv]
    funext i
    fin_cases i
    · simp [smul_mulVec, unpolarised]
      rw [show -(L * a) = -(a * L) by ring]
      field_simp
    · simp [smul_mulVec, unpolarised]
    · simp [smul_mulVec, unpolarised]
    · simp [smul_mulVec, unpolarised]
  have hpos : 0 < j / a * (1 - Real.exp (-(a * L))) := by
    have : Real.exp (-(a * L)) < 1 := by rw [Real.exp_lt_one_iff]; have := mul_pos ha hL; linarith
    have := div_pos hj ha
    exact mul_pos this (by linarith)
  rw [step_eq hA chi hL.le, he, if_neg (by simpa [unpolarised] using hpos), if_pos hT]

/-- **Finding (C116).** Without polarised coefficients the cells emit but do not absorb: the intensity received from `n` cells is `n` times that of one
and exceeds the source function, which no number of absorbing cells can. -/
theorem grey_wrong {j a : ℝ} (hj : 0 < j) (ha : 0 < a) (chi : ℝ) {L : ℝ} (hL : 0 < L) (hm : Middling (grey j a) L) :
    ∃ x, step (grey j a) chi L = .ok x ∧ (∀ n : ℕ, HitQ.observedStokes (List.replicate n x) 0 = n * (j / a * (1 - Real.exp (-(a * L))))) ∧
      (∃ n : ℕ, j / a < HitQ.observedStokes (List.replicate n x) 0) ∧
      ∀ n : ℕ, HitQ.observed (List.replicate n (j / a * (1 - Real.exp (-(a * L))), Real.exp (-(a * L)))) < j / a := by
  have hs := div_pos hj ha
  have h1 : Real.exp (-(a * L)) < 1 := by rw [Real.exp_lt_one_iff]; have := mul_pos ha hL; linarith
  have hp := mul_pos hs (by linarith : 0 < 1 - Real.exp (-(a * L)))
  have hn : ∀ n : ℕ, HitQ.observedStokes (List.replicate n (unpolarised (j / a * (1 - Real.exp (-(a * L)))), (1 : Mueller))) 0 =
      n * (j / a * (1 - Real.exp (-(a * L)))) := by
    intro n
    induction n with
    | zero => simp [HitQ.observedStokes]
    | succ n ih =>
      simp only [List.replicate_succ, HitQ.observedStokes, one_mulVec, Pi.add_apply, ih]
      simp [unpolarised]
      ring
  refine ⟨_, grey_step hj ha chi hL hm, hn, ?_, ?_⟩
  · obtain ⟨n, hn'⟩ := exists_nat_gt (j / a / (j / a * (1 - Real.exp (-(a * L)))))
    refine ⟨n, ?_⟩
    rw [hn]
    rwa [div_lt_iff₀ hp] at hn'
  · intro n
    induction n with
    | zero => simpa [HitQ.observed] using hs
    | succ n ih =>
      simp only [List.replicate_succ, HitQ.observed]
      have := mul_lt_mul_of_pos_left ih (Real.exp_pos (-(a * L)))
      linarith

example : Middling (grey 1 1) 1 := by simp [Middling, depth2, grey, unpolarised]; norm_num

/-- **Finding (C116).** What a thin cell adds can be more polarised than bright, when the emission is completely polarised. -/
theorem thin_wrong : ∃ (m : Cell) (S : Fin 4 → ℝ) (O : Mueller), Absorbs m.a ∧ Beam m.j ∧ step m 0 1 = .ok (S, O) ∧ ¬ Beam S := by
  obtain ⟨m, hm⟩ : ∃ m : Cell, m = ⟨![1, 1, 0, 0], ![1e-4, 0, 0, 0], ![0, 0, 1e-4]⟩ := ⟨_, rfl⟩
  have hA : Absorbs m.a := by rw [hm]; simp [Absorbs]; norm_num
  have hd : √(depth2 m 1) < 1e-3 := by
    rw [Real.sqrt_lt (by unfold depth2; positivity) (by norm_num), hm]
    simp [depth2]
    norm_num
  have hu : turned m 0 = ![1, 1, 0, 0] := by
    funext i
    fin_cases i <;> simp [turned, Evpa.rotateJsChi, Evpa.rotateJs, hm]
  have hc : rotate (m.coefs 0) = ⟨1e-4, 0, 0, 0, 0, 0, 1e-4⟩ := by
    simp [rotate, Cell.coefs, hm]
  have hp : pmat m 0 1 *ᵥ turned m 0 = ![0.99995, 0.99995, 0.00005, 0] := by
    unfold pmat
    rw [if_neg (by rw [hm]; norm_num), if_pos hd, hu, hc]
    funext i
    fin_cases i <;> simp [Kmat, mulVec, dotProduct, Fin.sum_univ_four, Matrix.one_apply] <;> norm_num
  have hs := step_eq hA 0 zero_le_one
  rw [hp, if_neg (by norm_num)] at hs
  refine ⟨m, _, _, hA, by rw [hm]; simp [Beam, Plasma.IsBeam], hs, ?_⟩
  simp [Beam, Plasma.IsBeam]
  norm_num

end Gyoto.StokesStep
