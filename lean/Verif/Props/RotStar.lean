import Verif.Model.RotStar
import Verif.Spec.Lorene
import Verif.Props.LoreneGeodesic
import Mathlib.Analysis.Calculus.Deriv.Mul
import Mathlib.Analysis.Calculus.Deriv.Pow
import Mathlib.Analysis.SpecialFunctions.Trigonometric.Deriv
import Mathlib.Analysis.Real.Pi.Bounds
import Mathlib.Tactic.FieldSimp
import Mathlib.Tactic.LinearCombination
import Mathlib.Tactic.Positivity

/-!
# C144: the metric of a rotating star and its geodesics
-/

namespace Gyoto.RotStar

open Gyoto.MetricAlg Gyoto.Spacetime Gyoto.KerrBL
open Gyoto.Lorene (IsField Axisymmetric Smooth flat flat_eq along)

/-- The metric as a function of the place. -/
noncomputable def Star.metric (s : Star) (p : Vec) : Tensor := (s.at p).gmunu

/-- The fields have the derivatives that they come with, do not depend on the longitude, and the place is off the axis and where the metric is regular. -/
structure Regular (s : Star) (p : Vec) : Prop where
  nn : IsField s.nn p
  nphi : IsField s.nphi p
  a2 : IsField s.a2 p
  b2 : IsField s.b2 p
  axiN : Axisymmetric s.nn
  axiW : Axisymmetric s.nphi
  axiA : Axisymmetric s.a2
  axiB : Axisymmetric s.b2
  n0 : (s.at p).N ≠ 0
  a0 : (s.at p).A ≠ 0
  b0 : (s.at p).B ≠ 0
  r0 : (s.at p).r ≠ 0
  s0 : (s.at p).S ≠ 0

/-- The symbols, in the shape for which the equations are known. -/
theorem christoffel_table (q : Pt) : q.christoffel = circΓ (1 / 2 * q.utt * q.ttr + 1 / 2 * q.utp * q.tpr) (1 / 2 * q.utt * q.ttt + 1 / 2 * q.utp * q.tpt)
    (1 / 2 * q.utt * q.tpr + 1 / 2 * q.utp * q.ppr) (1 / 2 * q.utt * q.tpt + 1 / 2 * q.utp * q.ppt)
    (-1 / 2 * q.urr * q.ttr) (-1 / 2 * q.urr * q.tpr) (1 / 2 * q.urr * q.Ar) (1 / 2 * q.urr * q.At) (-1 / 2 * q.urr * q.hhr) (-1 / 2 * q.urr * q.ppr)
    (-1 / 2 * q.uhh * q.ttt) (-1 / 2 * q.uhh * q.tpt) (-1 / 2 * q.uhh * q.At) (1 / 2 * q.uhh * q.hhr) (1 / 2 * q.uhh * q.hht) (-1 / 2 * q.uhh * q.ppt)
    (1 / 2 * q.upp * q.tpr + 1 / 2 * q.utp * q.ttr) (1 / 2 * q.upp * q.tpt + 1 / 2 * q.utp * q.ttt)
    (1 / 2 * q.upp * q.ppr + 1 / 2 * q.utp * q.tpr) (1 / 2 * q.upp * q.ppt + 1 / 2 * q.utp * q.tpt) := by
  funext α μ ν
  fin_cases α <;> fin_cases μ <;> fin_cases ν <;> rfl

set_option maxHeartbeats 1000000 in
/-- **C144.** `christoffel` gives the Christoffel symbols of `gmunu`, for any fields that have the derivatives they come with and do not depend on the longitude. -/
theorem christoffel_ok (s : Star) (p : Vec) (h : Regular s p) : IsChristoffel s.metric p (s.at p).christoffel := by
  have hi := hasDerivAt_id (p 1)
  have hs := Real.hasDerivAt_sin (p 2)
  obtain ⟨n1, n2, -⟩ := h.nn
  obtain ⟨w1, w2, -⟩ := h.nphi
  obtain ⟨a1, a2, -⟩ := h.a2
  obtain ⟨b1, b2, -⟩ := h.b2
  have em : s.metric = fun x => circ
      (s.b2.val (x 1) (x 2) (p 3) * (x 1 * x 1) * (Real.sin (x 2) * Real.sin (x 2)) * s.nphi.val (x 1) (x 2) (p 3) * s.nphi.val (x 1) (x 2) (p 3) - s.nn.val (x 1) (x 2) (p 3) * s.nn.val (x 1) (x 2) (p 3))
      (s.a2.val (x 1) (x 2) (p 3)) (s.a2.val (x 1) (x 2) (p 3) * (x 1 * x 1)) (s.b2.val (x 1) (x 2) (p 3) * (x 1 * x 1) * (Real.sin (x 2) * Real.sin (x 2)))
      (-s.nphi.val (x 1) (x 2) (p 3) * s.b2.val (x 1) (x 2) (p 3) * (x 1 * x 1) * (Real.sin (x 2) * Real.sin (x 2))) := by
    funext x
    rw [h.axiN (x 1) (x 2) (p 3) (x 3), h.axiW (x 1) (x 2) (p 3) (x 3), h.axiA (x 1) (x 2) (p 3) (x 3), h.axiB (x 1) (x 2) (p 3) (x 3)]
    rfl
  have r2 := hi.mul hi
  have s2 := hs.mul hs
  rw [em, christoffel_table]
  refine isChristoffel_circ (tr := (s.at p).ttr) (rr' := (s.at p).Ar) (hr := (s.at p).hhr) (pr := (s.at p).ppr) (xr := (s.at p).tpr)
    (tθ := (s.at p).ttt) (rθ := (s.at p).At) (hθ := (s.at p).hht) (pθ := (s.at p).ppt) (xθ := (s.at p).tpt)
    (tt := fun r t => s.b2.val r t (p 3) * (r * r) * (Real.sin t * Real.sin t) * s.nphi.val r t (p 3) * s.nphi.val r t (p 3) - s.nn.val r t (p 3) * s.nn.val r t (p 3))
    (rr := fun r t => s.a2.val r t (p 3)) (hh := fun r t => s.a2.val r t (p 3) * (r * r))
    (pp := fun r t => s.b2.val r t (p 3) * (r * r) * (Real.sin t * Real.sin t))
    (tp := fun r t => -s.nphi.val r t (p 3) * s.b2.val r t (p 3) * (r * r) * (Real.sin t * Real.sin t))
    ((((((b1.mul r2).mul_const _).mul w1).mul w1).sub (n1.mul n1)).congr_deriv ?_) a1 ((a1.mul r2).congr_deriv ?_) (((b1.mul r2).mul_const _).congr_deriv ?_)
    ((((w1.neg.mul b1).mul r2).mul_const _).congr_deriv ?_)
    ((((((b2.mul_const _).mul s2).mul w2).mul w2).sub (n2.mul n2)).congr_deriv ?_) a2 ((a2.mul_const _).congr_deriv ?_) (((b2.mul_const _).mul s2).congr_deriv ?_)
    ((((w2.neg.mul b2).mul_const _).mul s2).congr_deriv ?_)
    ?_ ?_ ?_ ?_ ?_ ?_ ?_ ?_ ?_ ?_ ?_ ?_ ?_ ?_ ?_ ?_ ?_ ?_ ?_ ?_
  all_goals
    have n0 := h.n0
    have a0 := h.a0
    have b0 := h.b0
    have r0 := h.r0
    have s0 := h.s0
    clear em n1 n2 w1 w2 a1 a2 b1 b2 hi hs r2 s2 h
    simp only [Star.at, Pt.utt, Pt.urr, Pt.uhh, Pt.upp, Pt.utp, Pt.ttr, Pt.ttt, Pt.hhr, Pt.hht, Pt.ppr, Pt.ppt, Pt.tpr, Pt.tpt, Pi.mul_apply, Pi.neg_apply, id] at *
    generalize s.nn.val (p 1) (p 2) (p 3) = N at *
    generalize s.nphi.val (p 1) (p 2) (p 3) = w at *
    generalize s.a2.val (p 1) (p 2) (p 3) = A at *
    generalize s.b2.val (p 1) (p 2) (p 3) = B at *
    generalize Real.sin (p 2) = S at *
    generalize Real.cos (p 2) = C at *
    generalize p 1 = r at *
    first | ring1 | (field_simp; done) | (field_simp; ring1)

theorem const_field (c : ℝ) (p : Vec) : IsField (Lorene.const c) p :=
  ⟨hasDerivAt_const _ _, hasDerivAt_const _ _, (hasDerivAt_const _ _).congr_deriv (mul_zero _).symm⟩

/-- Flat space in a rotating frame is such a star, off the axis. -/
theorem rotating_regular (Ω : ℝ) (p : Vec) (r0 : p 1 ≠ 0) (s0 : Real.sin (p 2) ≠ 0) :
    Regular ⟨Lorene.const 1, Lorene.const Ω, Lorene.const 1, Lorene.const 1⟩ p :=
  ⟨const_field _ _, const_field _ _, const_field _ _, const_field _ _, fun _ _ _ _ => rfl, fun _ _ _ _ => rfl, fun _ _ _ _ => rfl, fun _ _ _ _ => rfl,
    one_ne_zero, one_ne_zero, one_ne_zero, r0, s0⟩

/-- There, the symbol of the centrifugal force is the known one. -/
example (Ω : ℝ) (p : Vec) (r0 : p 1 ≠ 0) (s0 : Real.sin (p 2) ≠ 0) :
    ∃ s : Star, Regular s p ∧ (s.at p).christoffel 1 0 0 = -Ω ^ 2 * p 1 * Real.sin (p 2) ^ 2 := by
  refine ⟨_, rotating_regular Ω p r0 s0, ?_⟩
  simp only [Pt.christoffel, Pt.urr, Pt.ttr, Star.at, Lorene.const]
  ring

/-- **C144.** `diff` of eight numbers is the equation of geodesics, for the symbols that `christoffel` gives. -/
theorem diff4_ok (q : Pt) (u : Vec) (α : Fin 4) : q.diff4 u α = -∑ μ, ∑ ν, q.christoffel α μ ν * u μ * u ν := by
  rw [christoffel_table]
  simp only [Fin.sum_univ_four]
  fin_cases α
  all_goals
    simp only [Pt.diff4, circΓ, Matrix.cons_val, Fin.zero_eta, Fin.mk_one, Fin.reduceFinMk]
    ring

/-- A geodesic with the date as parameter: `v` is the velocity `dx/dt` and `a` its rate of change. -/
def IsPath (Γ : Fin 4 → Tensor) (v a : Fin 3 → ℝ) : Prop :=
  let k : Vec := ![1, v 0, v 1, v 2]
  ∀ i : Fin 3, a i + ∑ μ, ∑ ν, Γ i.succ μ ν * k μ * k ν = v i * ∑ μ, ∑ ν, Γ 0 μ ν * k μ * k ν

set_option maxHeartbeats 1000000 in
/-- The algebra of `diff31_geodesic`. -/
theorem diff31_path (q : Pt) (V : Fin 3 → ℝ) (n0 : q.N ≠ 0) (a0 : q.A ≠ 0) (b0 : q.B ≠ 0) (r0 : q.r ≠ 0) (s0 : q.S ≠ 0) :
    IsPath q.christoffel (q.diff31 V).1 (fun i => (q.Nr * (q.N * V 0) + q.Nt * (q.N * V 1)) * V i + q.N * (q.diff31 V).2 i +
      if i = 2 then q.wr * (q.N * V 0) + q.wt * (q.N * V 1) else 0) := by
  intro i
  rw [christoffel_table]
  simp only [Fin.sum_univ_four]
  obtain ⟨r, S, C, N, Nr, Nt, w, wr, wt, A, Ar, At, B, Br, Bt⟩ := q
  generalize hV0 : V 0 = V0
  generalize hV1 : V 1 = V1
  generalize hV2 : V 2 = V2
  fin_cases i
  all_goals
    simp only [circΓ, Pt.diff31, Pt.utt, Pt.urr, Pt.uhh, Pt.upp, Pt.utp, Pt.ttr, Pt.ttt, Pt.hhr, Pt.hht, Pt.ppr, Pt.ppt, Pt.tpr, Pt.tpt, Matrix.cons_val, Fin.zero_eta,
      Fin.mk_one, Fin.reduceFinMk, Fin.succ_zero_eq_one, Fin.succ_one_eq_two, Fin.reduceSucc, Fin.reduceEq, if_true, if_false, hV0, hV1, hV2] at *
    field_simp
    ring1

/-- **C144.** The 3+1 equations of motion give geodesics of `gmunu`, with the date as parameter: along a solution, the velocity has a rate of change, and the two satisfy
the equation of geodesics. -/
theorem diff31_geodesic (s : Star) (x V : ℝ → Fin 3 → ℝ) (t : ℝ) (h : Regular s ![t, x t 0, x t 1, x t 2])
    (sN : Smooth s.nn ![t, x t 0, x t 1, x t 2]) (sW : Smooth s.nphi ![t, x t 0, x t 1, x t 2])
    (hx : ∀ i, HasDerivAt (fun τ => x τ i) (((s.at ![t, x t 0, x t 1, x t 2]).diff31 (V t)).1 i) t)
    (hV : ∀ i, HasDerivAt (fun τ => V τ i) (((s.at ![t, x t 0, x t 1, x t 2]).diff31 (V t)).2 i) t) :
    ∃ a : Fin 3 → ℝ, (∀ i, HasDerivAt (fun τ => ((s.at ![τ, x τ 0, x τ 1, x τ 2]).diff31 (V τ)).1 i) (a i) t) ∧
      IsPath (s.at ![t, x t 0, x t 1, x t 2]).christoffel ((s.at ![t, x t 0, x t 1, x t 2]).diff31 (V t)).1 a := by
  refine ⟨_, fun i => ?_, diff31_path _ (V t) h.n0 h.a0 h.b0 h.r0 h.s0⟩
  have dN := along sN h.axiN h.nn (hx 0) (hx 1) rfl rfl
  have dW := along sW h.axiW h.nphi (hx 0) (hx 1) rfl rfl
  have eN : ∀ τ, (s.at ![τ, x τ 0, x τ 1, x τ 2]).N = flat s.nn (x τ 0) (x τ 1) := fun τ => flat_eq h.axiN _ _ _
  have eW : ∀ τ, (s.at ![τ, x τ 0, x τ 1, x τ 2]).w = flat s.nphi (x τ 0) (x τ 1) := fun τ => flat_eq h.axiW _ _ _
  have key : ∀ i : Fin 3, HasDerivAt (fun τ => (s.at ![τ, x τ 0, x τ 1, x τ 2]).N * V τ i) _ t := fun i =>
    (dN.mul (hV i)).congr_of_eventuallyEq (Filter.Eventually.of_forall fun τ => congrArg (· * V τ i) (eN τ))
  have dw : HasDerivAt (fun τ => (s.at ![τ, x τ 0, x τ 1, x τ 2]).w) _ t := dW.congr_of_eventuallyEq (Filter.Eventually.of_forall fun τ => eW τ)
  match i with
  | 0 => exact (key 0).congr_deriv (by rw [← eN, if_neg (by decide), add_zero]; rfl)
  | 1 => exact (key 1).congr_deriv (by rw [← eN, if_neg (by decide), add_zero]; rfl)
  | 2 => exact ((key 2).add dw).congr_deriv (by rw [← eN, if_pos rfl]; rfl)

/-- A star at rest in the inertial frame, followed in the rotating one. -/
example (Ω r th : ℝ) (r0 : r ≠ 0) (s0 : Real.sin th ≠ 0) (t : ℝ) : ∃ (s : Star) (a : Fin 3 → ℝ),
    IsPath (s.at ![t, r, th, Ω * t]).christoffel ![0, 0, Ω] a ∧ a = 0 := by
  have h := rotating_regular Ω ![t, r, th, Ω * t] r0 s0
  have hz : ((Star.mk (Lorene.const 1) (Lorene.const Ω) (Lorene.const 1) (Lorene.const 1)).at ![t, r, th, Ω * t]).diff31 0 = (![0, 0, Ω], 0) := by
    simp only [Pt.diff31, Star.at, Lorene.const, Pi.zero_apply, Prod.mk.injEq]
    refine ⟨by norm_num, ?_⟩
    funext i
    fin_cases i <;> simp
  have hp := diff31_path _ 0 h.n0 h.a0 h.b0 h.r0 h.s0
  rw [hz] at hp
  refine ⟨_, _, hp, ?_⟩
  funext i
  simp

/-- **C144.** `Normalize4v` makes the two constants of motion exactly those given, and leaves the radial and polar velocities. -/
theorem normalize_ok {q : Pt} {cst : ℝ × ℝ} {V V' : Fin 3 → ℝ} {tdot : ℝ} (h : q.normalize cst V = some (tdot, V')) :
    q.cst (q.from31 tdot V') = cst ∧ V' 0 = V 0 ∧ V' 1 = V 1 := by
  unfold Pt.normalize at h
  dsimp only at h
  by_cases h1 : q.N = 0
  · rw [if_pos h1] at h; cases h
  rw [if_neg h1] at h
  by_cases h2 : q.tt ≠ 0 ∧ q.tt * q.pp ≠ q.tp * q.tp
  swap
  · rw [if_neg h2] at h; cases h
  rw [if_pos h2] at h
  by_cases h3 : (cst.1 - q.tp * ((cst.2 - q.tp / q.tt * cst.1) / (q.pp - q.tp * q.tp / q.tt))) / q.tt = 0
  · rw [if_pos h3] at h; cases h
  rw [if_neg h3] at h
  simp only [Option.some.injEq, Prod.mk.injEq] at h
  obtain ⟨e, rfl⟩ := h
  obtain ⟨t0, d0⟩ := h2
  have d0' : q.pp * q.tt - q.tp * q.tp ≠ 0 := fun h => d0 (by linarith)
  have d1 : q.pp - q.tp * q.tp / q.tt ≠ 0 := by
    intro h
    apply d0'
    field_simp at h
    linarith
  obtain ⟨ph, hph⟩ : ∃ x, x = (cst.2 - q.tp / q.tt * cst.1) / (q.pp - q.tp * q.tp / q.tt) := ⟨_, rfl⟩
  rw [← hph] at e h3 ⊢
  rw [e] at h3 ⊢
  have ep : (q.N * (1 / q.N * (ph / tdot - q.w)) + q.w) * tdot = ph := by field_simp; ring
  refine ⟨?_, by show 1 / q.N * (q.N * V 0) = _; field_simp, by show 1 / q.N * (q.N * V 1) = _; field_simp⟩
  have f0 : q.from31 tdot ![1 / q.N * (q.N * V 0), 1 / q.N * (q.N * V 1), 1 / q.N * (ph / tdot - q.w)] 0 = tdot := rfl
  have f3 : q.from31 tdot ![1 / q.N * (q.N * V 0), 1 / q.N * (q.N * V 1), 1 / q.N * (ph / tdot - q.w)] 3 = ph := ep
  rw [Pt.cst, f0, f3]
  have e1 : q.tt * tdot + q.tp * ph = cst.1 := by rw [← e]; field_simp; ring
  refine Prod.ext e1 ?_
  show q.pp * ph + q.tp * tdot = cst.2
  have e2 : ph * (q.pp - q.tp * q.tp / q.tt) = cst.2 - q.tp / q.tt * cst.1 := by rw [hph]; exact div_mul_cancel₀ _ d1
  field_simp at e2
  have : q.tt * (q.pp * ph + q.tp * tdot - cst.2) = 0 := by linear_combination e2 + q.tp * e1
  rcases mul_eq_zero.1 this with h | h
  · exact absurd h t0
  · linarith

/-- **C144.** A velocity turned into 3+1 variables, normalised with its own constants of motion and turned back is the same velocity. -/
theorem normalize_id {q : Pt} {u : Vec} (n0 : q.N ≠ 0) (u0 : u 0 ≠ 0) (t0 : q.tt ≠ 0) (b0 : q.B ≠ 0) (r0 : q.r ≠ 0) (s0 : q.S ≠ 0) :
    ∃ tdot V, q.normalize (q.cst u) (q.to31 u) = some (tdot, V) ∧ q.from31 tdot V = u := by
  have d0 : q.tt * q.pp - q.tp * q.tp ≠ 0 := by
    have : q.tt * q.pp - q.tp * q.tp = -(q.N ^ 2 * q.B * q.r ^ 2 * q.S ^ 2) := by unfold Pt.tt Pt.tp Pt.pp; ring
    rw [this]
    exact neg_ne_zero.2 (by positivity)
  have d1 : q.pp - q.tp * q.tp / q.tt ≠ 0 := by
    intro h
    apply d0
    field_simp at h
    linarith
  have eph : ((q.cst u).2 - q.tp / q.tt * (q.cst u).1) / (q.pp - q.tp * q.tp / q.tt) = u 3 := by
    rw [div_eq_iff d1]
    show q.pp * u 3 + q.tp * u 0 - q.tp / q.tt * (q.tt * u 0 + q.tp * u 3) = _
    field_simp
    ring
  have et : ((q.cst u).1 - q.tp * u 3) / q.tt = u 0 := by
    show (q.tt * u 0 + q.tp * u 3 - q.tp * u 3) / q.tt = _
    field_simp
    ring
  refine ⟨u 0, ![1 / q.N * (q.N * q.to31 u 0), 1 / q.N * (q.N * q.to31 u 1), 1 / q.N * (u 3 / u 0 - q.w)], ?_, ?_⟩
  · unfold Pt.normalize
    rw [if_neg n0, if_pos ⟨t0, fun h => d0 (by linarith)⟩]
    simp only [eph, et]
    rw [if_neg u0]
  · funext i
    match i with
    | 0 => rfl
    | 1 =>
      show q.N * (1 / q.N * (q.N * (1 / q.N * (u 1 / u 0)))) * u 0 = u 1
      field_simp
    | 2 =>
      show q.N * (1 / q.N * (q.N * (1 / q.N * (u 2 / u 0)))) * u 0 = u 2
      field_simp
    | 3 =>
      show (q.N * (1 / q.N * (u 3 / u 0 - q.w)) + q.w) * u 0 = u 3
      field_simp
      ring

/-- C144. The next step is never longer than the largest one of the object, when the settings are in order. -/
theorem step_ok (s : Steps) (coor : Fin 6 → ℝ) (h1max h : ℝ) (h0 : 0 ≤ s.deltaMin) (hm : s.deltaMin ≤ s.deltaMax) :
    |s.next coor h1max h| ≤ s.deltaMax ∧ s.deltaMin ≤ |s.next coor h1max h| := by
  have l1 : s.limit31 coor h1max ≤ s.deltaMax ∧ s.deltaMin ≤ s.limit31 coor h1max := by
    unfold Steps.limit31 Steps.limit
    dsimp only
    split_ifs <;> constructor <;> linarith
  have hsig : ∀ y : ℝ, 0 ≤ y → |(if h < 0 then -1 else 1 : ℝ) * y| = y := by
    intro y hy
    rw [abs_mul, abs_of_nonneg hy]
    split_ifs <;> simp
  unfold Steps.next
  dsimp only
  by_cases c1 : |h| < s.deltaMin
  · rw [if_pos c1, hsig _ h0, if_neg (by linarith [l1.2]), hsig _ h0]
    exact ⟨hm, le_rfl⟩
  · rw [if_neg c1]
    by_cases c2 : |h| > s.limit31 coor h1max
    · rw [if_pos c2, hsig _ (h0.trans l1.2)]
      exact l1
    · rw [if_neg c2]
      exact ⟨(not_lt.1 c2).trans l1.1, not_lt.1 c1⟩

/-- C144 (negation). The limit in proportion to the radius is taken in proportion to the colatitude: at the radius 1000, with a limit of a tenth of the radius, steps of
1 at the equator are refused. -/
theorem radius_wrong : ∃ (s : Steps) (coor : Fin 6 → ℝ), coor 0 = 1000 ∧ coor 1 = Real.pi / 2 ∧ s.overR = 1 / 10 ∧ s.deltaMax = 1000 ∧ s.limit (coor 0) 1 = 1 ∧
    s.next coor 1 1 < 1 := by
  have h4 := Real.pi_le_four
  have hp := Real.pi_pos
  refine ⟨⟨0, 1000, 1 / 10⟩, ![1000, Real.pi / 2, 0, 0, 0, 0], rfl, rfl, rfl, rfl, ?_, ?_⟩
  · show Steps.limit _ 1000 1 = 1
    norm_num [Steps.limit]
  · have e : Steps.limit31 ⟨0, 1000, 1 / 10⟩ ![1000, Real.pi / 2, 0, 0, 0, 0] 1 = Real.pi / 2 * (1 / 10) := by
      show Steps.limit _ (Real.pi / 2) 1000 = _
      unfold Steps.limit
      dsimp only
      have c1 : (1000 : ℝ) > Real.pi / 2 * (1 / 10) := by linarith
      have c2 : ¬ Real.pi / 2 * (1 / 10) > 1000 := by linarith
      have c3 : ¬ Real.pi / 2 * (1 / 10) < 0 := by linarith
      rw [abs_of_pos (by positivity), if_pos c1, if_neg c2, if_neg c3]
    unfold Steps.next
    rw [e]
    norm_num
    rw [if_pos (by linarith)]
    linarith

/-- C144 (negation). The largest step asked for is ignored: with 1 asked for, a step of 10 is taken. -/
theorem asked_wrong : ∃ (s : Steps) (coor : Fin 6 → ℝ), s.next coor 1 10 = 10 ∧ s.limit (coor 0) 1 = 1 := by
  refine ⟨⟨0, 1000, 10⟩, ![1000, 1, 0, 0, 0, 0], ?_, ?_⟩
  · have e : Steps.limit31 ⟨0, 1000, 10⟩ ![1000, 1, 0, 0, 0, 0] 1 = 10 := by
      show Steps.limit _ 1 1000 = _
      norm_num [Steps.limit]
    unfold Steps.next
    rw [e]
    norm_num
  · show Steps.limit _ 1000 1 = 1
    norm_num [Steps.limit]

end Gyoto.RotStar
