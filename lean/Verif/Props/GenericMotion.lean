import Verif.Model.GenericMotion
import Verif.Spec.Christoffel
import Verif.Lemmas.MetricAlg
import Verif.Props.KerrBL
import Mathlib.Analysis.Calculus.FDeriv.Mul
import Mathlib.Analysis.Calculus.FDeriv.Pi
import Mathlib.Analysis.Calculus.MeanValue
import Mathlib.Analysis.Calculus.Deriv.Comp
import Mathlib.Analysis.Calculus.Deriv.Pi
import Mathlib.Analysis.Calculus.Deriv.Prod
import Mathlib.LinearAlgebra.Matrix.NonsingularInverse

/-!
# The generic integrator follows geodesics and transports vectors parallel to themselves
-/

namespace Gyoto.GenericMotion

open Gyoto.MetricAlg Gyoto.Spacetime

/-- C74. From the inverse of the metric and its derivatives, `christoffel` computes the Christoffel symbols. -/
theorem connection_ok {g : Vec → Tensor} {pos : Vec} {gup : Tensor} {jac : Fin 4 → Tensor} (hsym : ∀ p, (g p).IsSymm)
    (hinv : gup * g pos = 1) (hjac : IsPartial g pos jac) : IsChristoffel g pos (connection gup jac) := by
  have jsym : ∀ m a b, jac m a b = jac m b a := by
    intro m a b
    have e : (fun x => g (Function.update pos m x) a b) = fun x => g (Function.update pos m x) b a :=
      funext fun x => ((hsym _).apply a b).symm
    have := hjac m a b
    rw [e] at this
    exact this.unique (hjac m b a)
  have hup : gup.IsSymm := by
    have h1 : g pos * gup = 1 := _root_.mul_eq_one_comm.1 hinv
    have h2 : gup.transpose * g pos = 1 := by
      have := congrArg Matrix.transpose h1
      rw [Matrix.transpose_mul, (hsym pos).eq, Matrix.transpose_one] at this
      exact this
    show gup.transpose = gup
    calc gup.transpose = gup.transpose * (g pos * gup) := by rw [h1, Matrix.mul_one]
      _ = gup := by rw [← Matrix.mul_assoc, h2, Matrix.one_mul]
  refine ⟨jac, hjac, ?_⟩
  intro α μ ν
  have coefsym : ∀ a μ ν, connection gup jac a μ ν = ∑ i, 0.5 * gup i a * (jac μ i ν + jac ν μ i - jac i μ ν) := by
    intro a μ ν
    unfold connection
    dsimp only
    split_ifs with h
    · rfl
    · apply Finset.sum_congr rfl
      intro i _
      rw [jsym ν i μ, jsym μ ν i, jsym i ν μ]
      ring
  simp only [coefsym, Finset.mul_sum]
  rw [Finset.sum_comm]
  have hg : ∀ i, ∑ β, g pos α β * gup i β = if α = i then 1 else 0 := by
    intro i
    have h1 : g pos * gup = 1 := _root_.mul_eq_one_comm.1 hinv
    have := congrFun (congrFun h1 α) i
    rw [Matrix.mul_apply, Matrix.one_apply] at this
    rw [← this]
    apply Finset.sum_congr rfl
    intro β _
    rw [hup.apply]
  have : ∀ i, ∑ β, g pos α β * (0.5 * gup i β * (jac μ i ν + jac ν μ i - jac i μ ν)) =
      (if α = i then 1 else 0) * (0.5 * (jac μ i ν + jac ν μ i - jac i μ ν)) := by
    intro i
    rw [← hg i, Finset.sum_mul]
    apply Finset.sum_congr rfl
    intro β _
    ring
  simp only [this]
  rw [Finset.sum_eq_single α]
  · rw [if_pos rfl, jsym ν μ α]; norm_num; ring
  · intro b _ hb; rw [if_neg (Ne.symm hb), zero_mul]
  · intro h; exact absurd (Finset.mem_univ _) h

/-- The four elements from `4 v` on: the position for `v = 0`, the tangent vector for `v = 1`, then the transported vectors. -/
def block (x : Nat → ℝ) (v : Nat) : Vec := fun i => x (4 * v + i)

/-- Along the curve `x` of states of size `n`, every element changes at the rate that `diff` gives. -/
def Follows (chr : (Nat → ℝ) → Int × (Fin 4 → Tensor)) (n : Nat) (x : ℝ → Nat → ℝ) (t : ℝ) : Prop :=
  ∃ d, diff chr n n (x t) (fun _ => 0) = .ok d ∧ ∀ k, k < n → HasDerivAt (fun τ => x τ k) (d k) t

theorem diff_ok {chr : (Nat → ℝ) → Int × (Fin 4 → Tensor)} {n : Nat} {x d0 d : Nat → ℝ} (h : diff chr n n x d0 = .ok d) :
    8 ≤ n ∧ (chr x).1 = 0 ∧ (∀ i : Fin 4, d i = block x 1 i) ∧ ∀ v, 1 ≤ v → 4 * v + 4 ≤ n → ∀ α : Fin 4,
      d (4 * v + α) = -∑ i, ∑ j, (chr x).2 α i j * block x 1 i * block x v j := by
  unfold diff at h
  by_cases h1 : n < 8
  · rw [if_pos h1] at h; cases h
  rw [if_neg h1, if_neg (by simp)] at h
  by_cases h2 : x 4 < 1e-6
  · rw [if_pos h2] at h; cases h
  rw [if_neg h2] at h
  dsimp only at h
  by_cases h3 : (chr x).1 ≠ 0
  · rw [if_pos h3] at h; cases h
  rw [if_neg h3] at h
  rw [DiffOut.ok.injEq] at h
  subst h
  refine ⟨by omega, not_not.1 h3, ?_, ?_⟩
  · intro i
    dsimp only
    rw [if_pos i.2]
    unfold block
    congr 1
    omega
  · intro v hv hn α
    dsimp only
    have hα := α.2
    rw [if_neg (by omega)]
    have e : (4 * v + (α : Nat)) / 4 = v := by omega
    rw [e, if_pos (by omega), zero_sub]
    have e2 : Fin.ofNat 4 (4 * v + (α : Nat)) = α := by
      apply Fin.ext
      simp only [Fin.ofNat]
      omega
    rw [e2]
    congr 1
    apply Finset.sum_congr rfl
    intro i _
    apply Finset.sum_congr rfl
    intro j _
    unfold block
    rw [mul_comm v 4]

/-- Rate of change of a function of the position along a curve, from its partial derivatives. -/
theorem chain {F : Vec → ℝ} {X : ℝ → Vec} {dX : Vec} {t : ℝ} {D : Vec} (hF : DifferentiableAt ℝ F (X t))
    (hD : ∀ μ, HasDerivAt (fun y => F (Function.update (X t) μ y)) (D μ) (X t μ)) (hX : ∀ μ, HasDerivAt (fun τ => X τ μ) (dX μ) t) :
    HasDerivAt (fun τ => F (X τ)) (∑ μ, D μ * dX μ) t := by
  have hX' : HasDerivAt X dX t := hasDerivAt_pi.2 hX
  have h := hF.hasFDerivAt.comp_hasDerivAt t hX'
  refine h.congr_deriv ?_
  have hs : ∀ μ, fderiv ℝ F (X t) (Pi.single μ 1) = D μ := by
    intro μ
    have hu : HasDerivAt (fun y => Function.update (X t) μ y) (Pi.single μ 1) (X t μ) := hasDerivAt_update _ _ _
    have h0 : HasFDerivAt F (fderiv ℝ F (X t)) (Function.update (X t) μ (X t μ)) := by
      rw [Function.update_eq_self]; exact hF.hasFDerivAt
    exact (h0.comp_hasDerivAt (X t μ) hu).unique (hD μ)
  have : dX = ∑ μ, dX μ • (Pi.single μ 1 : Vec) := by
    funext i
    simp [Finset.sum_apply, Pi.single_apply]
  conv_lhs => rw [this]
  rw [map_sum]
  apply Finset.sum_congr rfl
  intro μ _
  rw [map_smul, hs, smul_eq_mul, mul_comm]

/-- C74. Whatever the metric, the scalar products of the tangent vector and of the transported vectors, with one another and with
themselves, do not change along a solution: in particular a photon stays a photon and an orthonormal basis stays one. -/
theorem transport_product {g : Vec → Tensor} {chr : (Nat → ℝ) → Int × (Fin 4 → Tensor)} {n : Nat} {x : ℝ → Nat → ℝ} {t : ℝ}
    (hsym : ∀ p, (g p).IsSymm) (hdiff : ∀ α β, DifferentiableAt ℝ (fun p => g p α β) (block (x t) 0))
    (hΓ : IsChristoffel g (block (x t) 0) (chr (x t)).2) (hx : Follows chr n x t) {v w : Nat} (hv : 1 ≤ v) (hvn : 4 * v + 4 ≤ n)
    (hw : 1 ≤ w) (hwn : 4 * w + 4 ≤ n) :
    HasDerivAt (fun τ => sp (g (block (x τ) 0)) (block (x τ) v) (block (x τ) w)) 0 t := by
  obtain ⟨d, hd, hder⟩ := hx
  obtain ⟨hn, -, hpos, hvec⟩ := diff_ok hd
  obtain ⟨D, hD, hlow⟩ := hΓ
  have Dsym : ∀ m a b, D m a b = D m b a := by
    intro m a b
    have e : (fun y => g (Function.update (block (x t) 0) m y) a b) = fun y => g (Function.update (block (x t) 0) m y) b a :=
      funext fun y => ((hsym _).apply a b).symm
    have := hD m a b
    rw [e] at this
    exact this.unique (hD m b a)
  have dpos : ∀ μ : Fin 4, HasDerivAt (fun τ => block (x τ) 0 μ) (block (x t) 1 μ) t := by
    intro μ
    have h := hder μ (by omega)
    rw [hpos] at h
    unfold block at h ⊢
    simpa using h
  have dvec : ∀ u, 1 ≤ u → 4 * u + 4 ≤ n → ∀ α : Fin 4, HasDerivAt (fun τ => block (x τ) u α)
      (-∑ i, ∑ j, (chr (x t)).2 α i j * block (x t) 1 i * block (x t) u j) t := by
    intro u hu hun α
    have h := hder (4 * u + α) (by omega)
    rw [hvec u hu hun α] at h
    exact h
  have dg : ∀ α β, HasDerivAt (fun τ => g (block (x τ) 0) α β) (∑ μ, D μ α β * block (x t) 1 μ) t := fun α β =>
    chain (F := fun p => g p α β) (hdiff α β) (fun μ => hD μ α β) dpos
  have hsum : (fun τ => sp (g (block (x τ) 0)) (block (x τ) v) (block (x τ) w)) =
      fun τ => ∑ α, ∑ β, g (block (x τ) 0) α β * block (x τ) v α * block (x τ) w β := by
    funext τ
    rw [← scalarProd_eq]
    rfl
  rw [hsum]
  have key := HasDerivAt.fun_sum (u := Finset.univ) fun (α : Fin 4) _ => HasDerivAt.fun_sum (u := Finset.univ) fun (β : Fin 4) _ =>
    ((dg α β).mul (dvec v hv hvn α)).mul (dvec w hw hwn β)
  refine key.congr_deriv ?_
  simp only [Pi.mul_apply]
  clear key hsum dg dvec dpos hder hvec hpos hd hD hdiff
  generalize block (x t) 1 = k at *
  generalize block (x t) v = V at *
  generalize block (x t) w = W at *
  have gs : ∀ a b, g (block (x t) 0) a b = g (block (x t) 0) b a := fun a b => ((hsym _).apply a b).symm
  generalize g (block (x t) 0) = G at *
  generalize (chr (x t)).2 = Γ at *
  -- ∑ G α β Γ α μ ν = Γ_βμν
  have s1 : ∑ α, ∑ β, G α β * (-∑ i, ∑ j, Γ α i j * k i * V j) * W β =
      -∑ β, ∑ i, ∑ j, (D i β j + D j β i - D β i j) / 2 * k i * V j * W β := by
    rw [Finset.sum_comm, ← Finset.sum_neg_distrib]
    apply Finset.sum_congr rfl
    intro β _
    have : ∀ i j, (D i β j + D j β i - D β i j) / 2 = ∑ α, G β α * Γ α i j := fun i j => (hlow β i j).symm
    simp only [this, Finset.sum_mul, Finset.mul_sum, mul_neg, neg_mul, Finset.sum_neg_distrib]
    congr 1
    rw [Finset.sum_comm]
    apply Finset.sum_congr rfl
    intro i _
    rw [Finset.sum_comm]
    apply Finset.sum_congr rfl
    intro j _
    apply Finset.sum_congr rfl
    intro α _
    rw [gs α β]
    ring
  have s2 : ∑ α, ∑ β, G α β * V α * (-∑ i, ∑ j, Γ β i j * k i * W j) =
      -∑ α, ∑ i, ∑ j, (D i α j + D j α i - D α i j) / 2 * k i * W j * V α := by
    rw [← Finset.sum_neg_distrib]
    apply Finset.sum_congr rfl
    intro α _
    have : ∀ i j, (D i α j + D j α i - D α i j) / 2 = ∑ β, G α β * Γ β i j := fun i j => (hlow α i j).symm
    simp only [this, Finset.sum_mul, Finset.mul_sum, mul_neg, neg_mul, Finset.sum_neg_distrib]
    congr 1
    rw [Finset.sum_comm]
    apply Finset.sum_congr rfl
    intro i _
    rw [Finset.sum_comm]
    apply Finset.sum_congr rfl
    intro j _
    apply Finset.sum_congr rfl
    intro β _
    ring
  have split : ∀ α β, ((∑ μ, D μ α β * k μ) * V α + G α β * -∑ i, ∑ j, Γ α i j * k i * V j) * W β +
      (G α β * V α) * -∑ i, ∑ j, Γ β i j * k i * W j = (∑ μ, D μ α β * k μ) * V α * W β +
      (G α β * (-∑ i, ∑ j, Γ α i j * k i * V j) * W β + G α β * V α * (-∑ i, ∑ j, Γ β i j * k i * W j)) := by
    intro α β; ring
  simp only [split, Finset.sum_add_distrib]
  rw [s1, s2]
  simp only [Fin.sum_univ_four]
  have e := Dsym
  simp only [e 0 1 0, e 0 2 0, e 0 3 0, e 0 2 1, e 0 3 1, e 0 3 2, e 1 1 0, e 1 2 0, e 1 3 0, e 1 2 1, e 1 3 1, e 1 3 2,
    e 2 1 0, e 2 2 0, e 2 3 0, e 2 2 1, e 2 3 1, e 2 3 2, e 3 1 0, e 3 2 0, e 3 3 0, e 3 2 1, e 3 3 1, e 3 3 2]
  ring

/-- C74. Over a whole interval the products keep their values. -/
theorem transport_constant {g : Vec → Tensor} {chr : (Nat → ℝ) → Int × (Fin 4 → Tensor)} {n : Nat} {x : ℝ → Nat → ℝ} {t0 t1 : ℝ}
    (hsym : ∀ p, (g p).IsSymm) (hdiff : ∀ t ∈ Set.Icc t0 t1, ∀ α β, DifferentiableAt ℝ (fun p => g p α β) (block (x t) 0))
    (hΓ : ∀ t ∈ Set.Icc t0 t1, IsChristoffel g (block (x t) 0) (chr (x t)).2) (hx : ∀ t ∈ Set.Icc t0 t1, Follows chr n x t)
    {v w : Nat} (hv : 1 ≤ v) (hvn : 4 * v + 4 ≤ n) (hw : 1 ≤ w) (hwn : 4 * w + 4 ≤ n) :
    ∀ t ∈ Set.Icc t0 t1, sp (g (block (x t) 0)) (block (x t) v) (block (x t) w) =
      sp (g (block (x t0) 0)) (block (x t0) v) (block (x t0) w) := by
  have h : ∀ t ∈ Set.Icc t0 t1, HasDerivAt (fun τ => sp (g (block (x τ) 0)) (block (x τ) v) (block (x τ) w)) 0 t :=
    fun t ht => transport_product hsym (hdiff t ht) (hΓ t ht) (hx t ht) hv hvn hw hwn
  exact constant_of_has_deriv_right_zero (fun t ht => (h t ht).continuousAt.continuousWithinAt)
    fun t ht => (h t ⟨ht.1, ht.2.le⟩).hasDerivWithinAt

/-- C74. A solution moves at its tangent vector and each vector carried has no covariant derivative along it; the integration goes on
exactly as long as the time component of the tangent vector is at least 1e-6 and the connection is available. -/
theorem transport_equation {chr : (Nat → ℝ) → Int × (Fin 4 → Tensor)} {n : Nat} {x : ℝ → Nat → ℝ} {t : ℝ} (hn : 8 ≤ n) :
    Follows chr n x t ↔ 1e-6 ≤ x t 4 ∧ (chr (x t)).1 = 0 ∧
      (∀ k < n, k / 4 = 0 → HasDerivAt (fun τ => x τ k) (x t (k + 4)) t) ∧
      (∀ k < n, 1 ≤ k / 4 → 4 * (k / 4) + 4 ≤ n → HasDerivAt (fun τ => x τ k)
        (-∑ i : Fin 4, ∑ j : Fin 4, (chr (x t)).2 (Fin.ofNat 4 k) i j * block (x t) 1 i * block (x t) (k / 4) j) t) ∧
      ∀ k < n, n < 4 * (k / 4) + 4 → HasDerivAt (fun τ => x τ k) 0 t := by
  have hout : 1e-6 ≤ x t 4 ∧ (chr (x t)).1 = 0 → diff chr n n (x t) (fun _ => 0) = .ok fun k =>
      if k < 4 then x t (k + 4)
      else if k / 4 ≤ (n - 4) / 4 then
        0 - ∑ i : Fin 4, ∑ j : Fin 4, (chr (x t)).2 (Fin.ofNat 4 k) i j * x t (4 + i) * x t (k / 4 * 4 + j)
      else 0 := by
    rintro ⟨h1, h2⟩
    unfold diff
    rw [if_neg (by omega), if_neg (by simp), if_neg (not_lt.2 h1)]
    dsimp only
    rw [if_neg (not_not.2 h2)]
  have hin : (∃ d, diff chr n n (x t) (fun _ => 0) = .ok d) → 1e-6 ≤ x t 4 ∧ (chr (x t)).1 = 0 := by
    rintro ⟨d, h⟩
    refine ⟨?_, (diff_ok h).2.1⟩
    by_contra hlt
    unfold diff at h
    rw [if_neg (by omega), if_neg (by simp), if_pos (not_le.1 hlt)] at h
    cases h
  constructor
  · rintro ⟨d, hd, hder⟩
    have h12 := hin ⟨d, hd⟩
    have hd' := hout h12
    rw [hd, DiffOut.ok.injEq] at hd'
    subst hd'
    refine ⟨h12.1, h12.2, ?_, ?_, ?_⟩
    · intro k hk h0
      have := hder k hk
      dsimp only at this
      rwa [if_pos (by omega)] at this
    · intro k hk h1 h2
      have := hder k hk
      dsimp only at this
      rw [if_neg (by omega), if_pos (by omega), zero_sub] at this
      refine this.congr_deriv ?_
      unfold block
      rw [mul_comm 4 (k / 4)]
    · intro k hk h1
      have := hder k hk
      dsimp only at this
      rwa [if_neg (by omega), if_neg (by omega)] at this
  · rintro ⟨h1, h2, ha, hb, hc⟩
    refine ⟨_, hout ⟨h1, h2⟩, ?_⟩
    intro k hk
    by_cases k0 : k < 4
    · rw [if_pos k0]
      exact ha k hk (by omega)
    rw [if_neg k0]
    by_cases k1 : k / 4 ≤ (n - 4) / 4
    · rw [if_pos k1, zero_sub]
      refine (hb k hk (by omega) (by omega)).congr_deriv ?_
      unfold block
      rw [mul_comm 4 (k / 4)]
    · rw [if_neg k1]
      exact hc k hk (by omega)

/-- The Kerr metric is differentiable wherever its coordinates are regular. -/
theorem kerr_differentiable {a : ℝ} {pos : Vec} (hs : pos 1 * pos 1 + a * a * (Real.cos (pos 2) * Real.cos (pos 2)) ≠ 0)
    (hd : pos 1 * pos 1 - 2 * pos 1 + a * a ≠ 0) (α β : Fin 4) : DifferentiableAt ℝ (fun p => KerrBL.gmunu a p α β) pos := by
  have d1 : DifferentiableAt ℝ (fun p : Vec => p 1) pos := by fun_prop
  have d2 : DifferentiableAt ℝ (fun p : Vec => p 2) pos := by fun_prop
  have ds : DifferentiableAt ℝ (fun p : Vec => p 1 * p 1 + a * a * (Real.cos (p 2) * Real.cos (p 2))) pos := by fun_prop
  have dd : DifferentiableAt ℝ (fun p : Vec => p 1 * p 1 - 2 * p 1 + a * a) pos := by fun_prop
  have overS : ∀ f : Vec → ℝ, DifferentiableAt ℝ f pos →
      DifferentiableAt ℝ (fun p => f p / (p 1 * p 1 + a * a * (Real.cos (p 2) * Real.cos (p 2)))) pos :=
    fun f hf => hf.mul (ds.inv hs)
  have h00 : DifferentiableAt ℝ (fun p : Vec => -1 + 2 * p 1 / (p 1 * p 1 + a * a * (Real.cos (p 2) * Real.cos (p 2)))) pos := by
    have h := overS _ (d1.const_mul 2)
    exact h.const_add _
  have h11 : DifferentiableAt ℝ (fun p : Vec => (p 1 * p 1 + a * a * (Real.cos (p 2) * Real.cos (p 2))) /
    (p 1 * p 1 - 2 * p 1 + a * a)) pos :=
    ds.mul (dd.inv hd)
  have n3 : DifferentiableAt ℝ (fun p : Vec => 2 * p 1 * (a * a) * (Real.sin (p 2) * Real.sin (p 2))) pos := by fun_prop
  have m3 : DifferentiableAt ℝ (fun p : Vec => p 1 * p 1 + a * a) pos := by fun_prop
  have s3 : DifferentiableAt ℝ (fun p : Vec => Real.sin (p 2) * Real.sin (p 2)) pos := by fun_prop
  have h33 := (m3.add (overS _ n3)).mul s3
  have n0 : DifferentiableAt ℝ (fun p : Vec => -2 * a * p 1 * (Real.sin (p 2) * Real.sin (p 2))) pos := by fun_prop
  have h03 := overS _ n0
  have zero : DifferentiableAt ℝ (fun _ : Vec => (0 : ℝ)) pos := differentiableAt_const _
  match α, β with
  | 0, 0 => exact h00
  | 0, 1 => exact zero
  | 0, 2 => exact zero
  | 0, 3 => exact h03
  | 1, 0 => exact zero
  | 1, 1 => exact h11
  | 1, 2 => exact zero
  | 1, 3 => exact zero
  | 2, 0 => exact zero
  | 2, 1 => exact zero
  | 2, 2 => exact ds
  | 2, 3 => exact zero
  | 3, 0 => exact h03
  | 3, 1 => exact zero
  | 3, 2 => exact zero
  | 3, 3 => exact h33

/-- C74 for the Kerr metric and the symbols its class provides. -/
theorem kerr_transport {a : ℝ} {n : Nat} {x : ℝ → Nat → ℝ} {t : ℝ}
    (hs : x t 1 * x t 1 + a * a * (Real.cos (x t 2) * Real.cos (x t 2)) ≠ 0) (hd : x t 1 * x t 1 - 2 * x t 1 + a * a ≠ 0)
    (hsin : Real.sin (x t 2) ≠ 0) (hx : Follows (fun x => (0, KerrBL.christoffel a (block x 0))) n x t) {v w : Nat} (hv : 1 ≤ v)
    (hvn : 4 * v + 4 ≤ n) (hw : 1 ≤ w) (hwn : 4 * w + 4 ≤ n) :
    HasDerivAt (fun τ => sp (KerrBL.gmunu a (block (x τ) 0)) (block (x τ) v) (block (x τ) w)) 0 t := by
  have b1 : block (x t) 0 1 = x t 1 := rfl
  have b2 : block (x t) 0 2 = x t 2 := rfl
  refine transport_product (KerrBL.gmunu_symm a) ?_ (KerrBL.christoffel_ok ?_ ?_ ?_) hx hv hvn hw hwn
  · exact kerr_differentiable (by rw [b1, b2]; exact hs) (by rw [b1]; exact hd)
  · rw [b1, b2]; exact hs
  · rw [b1]; exact hd
  · rw [b2]; exact hsin

/-- A state of 16 elements near a rotating black hole that satisfies the hypotheses: its tangent vector, orthogonal to the first
carried vector, stays so at first order. -/
example : ∃ x : ℝ → Nat → ℝ, x 0 1 = 4 ∧ x 0 12 = 0 ∧ x 0 13 = 1 ∧
    Follows (fun x => (0, KerrBL.christoffel (1 / 2) (block x 0))) 16 x 0 ∧
    HasDerivAt (fun τ => sp (KerrBL.gmunu (1 / 2) (block (x τ) 0)) (block (x τ) 1) (block (x τ) 3)) 0 0 := by
  let x0 : Nat → ℝ := fun k => [0, 4, 1, 0, 1, 1 / 2, 0, 1 / 8, 0, 0, 1, 0, 0, 1, 0, 0].getD k 0
  let d : Nat → ℝ := fun k =>
    if k < 4 then x0 (k + 4)
    else if k / 4 ≤ (16 - 4) / 4 then
      0 - ∑ i : Fin 4, ∑ j : Fin 4, KerrBL.christoffel (1 / 2) (block x0 0) (Fin.ofNat 4 k) i j * x0 (4 + i) * x0 (k / 4 * 4 + j)
    else 0
  let x : ℝ → Nat → ℝ := fun τ k => x0 k + τ * d k
  have h0 : x 0 = x0 := by funext k; simp [x]
  have lin : ∀ p q : ℝ, HasDerivAt (fun τ => p + τ * q) q 0 := fun p q =>
    (((hasDerivAt_id (0 : ℝ)).mul_const q).const_add p).congr_deriv (one_mul q)
  have hf : Follows (fun x => (0, KerrBL.christoffel (1 / 2) (block x 0))) 16 x 0 := by
    refine ⟨d, ?_, fun k _ => lin _ _⟩
    rw [h0]
    unfold diff
    rw [if_neg (by norm_num), if_neg (by simp), if_neg (by show ¬((1 : ℝ) < 1e-6); norm_num)]
    dsimp only
    rw [if_neg (by simp)]
  have x1 : x 0 1 = 4 := by rw [h0]; rfl
  have x2 : x 0 2 = 1 := by rw [h0]; rfl
  refine ⟨x, x1, by rw [h0]; rfl, by rw [h0]; rfl, hf, kerr_transport ?_ ?_ ?_ hf (by norm_num) (by norm_num) (by norm_num)
    (by norm_num)⟩
  · rw [x1]; nlinarith [mul_self_nonneg (Real.cos (x 0 2))]
  · rw [x1]; norm_num
  · rw [x2]; exact (Real.sin_pos_of_pos_of_lt_pi one_pos (by linarith [Real.two_le_pi])).ne'

end Gyoto.GenericMotion
