import Verif.Lemmas.Kerr31
import Verif.Spec.Geodesic

/-!
# The 3+1 equations of motion in the Kerr metric are those of a geodesic
-/

namespace Gyoto.KerrBL

open Gyoto.MetricAlg Gyoto.Spacetime Gyoto.Three1 K31

/-- The state changes at the rate `diff31` says. -/
def Evolves31 (a : ℝ) (s : ℝ → State31) (t : ℝ) : Prop :=
  HasDerivAt (fun τ => (s τ).energy) (diff31 a (s t)).energy t ∧ (∀ i, HasDerivAt (fun τ => (s τ).x i) ((diff31 a (s t)).x i) t) ∧
    ∀ i, HasDerivAt (fun τ => (s τ).v i) ((diff31 a (s t)).v i) t

/-- C73. A solution of the 3+1 equations, once converted to a position and a four-velocity the way `doStep` does, is a geodesic of
the metric: outside the horizon and off the axis, for photons and particles. -/
theorem diff31_geodesic {a : ℝ} {s : ℝ → State31} {c : ℝ → Coord} {t : ℝ} (hr : 0 < (s t).x 0)
    (hd : 0 < (s t).x 0 * (s t).x 0 - 2 * (s t).x 0 + a * a) (hsin : Real.sin ((s t).x 1) ≠ 0) (hs : Evolves31 a s t)
    (hc : ∀ᶠ τ in nhds t, ∃ dtau, from31 (nBeta a) 0 τ (s τ) = some (c τ, dtau)) {Γ : Fin 4 → Tensor}
    (hΓ : IsChristoffel (gmunu a) (c t).pos Γ) : FollowsGeodesic Γ c t := by
  have hconv' : ∀ τ, (∃ dtau, from31 (nBeta a) 0 τ (s τ) = some (c τ, dtau)) → N a ((s τ).x 0) ((s τ).x 1) ≠ 0 ∧ (s τ).energy ≠ 0 ∧ (c τ).pos = ![τ, (s τ).x 0, (s τ).x 1, (s τ).x 2] ∧
      (c τ).vel = ![(s τ).energy / N a ((s τ).x 0) ((s τ).x 1),
        (s τ).energy / N a ((s τ).x 0) ((s τ).x 1) * (N a ((s τ).x 0) ((s τ).x 1) * (s τ).v 0),
        (s τ).energy / N a ((s τ).x 0) ((s τ).x 1) * (N a ((s τ).x 0) ((s τ).x 1) * (s τ).v 1),
        (s τ).energy / N a ((s τ).x 0) ((s τ).x 1) * (N a ((s τ).x 0) ((s τ).x 1) * (s τ).v 2 - b a ((s τ).x 0) ((s τ).x 1))] := by
    intro τ hcτ
    obtain ⟨dtau, h⟩ := hcτ
    have e1 : (nBeta a (Fin.cons (0 + τ) (s τ).x : Vec)).1 = N a ((s τ).x 0) ((s τ).x 1) := rfl
    have e2 : (nBeta a (Fin.cons (0 + τ) (s τ).x : Vec)).2 = ![0, 0, b a ((s τ).x 0) ((s τ).x 1)] := rfl
    unfold from31 at h
    dsimp only at h
    rw [e1, e2] at h
    by_cases h0 : N a ((s τ).x 0) ((s τ).x 1) = 0 ∨ (s τ).energy = 0
    · rw [if_pos h0] at h; cases h
    rw [if_neg h0] at h
    rw [not_or] at h0
    simp only [Option.some.injEq, Prod.mk.injEq] at h
    obtain ⟨h, -⟩ := h
    refine ⟨h0.1, h0.2, ?_, ?_⟩
    · rw [← h, zero_add]
      funext i
      match i with
      | 0 => rfl
      | 1 => rfl
      | 2 => rfl
      | 3 => rfl
    · rw [← h]
      funext i
      match i with
      | 0 => rfl
      | 1 =>
        show (N a ((s τ).x 0) ((s τ).x 1) * (s τ).v 0 - 0) * ((s τ).energy / N a ((s τ).x 0) ((s τ).x 1)) =
          (s τ).energy / N a ((s τ).x 0) ((s τ).x 1) * (N a ((s τ).x 0) ((s τ).x 1) * (s τ).v 0)
        ring
      | 2 =>
        show (N a ((s τ).x 0) ((s τ).x 1) * (s τ).v 1 - 0) * ((s τ).energy / N a ((s τ).x 0) ((s τ).x 1)) =
          (s τ).energy / N a ((s τ).x 0) ((s τ).x 1) * (N a ((s τ).x 0) ((s τ).x 1) * (s τ).v 1)
        ring
      | 3 =>
        show (N a ((s τ).x 0) ((s τ).x 1) * (s τ).v 2 - b a ((s τ).x 0) ((s τ).x 1)) *
            ((s τ).energy / N a ((s τ).x 0) ((s τ).x 1)) =
          (s τ).energy / N a ((s τ).x 0) ((s τ).x 1) * (N a ((s τ).x 0) ((s τ).x 1) * (s τ).v 2 - b a ((s τ).x 0) ((s τ).x 1))
        ring
  have hconv := hc.mono hconv'
  obtain ⟨dE, dx, dv⟩ := hs
  obtain ⟨hN, hE, hpos, hvel⟩ := hconv.self_of_nhds
  have hvel0 : (c t).vel 0 ≠ 0 := by rw [hvel]; exact div_ne_zero hE hN
  have d1 : HasDerivAt (fun τ => (s τ).x 0) (N a ((s t).x 0) ((s t).x 1) * (s t).v 0) t := dx 0
  have d2 : HasDerivAt (fun τ => (s τ).x 1) (N a ((s t).x 0) ((s t).x 1) * (s t).v 1) t := dx 1
  have d3 : HasDerivAt (fun τ => (s τ).x 2) (N a ((s t).x 0) ((s t).x 1) * (s t).v 2 - b a ((s t).x 0) ((s t).x 1)) t := dx 2
  have dN := N_deriv (a := a) d1 d2 hr hd
  have db := b_deriv (a := a) d1 d2 hr
  obtain ⟨dN', hdN'⟩ : ∃ y, y = Nr a ((s t).x 0) ((s t).x 1) * (N a ((s t).x 0) ((s t).x 1) * (s t).v 0) +
    Nt a ((s t).x 0) ((s t).x 1) * (N a ((s t).x 0) ((s t).x 1) * (s t).v 1) := ⟨_, rfl⟩
  obtain ⟨db', hdb'⟩ : ∃ y, y = br a ((s t).x 0) ((s t).x 1) * (N a ((s t).x 0) ((s t).x 1) * (s t).v 0) +
    bt a ((s t).x 0) ((s t).x 1) * (N a ((s t).x 0) ((s t).x 1) * (s t).v 1) := ⟨_, rfl⟩
  rw [← hdN'] at dN
  rw [← hdb'] at db
  have dT := dE.div dN hN
  have dk1 := dT.mul (dN.mul (dv 0))
  have dk2 := dT.mul (dN.mul (dv 1))
  have dk3 := dT.mul ((dN.mul (dv 2)).sub db)
  have hp1 : (c t).pos 1 = (s t).x 0 := by rw [hpos]; rfl
  have hp2 : (c t).pos 2 = (s t).x 1 := by rw [hpos]; rfl
  have hS := rho2_pos (a := a) (th := (s t).x 1) hr
  have hg1 : g1 a ((s t).x 0) ((s t).x 1) ≠ 0 := (div_pos hS hd).ne'
  have hg3 : g3 a ((s t).x 0) ((s t).x 1) ≠ 0 := (mul_pos (B2_pos hr) (mul_self_pos.2 hsin)).ne'
  have hpart := partial_31 (a := a) (p := (c t).pos) (by rw [hp1]; exact hr) (by rw [hp1]; exact hd)
  have hmet := gmunu_31 (a := a) (p := (c t).pos) (by rw [hp1]; exact hr) (by rw [hp1]; exact hd)
  rw [hp1, hp2] at hpart hmet
  have half : (0.5 : ℝ) = 1 / 2 := by norm_num
  have mhalf : (-0.5 : ℝ) = -1 / 2 := by norm_num
  have geo := geodesic31 (b := b a ((s t).x 0) ((s t).x 1)) hN hg1 hS.ne' hg3 (Krp_eq hr hd) (Ktp_eq hr hd) hdN' hdb'
    (E := (s t).energy) (V1 := (s t).v 0) (V2 := (s t).v 1) (V3 := (s t).v 2)
    (dE := (diff31 a (s t)).energy) (dV1 := (diff31 a (s t)).v 0) (dV2 := (diff31 a (s t)).v 1) (dV3 := (diff31 a (s t)).v 2)
    (g1r := g1r a ((s t).x 0) ((s t).x 1)) (g1t := g1t a ((s t).x 0) ((s t).x 1)) (g2r := 2 * (s t).x 0)
    (g2t := g2t a ((s t).x 1)) (g3r := g3r a ((s t).x 0) ((s t).x 1)) (g3t := g3t a ((s t).x 0) ((s t).x 1))
    rfl (by rw [← half, ← mhalf]; rfl) (by rw [← half, ← mhalf]; rfl) (by rw [← half]; rfl)
  have hv : ∀ α, (fun τ => (c τ).vel α) =ᶠ[nhds t] fun τ => (![(s τ).energy / N a ((s τ).x 0) ((s τ).x 1),
      (s τ).energy / N a ((s τ).x 0) ((s τ).x 1) * (N a ((s τ).x 0) ((s τ).x 1) * (s τ).v 0),
      (s τ).energy / N a ((s τ).x 0) ((s τ).x 1) * (N a ((s τ).x 0) ((s τ).x 1) * (s τ).v 1),
      (s τ).energy / N a ((s τ).x 0) ((s τ).x 1) *
        (N a ((s τ).x 0) ((s τ).x 1) * (s τ).v 2 - b a ((s τ).x 0) ((s τ).x 1))] : Vec) α :=
    fun α => hconv.mono fun τ h => congrFun h.2.2.2 α
  have hx : ∀ α, (fun τ => (c τ).pos α) =ᶠ[nhds t] fun τ => (![τ, (s τ).x 0, (s τ).x 1, (s τ).x 2] : Vec) α :=
    fun α => hconv.mono fun τ h => congrFun h.2.2.1 α
  obtain ⟨dT', hdT'⟩ : ∃ y, y = ((diff31 a (s t)).energy * N a ((s t).x 0) ((s t).x 1) - (s t).energy * dN') /
    N a ((s t).x 0) ((s t).x 1) ^ 2 := ⟨_, rfl⟩
  have geo' := geo
  dsimp only at geo'
  simp only [← hdT'] at geo'
  refine ⟨hvel0, ?_, ![dT', dT' * (N a ((s t).x 0) ((s t).x 1) * (s t).v 0) + (s t).energy / N a ((s t).x 0) ((s t).x 1) *
      (dN' * (s t).v 0 + N a ((s t).x 0) ((s t).x 1) * (diff31 a (s t)).v 0),
    dT' * (N a ((s t).x 0) ((s t).x 1) * (s t).v 1) + (s t).energy / N a ((s t).x 0) ((s t).x 1) *
      (dN' * (s t).v 1 + N a ((s t).x 0) ((s t).x 1) * (diff31 a (s t)).v 1),
    dT' * (N a ((s t).x 0) ((s t).x 1) * (s t).v 2 - b a ((s t).x 0) ((s t).x 1)) +
      (s t).energy / N a ((s t).x 0) ((s t).x 1) *
      (dN' * (s t).v 2 + N a ((s t).x 0) ((s t).x 1) * (diff31 a (s t)).v 2 - db')], ?_, ?_⟩
  · intro α
    refine HasDerivAt.congr_of_eventuallyEq ?_ (hx α)
    rw [hvel]
    have hT : (s t).energy / N a ((s t).x 0) ((s t).x 1) ≠ 0 := div_ne_zero hE hN
    match α with
    | 0 => exact (hasDerivAt_id t).congr_deriv (div_self hT).symm
    | 1 => exact d1.congr_deriv (mul_div_cancel_left₀ _ hT).symm
    | 2 => exact d2.congr_deriv (mul_div_cancel_left₀ _ hT).symm
    | 3 => exact d3.congr_deriv (mul_div_cancel_left₀ _ hT).symm
  · intro α
    refine HasDerivAt.congr_of_eventuallyEq ?_ (hv α)
    match α with
    | 0 => rw [← hdT'] at dT; exact dT
    | 1 => exact dk1.congr_deriv (by rw [hdT']; rfl)
    | 2 => exact dk2.congr_deriv (by rw [hdT']; rfl)
    | 3 => exact dk3.congr_deriv (by rw [hdT']; rfl)
  · have low := fun A α => lowered hpart hΓ A (c t).vel α
    have inv : gmunuUp a (c t).pos * gmunu a (c t).pos = 1 :=
      up_inverse (by rw [hp1, hp2]; exact hS.ne') (by rw [hp1]; exact hd.ne') (by rw [hp2]; exact hsin)
    have zero : ∀ w : Vec, (∀ α, ∑ β, gmunu a (c t).pos α β * w β = 0) → ∀ α, w α = 0 := by
      intro w hw α
      have h0 : (gmunu a (c t).pos).mulVec w = 0 := funext hw
      have : (gmunuUp a (c t).pos * gmunu a (c t).pos).mulVec w = 0 := by rw [← Matrix.mulVec_mulVec, h0, Matrix.mulVec_zero]
      rw [inv, Matrix.one_mulVec] at this
      exact congrFun this α
    intro α
    refine zero (fun α => (c t).vel 0 * (![_, _, _, _] : Vec) α + ∑ μ, ∑ ν, Γ α μ ν * (c t).vel μ * (c t).vel ν) ?_ α
    intro α
    refine (low (fun α => (c t).vel 0 * (![_, _, _, _] : Vec) α) α).trans ?_
    rw [hmet, hvel]
    exact geo' α

/-- C73, with the symbols the code computes. -/
theorem diff31_christoffel {a : ℝ} {s : ℝ → State31} {c : ℝ → Coord} {t : ℝ} (hr : 0 < (s t).x 0)
    (hd : 0 < (s t).x 0 * (s t).x 0 - 2 * (s t).x 0 + a * a) (hsin : Real.sin ((s t).x 1) ≠ 0) (hs : Evolves31 a s t)
    (hc : ∀ᶠ τ in nhds t, ∃ dtau, from31 (nBeta a) 0 τ (s τ) = some (c τ, dtau)) :
    FollowsGeodesic (KerrBL.christoffel a (c t).pos) c t := by
  have hp : (c t).pos 1 = (s t).x 0 ∧ (c t).pos 2 = (s t).x 1 := by
    obtain ⟨dtau, h⟩ := hc.self_of_nhds
    unfold from31 at h
    dsimp only at h
    split_ifs at h with h0
    simp only [Option.some.injEq, Prod.mk.injEq] at h
    rw [← h.1]
    exact ⟨rfl, rfl⟩
  refine diff31_geodesic hr hd hsin hs hc (christoffel_ok ?_ ?_ ?_)
  · rw [hp.1, hp.2]; exact (rho2_pos hr).ne'
  · rw [hp.1]; exact hd.ne'
  · rw [hp.2]; exact hsin

/-- C73. The conversion is possible as long as the energy does not vanish. -/
theorem diff31_converts {a : ℝ} {s : ℝ → State31} {t : ℝ} (hr : 0 < (s t).x 0)
    (hd : 0 < (s t).x 0 * (s t).x 0 - 2 * (s t).x 0 + a * a) (hE : (s t).energy ≠ 0) (hs : Evolves31 a s t) :
    ∃ c : ℝ → Coord, ∀ᶠ τ in nhds t, ∃ dtau, from31 (nBeta a) 0 τ (s τ) = some (c τ, dtau) := by
  refine ⟨fun τ => ((from31 (nBeta a) 0 τ (s τ)).map Prod.fst).getD ⟨0, 0⟩, ?_⟩
  have hN := (N_deriv (a := a) (hs.2.1 0) (hs.2.1 1) hr hd).continuousAt.eventually_ne (N_pos hr hd).ne'
  have hE' := hs.1.continuousAt.eventually_ne hE
  filter_upwards [hN, hE'] with τ h1 h2
  have h3 : ¬((nBeta a (Fin.cons (0 + τ) (s τ).x : Vec)).1 = 0 ∨ (s τ).energy = 0) := not_or.2 ⟨h1, h2⟩
  unfold from31
  dsimp only
  rw [if_neg h3]
  exact ⟨_, rfl⟩

/-- From any state outside the horizon and off the axis there is a curve that evolves as required, here from radius 4 around a
rotating black hole, and the converted curve follows a geodesic. -/
example : ∃ (s : ℝ → State31) (c : ℝ → Coord), (s 0).x 0 = 4 ∧ (s 0).v 2 = 1 / 8 ∧ Evolves31 (1 / 2) s 0 ∧
    FollowsGeodesic (KerrBL.christoffel (1 / 2) (c 0).pos) c 0 := by
  obtain ⟨s0, hs0⟩ : ∃ s0 : State31, s0 = ⟨1, ![4, 1, 0], ![1 / 2, 0, 1 / 8]⟩ := ⟨_, rfl⟩
  obtain ⟨s, hs⟩ : ∃ s : ℝ → State31, s = fun τ => ⟨s0.energy + τ * (diff31 (1 / 2) s0).energy,
    fun i => s0.x i + τ * (diff31 (1 / 2) s0).x i, fun i => s0.v i + τ * (diff31 (1 / 2) s0).v i⟩ := ⟨_, rfl⟩
  have h0 : s 0 = s0 := by rw [hs]; simp
  have lin : ∀ p q : ℝ, HasDerivAt (fun τ => p + τ * q) q 0 := fun p q =>
    (((hasDerivAt_id (0 : ℝ)).mul_const q).const_add p).congr_deriv (one_mul q)
  have hev : Evolves31 (1 / 2) s 0 := by
    unfold Evolves31
    rw [h0, hs]
    exact ⟨lin _ _, fun i => lin _ _, fun i => lin _ _⟩
  have x0 : (s 0).x 0 = 4 := by rw [h0, hs0]; rfl
  have x1 : (s 0).x 1 = 1 := by rw [h0, hs0]; rfl
  have hr : 0 < (s 0).x 0 := by rw [x0]; norm_num
  have hd : 0 < (s 0).x 0 * (s 0).x 0 - 2 * (s 0).x 0 + 1 / 2 * (1 / 2) := by rw [x0]; norm_num
  obtain ⟨c, hc⟩ := diff31_converts hr hd (by rw [h0, hs0]; norm_num) hev
  refine ⟨s, c, x0, by rw [h0, hs0]; rfl, hev, diff31_christoffel hr hd ?_ hev hc⟩
  rw [x1]
  exact (Real.sin_pos_of_pos_of_lt_pi one_pos (by linarith [Real.two_le_pi])).ne'

end Gyoto.KerrBL
