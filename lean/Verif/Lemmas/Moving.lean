import Verif.Model.Moving
import Verif.Spec.Moving
import Verif.Props.MetricAlg

/-!
# Lemmas on paths and velocities
-/

namespace Gyoto.Moving

open Gyoto.MetricAlg Gyoto.Paths Gyoto.Spacetime
open Gyoto.Transfer (Out)
open Gyoto.USphere (Kind P3)

theorem quot_ne {a b : ℝ} (h : b ≠ 0) : quot a b = .ok (a / b) := if_neg h

theorem observer_of_slow (g : Tensor) (a b c : ℝ) (h : sp g ![1, a, b, c] ![1, a, b, c] < 0) :
    ∃ u, normalizeFourVel g ![1, a, b, c] = some u ∧ IsObserver g u ∧ u 1 = a * u 0 ∧ u 2 = b * u 0 ∧ u 3 = c * u 0 := by
  obtain ⟨w, h1, h2, h3, k, h4⟩ := normalize_unit g ![1, a, b, c] (by simp) h
  refine ⟨w, h1, ⟨h3, h2⟩, ?_, ?_, ?_⟩ <;> simp [h4, mul_comm]

theorem sp_flat (x : Vec) (u : Vec) :
    sp (flatAt x) u u = -u 0 ^ 2 + u 1 ^ 2 + x 1 ^ 2 * u 2 ^ 2 + (x 1 * Real.sin (x 2)) ^ 2 * u 3 ^ 2 := by
  rw [← scalarProd_eq]
  simp [scalarProd, flatAt, Fin.sum_univ_four]
  ring

/-- A derivative has one value: two paths that are equal near a date have the same tangents. -/
theorem Follows.iff {path : ℝ → Out P3} {t : ℝ} {u : Vec} {f : ℝ → P3} (h : ∀ᶠ s in nhds t, path s = .ok (f s)) :
    Follows path t u ↔ IsTangent f t u := by
  constructor
  · rintro ⟨f', h', ht⟩
    have e : f' =ᶠ[nhds t] f := by
      filter_upwards [h, h'] with s a b
      rw [a] at b; injection b with b; exact b.symm
    refine ⟨ht.time, ?_, ?_, ?_⟩
    · exact ht.one.congr_of_eventuallyEq (e.symm.mono fun s hs => by simp only [hs])
    · exact ht.two.congr_of_eventuallyEq (e.symm.mono fun s hs => by simp only [hs])
    · exact ht.three.congr_of_eventuallyEq (e.symm.mono fun s hs => by simp only [hs])
  · exact fun ht => ⟨f, h, ht⟩

theorem hasDerivAt_lin (a b t0 t : ℝ) : HasDerivAt (fun s => a + b * (s - t0)) b t := by
  simpa using (((hasDerivAt_id t).sub_const t0).const_mul b).const_add a

end Gyoto.Moving
