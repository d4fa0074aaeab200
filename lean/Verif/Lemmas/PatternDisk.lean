import Verif.Model.PatternDisk
import Verif.Spec.GridInterp
import Verif.Lemmas.GridRead
import Verif.Lemmas.PhiTheta
import Mathlib.Tactic.LinearCombination

/-!
# Indices in the grid
-/

namespace Gyoto.PatternDisk

open Gyoto.GridRead Gyoto.PhiTheta Gyoto.GridInterp Real

theorem freqIndex_ok {d : Disk} {nu : ℝ}
    (h : nu ≤ d.nu0 ∨ (0 < d.dnu ∧ (nu - d.nu0) / d.dnu + 0.5 < 2 ^ 64)) : ∃ k, freqIndex d nu = .ok k := by
  unfold freqIndex
  by_cases h1 : nu ≤ d.nu0
  · rw [if_pos h1]; exact ⟨0, rfl⟩
  rw [if_neg h1]
  rcases h with h | ⟨h2, h3⟩
  · exact absurd h h1
  rw [if_neg h2.ne']
  have h4 : 0 ≤ (nu - d.nu0) / d.dnu := div_nonneg (by linarith) h2.le
  have h5 : (0 : ℤ) ≤ ⌊(nu - d.nu0) / d.dnu + 0.5⌋ := Int.floor_nonneg.2 (by linarith)
  have h6 : ⌊(nu - d.nu0) / d.dnu + 0.5⌋ < 2 ^ 64 := by
    rw [Int.floor_lt]; norm_num at h3 ⊢; exact h3
  rw [toSize_ok h5 h6]
  exact ⟨_, rfl⟩

/-- The cell of a radius in a grid of radii. -/
theorem radIndex_grid {d : Disk} {l : List ℝ} {r : ℝ} (hr : d.radius = some l) (hl : l.length = d.nr) (h2 : 2 ≤ d.nr)
    (ha : l[0] < r) (hb : r < l[d.nr - 1]) : ∃ k, radIndex d r = .ok (k + 1) ∧ ∃ h : k + 1 < d.nr, l[k] < r ∧ r ≤ l[k + 1] := by
  have e : read (some l) ((d.nr : ℤ) - 1) = .ok l[d.nr - 1] := read_ok' (k := d.nr - 1) (by omega) (by omega)
  obtain ⟨k, hk, -, hkl, h3, h4⟩ := searchUp_ok (l := l) (x := r) (m := d.nr - 1) (by omega) hb.le (d.nr + 1) 0 (by omega) (by omega)
  have h0 : k ≠ 0 := by rintro rfl; exact absurd h3 (not_le.2 ha)
  obtain ⟨k, rfl⟩ := Nat.exists_eq_succ_of_ne_zero h0
  refine ⟨k, ?_, by rw [← hl]; exact hkl, h4 k (by omega) (by omega) (by omega), h3⟩
  unfold radIndex
  rw [hr, if_pos (Option.isSome_some), e]
  show (if r ≥ l[d.nr - 1] then _ else _) = _
  rw [if_neg (not_le.2 hb)]
  exact hk

/-- The cell of a radius in a uniform grid. -/
theorem radIndex_uniform {d : Disk} {r : ℝ} (hr : d.radius = none) (h2 : 2 ≤ d.nr) (hn : d.nr < 2 ^ 64) (hd : 0 < d.dr)
    (ha : d.rin ≤ r) (hb : r ≤ d.rin + ((d.nr : ℝ) - 1) * d.dr) :
    ∃ k, radIndex d r = .ok (k + 1) ∧ k + 1 < d.nr ∧ d.rin + (k : ℝ) * d.dr ≤ r ∧ r ≤ d.rin + ((k : ℝ) + 1) * d.dr := by
  obtain ⟨q, hq⟩ : ∃ q, q = (r - d.rin) / d.dr := ⟨_, rfl⟩
  have hq' : r = d.rin + q * d.dr := by rw [hq]; field_simp; ring
  have q0 : 0 ≤ q := by rw [hq]; exact div_nonneg (by linarith) hd.le
  have q1 : q ≤ (d.nr : ℝ) - 1 := by rw [hq, div_le_iff₀ hd]; linarith
  obtain ⟨m, hm⟩ : ∃ m : ℕ, ⌊q⌋ = m := Int.eq_ofNat_of_zero_le (Int.floor_nonneg.2 q0)
  have m1 : (m : ℝ) ≤ q := by have := Int.floor_le q; rw [hm] at this; exact_mod_cast this
  have m2 : q < (m : ℝ) + 1 := by have := Int.lt_floor_add_one q; rw [hm] at this; exact_mod_cast this
  have m3 : m + 1 ≤ d.nr := by
    have : ((m : ℝ) + 1) ≤ d.nr := by linarith
    exact_mod_cast this
  have e : toSize (⌊(r - d.rin) / d.dr⌋ + 1) = .ok (m + 1) := by
    rw [← hq, hm]
    have := toSize_ok (k := ((m + 1 : ℕ) : ℤ)) (by omega) (by omega)
    rw [Int.toNat_natCast] at this
    rw [← this]
    congr 1
    push_cast; ring
  have e2 : radIndex d r = .ok (if m + 1 ≥ d.nr then d.nr - 1 else m + 1) := by
    unfold radIndex
    rw [hr, if_neg (by simp), if_neg hd.ne', e]
    rfl
  by_cases c : m + 1 ≥ d.nr
  · rw [if_pos c] at e2
    have hqm : q = m := by
      have : (d.nr : ℝ) ≤ m + 1 := by exact_mod_cast c
      linarith
    refine ⟨d.nr - 2, by rw [e2]; congr 1; omega, by omega, ?_, ?_⟩
    · rw [hq', Nat.cast_sub h2]
      have : (((d.nr : ℝ) - (2 : ℕ))) ≤ q := by
        have : (d.nr : ℝ) = m + 1 := by
          have : d.nr = m + 1 := by omega
          exact_mod_cast this
        push_cast; linarith
      nlinarith
    · rw [hq', Nat.cast_sub h2]
      push_cast
      nlinarith
  · rw [if_neg c] at e2
    refine ⟨m, e2, by omega, ?_, ?_⟩
    · rw [hq']; nlinarith
    · rw [hq']; nlinarith

/-- The cell of an azimuth of the grid, already folded. -/
theorem phiIndex_inner {d : Disk} {t phi x : ℝ} {p : ℝ} (hn : 1 < d.nphi) (hn' : d.nphi < 2 ^ 64) (h0 : d.Omega = 0) (hphi : 0 ≤ phi)
    (hmm : d.phimin < d.phimax) (hx : fold d phi = x) (hp : 0 < p) (hdp : d.dphi = p) (hmax : x ≤ d.phimax)
    (ha : d.phimin ≤ x) (hb : x < d.phimin + ((d.nphi : ℝ) - 1) * p) :
    ∃ k, phiIndex d t phi = .ok (k + 1) ∧ k + 1 < d.nphi ∧ d.phimin + (k : ℝ) * p ≤ x ∧ x < d.phimin + ((k : ℝ) + 1) * p := by
  have hw : wrapUp (2 * π) 0 (phi - d.Omega * (t - d.t0)) = phi := by
    rw [h0, zero_mul, sub_zero]
    unfold wrapUp
    rw [dif_neg (by rintro ⟨_, h⟩; linarith)]
  obtain ⟨q, hq⟩ : ∃ q, q = (x - d.phimin) / p := ⟨_, rfl⟩
  have hq' : x = d.phimin + q * p := by rw [hq]; field_simp; ring
  have q0 : 0 ≤ q := by rw [hq]; exact div_nonneg (by linarith) hp.le
  have q1 : q < (d.nphi : ℝ) - 1 := by rw [hq, div_lt_iff₀ hp]; linarith
  obtain ⟨m, hm⟩ : ∃ m : ℕ, ⌊q⌋ = m := Int.eq_ofNat_of_zero_le (Int.floor_nonneg.2 q0)
  have m1 : (m : ℝ) ≤ q := by have := Int.floor_le q; rw [hm] at this; exact_mod_cast this
  have m2 : q < (m : ℝ) + 1 := by have := Int.lt_floor_add_one q; rw [hm] at this; exact_mod_cast this
  have m3 : m + 1 < d.nphi := by
    have : ((m : ℝ) + 1) < d.nphi := by linarith
    exact_mod_cast this
  have e : toSize (⌊(x - d.phimin) / d.dphi⌋ + 1) = .ok (m + 1) := by
    rw [hdp, ← hq, hm]
    have := toSize_ok (k := ((m + 1 : ℕ) : ℤ)) (by omega) (by omega)
    rw [Int.toNat_natCast] at this
    rw [← this]
    congr 1
    push_cast; ring
  refine ⟨m, ?_, m3, by rw [hq']; nlinarith, by rw [hq']; nlinarith⟩
  unfold phiIndex
  rw [hw]
  simp only
  rw [if_pos hn, if_neg (by rintro ⟨_, h⟩; linarith), hx, if_neg (not_lt.2 ha), if_neg (not_lt.2 hmax), if_neg (by rw [hdp]; exact hp.ne'), e]
  show (if m + 1 = 0 ∨ m + 1 = d.nphi then _ else _) = _
  rw [if_neg (by omega)]

theorem bilinear_ok {l : List ℝ} {nr il iu i2 : ℕ} {cp cr : ℝ} (off : ℕ) (h1 : off + il * nr + (i2 + 1) < l.length)
    (h2 : off + iu * nr + (i2 + 1) < l.length) :
    bilinear (some l) off nr il iu (i2 + 1) cp cr =
      .ok (l[off + il * nr + i2] + cp * (l[off + iu * nr + i2] - l[off + il * nr + i2]) +
        cr * (l[off + il * nr + (i2 + 1)] - l[off + il * nr + i2]) +
        cr * cp * (l[off + iu * nr + (i2 + 1)] - l[off + il * nr + (i2 + 1)] + l[off + il * nr + i2] - l[off + iu * nr + i2])) := by
  unfold bilinear
  rw [read_ok' (k := off + il * nr + i2) (by push_cast; ring) (by omega), read_ok' (k := off + iu * nr + i2) (by push_cast; ring) (by omega),
    read_ok' (k := off + iu * nr + (i2 + 1)) (by push_cast; ring) (by omega),
    read_ok' (k := off + il * nr + (i2 + 1)) (by push_cast; ring) (by omega)]
  rfl

theorem linear_ok {l : List ℝ} {i2 : ℕ} {cr : ℝ} (off : ℕ) (h1 : off + (i2 + 1) < l.length) :
    linear (some l) off (i2 + 1) cr = .ok (l[off + i2] + cr * (l[off + (i2 + 1)] - l[off + i2])) := by
  unfold linear
  rw [read_ok' (k := off + i2) (by push_cast; ring) (by omega), read_ok' (k := off + (i2 + 1)) (by push_cast; ring) (by omega)]
  rfl

theorem lerp_eq {x0 x1 : ℝ} (h : x0 < x1) (v0 v1 x : ℝ) : v0 + (x - x0) / (x1 - x0) * (v1 - v0) = lerp x0 x1 v0 v1 x := by
  have : x1 - x0 ≠ 0 := by linarith
  unfold lerp
  field_simp
  ring

theorem bilerp_eq {x0 x1 y0 y1 : ℝ} (h : x0 < x1) (h' : y0 < y1) (v00 v10 v01 v11 x y : ℝ) :
    v00 + (x - x0) / (x1 - x0) * (v10 - v00) + (y - y0) / (y1 - y0) * (v01 - v00) +
      (y - y0) / (y1 - y0) * ((x - x0) / (x1 - x0)) * (v11 - v01 + v00 - v10) = bilerp x0 x1 y0 y1 v00 v10 v01 v11 x y := by
  have : x1 - x0 ≠ 0 := by linarith
  have : y1 - y0 ≠ 0 := by linarith
  unfold bilerp
  field_simp
  ring

end Gyoto.PatternDisk
