import Verif.Spec.Kepler

/-!
# Lemmas on the Keplerian motion of `Minkowski`
-/

namespace Gyoto.MinkowskiKepler

theorem pow15 {a : ℝ} (ha : 0 ≤ a) : a ^ (1.5 : ℝ) = √a ^ 3 := by
  rw [Real.sqrt_eq_rpow, ← Real.rpow_natCast, ← Real.rpow_mul ha]
  norm_num

theorem powm05 {a : ℝ} (ha : 0 < a) : a ^ (-0.5 : ℝ) = 1 / √a := by
  rw [Real.sqrt_eq_rpow, one_div, ← Real.rpow_neg ha.le]
  norm_num

/-- What the law gives in Cartesian coordinates, with the distance. -/
theorem diffCartesian_eq {s d : State} (h : diffCartesian s = some d) (ht : s.td ≠ 0) :
    0 < dist s ∧
    d.t = s.td ∧ d.x = s.xd ∧ d.y = s.yd ∧ d.z = s.zd ∧
    d.td = -s.td ^ 3 * (s.x * s.xd + s.y * s.yd + s.z * s.zd) / dist s ^ 3 ∧
    d.xd = -s.x * s.td ^ 2 / dist s ^ 3 + d.td / s.td * s.xd ∧
    d.yd = -s.y * s.td ^ 2 / dist s ^ 3 + d.td / s.td * s.yd ∧
    d.zd = -s.z * s.td ^ 2 / dist s ^ 3 + d.td / s.td * s.zd := by
  obtain ⟨t, x, y, z, td, xd, yd, zd⟩ := s
  simp only at ht
  have hn : 0 ≤ x * x + y * y + z * z := by
    have := mul_self_nonneg x
    have := mul_self_nonneg y
    have := mul_self_nonneg z
    linarith
  have hd : dist ⟨t, x, y, z, td, xd, yd, zd⟩ = √(x * x + y * y + z * z) := by simp only [dist, sq]
  simp only [diffCartesian, newton] at h
  rw [pow15 hn, ← hd] at h
  obtain ⟨D, hD⟩ : ∃ D, D = dist ⟨t, x, y, z, td, xd, yd, zd⟩ := ⟨_, rfl⟩
  rw [← hD] at h ⊢
  have hD0 : 0 ≤ D := hD ▸ Real.sqrt_nonneg _
  by_cases h0 : D ^ 3 = 0
  · rw [if_pos h0] at h
    exact absurd h (by simp)
  rw [if_neg h0] at h
  have hne : D ≠ 0 := fun e => h0 (by rw [e]; norm_num)
  injection h with h
  subst h
  refine ⟨lt_of_le_of_ne hD0 (Ne.symm hne), rfl, rfl, rfl, rfl, ?_, ?_, ?_, ?_⟩ <;> (simp only; field_simp)

/-- `rdotdot`, `thetadotdot`, `phidotdot` are the second derivatives of the spherical coordinates. -/
theorem back_eq {r sn c p q rd hd fd X Y Z t td : ℝ} (hr : 0 < r) (hs : 0 < sn) (hsc : sn ^ 2 + c ^ 2 = 1) (hpq : p ^ 2 + q ^ 2 = 1) :
    back r rd
      { t := t, x := r * sn * p, y := r * sn * q, z := r * c, td := td
        xd := rd * sn * p + r * hd * c * p - r * fd * sn * q
        yd := rd * sn * q + r * hd * c * q + r * fd * sn * p
        zd := rd * c - r * hd * sn } X Y Z =
    (sn * p * X + sn * q * Y + c * Z + r * (hd ^ 2 + sn ^ 2 * fd ^ 2),
     (c * p * X + c * q * Y - sn * Z) / r - 2 * rd * hd / r + sn * c * fd ^ 2,
     (p * Y - q * X) / (r * sn) - 2 * rd * fd / r - 2 * c * hd * fd / sn) := by
  have hD : r * r * r * r - r * c * (r * c) * r * r = (r ^ 2 * sn) ^ 2 := by linear_combination -r ^ 4 * hsc
  have hxy : r * sn * p * (r * sn * p) + r * sn * q * (r * sn * q) = (r * sn) ^ 2 := by linear_combination r ^ 2 * sn ^ 2 * hpq
  have hR : (X * (r * sn * p) + Y * (r * sn * q) + Z * (r * c)
      + (rd * sn * p + r * hd * c * p - r * fd * sn * q) * (rd * sn * p + r * hd * c * p - r * fd * sn * q)
      + (rd * sn * q + r * hd * c * q + r * fd * sn * p) * (rd * sn * q + r * hd * c * q + r * fd * sn * p)
      + (rd * c - r * hd * sn) * (rd * c - r * hd * sn) - rd * rd) / r
      = sn * p * X + sn * q * Y + c * Z + r * (hd ^ 2 + sn ^ 2 * fd ^ 2) := by
    rw [div_eq_iff hr.ne']
    linear_combination ((rd * sn + r * hd * c) ^ 2 + r ^ 2 * fd ^ 2 * sn ^ 2) * hpq + (rd ^ 2 + r ^ 2 * hd ^ 2) * hsc
  have hpow : ((r ^ 2 * sn) ^ 2) ^ (-0.5 : ℝ) = 1 / (r ^ 2 * sn) := by
    rw [powm05 (by positivity), Real.sqrt_sq (by positivity)]
  simp only [back]
  rw [hR, hD, hpow, hxy]
  refine Prod.ext rfl (Prod.ext ?_ ?_)
  · show _ = (c * p * X + c * q * Y - sn * Z) / r - 2 * rd * hd / r + sn * c * fd ^ 2
    have h1 : r * c * rd - (rd * c - r * hd * sn) * r = r ^ 2 * sn * hd := by ring
    have h2 : 2 * rd * r * r * r - (rd * c - r * hd * sn) * (r * c) * r * r - r * c * (r * c) * rd * r
        = r ^ 3 * (2 * rd * sn ^ 2 + r * hd * sn * c) := by
      linear_combination -2 * rd * r ^ 3 * hsc
    rw [h1, h2]
    field_simp
    linear_combination Z * hsc
  · show _ = (p * Y - q * X) / (r * sn) - 2 * rd * fd / r - 2 * c * hd * fd / sn
    have h1 : (rd * sn * q + r * hd * c * q + r * fd * sn * p) * (r * sn * p)
        - r * sn * q * (rd * sn * p + r * hd * c * p - r * fd * sn * q) = (r * sn) ^ 2 * fd := by
      linear_combination r ^ 2 * sn ^ 2 * fd * hpq
    have h2 : r * sn * p * (rd * sn * p + r * hd * c * p - r * fd * sn * q)
        + r * sn * q * (rd * sn * q + r * hd * c * q + r * fd * sn * p) = r * sn * (rd * sn + r * hd * c) := by
      linear_combination r * sn * (rd * sn + r * hd * c) * hpq
    rw [h1, h2]
    field_simp
    ring

end Gyoto.MinkowskiKepler
