import Verif.Model.UniformSphere
import Mathlib.Algebra.BigOperators.Group.List.Basic
import Mathlib.Tactic.Linarith
import Mathlib.Tactic.LinearCombination
import Mathlib.Tactic.Ring
import Mathlib.Tactic.FieldSimp
import Mathlib.Tactic.Positivity
import Mathlib.Tactic.NormNum

/-! # Transfer and distance of the uniform spheres -/

namespace Gyoto.USphere

open Gyoto.Spectra Real

/-- The slab, without the test. -/
theorem slab_eq (I a ds : ℝ) : slab I a ds = I * (1 - exp (-(a * ds))) := by
  unfold slab
  split_ifs with h
  · rfl
  · rw [not_not.mp h]; simp

/-! ## Transfer -/

/-- An optically thin sphere that is not isotropic: emission and transmission. -/
theorem thin_values {s : Sphere} {I a : ℝ → ℝ} (h1 : s.isotropic = false) (h2 : s.radtransf = true) (hI : s.spectrum = some I)
    (ha : s.opacity = some a) (nu ds : ℝ) :
    s.emission nu ds = some (I nu * (1 - exp (-(a nu * ds)))) ∧ s.transmission nu ds = some (exp (-(a nu * ds))) := by
  constructor
  · simp only [Sphere.emission, h1, h2, hI, ha]
    simp [slab_eq]
  · simp only [Sphere.transmission, h2, ha]
    by_cases h : a nu = 0
    · simp [h]
    · simp [h, neg_mul]

theorem hit_values {s : Sphere} {I a : ℝ → ℝ} (h1 : s.isotropic = false) (h2 : s.radtransf = true) (hI : s.spectrum = some I)
    (ha : s.opacity = some a) (nu ds : ℝ) (p : ℝ × ℝ) :
    s.hit nu ds p = some (p.1 + I nu * (1 - exp (-(a nu * ds))) * p.2, p.2 * exp (-(a nu * ds))) := by
  obtain ⟨e, t⟩ := thin_values h1 h2 hI ha nu ds
  simp [Sphere.hit, e, t]

/-- A ray that goes through an optically thin sphere receives the solution of the equation of transfer, `I (1 - exp(-τ))`, and is attenuated by
`exp(-τ)`, where `τ` is the opacity times the length: how the length is cut has no influence. -/
theorem ray_thin {s : Sphere} {I a : ℝ → ℝ} (h1 : s.isotropic = false) (h2 : s.radtransf = true) (hI : s.spectrum = some I)
    (ha : s.opacity = some a) (nu : ℝ) (ds : List ℝ) (p : ℝ × ℝ) :
    s.ray nu ds p = some (p.1 + I nu * (1 - exp (-(a nu * ds.sum))) * p.2, p.2 * exp (-(a nu * ds.sum))) := by
  induction ds generalizing p with
  | nil => simp [Sphere.ray]
  | cons d rest ih =>
    rw [Sphere.ray, hit_values h1 h2 hI ha, Option.bind_some, ih]
    have e : exp (-(a nu * (d :: rest).sum)) = exp (-(a nu * d)) * exp (-(a nu * rest.sum)) := by
      rw [← exp_add, List.sum_cons]
      congr 1
      ring
    rw [e]
    congr 2
    · ring
    · ring

/-- An opaque sphere: the first stretch gives the intensity of the surface, what is behind does not count. -/
theorem ray_opaque {s : Sphere} {I : ℝ → ℝ} (h1 : s.isotropic = false) (h2 : s.radtransf = false) (hI : s.spectrum = some I)
    (nu d : ℝ) (ds : List ℝ) (p : ℝ × ℝ) : s.ray nu (d :: ds) p = some (p.1 + I nu * p.2, 0) := by
  have hit : ∀ d p, s.hit nu d p = some (p.1 + I nu * p.2, 0) := by
    intro d p
    simp [Sphere.hit, Sphere.emission, Sphere.transmission, h1, h2, hI]
  have rest : ∀ (ds : List ℝ) x, s.ray nu ds (x, 0) = some (x, 0) := by
    intro ds
    induction ds with
    | nil => intro x; rfl
    | cons d ds ih => intro x; rw [Sphere.ray, hit, Option.bind_some, mul_zero, add_zero, ih]
  rw [Sphere.ray, hit, Option.bind_some, rest]

/-- What is received is between nothing and the intensity of the black sphere, and the transmission between 0 and 1. -/
theorem ray_range {s : Sphere} {I a : ℝ → ℝ} (h1 : s.isotropic = false) (h2 : s.radtransf = true) (hI : s.spectrum = some I)
    (ha : s.opacity = some a) (nu : ℝ) (hI0 : 0 ≤ I nu) (ha0 : 0 ≤ a nu) (ds : List ℝ) (hds : ∀ d ∈ ds, 0 ≤ d) :
    ∃ e t, s.ray nu ds (0, 1) = some (e, t) ∧ 0 ≤ e ∧ e ≤ I nu ∧ 0 < t ∧ t ≤ 1 := by
  have hs : 0 ≤ a nu * ds.sum := mul_nonneg ha0 (List.sum_nonneg hds)
  have h3 : exp (-(a nu * ds.sum)) ≤ 1 := exp_le_one_iff.mpr (by linarith)
  have h4 : 0 < exp (-(a nu * ds.sum)) := exp_pos _
  refine ⟨_, _, ray_thin h1 h2 hI ha nu ds (0, 1), ?_, ?_, ?_, ?_⟩
  · simp only [zero_add, mul_one]
    exact mul_nonneg hI0 (by linarith)
  · simp only [zero_add, mul_one]
    exact mul_le_of_le_one_right hI0 (by linarith)
  · simpa using h4
  · simpa using h3

/-- Setting an opacity makes the sphere optically thin, and setting none makes it opaque; in both cases nothing throws. -/
theorem opacity_total (s : Sphere) {I : ℝ → ℝ} (hI : s.spectrum = some I) (o : Option (ℝ → ℝ)) (nu ds : ℝ) :
    ((s.setOpacity o).emission nu ds).isSome ∧ ((s.setOpacity o).transmission nu ds).isSome := by
  cases o with
  | none =>
    constructor
    · cases hs : s.isotropic <;> simp [Sphere.emission, Sphere.setOpacity, hI, hs]
    · simp [Sphere.transmission, Sphere.setOpacity]
  | some a =>
    constructor
    · cases hs : s.isotropic <;> simp [Sphere.emission, Sphere.setOpacity, hI, hs]
    · by_cases h : a nu = 0 <;> simp [Sphere.transmission, Sphere.setOpacity, h]

/-- An isotropic, optically thin sphere emits as if it did not absorb, and absorbs: what is received depends on how the length is cut. -/
theorem isotropic_cut_wrong : ∃ (s : Sphere) (I a : ℝ → ℝ), s.isotropic = true ∧ s.radtransf = true ∧ s.spectrum = some I ∧ s.opacity = some a ∧
    s.ray 1 [2] (0, 1) ≠ s.ray 1 [1, 1] (0, 1) := by
  refine ⟨⟨1, 1, 1, true, true, some fun _ => 1, some fun _ => 1, 1, 1, none⟩, fun _ => 1, fun _ => 1, rfl, rfl, rfl, rfl, ?_⟩
  have h1 : (exp (-1) : ℝ) < 1 := by rw [← exp_zero]; exact exp_lt_exp.mpr (by norm_num)
  simp [Sphere.ray, Sphere.hit, Sphere.emission, Sphere.transmission]
  intro h
  linarith

/-! ## Distance -/

/-- `radius` sets the values with which `Standard::Impact` compares: the safety value is above the critical one. -/
theorem radius_values (s : Sphere) (r : ℝ) :
    (s.setRadius r).radius = r ∧ (s.setRadius r).critical = r ^ 2 ∧ (s.setRadius r).critical < (s.setRadius r).safety := by
  refine ⟨rfl, by simp [Sphere.setRadius]; ring, ?_⟩
  simp only [Sphere.setRadius]
  nlinarith [mul_self_nonneg r]

/-- A point of the given spherical coordinates. -/
noncomputable def ofSpherical (r th ph : ℝ) : P3 := (r * sin th * cos ph, r * sin th * sin ph, r * cos th)

/-- In all metrics but one, the value is the square of the distance between the two points, and a point is inside exactly when it is nearer to the centre
than the radius. -/
theorem value_inside (s : Sphere) (r : ℝ) (hr : 0 ≤ r) (k : Kind) (st c : P3) :
    ∃ v q, value k false st c = some v ∧ (k = .cartesian → q = c) ∧ (k = .spherical → q = ofSpherical c.1 c.2.1 c.2.2) ∧
      v = (q.1 - st.1) ^ 2 + (q.2.1 - st.2.1) ^ 2 + (q.2.2 - st.2.2) ^ 2 ∧ (v ≤ (s.setRadius r).critical ↔ √v ≤ r) := by
  refine ⟨_, photonPos k false c, rfl, ?_, ?_, ?_, ?_⟩
  · rintro rfl; rfl
  · rintro rfl; rfl
  · simp only [dist2]; ring
  · simp only [Sphere.setRadius]
    rw [Real.sqrt_le_left hr, sq]

/-- For the metric `SchwarzschildHarmonic`: the two points are moved outwards by one unit, when the centre of the star has a positive `x`. -/
theorem harmonic_partial (st c : P3) (hx : 0 < st.1) :
    ∃ v l, value .spherical true st c = some v ∧ 0 < l ∧ l = √(st.1 ^ 2 + st.2.1 ^ 2 + st.2.2 ^ 2) ∧
      v = dist2 (ofSpherical (c.1 + 1) c.2.1 c.2.2) (st.1 * (1 + 1 / l), st.2.1 * (1 + 1 / l), st.2.2 * (1 + 1 / l)) := by
  obtain ⟨x, y, z⟩ := st
  simp only at hx
  have hpos : 0 < x * x + y * y + z * z := by nlinarith [mul_self_nonneg y, mul_self_nonneg z, mul_pos hx hx]
  obtain ⟨l, hl⟩ : ∃ l, l = √(x * x + y * y + z * z) := ⟨_, rfl⟩
  have hl0 : 0 < l := by rw [hl]; exact Real.sqrt_pos.mpr hpos
  have hll : l * l = x * x + y * y + z * z := by rw [hl]; exact Real.mul_self_sqrt hpos.le
  obtain ⟨ρ, hρ⟩ : ∃ ρ, ρ = √(x * x + y * y) := ⟨_, rfl⟩
  have hρp : 0 < x * x + y * y := by nlinarith [mul_self_nonneg y, mul_pos hx hx]
  have hρ0 : 0 < ρ := by rw [hρ]; exact Real.sqrt_pos.mpr hρp
  have hρρ : ρ * ρ = x * x + y * y := by rw [hρ]; exact Real.mul_self_sqrt hρp.le
  have hz1 : -1 ≤ z / l := by
    rw [le_div_iff₀ hl0]
    nlinarith [mul_self_nonneg (z + l), mul_self_nonneg x, mul_self_nonneg y, abs_le_of_sq_le_sq' (show z ^ 2 ≤ l ^ 2 by nlinarith) hl0.le]
  have hz2 : z / l ≤ 1 := by
    rw [div_le_one hl0]
    exact (abs_le_of_sq_le_sq' (show z ^ 2 ≤ l ^ 2 by nlinarith [mul_self_nonneg x, mul_self_nonneg y]) hl0.le).2
  have hc : cos (arccos (z / l)) = z / l := Real.cos_arccos hz1 hz2
  have hs : sin (arccos (z / l)) = ρ / l := by
    rw [Real.sin_arccos]
    have : 1 - (z / l) ^ 2 = (ρ / l) ^ 2 := by
      field_simp
      nlinarith
    rw [this, Real.sqrt_sq (by positivity)]
  have hq : √(1 + (y / x) ^ 2) = ρ / x := by
    have : 1 + (y / x) ^ 2 = (ρ / x) ^ 2 := by
      field_simp
      nlinarith
    rw [this, Real.sqrt_sq (by positivity)]
  have hcp : cos (arctan (y / x)) = x / ρ := by
    rw [Real.cos_arctan, hq]
    field_simp
  have hsp : sin (arctan (y / x)) = y / ρ := by
    rw [Real.sin_arctan, hq]
    field_simp
  have hstar : harmonicStar (x, y, z) = some (x + x / l, y + y / l, z + z / l) := by
    simp only [harmonicStar]
    rw [← hl, if_neg hl0.ne', if_neg hx.ne', hc, hs, hcp, hsp]
    congr 2
    · field_simp
    · congr 1
      field_simp
  refine ⟨_, l, ?_, hl0, ?_, rfl⟩
  · simp only [value, if_true, hstar, Option.map_some, photonPos, ofSpherical]
    congr 3
    · ring
    · congr 1 <;> ring
  · rw [hl]; simp only [sq]

/-- With a negative `x` the star is moved inwards along `x`: a photon at the centre of the star is not at a null distance. -/
theorem harmonic_wrong : ∃ v, value .spherical true (-5, 0, 0) (5, π / 2, π) = some v ∧ v ≠ 0 := by
  have hs : √((-5 : ℝ) * -5 + 0 * 0 + 0 * 0) = 5 := by
    rw [show (-5 : ℝ) * -5 + 0 * 0 + 0 * 0 = 5 ^ 2 by norm_num]
    exact Real.sqrt_sq (by norm_num)
  refine ⟨4, ?_, by norm_num⟩
  simp only [value, harmonicStar, if_true, hs]
  norm_num [photonPos, dist2]

/-- The step is never shorter than the given fraction of the radius, nor than the given fraction of the distance. -/
theorem deltaMax_least (s : Sphere) (k : Kind) (st c : P3) (hm : s.rmax = none) :
    ∃ d v, s.deltaMax k false st c = some d ∧ value k false st c = some v ∧ s.dltmod * √v ≤ d ∧ s.dltmor * s.radius ≤ d ∧
      (d = s.dltmod * √v ∨ d = s.dltmor * s.radius) := by
  refine ⟨_, dist2 (photonPos k false c) st, ?_, rfl, le_max_left _ _, le_max_right _ _, max_choice _ _⟩
  simp only [Sphere.deltaMax]
  rw [if_neg (by rintro ⟨m, h, -⟩; rw [hm] at h; cases h)]
  rfl

/-- Beyond `rmax` the step is half the radial coordinate. -/
theorem deltaMax_far (s : Sphere) (h : Bool) (st c : P3) (m : ℝ) (hm : s.rmax = some m) (hc : m < c.1) :
    s.deltaMax .spherical h st c = some (c.1 / 2) := by
  simp only [Sphere.deltaMax]
  rw [if_pos ⟨m, hm, hc⟩]
  congr 1
  ring

/-! ## Examples -/

/-- A sphere of radius 2, of constant spectrum and opacity. -/
noncomputable def sample : Sphere := ⟨2, 4, 45 / 10, false, true, some fun _ => 3, some fun _ => 1, 1 / 10, 1 / 10, none⟩

example : sample.ray 1 [1, 2] (0, 1) = sample.ray 1 [3] (0, 1) := by
  rw [ray_thin rfl rfl rfl rfl, ray_thin rfl rfl rfl rfl]
  norm_num

example : value .cartesian false (1, 2, 3) (1, 2, 5) = some 4 := by
  simp only [value, photonPos, dist2]
  norm_num

example : value .spherical true (5, 0, 0) (5, π / 2, 0) = some 0 := by
  obtain ⟨v, l, e, -, hl, hv⟩ := harmonic_partial (5, 0, 0) (5, π / 2, 0) (by norm_num)
  have : l = 5 := by
    rw [hl, show (5 : ℝ) ^ 2 + 0 ^ 2 + 0 ^ 2 = 5 ^ 2 by norm_num]
    exact Real.sqrt_sq (by norm_num)
  rw [e, hv, this]
  norm_num [dist2, ofSpherical]

end Gyoto.USphere
