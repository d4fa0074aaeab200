import Verif.Model.Camera
import Verif.Props.MetricAlg
import Mathlib.Tactic.LinearCombination
import Mathlib.Tactic.FinCases
import Mathlib.Analysis.SpecialFunctions.Trigonometric.Bounds
import Mathlib.LinearAlgebra.Matrix.NonsingularInverse

/-!
# C29, C30, C31, C47, C48: the camera

Specification vocabulary: `dot3` (Euclidean product), `rotZ`, `rotX` (elementary rotations). -/

namespace Gyoto.Camera

open Gyoto.MetricAlg (Vec Tensor sp)

/-- Euclidean product. -/
def dot3 (u v : Vec3) : ℝ := u 0 * v 0 + u 1 * v 1 + u 2 * v 2

/-- Rotation about the third axis. -/
noncomputable def rotZ (a : ℝ) : Matrix (Fin 3) (Fin 3) ℝ :=
  !![Real.cos a, -Real.sin a, 0; Real.sin a, Real.cos a, 0; 0, 0, 1]

/-- Rotation about the first axis. -/
noncomputable def rotX (a : ℝ) : Matrix (Fin 3) (Fin 3) ℝ :=
  !![1, 0, 0; 0, Real.cos a, -Real.sin a; 0, Real.sin a, Real.cos a]

/-- The cached axes are those of the orientation angles: the sky coordinates of the three unit vectors of the metric are the
columns of the rotation by argument, inclination and position angle. -/
def Cached (s : Screen) : Prop :=
  ∀ k, s.ex k = (rotZ (s.euler 0) * rotX (s.euler 1) * rotZ (s.euler 2)) k 0 ∧
    s.ey k = (rotZ (s.euler 0) * rotX (s.euler 1) * rotZ (s.euler 2)) k 1 ∧
    s.ez k = (rotZ (s.euler 0) * rotX (s.euler 1) * rotZ (s.euler 2)) k 2

theorem cached_iff (s : Screen) : Cached s ↔ s = computeBaseVectors s := by
  have e : ∀ k, (computeBaseVectors s).ex k = (rotZ (s.euler 0) * rotX (s.euler 1) * rotZ (s.euler 2)) k 0 ∧
      (computeBaseVectors s).ey k = (rotZ (s.euler 0) * rotX (s.euler 1) * rotZ (s.euler 2)) k 1 ∧
      (computeBaseVectors s).ez k = (rotZ (s.euler 0) * rotX (s.euler 1) * rotZ (s.euler 2)) k 2 := by
    intro k
    fin_cases k <;> simp [computeBaseVectors, rotZ, rotX, Matrix.mul_apply, Fin.sum_univ_three] <;>
      first | (refine ⟨?_, ?_, ?_⟩ <;> ring1) | ring1
  have key : Cached s ↔ s.ex = (computeBaseVectors s).ex ∧ s.ey = (computeBaseVectors s).ey ∧
      s.ez = (computeBaseVectors s).ez := by
    simp only [Cached, funext_iff, ← forall_and]
    refine forall_congr' fun k => ?_
    rw [(e k).1, (e k).2.1, (e k).2.2]
  rw [key]
  rcases s with ⟨t, d, e, ex, ey, ez⟩
  simp [computeBaseVectors]

theorem cached_compute (s : Screen) : Cached (computeBaseVectors s) := (cached_iff _).2 rfl

/-- Histories of setter calls (calls that throw leave the run). -/
inductive Reach : Screen → Screen → Prop where
  | refl (s) : Reach s s
  | step {s t u} (op : Op) : Reach s t → op.run t = some u → Reach s u

/-- C29: after any history of calls starting from a screen whose axes have been computed, the axes are those of the current
angles. -/
theorem axes_cached {s t : Screen} (h : Cached s) (hr : Reach s t) : Cached t := by
  induction hr with
  | refl => exact h
  | step op _ hop _ =>
    cases op with
    | observerPos k ul c coord =>
      cases k with
      | spherical =>
        simp only [Op.run, setObserverPos, Option.some.injEq] at hop
        exact hop ▸ cached_compute _
      | cartesian =>
        simp only [Op.run, setObserverPos] at hop
        split at hop
        · exact absurd hop (by simp)
        · simp only [Option.some.injEq] at hop
          exact hop ▸ cached_compute _
    | _ =>
      simp only [Op.run, Option.some.injEq] at hop
      exact hop ▸ cached_compute _

/-- One call is enough: whatever the axes were, they are right afterwards. -/
theorem axes_fresh {s t : Screen} (op : Op) (h : op.run s = some t) : Cached t := by
  have h0 : Reach (computeBaseVectors s) (computeBaseVectors s) := .refl _
  cases op with
  | observerPos k ul c coord =>
    cases k with
    | spherical =>
      simp only [Op.run, setObserverPos, Option.some.injEq] at h
      exact h ▸ cached_compute _
    | cartesian =>
      simp only [Op.run, setObserverPos] at h
      split at h
      · exact absurd h (by simp)
      · simp only [Option.some.injEq] at h
        exact h ▸ cached_compute _
  | _ =>
    simp only [Op.run, Option.some.injEq] at h
    exact h ▸ cached_compute _

section
variable {s : Screen}

theorem Cached.ex (h : Cached s) : s.ex = (computeBaseVectors s).ex := by conv_lhs => rw [(cached_iff s).1 h]
theorem Cached.ey (h : Cached s) : s.ey = (computeBaseVectors s).ey := by conv_lhs => rw [(cached_iff s).1 h]
theorem Cached.ez (h : Cached s) : s.ez = (computeBaseVectors s).ez := by conv_lhs => rw [(cached_iff s).1 h]

/-- C29: orthonormal axes, seen both as three vectors and as components. -/
theorem axes_orthonormal (h : Cached s) :
    (dot3 s.ex s.ex = 1 ∧ dot3 s.ey s.ey = 1 ∧ dot3 s.ez s.ez = 1 ∧
      dot3 s.ex s.ey = 0 ∧ dot3 s.ex s.ez = 0 ∧ dot3 s.ey s.ez = 0) ∧
    ∀ i j, s.ex i * s.ex j + s.ey i * s.ey j + s.ez i * s.ez j = if i = j then 1 else 0 := by
  rw [h.ex, h.ey, h.ez]
  have h0 := Real.cos_sq_add_sin_sq (s.euler 0)
  have h1 := Real.cos_sq_add_sin_sq (s.euler 1)
  have h2 := Real.cos_sq_add_sin_sq (s.euler 2)
  simp only [computeBaseVectors]
  generalize Real.cos (s.euler 0) = ca at *
  generalize Real.sin (s.euler 0) = sa at *
  generalize Real.cos (s.euler 1) = cb at *
  generalize Real.sin (s.euler 1) = sb at *
  generalize Real.cos (s.euler 2) = cc at *
  generalize Real.sin (s.euler 2) = sc at *
  refine ⟨⟨?_, ?_, ?_, ?_, ?_, ?_⟩, fun i j => ?_⟩
  · simp [dot3]
    linear_combination (sc ^ 2 * cb ^ 2 + cc ^ 2) * h0 + sc ^ 2 * h1 + h2
  · simp [dot3]
    linear_combination (cc ^ 2 * cb ^ 2 + sc ^ 2) * h0 + cc ^ 2 * h1 + h2
  · simp [dot3]
    linear_combination sb ^ 2 * h0 + h1
  · simp [dot3]
    linear_combination (cc * sc * cb ^ 2 - sc * cc) * h0 + cc * sc * h1
  · simp [dot3]
    linear_combination -(sb * cb * sc) * h0
  · simp [dot3]
    linear_combination -(sb * cb * cc) * h0
  · fin_cases i <;> fin_cases j <;> simp
    · linear_combination (ca ^ 2 + sa ^ 2 * cb ^ 2) * h2 + sa ^ 2 * h1 + h0
    · linear_combination (ca * sa - sa * ca * cb ^ 2) * h2 - sa * ca * h1
    · linear_combination -(sa * cb * sb) * h2
    · linear_combination (ca * sa - sa * ca * cb ^ 2) * h2 - sa * ca * h1
    · linear_combination (sa ^ 2 + ca ^ 2 * cb ^ 2) * h2 + ca ^ 2 * h1 + h0
    · linear_combination (ca * cb * sb) * h2
    · linear_combination -(sa * cb * sb) * h2
    · linear_combination (ca * cb * sb) * h2
    · linear_combination sb ^ 2 * h2 + h1

theorem skyToXYZ_eq (h : Cached s) (ul : ℝ) (sky : Vec3) :
    skyToXYZ ul s sky = ![dot3 (fun i => sky i * (1 / ul)) s.ex, dot3 (fun i => sky i * (1 / ul)) s.ey,
      dot3 (fun i => sky i * (1 / ul)) s.ez] := by
  rw [h.ex, h.ey, h.ez]
  funext k
  fin_cases k <;> simp [skyToXYZ, computeBaseVectors, dot3] <;> ring

/-- C29: the position is recovered from its sky coordinates. -/
theorem sky_roundtrip (h : Cached s) (k : CoordKind) {ul : ℝ} (hul : ul ≠ 0) (pos : Vec) :
    skyToXYZ ul s (coordToSky k ul s pos) = coordToXYZ k pos := by
  obtain ⟨⟨h1, h2, h3, h4, h5, h6⟩, -⟩ := axes_orthonormal h
  rw [skyToXYZ_eq h]
  generalize hx : coordToXYZ k pos = xyz
  have e : ∀ i, coordToSky k ul s pos i * (1 / ul) = xyz 0 * s.ex i + xyz 1 * s.ey i + xyz 2 * s.ez i := by
    intro i
    simp only [coordToSky, hx]
    field_simp
  simp only [e, dot3] at *
  funext i
  fin_cases i <;> simp
  · linear_combination xyz 0 * h1 + xyz 1 * h4 + xyz 2 * h5
  · linear_combination xyz 0 * h4 + xyz 1 * h2 + xyz 2 * h6
  · linear_combination xyz 0 * h5 + xyz 1 * h6 + xyz 2 * h3

/-- C29, Cartesian coordinates: exactly the position. -/
theorem sky_roundtrip_cartesian (h : Cached s) {ul : ℝ} (hul : ul ≠ 0) (pos : Vec) :
    skyToCoord .cartesian ul s (coordToSky .cartesian ul s pos) = some ![pos 1, pos 2, pos 3] := by
  simp only [skyToCoord, sky_roundtrip h .cartesian hul]
  rfl

/-- C29, other direction: sky coordinates of a Cartesian position found from sky coordinates. -/
theorem sky_inverse (h : Cached s) {ul : ℝ} (hul : ul ≠ 0) (sky : Vec3) (t : ℝ) :
    coordToSky .cartesian ul s ![t, skyToXYZ ul s sky 0, skyToXYZ ul s sky 1, skyToXYZ ul s sky 2] = sky := by
  obtain ⟨-, hc⟩ := axes_orthonormal h
  rw [skyToXYZ_eq h]
  funext i
  have e0 := hc 0 i
  have e1 := hc 1 i
  have e2 := hc 2 i
  simp only [coordToSky, coordToXYZ, dot3]
  have key : (sky 0 * (s.ex 0 * s.ex i + s.ey 0 * s.ey i + s.ez 0 * s.ez i) +
      sky 1 * (s.ex 1 * s.ex i + s.ey 1 * s.ey i + s.ez 1 * s.ez i) +
      sky 2 * (s.ex 2 * s.ex i + s.ey 2 * s.ey i + s.ez 2 * s.ez i)) = sky i := by
    rw [e0, e1, e2]
    fin_cases i <;> simp
  rw [← key]
  simp
  field_simp
  ring

/-! ### Spherical positions -/

theorem norm_mk (x y : ℝ) : ‖(⟨x, y⟩ : ℂ)‖ = √(x * x + y * y) := by
  rw [Complex.norm_def, Complex.normSq_mk]

theorem atan2_cos (x y : ℝ) : √(x * x + y * y) * Real.cos (atan2 y x) = x := by
  have := Complex.norm_mul_cos_arg ⟨x, y⟩
  rwa [norm_mk] at this

theorem atan2_sin (x y : ℝ) : √(x * x + y * y) * Real.sin (atan2 y x) = y := by
  have := Complex.norm_mul_sin_arg ⟨x, y⟩
  rwa [norm_mk] at this

theorem atan2_polar {r b : ℝ} (hr : 0 < r) (hb : b ∈ Set.Ioc (-Real.pi) Real.pi) :
    atan2 (r * Real.sin b) (r * Real.cos b) = b := by
  have := Complex.arg_mul_cos_add_sin_mul_I hr hb
  unfold atan2
  have e : (⟨r * Real.cos b, r * Real.sin b⟩ : ℂ) = r * (Complex.cos b + Complex.sin b * Complex.I) := by
    apply Complex.ext <;> simp [← Complex.ofReal_cos, ← Complex.ofReal_sin]
  rw [e, this]

theorem sin_arccos_mul {z r q : ℝ} (hr : 0 < r) (hq : 0 ≤ q) (h : q * q + z * z = r * r) :
    r * Real.sin (Real.arccos (z / r)) = q := by
  rw [Real.sin_arccos, show 1 - (z / r) ^ 2 = (q / r) ^ 2 by field_simp; linarith, Real.sqrt_sq (by positivity)]
  field_simp

theorem cos_arccos_mul {z r q : ℝ} (hr : 0 < r) (h : q * q + z * z = r * r) :
    r * Real.cos (Real.arccos (z / r)) = z := by
  have hz : |z| ≤ r := abs_le_of_sq_le_sq (by nlinarith [mul_self_nonneg q]) hr.le
  rw [abs_le] at hz
  rw [Real.cos_arccos (by rw [le_div_iff₀ hr]; linarith) (by rw [div_le_iff₀ hr]; linarith)]
  field_simp

/-- The spherical coordinates found for a point other than the origin are those of that point, in the usual ranges. -/
theorem cartesian_spherical {c : Vec3} (hc : c ≠ 0) :
    ∃ s, cartesianToSpherical c = some s ∧ sphericalToCartesian s = c ∧ 0 < s 0 ∧
      s 1 ∈ Set.Icc 0 Real.pi ∧ s 2 ∈ Set.Ioc (-Real.pi) Real.pi := by
  have hpos : 0 < c 0 * c 0 + c 1 * c 1 + c 2 * c 2 := by
    rcases (by positivity : 0 ≤ c 0 ^ 2 + c 1 ^ 2 + c 2 ^ 2).lt_or_eq with h | h
    · nlinarith
    · exfalso
      apply hc
      have h0 : c 0 = 0 := by nlinarith [sq_nonneg (c 0), sq_nonneg (c 1), sq_nonneg (c 2)]
      have h1 : c 1 = 0 := by nlinarith [sq_nonneg (c 0), sq_nonneg (c 1), sq_nonneg (c 2)]
      have h2 : c 2 = 0 := by nlinarith [sq_nonneg (c 0), sq_nonneg (c 1), sq_nonneg (c 2)]
      funext i
      fin_cases i <;> simp [h0, h1, h2]
  have hr := Real.sqrt_pos.2 hpos
  have hrr := Real.mul_self_sqrt hpos.le
  have hq := Real.mul_self_sqrt (by nlinarith [mul_self_nonneg (c 0), mul_self_nonneg (c 1)] :
    0 ≤ c 0 * c 0 + c 1 * c 1)
  refine ⟨![√(c 0 * c 0 + c 1 * c 1 + c 2 * c 2), Real.arccos (c 2 / √(c 0 * c 0 + c 1 * c 1 + c 2 * c 2)),
    atan2 (c 1) (c 0)], by simp only [cartesianToSpherical, hr.ne', if_false], ?_, by simpa using hpos, ?_, ?_⟩
  · have hs := sin_arccos_mul (z := c 2) hr (Real.sqrt_nonneg (c 0 * c 0 + c 1 * c 1)) (by rw [hq, hrr])
    have hcs := cos_arccos_mul (z := c 2) (q := √(c 0 * c 0 + c 1 * c 1)) hr (by rw [hq, hrr])
    funext i
    fin_cases i
    · simp [sphericalToCartesian, hs, atan2_cos]
    · simp [sphericalToCartesian, hs, atan2_sin]
    · simp [sphericalToCartesian, hcs]
  · simpa using ⟨Real.arccos_nonneg _, Real.arccos_le_pi _⟩
  · simpa [atan2] using Complex.arg_mem_Ioc _

/-- Conversely the spherical coordinates of a point off the axis are recovered. -/
theorem spherical_cartesian {q : Vec3} (h0 : 0 < q 0) (h1 : q 1 ∈ Set.Ioo 0 Real.pi)
    (h2 : q 2 ∈ Set.Ioc (-Real.pi) Real.pi) : cartesianToSpherical (sphericalToCartesian q) = some q := by
  have hs := Real.sin_pos_of_mem_Ioo h1
  have e1 := Real.cos_sq_add_sin_sq (q 1)
  have e2 := Real.cos_sq_add_sin_sq (q 2)
  have hr : √(q 0 * Real.sin (q 1) * Real.cos (q 2) * (q 0 * Real.sin (q 1) * Real.cos (q 2)) +
      q 0 * Real.sin (q 1) * Real.sin (q 2) * (q 0 * Real.sin (q 1) * Real.sin (q 2)) +
      q 0 * Real.cos (q 1) * (q 0 * Real.cos (q 1))) = q 0 := by
    rw [show q 0 * Real.sin (q 1) * Real.cos (q 2) * (q 0 * Real.sin (q 1) * Real.cos (q 2)) +
      q 0 * Real.sin (q 1) * Real.sin (q 2) * (q 0 * Real.sin (q 1) * Real.sin (q 2)) +
      q 0 * Real.cos (q 1) * (q 0 * Real.cos (q 1)) = q 0 ^ 2 by
      linear_combination q 0 ^ 2 * Real.sin (q 1) ^ 2 * e2 + q 0 ^ 2 * e1]
    exact Real.sqrt_sq h0.le
  simp only [cartesianToSpherical, sphericalToCartesian, Matrix.cons_val_zero, Matrix.cons_val_one, Matrix.cons_val, hr,
    h0.ne', if_false, Option.some.injEq]
  funext i
  fin_cases i
  · simp
  · simp only [Fin.mk_one, Matrix.cons_val_one, Matrix.cons_val_zero]
    rw [mul_div_cancel_left₀ _ h0.ne', Real.arccos_cos h1.1.le h1.2.le]
  · simp
    exact atan2_polar (by positivity) h2

/-- C29, spherical coordinates: the point is recovered for every position but the origin, where the result is not a number. -/
theorem sky_roundtrip_spherical (h : Cached s) {ul : ℝ} (hul : ul ≠ 0) (pos : Vec) :
    (pos 1 ≠ 0 → ∃ q, skyToCoord .spherical ul s (coordToSky .spherical ul s pos) = some q ∧
      coordToXYZ .spherical (Fin.cons (pos 0) q) = coordToXYZ .spherical pos) ∧
    (pos 1 = 0 → skyToCoord .spherical ul s (coordToSky .spherical ul s pos) = none) := by
  simp only [skyToCoord, sky_roundtrip h .spherical hul]
  constructor
  · intro hp
    have hne : coordToXYZ .spherical pos ≠ 0 := by
      intro hz
      have z0 := congrFun hz 0
      have z1 := congrFun hz 1
      have z2 := congrFun hz 2
      simp [coordToXYZ, hp] at z0 z1 z2
      have e1 := Real.cos_sq_add_sin_sq (pos 2)
      have e2 := Real.cos_sq_add_sin_sq (pos 3)
      rw [z2] at e1
      have : Real.sin (pos 2) ≠ 0 := by intro h; rw [h] at e1; norm_num at e1
      simp [this] at z0 z1
      rw [z0, z1] at e2
      norm_num at e2
    obtain ⟨q, h1, h2, -⟩ := cartesian_spherical hne
    exact ⟨q, h1, by rw [← h2]; rfl⟩
  · intro hp
    simp [coordToXYZ, hp, cartesianToSpherical]

/-- C29, spherical coordinates in the usual ranges, off the axis: exactly the position. -/
theorem sky_roundtrip_spherical_exact (h : Cached s) {ul : ℝ} (hul : ul ≠ 0) (pos : Vec) (h0 : 0 < pos 1)
    (h1 : pos 2 ∈ Set.Ioo 0 Real.pi) (h2 : pos 3 ∈ Set.Ioc (-Real.pi) Real.pi) :
    skyToCoord .spherical ul s (coordToSky .spherical ul s pos) = some ![pos 1, pos 2, pos 3] := by
  simp only [skyToCoord, sky_roundtrip h .spherical hul]
  exact spherical_cartesian (q := ![pos 1, pos 2, pos 3]) (by simpa using h0) (by simpa using h1) (by simpa using h2)

end

/-! ### C30: observer position -/

/-- C30, spherical coordinates: every position. -/
theorem observer_position_spherical (s : Screen) {ul c : ℝ} (hul : ul ≠ 0) (hc : c ≠ 0) (pos : Vec) :
    ∃ s', setObserverPos .spherical ul c s pos = some s' ∧ getObserverPos .spherical ul c s' = pos := by
  refine ⟨_, rfl, ?_⟩
  funext k
  fin_cases k <;> simp [getObserverPos, computeBaseVectors] <;> field_simp

/-- C30, Cartesian coordinates: every position but the origin, where the result is not a number. -/
theorem observer_position_cartesian (s : Screen) {ul c : ℝ} (hul : ul ≠ 0) (hc : c ≠ 0) (pos : Vec) :
    ((pos 1 ≠ 0 ∨ pos 2 ≠ 0 ∨ pos 3 ≠ 0) →
      ∃ s', setObserverPos .cartesian ul c s pos = some s' ∧ getObserverPos .cartesian ul c s' = pos) ∧
    (pos 1 = 0 ∧ pos 2 = 0 ∧ pos 3 = 0 → setObserverPos .cartesian ul c s pos = none) := by
  constructor
  · intro hp
    have hne : (![pos 1, pos 2, pos 3] : Vec3) ≠ 0 := by
      intro hz
      have z0 := congrFun hz 0
      have z1 := congrFun hz 1
      have z2 := congrFun hz 2
      simp at z0 z1 z2
      simp [z0, z1, z2] at hp
    obtain ⟨q, h1, h2, h3, -⟩ := cartesian_spherical hne
    simp only [cartesianToSpherical, Matrix.cons_val_zero, Matrix.cons_val_one, Matrix.cons_val] at h1
    by_cases hr : √(pos 1 * pos 1 + pos 2 * pos 2 + pos 3 * pos 3) = 0
    · simp [hr] at h1
    · simp only [hr, if_false, Option.some.injEq] at h1
      simp only [setObserverPos, hr, if_false]
      refine ⟨_, rfl, ?_⟩
      have c0 := congrFun h2 0
      have c1 := congrFun h2 1
      have c2 := congrFun h2 2
      rw [← h1] at c0 c1 c2
      simp [sphericalToCartesian] at c0 c1 c2
      funext k
      fin_cases k
      · simp [getObserverPos, computeBaseVectors]
        field_simp
      · simp [getObserverPos, computeBaseVectors, hul]
        linarith
      · simp [getObserverPos, computeBaseVectors, hul]
        linarith
      · simp [getObserverPos, computeBaseVectors, hul]
        linarith
  · rintro ⟨h1, h2, h3⟩
    simp [setObserverPos, h1, h2, h3]

/-- C30: setting the position turns the camera: the position angle is reset, whatever it was. -/
theorem observer_position_orientation (k : CoordKind) (s s' : Screen) (ul c : ℝ) (pos : Vec)
    (h : setObserverPos k ul c s pos = some s') : s'.euler 0 = Real.pi := by
  cases k with
  | spherical =>
    simp only [setObserverPos, Option.some.injEq] at h
    rw [← h]
    simp [computeBaseVectors]
  | cartesian =>
    simp only [setObserverPos] at h
    split at h
    · exact absurd h (by simp)
    · simp only [Option.some.injEq] at h
      rw [← h]
      simp [computeBaseVectors]

/-! ### C48: direction of the ray -/

theorem lowerGt_spec (b s : ℝ) : lowerGt b s ≤ b ∧ (lowerGt b s = s ∨ b - 2 * Real.pi < lowerGt b s) ∧
    ∃ n : ℕ, lowerGt b s = s - n * (2 * Real.pi) := by
  fun_induction lowerGt b s with
  | case1 s h ih =>
    refine ⟨ih.1, ?_, ?_⟩
    · rcases ih.2.1 with h' | h'
      · right; rw [h']; linarith
      · exact .inr h'
    · obtain ⟨n, hn⟩ := ih.2.2
      exact ⟨n + 1, by rw [hn]; push_cast; ring⟩
  | case2 s h => exact ⟨not_lt.1 h, .inl rfl, 0, by simp⟩

theorem lowerGe_spec (b s : ℝ) : lowerGe b s < b ∧ (lowerGe b s = s ∨ b - 2 * Real.pi ≤ lowerGe b s) ∧
    ∃ n : ℕ, lowerGe b s = s - n * (2 * Real.pi) := by
  fun_induction lowerGe b s with
  | case1 s h ih =>
    refine ⟨ih.1, ?_, ?_⟩
    · rcases ih.2.1 with h' | h'
      · right; rw [h']; linarith
      · exact .inr h'
    · obtain ⟨n, hn⟩ := ih.2.2
      exact ⟨n + 1, by rw [hn]; push_cast; ring⟩
  | case2 s h => exact ⟨not_le.1 h, .inl rfl, 0, by simp⟩

theorem raiseLt_spec (b s : ℝ) : b ≤ raiseLt b s ∧ (raiseLt b s = s ∨ raiseLt b s < b + 2 * Real.pi) ∧
    ∃ n : ℕ, raiseLt b s = s + n * (2 * Real.pi) := by
  fun_induction raiseLt b s with
  | case1 s h ih =>
    refine ⟨ih.1, ?_, ?_⟩
    · rcases ih.2.1 with h' | h'
      · right; rw [h']; linarith
      · exact .inr h'
    · obtain ⟨n, hn⟩ := ih.2.2
      exact ⟨n + 1, by rw [hn]; push_cast; ring⟩
  | case2 s h => exact ⟨not_lt.1 h, .inl rfl, 0, by simp⟩

/-- C48: the angles are brought to the ranges announced and the direction is unchanged. -/
theorem move_angles (a b : ℝ) :
    (moveAngles a b).1 ∈ Set.Icc 0 Real.pi ∧ (moveAngles a b).2 ∈ Set.Ico 0 (2 * Real.pi) ∧
    velOf (moveAngles a b).1 (moveAngles a b).2 = velOf a b := by
  have hpi := Real.pi_pos
  obtain ⟨p1, -, n1, e1⟩ := lowerGt_spec Real.pi a
  obtain ⟨p2, p3, n2, e2⟩ := raiseLt_spec (-Real.pi) (lowerGt Real.pi a)
  have hs1 : raiseLt (-Real.pi) (lowerGt Real.pi a) ≤ Real.pi := by
    rcases p3 with h | h
    · rw [h]; exact p1
    · linarith
  have hsin : Real.sin (raiseLt (-Real.pi) (lowerGt Real.pi a)) = Real.sin a := by
    rw [e2, Real.sin_add_nat_mul_two_pi, e1, Real.sin_sub_nat_mul_two_pi]
  have hcos : Real.cos (raiseLt (-Real.pi) (lowerGt Real.pi a)) = Real.cos a := by
    rw [e2, Real.cos_add_nat_mul_two_pi, e1, Real.cos_sub_nat_mul_two_pi]
  have az : ∀ c : ℝ, raiseLt 0 (lowerGe (2 * Real.pi) c) ∈ Set.Ico 0 (2 * Real.pi) ∧
      Real.sin (raiseLt 0 (lowerGe (2 * Real.pi) c)) = Real.sin c ∧
      Real.cos (raiseLt 0 (lowerGe (2 * Real.pi) c)) = Real.cos c := by
    intro c
    obtain ⟨q1, -, m1, f1⟩ := lowerGe_spec (2 * Real.pi) c
    obtain ⟨q2, q3, m2, f2⟩ := raiseLt_spec 0 (lowerGe (2 * Real.pi) c)
    refine ⟨⟨q2, ?_⟩, ?_, ?_⟩
    · rcases q3 with h | h
      · rw [h]; exact q1
      · linarith
    · rw [f2, Real.sin_add_nat_mul_two_pi, f1, Real.sin_sub_nat_mul_two_pi]
    · rw [f2, Real.cos_add_nat_mul_two_pi, f1, Real.cos_sub_nat_mul_two_pi]
  simp only [moveAngles]
  by_cases hneg : raiseLt (-Real.pi) (lowerGt Real.pi a) < 0
  · simp only [hneg, if_true]
    obtain ⟨r, hs, hc⟩ := az (b + Real.pi)
    refine ⟨⟨by linarith, by linarith⟩, r, ?_⟩
    simp only [velOf, hs, hc, Real.sin_neg, Real.cos_neg, hsin, hcos, Real.sin_add_pi, Real.cos_add_pi]
    simp
  · simp only [hneg, if_false]
    obtain ⟨r, hs, hc⟩ := az b
    refine ⟨⟨by linarith, hs1⟩, r, ?_⟩
    simp only [velOf, hs, hc, hsin, hcos]

/-- The direction on the sky meant by a pair of screen angles (the photon travels the other way). -/
noncomputable def skyDir (kind : AngleKind) (x y : ℝ) : Vec3 :=
  match kind with
  | .spherical => ![Real.sin x * Real.cos y, Real.sin x * Real.sin y, Real.cos x]
  | .rectilinear => ![x / √(1 + x ^ 2 + y ^ 2), y / √(1 + x ^ 2 + y ^ 2), 1 / √(1 + x ^ 2 + y ^ 2)]
  | .equatorial => ![Real.cos y * Real.sin x, Real.sin y, Real.cos y * Real.cos x]

/-- C48: the photon comes from the direction meant by the angles. Equatorial angles: declinations between -π/2 and π/2. -/
theorem ray_direction (kind : AngleKind) (atInf : Bool) (euler0 x y : ℝ)
    (hinf : atInf = true) (hd : kind = .equatorial → 0 < Real.cos y) :
    velFor kind atInf 0 0 euler0 x y = -skyDir kind x y := by
  subst hinf
  simp only [velFor, (move_angles _ _).2.2]
  cases kind with
  | spherical =>
    funext i
    fin_cases i <;> simp [rotateVel, sphericalAngles, skyDir, velOf]
  | rectilinear =>
    have hq : 0 ≤ x * x + y * y := by nlinarith [mul_self_nonneg x, mul_self_nonneg y]
    have hsq := Real.sq_sqrt hq
    have h1 := atan2_cos x y
    have h2 := atan2_sin x y
    have e : (1 : ℝ) + (√(x * x + y * y)) ^ 2 = 1 + x ^ 2 + y ^ 2 := by rw [hsq]; ring
    funext i
    fin_cases i
    · simp [rotateVel, sphericalAngles, skyDir, velOf, Real.sin_arctan, e]
      rw [div_mul_eq_mul_div, h1]
    · simp [rotateVel, sphericalAngles, skyDir, velOf, Real.sin_arctan, e]
      rw [div_mul_eq_mul_div, h2]
    · simp [rotateVel, sphericalAngles, skyDir, velOf, Real.cos_arctan, e]
  | equatorial =>
    have hc := hd rfl
    have ex := Real.cos_sq_add_sin_sq x
    have ey := Real.cos_sq_add_sin_sq y
    have h1 := atan2_cos (Real.sin x) (Real.tan y)
    have h2 := atan2_sin (Real.sin x) (Real.tan y)
    have ht : Real.tan y * Real.cos y = Real.sin y := Real.tan_mul_cos hc.ne'
    have hsin : Real.sin (Real.arccos (Real.cos x * Real.cos y)) =
        Real.cos y * √(Real.sin x * Real.sin x + Real.tan y * Real.tan y) := by
      rw [Real.sin_arccos, ← Real.sqrt_sq hc.le, ← Real.sqrt_mul (sq_nonneg _), Real.sqrt_sq hc.le]
      congr 1
      have : Real.cos y ^ 2 * (Real.tan y * Real.tan y) = Real.sin y ^ 2 := by rw [← ht]; ring
      rw [mul_add, this]
      linear_combination -(Real.cos y ^ 2) * ex - ey
    have hcos : Real.cos (Real.arccos (Real.cos x * Real.cos y)) = Real.cos y * Real.cos x := by
      rw [Real.cos_arccos, mul_comm]
      · nlinarith [Real.neg_one_le_cos x, Real.cos_le_one x, Real.cos_le_one y]
      · nlinarith [Real.neg_one_le_cos x, Real.cos_le_one x, Real.cos_le_one y]
    funext i
    fin_cases i
    · simp [rotateVel, sphericalAngles, skyDir, velOf, hsin]
      rw [mul_assoc, h1]
    · simp [rotateVel, sphericalAngles, skyDir, velOf, hsin]
      rw [mul_assoc, h2, mul_comm, ht]
    · simp [rotateVel, sphericalAngles, skyDir, velOf, hcos]

/-- Finding: past the pole of the equatorial angles the direction is mirrored. -/
theorem ray_direction_past_pole_wrong (euler0 : ℝ) :
    velFor .equatorial true 0 0 euler0 0 (2 * Real.pi / 3) ≠ -skyDir .equatorial 0 (2 * Real.pi / 3) := by
  intro h
  have h1 := congrFun h 1
  simp only [velFor, (move_angles _ _).2.2] at h1
  have hcos : Real.cos (2 * Real.pi / 3) = -1 / 2 := by
    rw [show 2 * Real.pi / 3 = Real.pi - Real.pi / 3 by ring, Real.cos_pi_sub, Real.cos_pi_div_three]; norm_num
  have hs : 0 < Real.sin (2 * Real.pi / 3) :=
    Real.sin_pos_of_pos_of_lt_pi (by positivity) (by linarith [Real.pi_pos])
  have ht : Real.tan (2 * Real.pi / 3) < 0 := by
    rw [Real.tan_eq_sin_div_cos, hcos]
    exact div_neg_of_pos_of_neg hs (by norm_num)
  have h2 := atan2_sin 0 (Real.tan (2 * Real.pi / 3))
  rw [zero_mul, zero_add, Real.sqrt_mul_self_eq_abs, abs_of_neg ht] at h2
  have h3 : Real.sin (atan2 (Real.tan (2 * Real.pi / 3)) 0) = -1 := by
    have : Real.tan (2 * Real.pi / 3) ≠ 0 := ht.ne
    field_simp at h2
    linarith
  simp [rotateVel, sphericalAngles, skyDir, velOf, h3] at h1
  have : 0 ≤ Real.sin (Real.arccos (Real.cos (2 * Real.pi / 3))) := by
    rw [Real.sin_arccos]; exact Real.sqrt_nonneg _
  linarith

/-- C31, C48: the direction has unit length for every kind of angles, every offset and every observer. -/
theorem ray_unit (kind : AngleKind) (atInf : Bool) (d1 d2 euler0 x y : ℝ) :
    dot3 (velFor kind atInf d1 d2 euler0 x y) (velFor kind atInf d1 d2 euler0 x y) = 1 := by
  simp only [velFor]
  generalize moveAngles _ _ = ab
  have e1 := Real.cos_sq_add_sin_sq ab.1
  have e2 := Real.cos_sq_add_sin_sq ab.2
  have hv : dot3 (velOf ab.1 ab.2) (velOf ab.1 ab.2) = 1 := by
    simp [dot3, velOf]
    linear_combination Real.sin ab.1 ^ 2 * e2 + e1
  generalize velOf ab.1 ab.2 = v at hv
  have h1 := Real.cos_sq_add_sin_sq d1
  have h2 := Real.cos_sq_add_sin_sq d2
  have h3 := Real.cos_sq_add_sin_sq (Real.pi - euler0)
  simp only [rotateVel]
  simp only [dot3] at *
  split
  · exact hv
  · generalize Real.cos d1 = c1 at *
    generalize Real.sin d1 = s1 at *
    generalize Real.cos d2 = c2 at *
    generalize Real.sin d2 = s2 at *
    generalize Real.cos (Real.pi - euler0) = c3 at *
    generalize Real.sin (Real.pi - euler0) = s3 at *
    split
    · simp
      linear_combination hv + (v 0 ^ 2 + v 2 ^ 2) * h1 + (v 1 ^ 2 + (-(s1 * v 0) + c1 * v 2) ^ 2) * h2
    · simp
      linear_combination hv + (v 0 ^ 2 + v 2 ^ 2) * h1 + (v 1 ^ 2 + (-(s1 * v 0) + c1 * v 2) ^ 2) * h2 +
        ((c1 * v 0 + s1 * v 2) ^ 2 + (c2 * v 1 - s2 * (-(s1 * v 0) + c1 * v 2)) ^ 2) * h3

/-! ### C31: the launched vector -/

/-- An observer's frame. -/
structure Frame (g : Tensor) (u e1 e2 e3 : Vec) : Prop where
  time : sp g u u = -1
  n1 : sp g e1 e1 = 1
  n2 : sp g e2 e2 = 1
  n3 : sp g e3 e3 = 1
  u1 : sp g u e1 = 0
  u2 : sp g u e2 = 0
  u3 : sp g u e3 = 0
  o12 : sp g e1 e2 = 0
  o13 : sp g e1 e3 = 0
  o23 : sp g e2 e3 = 0

/-- C31: null, of unit frequency for the observer. -/
theorem ray_null {g : Tensor} (hg : g.IsSymm) {u e1 e2 e3 : Vec} (hf : Frame g u e1 e2 e3) (kind : AngleKind)
    (d1 d2 euler0 x y : ℝ) :
    let l := rayFrame u e1 e2 e3 (velFor kind false d1 d2 euler0 x y)
    sp g l l = 0 ∧ sp g l u = -1 := by
  intro l
  have hu := ray_unit kind false d1 d2 euler0 x y
  generalize hv : velFor kind false d1 d2 euler0 x y = v at hu
  have hl : l = v 0 • e1 + v 1 • e2 + v 2 • e3 + u := by
    funext k
    simp [l, hv, rayFrame]
  have c1 := MetricAlg.sp_comm hg e1 u
  have c2 := MetricAlg.sp_comm hg e2 u
  have c3 := MetricAlg.sp_comm hg e3 u
  have c12 := MetricAlg.sp_comm hg e2 e1
  have c13 := MetricAlg.sp_comm hg e3 e1
  have c23 := MetricAlg.sp_comm hg e3 e2
  rw [hl]
  simp only [MetricAlg.sp_add_left, MetricAlg.sp_add_right, MetricAlg.sp_smul_left, MetricAlg.sp_smul_right, c1, c2, c3,
    c12, c13, c23, hf.time, hf.n1, hf.n2, hf.n3, hf.u1, hf.u2, hf.u3, hf.o12, hf.o13, hf.o23]
  simp only [dot3] at hu
  constructor
  · linear_combination hu
  · ring

/-- C31 for the frames the code builds: every observer of unit four-velocity off the axis. -/
theorem ray_null_observer (ck : MetricAlg.CoordKind) (g : Tensor) (pos : Vec) (theta phi : ℝ) (u : Vec)
    (hg : MetricAlg.LorentzianAlong g u) (hu : sp g u u = -1) (hu0 : u 0 ≠ 0)
    (hpos : ck = .cartesian → ∃ r : ℝ, r ≠ 0 ∧ pos 1 = r * Real.sin theta * Real.cos phi ∧
      pos 2 = r * Real.sin theta * Real.sin phi ∧ pos 3 = r * Real.cos theta)
    (kind : AngleKind) (d1 d2 euler0 x y : ℝ) :
    ∃ e1 e2 e3, MetricAlg.observerTetrad ck g pos theta phi u = some (u, e1, e2, e3) ∧
      let l := rayFrame u e1 e2 e3 (velFor kind false d1 d2 euler0 x y)
      sp g l l = 0 ∧ sp g l u = -1 := by
  obtain ⟨e1, e2, e3, h, ⟨⟨o1, o2, o3, o4, o5, o6⟩, -⟩, n1, n2, n3⟩ :=
    MetricAlg.observer_tetrad ck g pos theta phi u hg hu hu0 hpos
  exact ⟨e1, e2, e3, h, ray_null hg.1 ⟨hu, n1, n2, n3, o1, o2, o3, o4, o5, o6⟩ kind d1 d2 euler0 x y⟩

/-- C31, observer at infinity: whenever a ray is launched it starts from the observer, is null and goes to the future,
provided the date direction is timelike and the space directions are spacelike there. -/
theorem ray_null_infinity (k : CoordKind) (s : Screen) (gmunu : Vec → Tensor) (pos : Vec) (vel : Vec3)
    (hg : (gmunu pos).IsSymm) (h00 : gmunu pos 0 0 < 0) (hsp : ∀ w : Vec, w 0 = 0 → 0 ≤ sp (gmunu pos) w w)
    (hok : rayInfinity k s (gmunu pos) pos vel ≠ none) :
    ∃ c, launchInfinity k s gmunu pos vel = some c ∧ MetricAlg.posOf c = pos ∧
      sp (gmunu pos) (MetricAlg.velOf c) (MetricAlg.velOf c) = 0 ∧ 0 ≤ c 4 ∧
      some ![c 5, c 6, c 7] = rayInfinity k s (gmunu pos) pos vel := by
  obtain ⟨v, hv⟩ := Option.ne_none_iff_exists'.1 hok
  simp only [launchInfinity, hv]
  generalize hc : (![pos 0, pos 1, pos 2, pos 3, 0, v 0, v 1, v 2] : Fin 8 → ℝ) = coord
  have hp : MetricAlg.posOf coord = pos := by
    funext i; rw [← hc]; fin_cases i <;> rfl
  have hq := fun t => MetricAlg.withTime_norm hg (coord := coord) t
  have hspace := hsp (MetricAlg.withTime coord 0) (by simp [MetricAlg.withTime])
  have h0 := hq 0
  generalize (∑ i : Fin 3, gmunu pos 0 i.succ * coord ⟨4 + i.succ, by simp; omega⟩) = b at hq h0
  generalize (∑ i : Fin 3, ∑ j : Fin 3, gmunu pos i.succ j.succ * coord ⟨4 + i.succ, by simp; omega⟩ *
    coord ⟨4 + j.succ, by simp; omega⟩) = cc at hq h0
  have hcc : 0 ≤ cc := by rw [h0] at hspace; simpa using hspace
  have hD : 0 ≤ b ^ 2 - gmunu pos 0 0 * cc := by nlinarith
  have hDs := Real.sq_sqrt hD
  obtain ⟨c', t2, h1, h2, h3, h4, h5⟩ := MetricAlg.nullify gmunu coord (by rw [hp]; exact hg) (by rw [hp]; exact h00.ne)
    ⟨(-b - √(b ^ 2 - gmunu pos 0 0 * cc)) / gmunu pos 0 0, by
      rw [hp, hq]
      have := h00.ne
      field_simp
      linear_combination hDs⟩
  have hp' : MetricAlg.posOf c' = pos := by
    rw [← hp]
    funext i
    simp only [MetricAlg.posOf]
    exact h2 _ (by intro h; have := congrArg Fin.val h; simp at this; omega)
  rw [hp] at h4 h5
  rw [hp'] at h3
  refine ⟨c', by rw [h1]; rfl, hp', h3, ?_, ?_⟩
  · have r1 := (h4 (c' 4)).2 (.inl rfl)
    have r2 := (h4 t2).2 (.inr rfl)
    have r3 := h5 h00
    rw [hq] at r1 r2
    by_contra hneg
    push Not at hneg
    -- both roots negative: impossible since their product is `cc / g00 ≤ 0`
    by_cases he : c' 4 = t2
    · -- the other root is `-2 b / g00 - c' 4`
      have r4 := (h4 (-2 * b / gmunu pos 0 0 - c' 4)).1 (by
        rw [hq]
        have := h00.ne
        field_simp
        linear_combination gmunu pos 0 0 * r1)
      rw [← he, or_self] at r4
      have hb : b = -(gmunu pos 0 0 * c' 4) := by
        have := h00.ne
        field_simp at r4
        linarith
      rw [hb] at r1
      nlinarith [mul_pos (neg_pos.2 h00) (mul_pos (neg_pos.2 hneg) (neg_pos.2 hneg))]
    · have hne : c' 4 - t2 ≠ 0 := sub_ne_zero.2 he
      have hsum : gmunu pos 0 0 * (c' 4 + t2) = -2 * b := by
        have : (c' 4 - t2) * (gmunu pos 0 0 * (c' 4 + t2) + 2 * b) = 0 := by linear_combination r1 - r2
        rcases mul_eq_zero.1 this with h | h
        · exact absurd h hne
        · linarith
      have hprod : gmunu pos 0 0 * (c' 4 * t2) = cc := by
        have : 2 * b = -(gmunu pos 0 0 * (c' 4 + t2)) := by linarith
        rw [this] at r1
        linear_combination -r1
      have ht2 : t2 < 0 := lt_of_le_of_lt r3 hneg
      nlinarith [mul_pos (neg_pos.2 h00) (mul_pos (neg_pos.2 hneg) (neg_pos.2 ht2))]
  · rw [h2 5 (by decide), h2 6 (by decide), h2 7 (by decide), ← hc]
    congr 1
    funext i
    fin_cases i <;> rfl

/-! ### C47: the two coordinate systems give the same camera -/

/-- Cartesian velocity of a point whose spherical coordinates move at rate `w`: derivative of the Cartesian position. -/
def CartVelocity (q w : Vec3) (c : Vec3) : Prop :=
  ∀ i, HasDerivAt (fun t : ℝ => sphericalToCartesian (fun k => q k + t * w k) i) (c i) 0

theorem cartVelocity_eq (q w : Vec3) : CartVelocity q w
    ![w 0 * Real.sin (q 1) * Real.cos (q 2) + q 0 * Real.cos (q 1) * Real.cos (q 2) * w 1 -
        q 0 * Real.sin (q 1) * Real.sin (q 2) * w 2,
      w 0 * Real.sin (q 1) * Real.sin (q 2) + q 0 * Real.cos (q 1) * Real.sin (q 2) * w 1 +
        q 0 * Real.sin (q 1) * Real.cos (q 2) * w 2,
      w 0 * Real.cos (q 1) - q 0 * Real.sin (q 1) * w 1] := by
  have hl : ∀ k, HasDerivAt (fun t : ℝ => q k + t * w k) (w k) 0 := by
    intro k
    simpa using ((hasDerivAt_id (0 : ℝ)).mul_const (w k)).const_add (q k)
  have h0 := hl 0
  have hs1 : HasDerivAt (fun t : ℝ => Real.sin (q 1 + t * w 1)) (Real.cos (q 1) * w 1) 0 := by
    simpa using (hl 1).sin
  have hc1 : HasDerivAt (fun t : ℝ => Real.cos (q 1 + t * w 1)) (-Real.sin (q 1) * w 1) 0 := by
    simpa using (hl 1).cos
  have hs2 : HasDerivAt (fun t : ℝ => Real.sin (q 2 + t * w 2)) (Real.cos (q 2) * w 2) 0 := by
    simpa using (hl 2).sin
  have hc2 : HasDerivAt (fun t : ℝ => Real.cos (q 2 + t * w 2)) (-Real.sin (q 2) * w 2) 0 := by
    simpa using (hl 2).cos
  intro i
  fin_cases i
  · simp only [sphericalToCartesian, Fin.zero_eta, Matrix.cons_val_zero]
    refine ((h0.mul hs1).mul hc2).congr_deriv ?_
    simp
    ring
  · simp only [sphericalToCartesian, Fin.mk_one, Matrix.cons_val_one, Matrix.cons_val_zero]
    refine ((h0.mul hs1).mul hs2).congr_deriv ?_
    simp
    ring
  · simp only [sphericalToCartesian, Fin.reduceFinMk, Matrix.cons_val]
    refine (h0.mul hc1).congr_deriv ?_
    simp
    ring

/-- The flat metric in spherical coordinates. -/
noncomputable def flatSpherical (pos : Vec) : Tensor :=
  Matrix.diagonal ![-1, 1, pos 1 ^ 2, pos 1 ^ 2 * Real.sin (pos 2) ^ 2]

theorem flatSpherical_roots {r θ : ℝ} (hr : 0 < r) (hθ : θ ∈ Set.Ioo 0 Real.pi) (t φ : ℝ) :
    √(flatSpherical ![t, r, θ, φ] 1 1) = 1 ∧ √(flatSpherical ![t, r, θ, φ] 2 2) = r ∧
    √(flatSpherical ![t, r, θ, φ] 3 3) = r * Real.sin θ := by
  have hs := Real.sin_pos_of_mem_Ioo hθ
  refine ⟨?_, ?_, ?_⟩
  · simp [flatSpherical]
  · simp [flatSpherical]
    exact Real.sqrt_sq hr.le
  · simp [flatSpherical]
    rw [← mul_pow]
    exact Real.sqrt_sq (by positivity)

/-- The axes for a camera looking from colatitude `θ`, longitude `φ`. -/
theorem axes_at {s : Screen} (h : Cached s) {θ φ : ℝ} (h1 : s.euler 1 = Real.pi - θ)
    (h2 : s.euler 2 = -Real.pi / 2 - φ) (v : Vec3) :
    ![∑ i, v i * s.ex i, ∑ i, v i * s.ey i, ∑ i, v i * s.ez i] = screenToCartesian (s.euler 0) θ φ v := by
  have c1 : Real.cos (s.euler 1) = -Real.cos θ := by rw [h1, Real.cos_pi_sub]
  have s1 : Real.sin (s.euler 1) = Real.sin θ := by rw [h1, Real.sin_pi_sub]
  have c2 : Real.cos (s.euler 2) = -Real.sin φ := by
    rw [h2, show -Real.pi / 2 - φ = -(φ + Real.pi / 2) by ring, Real.cos_neg, Real.cos_add_pi_div_two]
  have s2 : Real.sin (s.euler 2) = -Real.cos φ := by
    rw [h2, show -Real.pi / 2 - φ = -(φ + Real.pi / 2) by ring, Real.sin_neg, Real.sin_add_pi_div_two]
  rw [h.ex, h.ey, h.ez]
  funext i
  fin_cases i <;> simp [computeBaseVectors, screenToCartesian, Fin.sum_univ_three, c1, s1, c2, s2] <;> ring

theorem spherical_to_cartesian_components {r θ : ℝ} (hr : 0 < r) (hθ : θ ∈ Set.Ioo 0 Real.pi) (euler0 t φ : ℝ) (v : Vec3) :
    CartVelocity ![r, θ, φ] (screenToSpherical euler0 (flatSpherical ![t, r, θ, φ]) v) (screenToCartesian euler0 θ φ v) := by
  obtain ⟨g1, g2, g3⟩ := flatSpherical_roots hr hθ t φ
  have hs := (Real.sin_pos_of_mem_Ioo hθ).ne'
  have hr' := hr.ne'
  have := cartVelocity_eq ![r, θ, φ] (screenToSpherical euler0 (flatSpherical ![t, r, θ, φ]) v)
  refine (congrArg (CartVelocity _ _) ?_).mp this
  funext i
  fin_cases i
  · simp [screenToSpherical, screenToCartesian, g1, g2, g3]
    field_simp
    ring
  · simp [screenToSpherical, screenToCartesian, g1, g2, g3]
    field_simp
    ring
  · simp [screenToSpherical, screenToCartesian, g1, g2, g3]
    field_simp
    ring

/-- C47: in flat space, for an observer farther than 20 at the same place, cameras working in spherical and in Cartesian
coordinates launch the same ray. -/
theorem ray_coordinates {s : Screen} (h : Cached s) {t r θ φ : ℝ} (hr : 20 ≤ r) (hθ : θ ∈ Set.Ioo 0 Real.pi)
    (h1 : s.euler 1 = Real.pi - θ) (h2 : s.euler 2 = -Real.pi / 2 - φ) (vel : Vec3) :
    ∃ w c, rayInfinity .spherical s (flatSpherical ![t, r, θ, φ]) ![t, r, θ, φ] vel = some w ∧
      rayInfinity .cartesian s MetricAlg.flat
        (Fin.cons t (sphericalToCartesian ![r, θ, φ])) vel = some c ∧
      CartVelocity ![r, θ, φ] w c := by
  have hr0 : 0 < r := by linarith
  have hs := Real.sin_pos_of_mem_Ioo hθ
  refine ⟨screenToSpherical (s.euler 0) (flatSpherical ![t, r, θ, φ]) vel,
    screenToCartesian (s.euler 0) θ φ vel, ?_, ?_, spherical_to_cartesian_components hr0 hθ _ t φ vel⟩
  · have c : ¬((![t, r, θ, φ] : Vec) 2 = 0 ∨ (![t, r, θ, φ] : Vec) 2 = Real.pi ∨ (![t, r, θ, φ] : Vec) 1 < 20 ∨
        flatSpherical ![t, r, θ, φ] 1 1 ≤ 0 ∨ flatSpherical ![t, r, θ, φ] 2 2 ≤ 0 ∨
        flatSpherical ![t, r, θ, φ] 3 3 ≤ 0) := by
      simp only [not_or]
      refine ⟨?_, ?_, ?_, ?_, ?_, ?_⟩
      · simpa using hθ.1.ne'
      · simpa using hθ.2.ne
      · simpa using hr
      · simp [flatSpherical]
      · simp [flatSpherical]; positivity
      · simp [flatSpherical]; positivity
    rw [rayInfinity, if_neg c]
    rfl
  · have e1 := Real.cos_sq_add_sin_sq θ
    have e2 := Real.cos_sq_add_sin_sq φ
    have hn : ¬(r * Real.sin θ * Real.cos φ * (r * Real.sin θ * Real.cos φ) +
        r * Real.sin θ * Real.sin φ * (r * Real.sin θ * Real.sin φ) + r * Real.cos θ * (r * Real.cos θ) < 20) := by
      have : r * Real.sin θ * Real.cos φ * (r * Real.sin θ * Real.cos φ) +
        r * Real.sin θ * Real.sin φ * (r * Real.sin θ * Real.sin φ) + r * Real.cos θ * (r * Real.cos θ) = r ^ 2 := by
        linear_combination r ^ 2 * Real.sin θ ^ 2 * e2 + r ^ 2 * e1
      rw [this]
      nlinarith
    have hn' : ¬((Fin.cons t (sphericalToCartesian ![r, θ, φ]) : Vec) 1 * (Fin.cons t (sphericalToCartesian ![r, θ, φ]) : Vec) 1
        + (Fin.cons t (sphericalToCartesian ![r, θ, φ]) : Vec) 2 * (Fin.cons t (sphericalToCartesian ![r, θ, φ]) : Vec) 2
        + (Fin.cons t (sphericalToCartesian ![r, θ, φ]) : Vec) 3 * (Fin.cons t (sphericalToCartesian ![r, θ, φ]) : Vec) 3
        < 20) := hn
    simp only [rayInfinity]
    rw [if_neg hn', axes_at h h1 h2]

/-- Finding: the check that the observer is far enough compares the squared distance with 20 in Cartesian coordinates, the
distance in spherical ones: a distance of 10 is accepted by the first and refused by the second. -/
theorem distance_check_wrong : ∃ (s : Screen) (vel : Vec3),
    rayInfinity .spherical s (flatSpherical ![0, 10, Real.pi / 2, 0]) ![0, 10, Real.pi / 2, 0] vel = none ∧
    rayInfinity .cartesian s MetricAlg.flat ![0, 10, 0, 0] vel ≠ none := by
  refine ⟨computeBaseVectors ⟨0, 10, 0, 0, 0, 0⟩, 0, ?_, ?_⟩
  · rw [rayInfinity, if_pos]
    right; right; left
    norm_num
  · simp only [rayInfinity]
    rw [if_neg (by simp; norm_num)]
    simp

/-! ### C49: polarisation basis -/

/-- Cross product. -/
def cross3 (u v : Vec3) : Vec3 := ![u 1 * v 2 - u 2 * v 1, u 2 * v 0 - u 0 * v 2, u 0 * v 1 - u 1 * v 0]

/-- C49: on the screen the basis and the direction of the photon (before offsets) are orthonormal and right-handed. -/
theorem polar_basis (a b : ℝ) :
    dot3 (polarBasis a b).1 (polarBasis a b).1 = 1 ∧ dot3 (polarBasis a b).2 (polarBasis a b).2 = 1 ∧
    dot3 (polarBasis a b).1 (polarBasis a b).2 = 0 ∧ dot3 (polarBasis a b).1 (velOf a b) = 0 ∧
    dot3 (polarBasis a b).2 (velOf a b) = 0 ∧ cross3 (polarBasis a b).1 (polarBasis a b).2 = velOf a b := by
  have ha := Real.cos_sq_add_sin_sq a
  have hb := Real.cos_sq_add_sin_sq b
  simp only [polarBasis, velOf]
  generalize Real.cos a = ca at *
  generalize Real.sin a = sa at *
  generalize Real.cos b = cb at *
  generalize Real.sin b = sb at *
  have hsa : sa ^ 2 = 1 - ca ^ 2 := by linarith
  have hsb : sb ^ 2 = 1 - cb ^ 2 := by linarith
  have hsb3 : sb ^ 3 = sb * (1 - cb ^ 2) := by rw [pow_succ, hsb]; ring
  have hsb4 : sb ^ 4 = (1 - cb ^ 2) ^ 2 := by rw [← hsb]; ring
  refine ⟨?_, ?_, ?_, ?_, ?_, ?_⟩
  · simp [dot3]; ring_nf; simp only [hsa, hsb, hsb4]; ring
  · simp [dot3]; ring_nf; simp only [hsa, hsb, hsb4]; ring
  · simp [dot3]; ring_nf; simp only [hsa, hsb3]; ring
  · simp [dot3]; ring
  · simp [dot3]; ring
  · funext i
    fin_cases i <;> simp [cross3] <;> ring_nf <;> simp only [hsa, hsb, hsb3, hsb4] <;> ring

/-- C49: seen from infinity in flat space, the conversion to coordinates keeps lengths and angles, in both coordinate
systems, for every position angle. -/
theorem screen_isometry (euler0 θ φ : ℝ) (u v : Vec3) :
    dot3 (screenToCartesian euler0 θ φ u) (screenToCartesian euler0 θ φ v) = dot3 u v := by
  have ho := Real.cos_sq_add_sin_sq euler0
  have ht := Real.cos_sq_add_sin_sq θ
  have hp := Real.cos_sq_add_sin_sq φ
  simp only [screenToCartesian, dot3]
  generalize Real.cos euler0 = co at *
  generalize Real.sin euler0 = so at *
  generalize Real.cos θ = ct at *
  generalize Real.sin θ = st at *
  generalize Real.cos φ = cp at *
  generalize Real.sin φ = sp at *
  have h1 : so ^ 2 = 1 - co ^ 2 := by linarith
  have h2 : st ^ 2 = 1 - ct ^ 2 := by linarith
  have h3 : sp ^ 2 = 1 - cp ^ 2 := by linarith
  simp
  ring_nf
  simp only [h1, h2, h3]
  ring

/-- Same in spherical coordinates, any metric with positive diagonal space components. -/
theorem screen_isometry_spherical (euler0 : ℝ) (g : Tensor) (h1 : 0 < g 1 1) (h2 : 0 < g 2 2) (h3 : 0 < g 3 3) (u v : Vec3) :
    let U := screenToSpherical euler0 g u
    let V := screenToSpherical euler0 g v
    g 1 1 * U 0 * V 0 + g 2 2 * U 1 * V 1 + g 3 3 * U 2 * V 2 = dot3 u v := by
  intro U V
  have ho := Real.cos_sq_add_sin_sq euler0
  have q1 := Real.sq_sqrt h1.le
  have q2 := Real.sq_sqrt h2.le
  have q3 := Real.sq_sqrt h3.le
  have p1 := (Real.sqrt_pos.2 h1).ne'
  have p2 := (Real.sqrt_pos.2 h2).ne'
  have p3 := (Real.sqrt_pos.2 h3).ne'
  simp only [U, V, screenToSpherical, dot3]
  generalize √(g 1 1) = r1 at *
  generalize √(g 2 2) = r2 at *
  generalize √(g 3 3) = r3 at *
  rw [← q1, ← q2, ← q3]
  simp
  field_simp
  linear_combination (u 0 * v 0 + u 1 * v 1) * ho

/-- Finding: with an offset of the field (`dangle1`), the direction of the photon is rotated and the polarisation basis is
not: the basis is no longer orthogonal to the ray. -/
theorem polar_basis_offset_wrong {d1 : ℝ} (hd : Real.sin d1 ≠ 0) (euler0 : ℝ) :
    let ab := sphericalAngles .equatorial d1 0 0 0
    let ab := moveAngles ab.1 ab.2
    dot3 (polarBasis ab.1 ab.2).1 (velFor .equatorial true d1 0 euler0 0 0) ≠ 0 := by
  have e : moveAngles 0 0 = (0, 0) := by
    have hpi := Real.pi_pos
    have a1 : lowerGt Real.pi 0 = 0 := by rw [lowerGt, if_neg (by linarith)]
    have a2 : raiseLt (-Real.pi) 0 = 0 := by rw [raiseLt, if_neg (by linarith)]
    have a3 : lowerGe (2 * Real.pi) 0 = 0 := by rw [lowerGe, if_neg (by linarith)]
    have a4 : raiseLt 0 0 = 0 := by rw [raiseLt, if_neg (by linarith)]
    simp [moveAngles, a1, a2, a3, a4]
  have e0 : (⟨0, 0⟩ : ℂ) = 0 := rfl
  simp [sphericalAngles, velFor, e, atan2, e0, polarBasis, velOf, rotateVel, dot3, hd]

/-! ### C50: pixels -/

/-- C50: the image is centred: opposite pixels look in opposite directions. -/
theorem pixels_centred (kind : AngleKind) (hk : kind ≠ .spherical) (fov az : ℝ) {n i j : Nat} (hi : 1 ≤ i ∧ i ≤ n)
    (hj : 1 ≤ j ∧ j ≤ n) {p : ℝ × ℝ} (h : pixelAngles kind fov az n i j = some p) :
    pixelAngles kind fov az n (n + 1 - i) (n + 1 - j) = some (-p.1, -p.2) := by
  have ci : ((n + 1 - i : Nat) : ℝ) = n + 1 - i := by rw [Nat.cast_sub (by omega)]; push_cast; ring
  have cj : ((n + 1 - j : Nat) : ℝ) = n + 1 - j := by rw [Nat.cast_sub (by omega)]; push_cast; ring
  cases kind with
  | spherical => exact absurd rfl hk
  | equatorial =>
    simp only [pixelAngles, Option.some.injEq] at h ⊢
    rw [← h, ci, cj]
    refine Prod.ext ?_ ?_ <;> (simp only; ring)
  | rectilinear =>
    simp only [pixelAngles] at h ⊢
    split at h
    · exact absurd h (by simp)
    · rename_i hf
      simp only [hf, if_false, Option.some.injEq] at h ⊢
      rw [← h, ci, cj]
      refine Prod.ext ?_ ?_ <;> (simp only; ring)

theorem pixel_in {n i : Nat} (hi : 1 ≤ i ∧ i ≤ n) {w : ℝ} (hw : 0 < w) :
    |w / n * ((i : ℝ) - ((n : ℝ) + 1) / 2)| < w / 2 := by
  have hn : (0 : ℝ) < n := by exact_mod_cast (by omega : 0 < n)
  have h1 : (1 : ℝ) ≤ i := by exact_mod_cast hi.1
  have h2 : (i : ℝ) ≤ n := by exact_mod_cast hi.2
  rw [abs_mul, abs_of_pos (by positivity), div_mul_eq_mul_div, div_lt_div_iff₀ hn two_pos]
  have : |(i : ℝ) - ((n : ℝ) + 1) / 2| < n / 2 := by
    rw [abs_lt]; constructor <;> linarith
  nlinarith

/-- C50: every pixel is inside the field of view. -/
theorem pixels_inside (fov az : ℝ) (hfov : 0 < fov) {n i j : Nat} (hi : 1 ≤ i ∧ i ≤ n) (hj : 1 ≤ j ∧ j ≤ n) :
    (∃ p, pixelAngles .equatorial fov az n i j = some p ∧ |p.1| < fov / 2 ∧ |p.2| < fov / 2) ∧
    (fov < Real.pi → ∃ p, pixelAngles .rectilinear fov az n i j = some p ∧
      |Real.arctan p.1| < fov / 2 ∧ |Real.arctan p.2| < fov / 2) := by
  constructor
  · refine ⟨_, rfl, ?_, ?_⟩
    · simp only [neg_mul, abs_neg]
      exact pixel_in hi hfov
    · exact pixel_in hj hfov
  · intro hpi
    have ht : 0 < Real.tan (fov / 2) := Real.tan_pos_of_pos_of_lt_pi_div_two (by linarith) (by linarith)
    have key : ∀ x : ℝ, |x| < Real.tan (fov / 2) → |Real.arctan x| < fov / 2 := by
      intro x hx
      have e : fov / 2 = Real.arctan (Real.tan (fov / 2)) := (Real.arctan_tan (by linarith) (by linarith)).symm
      rw [e, abs_lt, ← Real.arctan_neg]
      rw [abs_lt] at hx
      exact ⟨Real.arctan_strictMono hx.1, Real.arctan_strictMono hx.2⟩
    have h2 : ∀ {k : Nat}, 1 ≤ k ∧ k ≤ n →
        |2 * Real.tan (fov * 0.5) / n * ((k : ℝ) - ((n : ℝ) + 1) / 2)| < Real.tan (fov / 2) := by
      intro k hk
      have := pixel_in hk (w := 2 * Real.tan (fov * 0.5)) (by
        rw [show fov * 0.5 = fov / 2 by ring]; linarith)
      rw [show fov * 0.5 = fov / 2 by ring] at this ⊢
      linarith
    refine ⟨_, by simp only [pixelAngles]; rw [if_neg (by linarith)], ?_, ?_⟩
    · apply key
      simp only [neg_mul, abs_neg]
      exact h2 hi
    · exact key _ (h2 hj)

/-- C50: different pixels look in different directions. -/
theorem pixels_distinct (kind : AngleKind) (fov az : ℝ) (hfov : 0 < fov) (haz : kind = .spherical → az ≠ 0) {n i j i' j' : Nat}
    {p : ℝ × ℝ} (hn : 0 < n) (h : pixelAngles kind fov az n i j = some p)
    (h' : pixelAngles kind fov az n i' j' = some p) : i = i' ∧ j = j' := by
  have hn' : (n : ℝ) ≠ 0 := by exact_mod_cast hn.ne'
  have lin : ∀ {a b : Nat} {w c : ℝ}, w ≠ 0 → w * ((a : ℝ) - c) = w * ((b : ℝ) - c) → a = b := by
    intro a b w c hw he
    have := mul_left_cancel₀ hw he
    exact_mod_cast (by linarith : (a : ℝ) = b)
  cases kind with
  | spherical =>
    simp only [pixelAngles] at h h'
    split at h
    · exact absurd h (by simp)
    · rename_i h1
      have hm : (n : ℝ) - 1 ≠ 0 := by
        intro hc
        apply h1
        exact_mod_cast (by linarith : (n : ℝ) = 1)
      simp only [h1, if_false, Option.some.injEq] at h h'
      rw [← h'] at h
      simp only [Prod.mk.injEq] at h
      obtain ⟨e1, e2⟩ := h
      constructor
      · refine lin (w := fov / (2 * ((n : ℝ) - 1))) (c := 1) (by positivity) ?_
        rw [div_mul_eq_mul_div, div_mul_eq_mul_div, mul_comm fov, mul_comm fov]
        exact e1
      · refine lin (w := az / ((n : ℝ) - 1)) (c := 1) (div_ne_zero (haz rfl) hm) ?_
        rw [div_mul_eq_mul_div, div_mul_eq_mul_div, mul_comm az, mul_comm az]
        linarith
  | equatorial =>
    simp only [pixelAngles, Option.some.injEq] at h h'
    rw [← h'] at h
    simp only [Prod.mk.injEq] at h
    exact ⟨lin (by simp [hfov.ne', hn']) h.1, lin (by simp [hfov.ne', hn']) h.2⟩
  | rectilinear =>
    simp only [pixelAngles] at h h'
    split at h
    · exact absurd h (by simp)
    · rename_i h1
      have ht : 0 < Real.tan (fov * 0.5) :=
        Real.tan_pos_of_pos_of_lt_pi_div_two (by linarith) (by linarith)
      simp only [h1, if_false, Option.some.injEq] at h h'
      rw [← h'] at h
      simp only [Prod.mk.injEq] at h
      exact ⟨lin (by simp [ht.ne', hn']) h.1, lin (by simp [ht.ne', hn']) h.2⟩

/-- C50: moving a far observer to `dmax`: the new position is on the same line of sight at distance `dmax`, the light
travel time over the removed distance is taken off the date and the impact parameters are kept. -/
theorem rescale_observer {k : CoordKind} {robs dmax : ℝ} (hd : 0 < dmax) (hfar : dmax < robs) (pos : Vec) (x y : ℝ)
    (hk : k = .spherical → pos 1 = robs) :
    let q := rescale k robs dmax pos x y
    (∀ i, robs * coordToXYZ k q.1 i = dmax * coordToXYZ k pos i) ∧ q.1 0 = pos 0 - (robs - dmax) ∧
    dmax * q.2.1 = robs * x ∧ dmax * q.2.2 = robs * y := by
  intro q
  have hr : 0 < robs := by linarith
  simp only [q, rescale, hfar, if_true]
  refine ⟨?_, ?_, by field_simp, by field_simp⟩
  · intro i
    cases k with
    | spherical =>
      have := hk rfl
      fin_cases i <;> simp [coordToXYZ, this] <;> ring
    | cartesian =>
      fin_cases i <;> simp [coordToXYZ] <;> field_simp
  · cases k <;> rfl

/-- Finding: for spherical screen angles the azimuth is scaled too: the ray of azimuth π/2 is launched with azimuth π when
the observer is moved to half the distance. -/
theorem rescale_azimuth_wrong :
    let q := rescale .spherical 2 1 ![0, 2, Real.pi / 2, 0] (Real.pi / 8) (Real.pi / 2)
    q.2.2 = Real.pi ∧ velFor .spherical true 0 0 0 q.2.1 q.2.2 ≠ -skyDir .spherical q.2.1 (Real.pi / 2) := by
  intro q
  have hq : q.2 = (Real.pi / 4, Real.pi) := by
    simp only [q, rescale]
    norm_num
    ring
  rw [hq]
  refine ⟨rfl, ?_⟩
  rw [ray_direction .spherical true 0 _ _ rfl (by simp)]
  intro h
  have := congrFun h 0
  simp [skyDir] at this

/-! ### Examples -/

/-- A camera tilted by a right angle: the metric's Z axis points along -Y on the sky. -/
example : (computeBaseVectors ⟨0, 1, ![0, Real.pi / 2, 0], 0, 0, 0⟩).ez = ![0, -1, 0] := by
  simp [computeBaseVectors]

example : ∃ s', (Op.PALN (Real.pi / 2)).run (computeBaseVectors ⟨0, 1, 0, 0, 0, 0⟩) = some s' ∧ s'.ex = ![0, 1, 0] :=
  ⟨_, rfl, by simp [computeBaseVectors]⟩

/-- The central ray of a camera looking along the frame's third axis. -/
example : velFor .equatorial true 0 0 0 0 0 = ![0, 0, -1] := by
  rw [ray_direction _ _ _ _ _ rfl (by simp)]
  funext i
  fin_cases i <;> simp [skyDir]

/-- A static observer in flat space has a frame. -/
example : Frame MetricAlg.flat ![1, 0, 0, 0] ![0, 1, 0, 0] ![0, 0, 1, 0] ![0, 0, 0, 1] := by
  constructor <;> simp [MetricAlg.flat_sp]

example : pixelAngles .equatorial 1 0 2 1 1 = some (1 / 4, -1 / 4) := by
  simp [pixelAngles]; norm_num

end Gyoto.Camera
