import Verif.Model.ThinDisk
import Verif.Props.Bisect
import Verif.Lemmas.PhiTheta
import Mathlib.Analysis.Real.Sqrt

/-! # C53: crossing a thin disk -/

namespace Gyoto.ThinDisk

open Real Gyoto.Bisect Gyoto.PhiTheta

/-- Which side of the equatorial plane a position is on: the sign of minus (spherical) or plus (Cartesian) the height above the
plane, per unit radius in the spherical case. -/
noncomputable def side (kind : Kind) (c : ℕ → ℝ) : ℝ :=
  match kind with
  | .spherical => -cos (c 2)
  | .cartesian => c 3

theorem wrapDownGe_spec (p hi x : ℝ) (hp : 0 < p) :
    ∃ n : ℕ, wrapDownGe p hi x = x - n * p ∧ wrapDownGe p hi x < hi ∧ (0 < n → hi - p ≤ wrapDownGe p hi x) := by
  fun_induction wrapDownGe p hi x with
  | case1 x h ih =>
    obtain ⟨n, h1, h2, h3⟩ := ih
    refine ⟨n + 1, by rw [h1]; push_cast; ring, h2, fun _ => ?_⟩
    rcases Nat.eq_zero_or_pos n with hn | hn
    · subst hn; rw [h1]; simp; linarith [h.2]
    · exact h3 hn
  | case2 x h => exact ⟨0, by simp, by by_contra hc; exact h ⟨hp, not_lt.1 hc⟩, by simp⟩

/-- In spherical coordinates the function is an angle whose sine is minus the cosine of the colatitude. -/
theorem height_spherical (c : ℕ → ℝ) :
    -π ≤ height .spherical c ∧ height .spherical c < π ∧ sin (height .spherical c) = -cos (c 2) ∧
    ∃ n : ℤ, height .spherical c = c 2 - π / 2 + n * (2 * π) := by
  have hp : 0 < 2 * π := by positivity
  obtain ⟨n, h1, h2, h3⟩ := wrapUp_spec (2 * π) (-π) (c 2 - π * 0.5) hp
  obtain ⟨m, g1, g2, g3⟩ := wrapDownGe_spec (2 * π) π (wrapUp (2 * π) (-π) (c 2 - π * 0.5)) hp
  have he : height .spherical c = c 2 - π / 2 + ((n : ℤ) - (m : ℤ) : ℤ) * (2 * π) := by
    rw [height, g1, h1]; push_cast; ring
  refine ⟨?_, g2, ?_, _, he⟩
  · rcases Nat.eq_zero_or_pos m with hm | hm
    · subst hm; rw [height, g1]; simpa using h2
    · have := g3 hm; rw [height]; linarith
  · rw [he, Real.sin_add_int_mul_two_pi, Real.sin_sub_pi_div_two]

theorem height_neg_iff (kind : Kind) (c : ℕ → ℝ) (h : side kind c ≠ 0) : height kind c < 0 ↔ side kind c < 0 := by
  cases kind with
  | cartesian => rfl
  | spherical =>
    obtain ⟨h1, h2, h3, -⟩ := height_spherical c
    simp only [side] at h ⊢
    rw [← h3] at h ⊢
    constructor
    · intro hn
      have : -π < height .spherical c := lt_of_le_of_ne h1 fun e => h (by rw [← e]; simp)
      exact sin_neg_of_neg_of_neg_pi_lt hn this
    · intro hn
      by_contra hc
      exact absurd (sin_nonneg_of_nonneg_of_le_pi (not_lt.1 hc) h2.le) (not_le.2 hn)

theorem height_pos_iff (kind : Kind) (c : ℕ → ℝ) (h : side kind c ≠ 0) : 0 < height kind c ↔ 0 < side kind c := by
  have hz : height kind c ≠ 0 := by
    cases kind with
    | cartesian => exact h
    | spherical => intro e; apply h; rw [side, ← (height_spherical c).2.2.1, e, sin_zero]
  have := height_neg_iff kind c h
  constructor
  · intro hp; exact lt_of_le_of_ne (not_lt.1 fun e => absurd (this.2 e) (not_lt.2 hp.le)) (Ne.symm h)
  · intro hp; exact lt_of_le_of_ne (not_lt.1 fun e => absurd (this.1 e) (not_lt.2 hp.le)) (Ne.symm hz)

theorem side_of_height_le {kind : Kind} {c : ℕ → ℝ} (h : height kind c ≤ 0) : side kind c ≤ 0 := by
  by_contra hc
  have := (height_pos_iff kind c (not_le.1 hc).ne').2 (not_le.1 hc)
  linarith

theorem side_of_le_height {kind : Kind} {c : ℕ → ℝ} (h : 0 ≤ height kind c) : 0 ≤ side kind c := by
  by_contra hc
  have := (height_neg_iff kind c (not_le.1 hc).ne).2 (not_le.1 hc)
  linarith

theorem side_checked (kind : Kind) (c : ℕ → ℝ) : side kind (checked kind c) = side kind c := by
  cases kind with
  | cartesian => rfl
  | spherical =>
    obtain ⟨n, m, h1, h2, h3, h4⟩ := check_spec c
    simp only [side, checked]
    rcases h3 with ⟨e2, -, -⟩ | ⟨e2, -, -, -⟩ <;> rw [e2]
    · rw [Real.cos_add_int_mul_two_pi]
    · rw [cos_neg, Real.cos_add_int_mul_two_pi]

theorem not_fishy (kind : Kind) (c1 c2 : ℕ → ℝ) : ¬ Fishy kind (checked kind c1) (checked kind c2) := by
  cases kind with
  | cartesian => exact id
  | spherical =>
    obtain ⟨n, m, ⟨a1, a2⟩, -⟩ := check_spec c1
    obtain ⟨n', m', ⟨b1, b2⟩, -⟩ := check_spec c2
    simp only [Fishy, checked, not_lt]
    rw [abs_le]
    exact ⟨by linarith, by linarith⟩

theorem radius_checked (kind : Kind) (c : ℕ → ℝ) : projectedRadius kind (checked kind c) = projectedRadius kind c := by
  cases kind with
  | cartesian => rfl
  | spherical =>
    obtain ⟨n, m, -, -, -, h4⟩ := check_spec c
    exact h4 1 (by decide) (by decide) (by decide)

theorem impact_rejected {rnd : ℝ → ℝ} {kind : Kind} {rin rout : ℝ} {pos : ℝ → ℕ → ℝ} {k : ℕ} {t1 t2 : ℝ}
    (h : Rejected rout (projectedRadius kind (pos t1)) (projectedRadius kind (pos t2)) (height kind (checked kind (pos t1)))
      (height kind (checked kind (pos t2)))) : impact rnd kind rin rout pos k t1 t2 = some .miss := by
  rw [← radius_checked kind (pos t1), ← radius_checked kind (pos t2)] at h
  unfold impact
  simp only [if_neg (not_fishy kind (pos t1) (pos t2))]
  rw [if_pos h]

theorem impact_search {rnd : ℝ → ℝ} {kind : Kind} {rin rout : ℝ} {pos : ℝ → ℕ → ℝ} {k : ℕ} {t1 t2 : ℝ}
    (h : ¬ Rejected rout (projectedRadius kind (pos t1)) (projectedRadius kind (pos t2)) (height kind (checked kind (pos t1)))
      (height kind (checked kind (pos t2)))) :
    impact rnd kind rin rout pos k t1 t2 =
      (findValue rnd (fun t => height kind (pos t)) 0 k
        (if height kind (checked kind (pos t1)) < height kind (checked kind (pos t2)) then t1 else t2)
        (if height kind (checked kind (pos t1)) < height kind (checked kind (pos t2)) then t2 else t1)).map fun v =>
          if projectedRadius kind (pos v.1) < rin ∨ projectedRadius kind (pos v.1) > rout then .miss else .hit v.1 := by
  rw [← radius_checked kind (pos t1), ← radius_checked kind (pos t2)] at h
  unfold impact
  simp only [if_neg (not_fishy kind (pos t1) (pos t2))]
  rw [if_neg h]

/-- **C53** The exception for angles never occurs. -/
theorem never_fishy (rnd : ℝ → ℝ) (kind : Kind) (rin rout : ℝ) (pos : ℝ → ℕ → ℝ) (k : ℕ) (t1 t2 : ℝ) :
    impact rnd kind rin rout pos k t1 t2 ≠ some .error := by
  by_cases h : Rejected rout (projectedRadius kind (pos t1)) (projectedRadius kind (pos t2)) (height kind (checked kind (pos t1)))
      (height kind (checked kind (pos t2)))
  · rw [impact_rejected h]; simp
  · rw [impact_search h]
    intro h
    obtain ⟨v, -, h⟩ := Option.map_eq_some_iff.1 h
    split_ifs at h

/-- **C53** Both points on the same side of the plane: no hit. -/
theorem same_side_misses (rnd : ℝ → ℝ) (kind : Kind) (rin rout : ℝ) (pos : ℝ → ℕ → ℝ) (k : ℕ) (t1 t2 : ℝ)
    (h : 0 < side kind (pos t1) * side kind (pos t2)) : impact rnd kind rin rout pos k t1 t2 = some .miss := by
  have n1 : side kind (checked kind (pos t1)) ≠ 0 := by rw [side_checked]; rintro e; rw [e] at h; simp at h
  have n2 : side kind (checked kind (pos t2)) ≠ 0 := by rw [side_checked]; rintro e; rw [e] at h; simp at h
  have z1 : height kind (checked kind (pos t1)) ≠ 0 := fun e => by
    rcases lt_or_gt_of_ne n1 with hn | hn
    · exact absurd ((height_neg_iff kind _ n1).2 hn) (by rw [e]; simp)
    · exact absurd ((height_pos_iff kind _ n1).2 hn) (by rw [e]; simp)
  have z2 : height kind (checked kind (pos t2)) ≠ 0 := fun e => by
    rcases lt_or_gt_of_ne n2 with hn | hn
    · exact absurd ((height_neg_iff kind _ n2).2 hn) (by rw [e]; simp)
    · exact absurd ((height_pos_iff kind _ n2).2 hn) (by rw [e]; simp)
  refine impact_rejected (Or.inr (Or.inr ⟨?_, z1, z2⟩))
  show 0 < _ ↔ 0 < _
  rw [height_pos_iff kind _ n1, height_pos_iff kind _ n2, side_checked, side_checked]
  rcases mul_pos_iff.1 h with ⟨a, b⟩ | ⟨a, b⟩
  · simp [a, b]
  · simp [not_lt.2 a.le, not_lt.2 b.le]

/-- The date the disk is crossed at: between the two, on the plane or on the side where the function is negative, less than the
tolerance away from a date on the other side. -/
structure Crossing (kind : Kind) (pos : ℝ → ℕ → ℝ) (t1 t2 t : ℝ) : Prop where
  between : min t1 t2 ≤ t ∧ t ≤ max t1 t2
  below : side kind (pos t) ≤ 0
  near : ∃ w, |w - t| ≤ 1 / 10000 ∧ min t1 t2 ≤ w ∧ w ≤ max t1 t2 ∧ 0 ≤ side kind (pos w)

/-- **C53** Points on different sides of the plane, at least one of them closer than twice the outer radius: the plane is crossed at the date
found, and the disk is hit at this date exactly if the radius there is between the inner and the outer one. -/
theorem opposite_sides_cross {F : Set ℝ} {rnd : ℝ → ℝ} (hr : Rounding F rnd) (kind : Kind) (rin rout : ℝ) (pos : ℝ → ℕ → ℝ) {k : ℕ}
    {t1 t2 : ℝ} (m1 : t1 ∈ F) (m2 : t2 ∈ F) (h : side kind (pos t1) * side kind (pos t2) < 0)
    (hgate : projectedRadius kind (pos t1) ≤ 2 * rout ∨ projectedRadius kind (pos t2) ≤ 2 * rout)
    {res : Res} (hres : impact rnd kind rin rout pos k t1 t2 = some res) :
    ∃ t, Crossing kind pos t1 t2 t ∧
      ((rin ≤ projectedRadius kind (pos t) ∧ projectedRadius kind (pos t) ≤ rout) → res = .hit t) ∧
      (¬ (rin ≤ projectedRadius kind (pos t) ∧ projectedRadius kind (pos t) ≤ rout) → res = .miss) := by
  have s1 : side kind (pos t1) ≠ 0 := by rintro e; rw [e] at h; simp at h
  have s2 : side kind (pos t2) ≠ 0 := by rintro e; rw [e] at h; simp at h
  have n1 : side kind (checked kind (pos t1)) ≠ 0 := by rwa [side_checked]
  have n2 : side kind (checked kind (pos t2)) ≠ 0 := by rwa [side_checked]
  have p1 := height_pos_iff kind _ n1
  have p2 := height_pos_iff kind _ n2
  have q1 := height_neg_iff kind _ n1
  have q2 := height_neg_iff kind _ n2
  rw [side_checked] at p1 p2 q1 q2
  have hnot : ¬ Rejected rout (projectedRadius kind (pos t1)) (projectedRadius kind (pos t2)) (height kind (checked kind (pos t1)))
      (height kind (checked kind (pos t2))) := by
    rintro (⟨a, b⟩ | ⟨a, b⟩ | ⟨a, b, c⟩)
    · norm_num at a b; rcases hgate with g | g <;> linarith
    · rcases mul_neg_iff.1 h with ⟨u, v⟩ | ⟨u, v⟩
      · have := p1.2 u; have := q2.2 v; linarith
      · have := q1.2 u; have := p2.2 v; linarith
    · rcases mul_neg_iff.1 h with ⟨u, v⟩ | ⟨u, v⟩
      · have := a.1 (p1.2 u); have := q2.2 v; linarith
      · have := q1.2 u; have := a.2 (p2.2 v); linarith
  rw [impact_search hnot] at hres
  obtain ⟨⟨t, asked⟩, hv, rfl⟩ := Option.map_eq_some_iff.1 hres
  have hends : Surface (fun t => height kind (pos t)) 0 t1 t2 t := by
    have f1n := height_neg_iff kind _ s1
    have f2n := height_neg_iff kind _ s2
    have f1p := height_pos_iff kind _ s1
    have f2p := height_pos_iff kind _ s2
    rcases mul_neg_iff.1 h with ⟨u, v⟩ | ⟨u, v⟩
    · have e : ¬ height kind (checked kind (pos t1)) < height kind (checked kind (pos t2)) := by
        have := p1.2 u; have := q2.2 v; linarith
      simp only [if_neg e] at hv
      have := (findValue_surface hr k _ _ _ _ m2 m1 (f2n.2 v).le (f1p.2 u).le hv).1
      exact this.mono (by rw [min_comm]) (by rw [max_comm])
    · have e : height kind (checked kind (pos t1)) < height kind (checked kind (pos t2)) := by
        have := q1.2 u; have := p2.2 v; linarith
      simp only [if_pos e] at hv
      exact (findValue_surface hr k _ _ _ _ m1 m2 (f1n.2 u).le (f2p.2 v).le hv).1
  refine ⟨t, ⟨hends.between, side_of_height_le hends.inside, ?_⟩, ?_, ?_⟩
  · obtain ⟨w, w1, w2, w3, w4⟩ := hends.near
    exact ⟨w, w1, w2, w3, side_of_le_height w4⟩
  · rintro ⟨a, b⟩
    simp only
    rw [if_neg (by rintro (c | c) <;> linarith)]
  · intro a
    simp only
    rw [if_pos]
    by_contra hc
    push Not at hc
    exact a hc

/-- **C53 (partial: exact arithmetic, see `Bisect.findValue_adjacent_wrong`)** With exact arithmetic the search ends. -/
theorem impact_terminates_partial (kind : Kind) (rin rout : ℝ) (pos : ℝ → ℕ → ℝ) (t1 t2 : ℝ) :
    ∃ k res, impact id kind rin rout pos k t1 t2 = some res := by
  by_cases h : Rejected rout (projectedRadius kind (pos t1)) (projectedRadius kind (pos t2)) (height kind (checked kind (pos t1)))
      (height kind (checked kind (pos t2)))
  · exact ⟨0, _, impact_rejected h⟩
  · obtain ⟨k, r, hr⟩ := findValue_terminates_partial fine_exact (fun t => height kind (pos t)) 0
      (if height kind (checked kind (pos t1)) < height kind (checked kind (pos t2)) then t1 else t2)
      (if height kind (checked kind (pos t1)) < height kind (checked kind (pos t2)) then t2 else t1)
    exact ⟨k, _, by rw [impact_search h, hr]; rfl⟩

/-- **C53** The radius compared with the limits is the distance to the axis: always in Cartesian coordinates, on the plane in spherical ones. -/
theorem projected_radius (c : ℕ → ℝ) :
    projectedRadius .cartesian c ^ 2 = c 1 ^ 2 + c 2 ^ 2 ∧ 0 ≤ projectedRadius .cartesian c ∧
    (cos (c 2) = 0 → projectedRadius .spherical c ^ 2 = (c 1 * sin (c 2) * cos (c 3)) ^ 2 + (c 1 * sin (c 2) * sin (c 3)) ^ 2) ∧
    (0 ≤ c 1 → 0 ≤ projectedRadius .spherical c) := by
  refine ⟨?_, sqrt_nonneg _, fun h => ?_, id⟩
  · rw [projectedRadius, sq_sqrt (by nlinarith [mul_self_nonneg (c 1), mul_self_nonneg (c 2)])]; ring
  · have h1 := sin_sq_add_cos_sq (c 2)
    have h2 := sin_sq_add_cos_sq (c 3)
    rw [h] at h1
    simp only [projectedRadius]
    linear_combination (-c 1 ^ 2) * h1 - c 1 ^ 2 * sin (c 2) ^ 2 * h2

/-- **C53** The path through the disk: the thickness divided by the cosine of the angle between the photon and the normal. -/
theorem path_length {thickness t1 t2 : ℝ} {vel : Fin 3 → ℝ} (h : vel 2 ≠ 0) :
    path thickness t1 t2 vel * |vel 2| = thickness * sqrt (vel 0 ^ 2 + vel 1 ^ 2 + vel 2 ^ 2) := by
  rw [path, if_neg h]
  have hp : 0 < vel 2 ^ 2 := by positivity
  have : 1 + (vel 0 * vel 0 + vel 1 * vel 1) / (vel 2 * vel 2) = (vel 0 ^ 2 + vel 1 ^ 2 + vel 2 ^ 2) / vel 2 ^ 2 := by
    field_simp; ring
  rw [this, sqrt_div (by positivity), sqrt_sq_eq_abs]
  have : |vel 2| ≠ 0 := abs_ne_zero.2 h
  field_simp

/-- **Finding (C53)** A point exactly on the plane counts for both segments it belongs to: here a photon going straight down
through the disk hits it twice. -/
theorem on_plane_twice_wrong : ∃ k, ∃ s t,
    impact id .cartesian 0 10 (fun t i => if i = 3 then -t else if i = 1 then 5 else 0) k (-1 / 10000) 0 = some (.hit s) ∧
    impact id .cartesian 0 10 (fun t i => if i = 3 then -t else if i = 1 then 5 else 0) k 0 (1 / 10000) = some (.hit t) := by
  have hs' : sqrt 25 = 5 := by rw [show (25 : ℝ) = 5 ^ 2 by norm_num, sqrt_sq (by norm_num)]
  refine ⟨1, 0, 1 / 10000, ?_, ?_⟩
  · rw [impact_search (by norm_num [Rejected, height, checked, projectedRadius, hs'])]
    norm_num [height, checked, projectedRadius, findValue, tTol, hs']
  · rw [impact_search (by norm_num [Rejected, height, checked, projectedRadius, hs'])]
    norm_num [height, checked, projectedRadius, findValue, tTol, hs']

/-- **Finding (C53)** A step that goes from further than twice the outer radius to further than twice the outer radius through the disk is
missed. -/
theorem far_ends_wrong (k : ℕ) :
    impact id .cartesian 0 10 (fun t i => if i = 3 then t else if i = 1 then 3 * t else 0) k (-10) 10 = some .miss := by
  have e900 : sqrt 900 = 30 := by rw [show (900 : ℝ) = 30 ^ 2 by norm_num, sqrt_sq (by norm_num)]
  exact impact_rejected (by norm_num [Rejected, height, checked, projectedRadius, e900])

/-- A photon crossing the disk in between two points. -/
example : ∃ k res t, impact id .cartesian 1 10 (fun t i => if i = 3 then t else if i = 1 then 5 else 0) k (-3) 4 = some res ∧
    Crossing .cartesian (fun t i => if i = 3 then t else if i = 1 then 5 else 0) (-3) 4 t ∧ res = .hit t := by
  have hs' : sqrt 25 = 5 := by rw [show (25 : ℝ) = 5 ^ 2 by norm_num, sqrt_sq (by norm_num)]
  obtain ⟨k, res, h⟩ := impact_terminates_partial .cartesian 1 10 (fun t i => if i = 3 then t else if i = 1 then 5 else 0) (-3) 4
  obtain ⟨t, h1, h2, h3⟩ := opposite_sides_cross exact .cartesian 1 10 (fun t i => if i = 3 then t else if i = 1 then 5 else 0) trivial trivial
    (by norm_num [side]) (by left; norm_num [projectedRadius, hs']) h
  exact ⟨k, res, t, h, h1, h2 (by norm_num [projectedRadius, hs'])⟩

end Gyoto.ThinDisk
