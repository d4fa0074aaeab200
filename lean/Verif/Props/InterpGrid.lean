import Verif.Props.Interp

/-! # C33: periodic look-ups and `GridData2D` -/

namespace Gyoto.Interp

open Finset

/-! ### The condition "Periodic" -/

theorem fmod_pos {x y : ℝ} (hx : 0 ≤ x) (hy : 0 < y) : 0 ≤ fmod x y ∧ fmod x y < y ∧ ∃ m : Int, fmod x y = x + m * y := by
  have hq : 0 ≤ x / y := div_nonneg hx hy.le
  have h1 := Int.floor_le (x / y)
  have h2 := Int.lt_floor_add_one (x / y)
  rw [le_div_iff₀ hy] at h1
  rw [div_lt_iff₀ hy] at h2
  rw [fmod, if_pos hq]
  refine ⟨by linarith, by linarith, -⌊x / y⌋, ?_⟩
  push_cast; ring

theorem fmod_neg {x y : ℝ} (hx : x < 0) (hy : 0 < y) : -y < fmod x y ∧ fmod x y ≤ 0 ∧ ∃ m : Int, fmod x y = x + m * y := by
  have hq : ¬ 0 ≤ x / y := not_le.2 (div_neg_of_neg_of_pos hx hy)
  have h1 := Int.le_ceil (x / y)
  have h2 := Int.ceil_lt_add_one (x / y)
  rw [div_le_iff₀ hy] at h1
  have h3 : (⌈x / y⌉ - 1 : ℝ) < x / y := by linarith
  rw [lt_div_iff₀ hy] at h3
  rw [fmod, if_neg hq]
  refine ⟨by linarith, by linarith, -⌈x / y⌉, ?_⟩
  push_cast; ring

/-- **C33, C32 (partial: `periodic_origin_wrong`, `periodic_multiple_wrong`)** With the condition "Periodic" along a dimension starting at zero, a query outside is replaced by
one inside which differs from it by a whole number of periods, and the cell found is inside the table and contains it, unless
the query is a negative whole number of periods. -/
theorem periodic_partial {xmax : ℝ} {n : Nat} (h2 : 2 ≤ n) (hn : n < 2 ^ 31) (hpos : 0 < xmax) (q : ℝ)
    (hout : q < 0 ∨ q > xmax) (hm : ∀ m : Int, 0 < m → q ≠ -(m * xmax)) (X : Option (List ℝ)) :
    ∃ (k : Nat) (q' : ℝ), getIndice q .periodic 0 xmax n X = .ok ((k : Int), q') ∧ k + 1 < n ∧
      (∃ m : Int, q' = q + m * xmax) ∧ k * (xmax / ((n : ℝ) - 1)) ≤ q' ∧ q' < (k + 1) * (xmax / ((n : ℝ) - 1)) := by
  have h1 : ¬ n = 1 := by omega
  have key : ∀ q' : ℝ, 0 ≤ q' → q' < xmax → ∃ k : Nat, k + 1 < n ∧
      floorInt (q' - 0) ((xmax - 0) / ((n : ℝ) - 1)) = .ok (k : Int) ∧
      k * (xmax / ((n : ℝ) - 1)) ≤ q' ∧ q' < (k + 1) * (xmax / ((n : ℝ) - 1)) := by
    intro q' a b
    obtain ⟨k, a1, a2, a3, a4⟩ := floor_cell (xmin := 0) h2 hn hpos a b
    refine ⟨k, a1, a2, ?_, ?_⟩
    · simpa using a3
    · simpa using a4
  by_cases hgt : q > xmax
  · obtain ⟨a, b, m, hm'⟩ := fmod_pos (x := q) (by linarith) hpos
    obtain ⟨k, k1, k2, k3, k4⟩ := key (fmod q xmax) a b
    refine ⟨k, fmod q xmax, ?_, k1, ⟨m, hm'⟩, k3, k4⟩
    simp only [getIndice, h1, false_and, if_false, hpos.ne', hgt, or_true, if_true, add_zero, k2, Except.map]
  · have hlt : q < 0 := hout.resolve_right hgt
    obtain ⟨a, b, m, hm'⟩ := fmod_neg (x := q) hlt hpos
    have b' : fmod q xmax < 0 := by
      refine lt_of_le_of_ne b fun h0 => ?_
      rw [h0] at hm'
      have hmp : 0 < m := by
        by_contra hcon
        push Not at hcon
        have : (m : ℝ) ≤ 0 := by exact_mod_cast hcon
        nlinarith
      exact hm m hmp (by linarith)
    obtain ⟨k, k1, k2, k3, k4⟩ := key (fmod q xmax + xmax) (by linarith) (by linarith)
    refine ⟨k, fmod q xmax + xmax, ?_, k1, ⟨m + 1, by rw [hm']; push_cast; ring⟩, k3, k4⟩
    simp only [getIndice, h1, false_and, if_false, hlt, true_or, if_true, hpos.ne', hgt, add_zero, k2, Except.map]

/-- **Finding (C33)** A negative whole number of periods is replaced by the end of the table, whose cell is outside. -/
theorem periodic_multiple_wrong {xmax : ℝ} {n : Nat} (h2 : 2 ≤ n) (hn : n < 2 ^ 31) (hpos : 0 < xmax) (X : Option (List ℝ)) :
    getIndice (-xmax) .periodic 0 xmax n X = .ok ((n : Int) - 1, xmax) := by
  have h1 : ¬ n = 1 := by omega
  have hn1 : (0 : ℝ) < (n : ℝ) - 1 := by
    have : (2 : ℝ) ≤ n := by exact_mod_cast h2
    linarith
  have hdx : (xmax - 0) / ((n : ℝ) - 1) ≠ 0 := (div_pos (by linarith) hn1).ne'
  have hf : fmod (-xmax) xmax = 0 := by
    have : -xmax / xmax = ((-1 : Int) : ℝ) := by push_cast; field_simp
    rw [fmod, this, Int.floor_intCast, Int.ceil_intCast]
    norm_num
  have hfl : floorInt (xmax - 0) ((xmax - 0) / ((n : ℝ) - 1)) = .ok ((n : Int) - 1) := by
    have : (xmax - 0) / ((xmax - 0) / ((n : ℝ) - 1)) = (((n : Int) - 1 : Int) : ℝ) := by
      push_cast
      rw [sub_zero]
      field_simp
    rw [floorInt, if_neg hdx, this, Int.floor_intCast, if_pos]
    have : ((n : Int)) < 2 ^ 31 := by exact_mod_cast hn
    omega
  have hlt : -xmax < 0 := by linarith
  have hgt : ¬ (-xmax > xmax) := by linarith
  simp only [getIndice, h1, false_and, if_false, hlt, true_or, if_true, hpos.ne', hgt, hf, zero_add, hfl, Except.map]

/-- **Finding (C32, C33)** If the dimension does not start at zero, the query is not moved by a whole number of periods and the
cell can be outside: nodes at 1, 2, 3, the query 11/2 should become 3/2 but becomes 7/2. -/
theorem periodic_origin_wrong (X : Option (List ℝ)) : getIndice (11 / 2) .periodic 1 3 3 X = .ok (2, 7 / 2) := by
  have hf : fmod (11 / 2) 3 = 5 / 2 := by
    have : ⌊(11 / 2 : ℝ) / 3⌋ = 1 := by rw [Int.floor_eq_iff]; norm_num
    rw [fmod, this]; norm_num
  have hfl : floorInt (7 / 2 - 1 : ℝ) ((3 - 1) / (((3 : Nat) : ℝ) - 1)) = .ok 2 := by
    have : ⌊(7 / 2 - 1 : ℝ) / ((3 - 1) / (((3 : Nat) : ℝ) - 1))⌋ = 2 := by rw [Int.floor_eq_iff]; norm_num
    rw [floorInt, this]; norm_num
  have e : (5 / 2 + 1 : ℝ) = 7 / 2 := by norm_num
  have h1 : (11 / 2 : ℝ) > 3 := by norm_num
  simp only [getIndice, h1, or_true, if_true, hf, e, hfl, Except.map]
  norm_num

/-! ### `GridData2D` -/

/-- A consistent grid: at least two radii, azimuths and dates at regular intervals, azimuths covering less than a full turn. -/
structure Grid.Ok (g : Grid) (pi : ℝ) : Prop where
  r0 : 0 < g.rmin
  r1 : g.rmax < dblMax
  nr : 2 ≤ g.nr ∧ g.nr < 2 ^ 31
  rr : g.rmin < g.rmax
  dr : g.dr = (g.rmax - g.rmin) / ((g.nr : ℝ) - 1)
  nphi : 2 ≤ g.nphi ∧ g.nphi < 2 ^ 31
  phi : g.phimin < g.phimax
  dphi : g.dphi = (g.phimax - g.phimin) / ((g.nphi : ℝ) - 1)
  turn : g.phimax < g.phimin + 2 * pi
  nt : 2 ≤ g.nt ∧ g.nt < 2 ^ 31
  t0 : -dblMax < g.tmin
  t1 : g.tmax < dblMax
  tt : g.tmin < g.tmax
  dt : g.dt = (g.tmax - g.tmin) / ((g.nt : ℝ) - 1)

/-- The array holds `T it iphi ir`, radius varying fastest. -/
def Grid.Holds (g : Grid) (T : Nat → Nat → Nat → ℝ) (array : List ℝ) : Prop :=
  ∀ it < g.nt, ∀ ip < g.nphi, ∀ ir < g.nr, array[(it * g.nphi + ip) * g.nr + ir]? = some (T it ip ir)

theorem floorSize_of_int {v dx : ℝ} {k : Nat} (h : floorInt v dx = .ok (k : Int)) : floorSize v dx = .ok k := by
  unfold floorInt at h
  unfold floorSize
  split at h
  · simp at h
  · rename_i h0
    rw [if_neg h0]
    split at h
    · rename_i h1
      have e : ⌊v / dx⌋ = (k : Int) := by simpa using h
      rw [e] at h1 ⊢
      rw [if_pos ⟨by omega, by omega⟩]
      simp
    · simp at h

theorem Grid.at_ok {g : Grid} {T : Nat → Nat → Nat → ℝ} {array : List ℝ} (h : g.Holds T array) {it ip ir : Nat}
    (h0 : it < g.nt) (h1 : ip < g.nphi) (h2 : ir < g.nr) : g.at array it ip ir = .ok (T it ip ir) := by
  have e : it * g.nr * g.nphi + ip * g.nr + ir = (it * g.nphi + ip) * g.nr + ir := by ring
  rw [Grid.at, e]
  exact get_ok (h it h0 ip h1 ir h2)

/-- The two rows surrounding an azimuth, and the relative position. -/
theorem Grid.rows_ok {g : Grid} {pi : ℝ} (hg : g.Ok pi) {phi : ℝ} (h0 : g.phimax - 2 * pi ≤ phi) (h1 : phi ≤ g.phimin + 2 * pi)
    (hne : phi ≠ g.phimax) :
    ∃ (i1 lo up : Nat) (plo pup p : ℝ), g.indexPhi phi = .ok i1 ∧ g.rows pi phi i1 = (lo, up, plo, pup) ∧ lo < g.nphi ∧ up < g.nphi ∧
      up % g.nphi = (lo + 1) % g.nphi ∧
      (∃ z : Int, plo = g.phimin + g.dphi * lo + z * (2 * pi)) ∧ (∃ z : Int, pup = g.phimin + g.dphi * up + z * (2 * pi)) ∧
      ratio phi plo pup = .ok p ∧ 0 ≤ p ∧ p ≤ 1 ∧ phi = (1 - p) * plo + p * pup ∧ plo < pup := by
  obtain ⟨n2, nn⟩ := hg.nphi
  have hn1 : (0 : ℝ) < (g.nphi : ℝ) - 1 := by
    have : (2 : ℝ) ≤ g.nphi := by exact_mod_cast n2
    linarith
  have hd : 0 < g.dphi := by rw [hg.dphi]; exact div_pos (by linarith [hg.phi]) hn1
  have hlast : g.phimin + g.dphi * ((g.nphi - 1 : Nat) : ℝ) = g.phimax := by
    rw [Nat.cast_sub (by omega), Nat.cast_one, hg.dphi]
    field_simp
    ring
  have hr : ∀ plo pup : ℝ, plo < pup → plo ≤ phi → phi ≤ pup → ∃ p, ratio phi plo pup = .ok p ∧ 0 ≤ p ∧ p ≤ 1 ∧
      phi = (1 - p) * plo + p * pup := by
    intro plo pup a b c
    have hp : 0 < pup - plo := by linarith
    refine ⟨(phi - plo) / (pup - plo), by rw [ratio, if_neg hp.ne'], div_nonneg (by linarith) hp.le, ?_, ?_⟩
    · rw [div_le_one hp]; linarith
    · field_simp; ring
  have hturn := hg.turn
  have hmod : 0 % g.nphi = (g.nphi - 1 + 1) % g.nphi := by
    rw [show g.nphi - 1 + 1 = g.nphi by omega]; simp
  by_cases hlo : phi < g.phimin
  · obtain ⟨p, p1, p2, p3, p4⟩ := hr (g.phimax - 2 * pi) g.phimin (by linarith) h0 hlo.le
    refine ⟨g.nphi - 1, g.nphi - 1, 0, _, _, p, ?_, ?_, by omega, by omega, hmod, ⟨-1, ?_⟩, ⟨0, ?_⟩, p1, p2, p3, p4, by linarith⟩
    · rw [indexPhi, if_pos (by omega), if_pos hd, if_pos hlo]
    · rw [rows, if_pos hlo]
    · rw [hlast]; push_cast; ring
    · simp
  · by_cases hhi : phi > g.phimax
    · obtain ⟨p, p1, p2, p3, p4⟩ := hr g.phimax (g.phimin + 2 * pi) (by linarith) hhi.le h1
      refine ⟨g.nphi - 1, g.nphi - 1, 0, _, _, p, ?_, ?_, by omega, by omega, hmod, ⟨0, ?_⟩, ⟨1, ?_⟩, p1, p2, p3, p4, by linarith⟩
      · rw [indexPhi, if_pos (by omega), if_pos hd, if_neg hlo, if_pos hhi]
      · rw [rows, if_neg hlo, if_pos hhi]
      · rw [hlast]; push_cast; ring
      · push_cast; ring
    · push Not at hlo hhi
      obtain ⟨k, k1, k2, k3, k4⟩ := floor_cell n2 nn hg.phi hlo (lt_of_le_of_ne hhi hne)
      rw [← hg.dphi] at k2 k3 k4
      obtain ⟨p, p1, p2, p3, p4⟩ := hr (g.phimin + g.dphi * k) (g.phimin + g.dphi * ((k + 1 : Nat) : ℝ))
        (by push_cast; linarith) (by linarith) (by push_cast; linarith)
      refine ⟨k, k, k + 1, _, _, p, ?_, ?_, by omega, by omega, rfl, ⟨0, by simp⟩, ⟨0, by simp⟩, p1, p2, p3, p4, by push_cast; linarith⟩
      · rw [indexPhi, if_pos (by omega), if_pos hd, if_neg (not_lt.2 hlo), if_neg (not_lt.2 hhi)]
        exact floorSize_of_int k2
      · rw [rows, if_neg (not_lt.2 hlo), if_neg (not_lt.2 hhi)]

/-- The two radii surrounding a radius. -/
theorem Grid.radius_ok {g : Grid} {pi : ℝ} (hg : g.Ok pi) {r : ℝ} (h0 : g.rmin ≤ r) (h1 : r < g.rmax) :
    ∃ (k : Nat) (p : ℝ), g.indexR r = .ok k ∧ k + 1 < g.nr ∧
      ratio r (g.rmin + g.dr * k) (g.rmin + g.dr * ((k + 1 : Nat) : ℝ)) = .ok p ∧ 0 ≤ p ∧ p ≤ 1 ∧
      r = (1 - p) * (g.rmin + g.dr * k) + p * (g.rmin + g.dr * (k + 1)) := by
  obtain ⟨n2, nn⟩ := hg.nr
  have hn1 : (0 : ℝ) < (g.nr : ℝ) - 1 := by
    have : (2 : ℝ) ≤ g.nr := by exact_mod_cast n2
    linarith
  have hd : 0 < g.dr := by rw [hg.dr]; exact div_pos (by linarith [hg.rr]) hn1
  obtain ⟨k, k1, k2, k3, k4⟩ := floor_cell n2 nn hg.rr h0 h1
  rw [← hg.dr] at k2 k3 k4
  have hp : g.rmin + g.dr * ((k + 1 : Nat) : ℝ) - (g.rmin + g.dr * k) = g.dr := by push_cast; ring
  refine ⟨k, (r - (g.rmin + g.dr * k)) / g.dr, ?_, k1, ?_, div_nonneg (by linarith) hd.le, ?_, ?_⟩
  · rw [indexR, if_pos ⟨hg.r0, hg.r1, by omega, hd⟩]
    exact floorSize_of_int k2
  · rw [ratio, hp, if_neg hd.ne']
  · rw [div_le_one hd]; linarith
  · field_simp; ring

/-- Linear interpolation. -/
def mix (p a b : ℝ) : ℝ := (1 - p) * a + p * b

/-- A list of dates from `tmin` to `tmax`. -/
structure Grid.Dates (g : Grid) (D : List ℝ) (date : Nat → ℝ) : Prop where
  len : D.length = g.nt
  val : ∀ i < g.nt, D[i]? = some (date i)
  first : date 0 = g.tmin
  last : date (g.nt - 1) = g.tmax
  incr : ∀ i, i + 1 < g.nt → date i < date (i + 1)

theorem Grid.dt_pos {g : Grid} {pi : ℝ} (hg : g.Ok pi) : 0 < g.dt := by
  have hn1 : (0 : ℝ) < (g.nt : ℝ) - 1 := by
    have : (2 : ℝ) ≤ g.nt := by exact_mod_cast hg.nt.1
    linarith
  rw [hg.dt]; exact div_pos (by linarith [hg.tt]) hn1

/-- The date used where the disk is stationary. -/
theorem Grid.steady_index {g : Grid} {pi : ℝ} (hg : g.Ok pi) {tt : ℝ} {times : Option (List ℝ)}
    (htimes : ∀ D, times = some D → ∃ date, g.Dates D date) (h : tt ≤ g.tmin ∨ tt ≥ g.tmax)
    (hlast : tt = g.tmax → times = none) :
    g.indexT tt times = .ok (if tt ≤ g.tmin then 0 else g.nt - 1) := by
  have htt := hg.tt
  obtain ⟨n2, nn⟩ := hg.nt
  have hn1 : (0 : ℝ) < (g.nt : ℝ) - 1 := by
    have : (2 : ℝ) ≤ g.nt := by exact_mod_cast n2
    linarith
  have hdt := dt_pos hg
  unfold indexT
  rw [if_pos (by omega), if_pos ⟨hg.t0, hg.t1⟩]
  by_cases hlt : tt < g.tmin
  · rw [if_pos hlt, if_pos hlt.le]
  · rw [if_neg hlt]
    by_cases heq : tt = g.tmin
    · rw [if_neg (by rw [heq]; linarith), if_pos heq.le]
      cases times with
      | none =>
        have : ⌊(tt - g.tmin) / g.dt⌋ = 0 := by rw [heq, sub_self, zero_div, Int.floor_zero]
        simp [floorSize, hdt.ne', this]
      | some D =>
        obtain ⟨date, hD⟩ := htimes D rfl
        have h0 := hD.val 0 (by omega)
        have hno : ¬ tt > date 0 := by rw [hD.first, heq]; exact lt_irrefl _
        simp only
        rw [search]
        split
        · rename_i h; rw [h0] at h; simp at h
        · rename_i a h
          rw [h0] at h
          have : date 0 = a := by simpa using h
          rw [← this, if_neg hno]
    · have hge : tt ≥ g.tmax := h.resolve_left fun hle => heq (le_antisymm hle (not_lt.1 hlt))
      have hgt : ¬ tt ≤ g.tmin := by linarith
      rw [if_neg hgt]
      by_cases hgt' : tt > g.tmax
      · rw [if_pos hgt']
      · rw [if_neg hgt']
        have e : tt = g.tmax := le_antisymm (not_lt.1 hgt') hge
        rw [hlast e]
        have : floorInt (tt - g.tmin) g.dt = .ok ((g.nt - 1 : Nat) : Int) := by
          have hv : (tt - g.tmin) / g.dt = (((g.nt - 1 : Nat) : Int) : ℝ) := by
            rw [Int.cast_natCast, Nat.cast_sub (by omega), e, hg.dt]
            have : g.tmax - g.tmin ≠ 0 := by linarith
            push_cast
            field_simp
          rw [floorInt, if_neg hdt.ne', hv, Int.floor_intCast, if_pos]
          constructor
          · omega
          · have : ((g.nt : Int)) < 2 ^ 31 := by exact_mod_cast nn
            omega
        exact floorSize_of_int this

/-- **C33, C32 (partial: for the queries left out see `grid_last_azimuth_wrong`, `grid_outside_radius_wrong` and `grid_last_date_wrong`)** Where the disk is
stationary, an interpolation in a `GridData2D` reads only inside the array and mixes the four values surrounding the query, those
of the first or last date. -/
theorem grid_steady_partial {g : Grid} {pi : ℝ} (hg : g.Ok pi) {T : Nat → Nat → Nat → ℝ} {array : List ℝ} (hT : g.Holds T array)
    {tt phi r : ℝ} {times : Option (List ℝ)} (htimes : ∀ D, times = some D → ∃ date, g.Dates D date)
    (ht : tt ≤ g.tmin ∨ tt ≥ g.tmax) (hlast : tt = g.tmax → times = none)
    (hr0 : g.rmin ≤ r) (hr1 : r < g.rmax)
    (hp0 : g.phimax - 2 * pi ≤ phi) (hp1 : phi ≤ g.phimin + 2 * pi) (hpne : phi ≠ g.phimax) :
    ∃ (lo up k : Nat) (plo pup p q : ℝ),
      (lo < g.nphi ∧ up < g.nphi ∧ up % g.nphi = (lo + 1) % g.nphi ∧
        (∃ z : Int, plo = g.phimin + g.dphi * lo + z * (2 * pi)) ∧ (∃ z : Int, pup = g.phimin + g.dphi * up + z * (2 * pi)) ∧
        0 ≤ p ∧ p ≤ 1 ∧ phi = mix p plo pup) ∧
      (k + 1 < g.nr ∧ 0 ≤ q ∧ q ≤ 1 ∧ r = mix q (g.rmin + g.dr * k) (g.rmin + g.dr * (k + 1))) ∧
      g.interpolate pi tt phi r array times =
        let it := if tt ≤ g.tmin then 0 else g.nt - 1
        .ok (mix p (mix q (T it lo k) (T it lo (k + 1))) (mix q (T it up k) (T it up (k + 1)))) := by
  obtain ⟨i1, lo, up, plo, pup, p, a1, a2, a3, a4, a5, a6, a7, a8, a9, a10, a11, a12⟩ := Grid.rows_ok hg hp0 hp1 hpne
  obtain ⟨k, q, b1, b2, b3, b4, b5, b6⟩ := Grid.radius_ok hg hr0 hr1
  have c := Grid.steady_index hg htimes ht hlast
  refine ⟨lo, up, k, plo, pup, p, q, ⟨a3, a4, a5, a6, a7, a9, a10, a11⟩, ⟨b2, b4, b5, b6⟩, ?_⟩
  have hit : (if tt ≤ g.tmin then 0 else g.nt - 1) < g.nt := by
    have := hg.nt.1
    split <;> omega
  generalize (if tt ≤ g.tmin then 0 else g.nt - 1) = it at c hit
  have hn : ¬ g.nphi = 1 := by have := hg.nphi.1; omega
  have hb : g.nt = 1 ∨ tt ≤ g.tmin ∨ tt ≥ g.tmax := Or.inr ht
  have hneg : ¬ (p < 0 ∨ q < 0) := by push Not; exact ⟨a9, b4⟩
  simp only [Grid.interpolate, b1, a1, c, bind, Except.bind, hn, if_false, a2, hb, if_true,
    Grid.at_ok hT hit a3 (show k < g.nr by omega), Grid.at_ok hT hit a3 b2, Grid.at_ok hT hit a4 (show k < g.nr by omega),
    Grid.at_ok hT hit a4 b2, a8, b3, hneg]
  congr 1
  simp only [mix]
  ring

/-- Between the first and last dates, with the date index `it` and the dates `tl`, `tu` used by the code. -/
theorem grid_moving {g : Grid} {pi : ℝ} (hg : g.Ok pi) {T : Nat → Nat → Nat → ℝ} {array : List ℝ} (hT : g.Holds T array)
    {tt phi r : ℝ} {times : Option (List ℝ)} (h0 : g.tmin < tt) (h1 : tt < g.tmax)
    (hr0 : g.rmin ≤ r) (hr1 : r < g.rmax)
    (hp0 : g.phimax - 2 * pi ≤ phi) (hp1 : phi ≤ g.phimin + 2 * pi) (hpne : phi ≠ g.phimax)
    {it : Nat} {tl tu s : ℝ} (hit : g.indexT tt times = .ok it) (hit1 : it + 1 < g.nt)
    (hd : g.dates times it = .ok (tl, tu))
    (hs : ratio tt tl tu = .ok s) (hs0 : 0 ≤ s) :
    ∃ (lo up k : Nat) (plo pup p q : ℝ),
      (lo < g.nphi ∧ up < g.nphi ∧ up % g.nphi = (lo + 1) % g.nphi ∧
        (∃ z : Int, plo = g.phimin + g.dphi * lo + z * (2 * pi)) ∧ (∃ z : Int, pup = g.phimin + g.dphi * up + z * (2 * pi)) ∧
        0 ≤ p ∧ p ≤ 1 ∧ phi = mix p plo pup) ∧
      (k + 1 < g.nr ∧ 0 ≤ q ∧ q ≤ 1 ∧ r = mix q (g.rmin + g.dr * k) (g.rmin + g.dr * (k + 1))) ∧
      g.interpolate pi tt phi r array times =
        .ok (mix s (mix p (mix q (T it lo k) (T it lo (k + 1))) (mix q (T it up k) (T it up (k + 1))))
          (mix p (mix q (T (it + 1) lo k) (T (it + 1) lo (k + 1))) (mix q (T (it + 1) up k) (T (it + 1) up (k + 1))))) := by
  obtain ⟨i1, lo, up, plo, pup, p, a1, a2, a3, a4, a5, a6, a7, a8, a9, a10, a11, a12⟩ := Grid.rows_ok hg hp0 hp1 hpne
  obtain ⟨k, q, b1, b2, b3, b4, b5, b6⟩ := Grid.radius_ok hg hr0 hr1
  refine ⟨lo, up, k, plo, pup, p, q, ⟨a3, a4, a5, a6, a7, a9, a10, a11⟩, ⟨b2, b4, b5, b6⟩, ?_⟩
  have hn : ¬ g.nphi = 1 := by have := hg.nphi.1; omega
  have hb : ¬ (g.nt = 1 ∨ tt ≤ g.tmin ∨ tt ≥ g.tmax) := by
    push Not
    exact ⟨by omega, h0, h1⟩
  have hneg : ¬ (s < 0 ∨ p < 0 ∨ q < 0) := by push Not; exact ⟨hs0, a9, b4⟩
  have hk : k < g.nr := by omega
  have hi : it < g.nt := by omega
  simp only [Grid.interpolate, b1, a1, hit, bind, Except.bind, hn, if_false, a2, hb,
    Grid.at_ok hT hi a3 hk, Grid.at_ok hT hi a3 b2, Grid.at_ok hT hi a4 hk, Grid.at_ok hT hi a4 b2,
    Grid.at_ok hT hit1 a3 hk, Grid.at_ok hT hit1 a3 b2, Grid.at_ok hT hit1 a4 hk, Grid.at_ok hT hit1 a4 b2]
  simp only [hd, hs, a8, b3, hneg, if_false]
  congr 1
  simp only [mix]
  ring

/-- **C33, C32** Between the first and last of a list of dates, an interpolation reads only inside the array and mixes the eight
values surrounding the query. -/
theorem grid_dates_partial {g : Grid} {pi : ℝ} (hg : g.Ok pi) {T : Nat → Nat → Nat → ℝ} {array : List ℝ} (hT : g.Holds T array)
    {D : List ℝ} {date : Nat → ℝ} (hD : g.Dates D date) {tt phi r : ℝ} (h0 : g.tmin < tt) (h1 : tt < g.tmax)
    (hr0 : g.rmin ≤ r) (hr1 : r < g.rmax)
    (hp0 : g.phimax - 2 * pi ≤ phi) (hp1 : phi ≤ g.phimin + 2 * pi) (hpne : phi ≠ g.phimax) :
    ∃ (it lo up k : Nat) (plo pup s p q : ℝ),
      (it + 1 < g.nt ∧ 0 ≤ s ∧ s ≤ 1 ∧ tt = mix s (date it) (date (it + 1))) ∧
      (lo < g.nphi ∧ up < g.nphi ∧ up % g.nphi = (lo + 1) % g.nphi ∧
        (∃ z : Int, plo = g.phimin + g.dphi * lo + z * (2 * pi)) ∧ (∃ z : Int, pup = g.phimin + g.dphi * up + z * (2 * pi)) ∧
        0 ≤ p ∧ p ≤ 1 ∧ phi = mix p plo pup) ∧
      (k + 1 < g.nr ∧ 0 ≤ q ∧ q ≤ 1 ∧ r = mix q (g.rmin + g.dr * k) (g.rmin + g.dr * (k + 1))) ∧
      g.interpolate pi tt phi r array (some D) =
        .ok (mix s (mix p (mix q (T it lo k) (T it lo (k + 1))) (mix q (T it up k) (T it up (k + 1))))
          (mix p (mix q (T (it + 1) lo k) (T (it + 1) lo (k + 1))) (mix q (T (it + 1) up k) (T (it + 1) up (k + 1))))) := by
  have n2 := hg.nt.1
  obtain ⟨it, i1, i2, i3, i4⟩ := search_from (X := D) (xq := tt) date (by rw [hD.len]; exact hD.val)
    (hD.incr 0 (by omega)).le (by rw [hD.len, hD.last]; exact h1.le) (D.length - 1) 0 (by rw [hD.len]; omega)
    (by rw [hD.first]; exact h0.le) (Or.inl ⟨rfl, by rw [hD.len]; exact n2⟩)
  rw [hD.len] at i1 i2
  have hlt := hD.incr it i2
  have hp : 0 < date (it + 1) - date it := by linarith
  have hidx : g.indexT tt (some D) = .ok it := by
    unfold Grid.indexT
    rw [if_pos (by omega), if_pos ⟨hg.t0, hg.t1⟩, if_neg (by linarith), if_neg (by linarith)]
    exact i1
  have hs0 : 0 ≤ (tt - date it) / (date (it + 1) - date it) := div_nonneg (by linarith) hp.le
  obtain ⟨lo, up, k, plo, pup, p, q, c1, c2, c3⟩ := grid_moving hg hT h0 h1 hr0 hr1 hp0 hp1 hpne hidx i2
    (tl := date it) (tu := date (it + 1)) (s := (tt - date it) / (date (it + 1) - date it))
    (by simp [Grid.dates, get_ok (hD.val it (by omega)), get_ok (hD.val (it + 1) i2), bind, Except.bind])
    (by rw [ratio, if_neg hp.ne']) hs0
  refine ⟨it, lo, up, k, plo, pup, _, p, q, ⟨i2, hs0, ?_, ?_⟩, c1, c2, c3⟩
  · rw [div_le_one hp]; linarith
  · rw [mix]; field_simp; ring

/-- **C32 (partial: see `grid_regular_dates_wrong`)** The same for regular dates, if the first date is equal to the first radius. -/
theorem grid_regular_dates_partial {g : Grid} {pi : ℝ} (hg : g.Ok pi) {T : Nat → Nat → Nat → ℝ} {array : List ℝ} (hT : g.Holds T array)
    (heq : g.rmin = g.tmin) {tt phi r : ℝ} (h0 : g.tmin < tt) (h1 : tt < g.tmax)
    (hr0 : g.rmin ≤ r) (hr1 : r < g.rmax)
    (hp0 : g.phimax - 2 * pi ≤ phi) (hp1 : phi ≤ g.phimin + 2 * pi) (hpne : phi ≠ g.phimax) :
    ∃ (it lo up k : Nat) (plo pup s p q : ℝ),
      (it + 1 < g.nt ∧ 0 ≤ s ∧ s ≤ 1 ∧ tt = mix s (g.tmin + g.dt * it) (g.tmin + g.dt * (it + 1))) ∧
      (lo < g.nphi ∧ up < g.nphi ∧ up % g.nphi = (lo + 1) % g.nphi ∧
        (∃ z : Int, plo = g.phimin + g.dphi * lo + z * (2 * pi)) ∧ (∃ z : Int, pup = g.phimin + g.dphi * up + z * (2 * pi)) ∧
        0 ≤ p ∧ p ≤ 1 ∧ phi = mix p plo pup) ∧
      (k + 1 < g.nr ∧ 0 ≤ q ∧ q ≤ 1 ∧ r = mix q (g.rmin + g.dr * k) (g.rmin + g.dr * (k + 1))) ∧
      g.interpolate pi tt phi r array none =
        .ok (mix s (mix p (mix q (T it lo k) (T it lo (k + 1))) (mix q (T it up k) (T it up (k + 1))))
          (mix p (mix q (T (it + 1) lo k) (T (it + 1) lo (k + 1))) (mix q (T (it + 1) up k) (T (it + 1) up (k + 1))))) := by
  obtain ⟨n2, nn⟩ := hg.nt
  have hdt := Grid.dt_pos hg
  obtain ⟨it, k1, k2, k3, k4⟩ := floor_cell n2 nn hg.tt h0.le h1
  rw [← hg.dt] at k2 k3 k4
  have hidx : g.indexT tt none = .ok it := by
    unfold Grid.indexT
    rw [if_pos (by omega), if_pos ⟨hg.t0, hg.t1⟩, if_neg (by linarith), if_neg (by linarith)]
    exact floorSize_of_int k2
  have hp : g.rmin + g.dt * ((it + 1 : Nat) : ℝ) - (g.tmin + g.dt * it) = g.dt := by rw [heq]; push_cast; ring
  have hs0 : 0 ≤ (tt - (g.tmin + g.dt * it)) / g.dt := div_nonneg (by linarith) hdt.le
  obtain ⟨lo, up, k, plo, pup, p, q, c1, c2, c3⟩ := grid_moving hg hT h0 h1 hr0 hr1 hp0 hp1 hpne hidx k1
    (tl := g.tmin + g.dt * it) (tu := g.rmin + g.dt * ((it + 1 : Nat) : ℝ)) (s := (tt - (g.tmin + g.dt * it)) / g.dt)
    rfl (by rw [ratio, hp, if_neg hdt.ne']) hs0
  refine ⟨it, lo, up, k, plo, pup, _, p, q, ⟨k1, hs0, ?_, ?_⟩, c1, c2, c3⟩
  · rw [div_le_one hdt]; linarith
  · rw [mix]; field_simp; ring

/-- Two radii, azimuths and dates; the first date is 0, the first radius 1. -/
def smallGrid : Grid :=
  { phimin := 0, phimax := 1, dphi := 1, tmin := 0, tmax := 1, dt := 1, rmin := 1, rmax := 2, dr := 1, nphi := 2, nt := 2, nr := 2 }

theorem dblMax_big : (2 : ℝ) < dblMax := by
  have h : (2 : ℝ) ^ 2 ≤ 2 ^ 1023 := pow_le_pow_right₀ (by norm_num) (by norm_num)
  unfold dblMax
  generalize (2 : ℝ) ^ 1023 = z at h ⊢
  norm_num at h ⊢
  linarith

theorem smallGrid_ok : smallGrid.Ok 3 := by
  have := dblMax_big
  constructor <;> norm_num [smallGrid] <;> linarith

/-- The array holding the number of the date. -/
theorem smallGrid_holds : smallGrid.Holds (fun it _ _ => (it : ℝ)) [0, 0, 0, 0, 1, 1, 1, 1] := by
  intro it h0 ip h1 ir h2
  simp only [smallGrid] at h0 h1 h2 ⊢
  rcases (by omega : it = 0 ∨ it = 1) with rfl | rfl <;> rcases (by omega : ip = 0 ∨ ip = 1) with rfl | rfl <;>
    rcases (by omega : ir = 0 ∨ ir = 1) with rfl | rfl <;> simp

/-- **Finding (C32)** With regular dates the date of the upper end of the cell is computed from the smallest radius instead of the
first date: half way between the first two dates, the value is one quarter of the way. -/
theorem grid_regular_dates_wrong :
    smallGrid.interpolate 3 (1 / 2) (1 / 2) (3 / 2) [0, 0, 0, 0, 1, 1, 1, 1] none = .ok (1 / 4) := by
  have hidx : smallGrid.indexT (1 / 2) none = .ok 0 := by
    have hf : ⌊((1 / 2 : ℝ) - 0) / 1⌋ = 0 := by rw [Int.floor_eq_iff]; norm_num
    have := dblMax_big
    have h1 : smallGrid.tmin > -dblMax ∧ smallGrid.tmax < dblMax := by
      constructor <;> norm_num [smallGrid] <;> linarith
    unfold Grid.indexT
    rw [if_pos (by norm_num [smallGrid]), if_pos h1, if_neg (by norm_num [smallGrid]), if_neg (by norm_num [smallGrid])]
    simp only [smallGrid, floorSize, hf]
    norm_num
  obtain ⟨lo, up, k, plo, pup, p, q, -, -, c3⟩ := grid_moving smallGrid_ok smallGrid_holds (tt := 1 / 2) (phi := 1 / 2) (r := 3 / 2)
    (times := none) (by norm_num [smallGrid]) (by norm_num [smallGrid]) (by norm_num [smallGrid]) (by norm_num [smallGrid])
    (by norm_num [smallGrid]) (by norm_num [smallGrid]) (by norm_num [smallGrid]) hidx (by norm_num [smallGrid])
    (tl := 0) (tu := 2) (s := 1 / 4) (by norm_num [Grid.dates, smallGrid]) (by norm_num [ratio]) (by norm_num)
  rw [c3]
  simp only [mix]
  norm_num

/-- **Finding (C32)** With a list of dates, the value at exactly the last date is that of the date before. -/
theorem grid_last_date_wrong :
    smallGrid.interpolate 3 1 (1 / 2) (3 / 2) [0, 0, 0, 0, 1, 1, 1, 1] (some [0, 1]) = .ok 0 := by
  have hidx : smallGrid.indexT 1 (some [0, 1]) = .ok 0 := by
    have := dblMax_big
    have h1 : smallGrid.tmin > -dblMax ∧ smallGrid.tmax < dblMax := by
      constructor <;> norm_num [smallGrid] <;> linarith
    unfold Grid.indexT
    rw [if_pos (by norm_num [smallGrid]), if_pos h1, if_neg (by norm_num [smallGrid]), if_neg (by norm_num [smallGrid])]
    obtain ⟨k, hk, hk1, -, -⟩ := search_from (X := [0, 1]) (xq := (1 : ℝ)) (fun i => (i : ℝ))
      (by intro i hi; rcases (by simp at hi; omega : i = 0 ∨ i = 1) with h | h <;> simp [h])
      (by norm_num) (by norm_num) 1 0 (by simp) (by norm_num) (Or.inl ⟨rfl, by simp⟩)
    have : k = 0 := by simp at hk1; omega
    subst this
    exact hk
  obtain ⟨i1, lo, up, plo, pup, p, a1, a2, a3, a4, a5, a6, a7, a8, a9, a10, a11, a12⟩ := Grid.rows_ok smallGrid_ok (phi := 1 / 2)
    (by norm_num [smallGrid]) (by norm_num [smallGrid]) (by norm_num [smallGrid])
  obtain ⟨k, q, b1, b2, b3, b4, b5, b6⟩ := Grid.radius_ok smallGrid_ok (r := 3 / 2) (by norm_num [smallGrid]) (by norm_num [smallGrid])
  have hit : 0 < smallGrid.nt := by norm_num [smallGrid]
  have hn : ¬ smallGrid.nphi = 1 := by norm_num [smallGrid]
  have hb : smallGrid.nt = 1 ∨ (1 : ℝ) ≤ smallGrid.tmin ∨ (1 : ℝ) ≥ smallGrid.tmax := by norm_num [smallGrid]
  have hneg : ¬ (p < 0 ∨ q < 0) := by push Not; exact ⟨a9, b4⟩
  simp only [Grid.interpolate, b1, a1, hidx, bind, Except.bind, hn, if_false, a2, hb, if_true,
    Grid.at_ok smallGrid_holds hit a3 (show k < smallGrid.nr by omega), Grid.at_ok smallGrid_holds hit a3 b2,
    Grid.at_ok smallGrid_holds hit a4 (show k < smallGrid.nr by omega), Grid.at_ok smallGrid_holds hit a4 b2, a8, b3, hneg]
  norm_num

/-- **Finding (C33)** At exactly the last azimuth, the upper row is past the end: of the array for the last date, of the rows of
the date for the others. -/
theorem grid_last_azimuth_wrong {g : Grid} {pi : ℝ} (hg : g.Ok pi) : g.indexPhi g.phimax = .ok (g.nphi - 1) ∧
    (g.rows pi g.phimax (g.nphi - 1)).2.1 = g.nphi := by
  obtain ⟨n2, nn⟩ := hg.nphi
  have hn1 : (0 : ℝ) < (g.nphi : ℝ) - 1 := by
    have : (2 : ℝ) ≤ g.nphi := by exact_mod_cast n2
    linarith
  have hd : 0 < g.dphi := by rw [hg.dphi]; exact div_pos (by linarith [hg.phi]) hn1
  have h1 : ¬ g.phimax < g.phimin := by linarith [hg.phi]
  have h2 : ¬ g.phimax > g.phimax := lt_irrefl _
  constructor
  · rw [Grid.indexPhi, if_pos (by omega), if_pos hd, if_neg h1, if_neg h2]
    have hv : (g.phimax - g.phimin) / g.dphi = (((g.nphi - 1 : Nat) : Int) : ℝ) := by
      have : g.phimax - g.phimin ≠ 0 := by linarith [hg.phi]
      rw [Int.cast_natCast, Nat.cast_sub (by omega), hg.dphi]
      push_cast
      field_simp
    have hi : floorInt (g.phimax - g.phimin) g.dphi = .ok ((g.nphi - 1 : Nat) : Int) := by
      rw [floorInt, if_neg hd.ne', hv, Int.floor_intCast, if_pos]
      constructor
      · omega
      · have : ((g.nphi : Int)) < 2 ^ 31 := by exact_mod_cast nn
        omega
    exact floorSize_of_int hi
  · rw [Grid.rows, if_neg h1, if_neg h2]
    simp only
    omega

/-- At the last date of the small grid this reads past the end of the array. -/
theorem grid_last_azimuth_ub : smallGrid.interpolate 3 1 1 (3 / 2) [0, 0, 0, 0, 1, 1, 1, 1] none = .error .ub := by
  obtain ⟨h1, -⟩ := grid_last_azimuth_wrong smallGrid_ok
  have e : smallGrid.phimax = 1 := rfl
  rw [e] at h1
  obtain ⟨k, q, b1, b2, -⟩ := Grid.radius_ok smallGrid_ok (r := 3 / 2) (by norm_num [smallGrid]) (by norm_num [smallGrid])
  have hk : k = 0 := by simp [smallGrid] at b2; omega
  subst hk
  have hidx := Grid.steady_index smallGrid_ok (tt := 1) (times := none) (by simp) (by norm_num [smallGrid]) (by simp)
  have e2 : (if (1 : ℝ) ≤ smallGrid.tmin then 0 else smallGrid.nt - 1) = 1 := by norm_num [smallGrid]
  rw [e2] at hidx
  have hb : smallGrid.nt = 1 ∨ (1 : ℝ) ≤ smallGrid.tmin ∨ (1 : ℝ) ≥ smallGrid.tmax := by norm_num [smallGrid]
  simp only [Grid.interpolate, b1, h1, hidx, bind, Except.bind, hb, if_true]
  norm_num [smallGrid, Grid.rows, Grid.at, get]

/-- **Finding (C33)** A query at a radius smaller than the smallest one, or at least equal to the largest one, is not checked: the
index is undefined, or the last one. -/
theorem grid_outside_radius_wrong {g : Grid} {pi : ℝ} (hg : g.Ok pi) :
    (∀ r < g.rmin, g.indexR r = .error .ub) ∧ g.indexR g.rmax = .ok (g.nr - 1) := by
  obtain ⟨n2, nn⟩ := hg.nr
  have hn1 : (0 : ℝ) < (g.nr : ℝ) - 1 := by
    have : (2 : ℝ) ≤ g.nr := by exact_mod_cast n2
    linarith
  have hd : 0 < g.dr := by rw [hg.dr]; exact div_pos (by linarith [hg.rr]) hn1
  constructor
  · intro r hr
    rw [Grid.indexR, if_pos ⟨hg.r0, hg.r1, by omega, hd⟩, floorSize, if_neg hd.ne', if_neg]
    rintro ⟨h, -⟩
    have h3 : (r - g.rmin) / g.dr < 0 := div_neg_of_neg_of_pos (by linarith) hd
    have := Int.floor_nonneg.1 h
    linarith
  · rw [Grid.indexR, if_pos ⟨hg.r0, hg.r1, by omega, hd⟩]
    have hv : (g.rmax - g.rmin) / g.dr = (((g.nr - 1 : Nat) : Int) : ℝ) := by
      have : g.rmax - g.rmin ≠ 0 := by linarith [hg.rr]
      rw [Int.cast_natCast, Nat.cast_sub (by omega), hg.dr]
      push_cast
      field_simp
    have hi : floorInt (g.rmax - g.rmin) g.dr = .ok ((g.nr - 1 : Nat) : Int) := by
      rw [floorInt, if_neg hd.ne', hv, Int.floor_intCast, if_pos]
      constructor
      · omega
      · have : ((g.nr : Int)) < 2 ^ 31 := by exact_mod_cast nn
        omega
    exact floorSize_of_int hi

/-- A query in the middle of the cell of the small grid, with a list of dates. -/
example : ∃ v, smallGrid.interpolate 3 (1 / 2) (1 / 2) (3 / 2) [0, 0, 0, 0, 1, 1, 1, 1] (some [0, 1]) = .ok v := by
  have hD : smallGrid.Dates [0, 1] (fun i => (i : ℝ)) :=
    ⟨rfl, by intro i hi; rcases (by simp [smallGrid] at hi; omega : i = 0 ∨ i = 1) with h | h <;> simp [h], by simp [smallGrid],
      by simp [smallGrid], by intros; simp⟩
  obtain ⟨it, lo, up, k, plo, pup, s, p, q, -, -, -, h⟩ := grid_dates_partial smallGrid_ok smallGrid_holds hD (tt := 1 / 2)
    (phi := 1 / 2) (r := 3 / 2) (by norm_num [smallGrid]) (by norm_num [smallGrid]) (by norm_num [smallGrid])
    (by norm_num [smallGrid]) (by norm_num [smallGrid]) (by norm_num [smallGrid]) (by norm_num [smallGrid])
  exact ⟨_, h⟩

end Gyoto.Interp
