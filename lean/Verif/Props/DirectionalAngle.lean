import Verif.Props.DirectionalDisk

/-!
# Angle, band and average of disks whose emission depends on the direction
-/

namespace Gyoto.DirectionalDisk

open Gyoto.GridRead Gyoto.GridInterp Gyoto.MetricAlg Gyoto.ThinDisk Gyoto.KerrBL Gyoto.Orbits Gyoto.Spacetime

/-! ## The angle -/

/-- A metric that is symmetric around the axis and with respect to the equatorial plane, with one direction of time. -/
structure Lorentzian (g : Tensor) : Prop extends BField.Circular g where
  rr : 0 < g 1 1
  hh : 0 < g 2 2
  det : g 0 0 * g 3 3 - g 0 3 * g 0 3 < 0

/-- C88. For an observer who only moves around the axis and a photon the cosine is a number from 0 to 1, that of the angle with the normal in the
observer's frame; no exception is thrown. -/
theorem cosine_ok {g : Tensor} {p u : Vec} (h : Lorentzian g) (hu : IsRotating g u) (hp : sp g p p = 0) (hp0 : p ≠ 0) :
    ∃ c, cosine g p u = .ok c ∧ 0 ≤ c ∧ c ≤ 1 ∧ c * |sp g u p| = √(g 2 2) * |p 2| := by
  have hc := h.toCircular
  have hrr := h.rr
  have hhh := h.hh
  have hdet := h.det
  have hnn : scalarProd g ![0, 0, -1, 0] ![0, 0, -1, 0] = g 2 2 := by
    rw [scalarProd_eq, BField.sp_circular hc]; simp only [Matrix.cons_val]; ring
  have hnp : scalarProd g ![0, 0, -1, 0] p = -(g 2 2 * p 2) := by
    rw [scalarProd_eq, BField.sp_circular hc]; simp only [Matrix.cons_val]; ring
  have hup := BField.sp_circular hc u p
  have huu := BField.sp_circular hc u u
  rw [hu.unit, hu.r, hu.theta] at huu
  rw [hu.r, hu.theta] at hup
  have hpp := BField.sp_circular hc p p
  rw [hp] at hpp
  -- the reversed Schwarz inequality in the plane of the time and the azimuth
  have hcs : sp g u p ^ 2 = g 1 1 * p 1 ^ 2 + g 2 2 * p 2 ^ 2 + (-(g 0 0 * g 3 3 - g 0 3 * g 0 3)) * (u 0 * p 3 - u 3 * p 0) ^ 2 := by
    rw [hup]
    linear_combination (-(g 0 0 * p 0 ^ 2 + g 3 3 * p 3 ^ 2 + 2 * g 0 3 * p 0 * p 3)) * huu + hpp
  have hup0 : sp g u p ≠ 0 := by
    intro h0
    rw [h0] at hcs
    have a1 : 0 ≤ g 1 1 * p 1 ^ 2 := by positivity
    have a2 : 0 ≤ g 2 2 * p 2 ^ 2 := by positivity
    have a3 : 0 ≤ (-(g 0 0 * g 3 3 - g 0 3 * g 0 3)) * (u 0 * p 3 - u 3 * p 0) ^ 2 := mul_nonneg (by linarith) (sq_nonneg _)
    have b1 : g 1 1 * p 1 ^ 2 = 0 := by nlinarith
    have b2 : g 2 2 * p 2 ^ 2 = 0 := by nlinarith
    have b3 : (-(g 0 0 * g 3 3 - g 0 3 * g 0 3)) * (u 0 * p 3 - u 3 * p 0) ^ 2 = 0 := by nlinarith
    have p1 : p 1 = 0 := by simpa [hrr.ne'] using b1
    have p2 : p 2 = 0 := by simpa [hhh.ne'] using b2
    have p3 : u 0 * p 3 - u 3 * p 0 = 0 := by
      rcases mul_eq_zero.1 b3 with hx | hx
      · linarith
      · exact pow_eq_zero_iff (two_ne_zero) |>.1 hx
    rw [h0] at hup
    have e0 : p 0 = 0 := by linear_combination (-p 0) * huu + u 0 * hup + (g 3 3 * u 3 + g 0 3 * u 0) * p3
    have e3 : p 3 = 0 := by linear_combination (-p 3) * huu + u 3 * hup + (-(g 0 0 * u 0 + g 0 3 * u 3)) * p3
    apply hp0
    funext i
    fin_cases i <;> assumption
  have hle : g 2 2 * p 2 ^ 2 ≤ sp g u p ^ 2 := by
    rw [hcs]
    have a1 : 0 ≤ g 1 1 * p 1 ^ 2 := by positivity
    have a3 : 0 ≤ (-(g 0 0 * g 3 3 - g 0 3 * g 0 3)) * (u 0 * p 3 - u 3 * p 0) ^ 2 := mul_nonneg (by linarith) (sq_nonneg _)
    linarith
  have hs : 0 < √(g 2 2) := Real.sqrt_pos.2 hhh
  have hs2 : √(g 2 2) ^ 2 = g 2 2 := Real.sq_sqrt hhh.le
  have hval : |-(1 / √(g 2 2) * -(g 2 2 * p 2)) / sp g u p| = √(g 2 2) * |p 2| / |sp g u p| := by
    rw [abs_div]
    congr 1
    rw [show -(1 / √(g 2 2) * -(g 2 2 * p 2)) = √(g 2 2) * p 2 by field_simp; rw [hs2]]
    rw [abs_mul, abs_of_pos hs]
  have habs : 0 < |sp g u p| := abs_pos.2 hup0
  have hle1 : √(g 2 2) * |p 2| / |sp g u p| ≤ 1 := by
    rw [div_le_one habs]
    apply abs_le_of_sq_le_sq' _ habs.le |>.2
    rw [mul_pow, hs2, sq_abs, sq_abs]
    exact hle
  refine ⟨√(g 2 2) * |p 2| / |sp g u p|, ?_, by positivity, hle1, by field_simp⟩
  unfold cosine
  simp only
  rw [hnn, hnp, if_neg (not_le.2 hhh), scalarProd_eq, if_neg hup0, hval, if_neg (not_lt.2 hle1)]

/-! ## The band of the lamp -/

/-- C88. The shift is the ratio of the energies of a photon without angular momentum measured by the disk, in circular free fall, and by the lamp,
at rest on the axis. -/
theorem lampShift_ok {a z : ℝ} {pos lamp u v : Vec} (hr : 0 < pos 1) (hθ : pos 2 = Real.pi / 2) (hs : KerrSlow a 1 (pos 1))
    (hz : lamp 1 = z) (hz0 : 0 < z) (hax : lamp 2 = 0) (hu : u = kerrVel a pos 1) (hv : IsRotating (gmunu a lamp) v) (hv3 : v 3 = 0) :
    ∃ s, lampShift a z (pos 1) = .ok (some s) ∧ 0 < s ∧ s * v 0 = u 0 ∧
      ∀ p p' : Vec, sp (gmunu a pos) ![1, 0, 0, 0] p = sp (gmunu a lamp) ![1, 0, 0, 0] p' → sp (gmunu a pos) ![0, 0, 0, 1] p = 0 →
        sp (gmunu a pos) u p = s * sp (gmunu a lamp) v p' := by
  have hw : 0 < √(pos 1) := Real.sqrt_pos.2 hr
  have hwr : pos 1 = √(pos 1) ^ 2 := (Real.sq_sqrt hr.le).symm
  have hn := kerr_norm hr hθ (Or.inl rfl) hs
  have hneg := kerr_norm_neg hr hθ (Or.inl rfl) hs
  obtain ⟨hrot, h3, h0⟩ := finish_ok hneg
  rw [← kerr_eq hr hθ, ← hu] at hrot h3 h0
  have hKs := hs
  unfold KerrSlow at hKs
  have hp := omega_pos hw (Or.inl rfl) hKs
  have hq : 0 < z * z + a * a := by nlinarith [mul_pos hz0 hz0, mul_self_nonneg a]
  obtain ⟨w, hwd⟩ : ∃ w, w = √(pos 1) := ⟨_, rfl⟩
  rw [← hwd] at hw hwr hn h0 hKs hp
  have hden : pos 1 * pos 1 * pos 1 + 2 * a * (pos 1) ^ (1.5 : ℝ) - 3 * pos 1 * pos 1 = w ^ 3 * (w ^ 3 - 3 * w + 2 * a) := by
    rw [pow_three_half hr.le, ← hwd, hwr]; ring
  have hden0 : 0 < w ^ 3 * (w ^ 3 - 3 * w + 2 * a) := mul_pos (by positivity) (by linarith)
  have hu0 : u 0 = (w ^ 3 + a) / √(w ^ 3 * (w ^ 3 - 3 * w + 2 * a)) := by
    rw [h0, hn,
      show -(-(w ^ 3 * (w ^ 3 - 3 * w + 2 * a * 1)) / (w ^ 3 + a * 1) ^ 2) = w ^ 3 * (w ^ 3 - 3 * w + 2 * a) / (w ^ 3 + a) ^ 2 by ring,
      Real.sqrt_div hden0.le, Real.sqrt_sq (by linarith), inv_div]
  -- the lamp
  have hv0 := hv.future
  have hvu := hv.unit
  rw [sp_eq, hv.r, hv.theta, hv3, gmunu_00, hax, Real.cos_zero, hz] at hvu
  have hK : (z * z + a * a - 2 * z) / (z * z + a * a) * v 0 ^ 2 = 1 := by
    have : (z * z + a * a - 2 * z) / (z * z + a * a) = -(-1 + 2 * z / (z * z + a * a * (1 * 1))) := by
      field_simp; ring
    rw [this]; linarith
  obtain ⟨K, hKd⟩ : ∃ K, K = (z * z + a * a - 2 * z) / (z * z + a * a) := ⟨_, rfl⟩
  rw [← hKd] at hK
  have hK0 : 0 < K := by
    by_contra hc
    push Not at hc
    nlinarith [sq_nonneg (v 0)]
  have hvK : v 0 * √K = 1 := by
    have : (v 0 * √K) ^ 2 = 1 := by rw [mul_pow, Real.sq_sqrt hK0.le]; linarith
    have h1 : 0 < v 0 * √K := mul_pos hv0 (Real.sqrt_pos.2 hK0)
    nlinarith
  refine ⟨u 0 * √K, ?_, mul_pos hrot.future (Real.sqrt_pos.2 hK0), by linear_combination u 0 * hvK, fun p p' h1 h2 => ?_⟩
  · unfold lampShift
    simp only
    rw [hden, ← hKd, if_neg (by rintro (h | h | h | h) <;> linarith), if_neg hden0.ne', hu0, pow_three_half hr.le, ← hwd]
  · have e1 : sp (gmunu a pos) u p = u 0 * sp (gmunu a pos) ![1, 0, 0, 0] p + u 3 * sp (gmunu a pos) ![0, 0, 0, 1] p := by
      rw [sp_eq, sp_eq, sp_eq, hrot.r, hrot.theta]; simp only [Matrix.cons_val]; ring
    have e2 : sp (gmunu a lamp) v p' = v 0 * sp (gmunu a lamp) ![1, 0, 0, 0] p' := by
      rw [sp_eq, sp_eq, hv.r, hv.theta, hv3]; simp only [Matrix.cons_val]; ring
    rw [e1, e2, h1, h2]
    linear_combination (-(u 0) * sp (gmunu a lamp) ![1, 0, 0, 0] p') * hvK

/-- The Kerr metric outside of the horizon, away from the axis. -/
theorem kerr_lorentzian {a : ℝ} {pos : Vec} (hr : 0 < pos 1) (hd : 0 < pos 1 * pos 1 - 2 * pos 1 + a * a) (hs : Real.sin (pos 2) ≠ 0) :
    Lorentzian (gmunu a pos) := by
  have hS : 0 < pos 1 * pos 1 + a * a * (Real.cos (pos 2) * Real.cos (pos 2)) := by
    nlinarith [mul_pos hr hr, mul_nonneg (mul_self_nonneg a) (mul_self_nonneg (Real.cos (pos 2)))]
  have hdet := det_eq (a := a) (x := pos) hS.ne'
  refine ⟨⟨?_, rfl, rfl, rfl, rfl, rfl⟩, ?_, ?_, ?_⟩
  · ext i j
    fin_cases i <;> fin_cases j <;> rfl
  · rw [gmunu_11]; exact div_pos hS hd
  · rw [gmunu_22]; exact hS
  · have : 0 < gmunu a pos 0 3 * gmunu a pos 0 3 - gmunu a pos 0 0 * gmunu a pos 3 3 := by
      rw [hdet]
      have := mul_self_pos.2 hs
      positivity
    linarith

/-- C88. The emission of a disk in circular free fall around a Kerr black hole lit by a lamp at rest on the axis, for a photon: with `s` the shift
from the lamp to the disk, an exception if the shifted band of the lamp is not within the frequencies computed, nothing outside of the band,
and in the band the intensity at the angle with the normal. -/
theorem emission_ok {d : Disk} {a nu : ℝ} {co : ℕ → ℝ} {pos lamp u v p : Vec} (hco : co 1 = pos 1) (hr : 0 < pos 1)
    (hd : 0 < pos 1 * pos 1 - 2 * pos 1 + a * a) (hθ : pos 2 = Real.pi / 2) (hs : KerrSlow a 1 (pos 1)) (hz : lamp 1 = d.lampAltitude)
    (hz0 : 0 < d.lampAltitude) (hax : lamp 2 = 0) (hu : u = kerrVel a pos 1) (hv : IsRotating (gmunu a lamp) v) (hv3 : v 3 = 0)
    (hp : sp (gmunu a pos) p p = 0) (hp0 : p ≠ 0) :
    ∃ s c, 0 < s ∧ s * v 0 = u 0 ∧ 0 ≤ c ∧ c ≤ 1 ∧ c * |sp (gmunu a pos) u p| = √(gmunu a pos 2 2) * |p 2| ∧
      emission d a (gmunu a pos) nu p co u =
        if d.minLamp * s < d.minComputed ∨ d.maxComputed < d.maxLamp * s then .error .error
        else if nu < d.minLamp * s ∨ d.maxLamp * s < nu then .ok 0
        else intensity d .spherical co c nu := by
  obtain ⟨s, hs1, hs0, hs2, -⟩ := lampShift_ok hr hθ hs hz hz0 hax hu hv hv3
  obtain ⟨hrot, -, -⟩ := finish_ok (kerr_norm_neg hr hθ (Or.inl rfl) hs)
  rw [← kerr_eq hr hθ, ← hu] at hrot
  obtain ⟨c, c1, c2, c3, c4⟩ := cosine_ok (kerr_lorentzian hr hd (by rw [hθ]; simp)) hrot hp hp0
  refine ⟨s, c, hs0, hs2, c2, c3, c4, ?_⟩
  · unfold emission
    rw [hco, hs1]
    simp only [bind, Except.bind, inBand, gt_iff_lt]
    by_cases h1 : d.minLamp * s < d.minComputed ∨ d.maxComputed < d.maxLamp * s
    · rw [if_pos h1, if_pos h1]
    rw [if_neg h1, if_neg h1]
    by_cases h2 : nu < d.minLamp * s ∨ d.maxLamp * s < nu
    · rw [if_pos h2, if_pos h2]; rfl
    · rw [if_neg h2, if_neg h2, c1]
      rfl

/-- C88 (negation). Such a frequency reaches the search when the grids are set one by one: the limits computed are then not those of the grid. -/
theorem emission_wrong {tiny big : ℝ} (ht : tiny ≤ 1) (hb : 1e30 ≤ big) : ∃ (d : Disk) (co : ℕ → ℝ) (pos p : Vec) (nu : ℝ), Reachable tiny big d ∧
    co 1 = pos 1 ∧ sp (gmunu 0 pos) p p = 0 ∧ emission d 0 (gmunu 0 pos) nu p co (kerrVel 0 pos 1) = .error .ub := by
  have r1 := Reachable.step (.copyIntensity (some [1, 2, 3, 4, 5, 6, 7, 8]) 2 2 2) (Reachable.init (tiny := tiny) (big := big)) (by simp [Fits])
  have r2 := Reachable.step (.copyGridRadius (some [3, 5]) 2) r1 (by simp [Fits])
  have r3 := Reachable.step (.copyGridCosi (some [0, 1]) 2) r2 (by simp [Fits])
  have r4 := Reachable.step (.copyGridFreq (some [2, 1]) 2) r3 (by simp [Fits])
  have r5 := Reachable.step (.lampAltitude (8 / 3)) r4 trivial
  obtain ⟨D, hD⟩ : ∃ D, D = (step (step (step (step (step (init tiny big) (.copyIntensity (some [1, 2, 3, 4, 5, 6, 7, 8]) 2 2 2)).1
    (.copyGridRadius (some [3, 5]) 2)).1 (.copyGridCosi (some [0, 1]) 2)).1 (.copyGridFreq (some [2, 1]) 2)).1 (.lampAltitude (8 / 3))).1 := ⟨_, rfl⟩
  rw [← hD] at r5
  have hval : Valid D [1, 2, 3, 4, 5, 6, 7, 8] [3, 5] [0, 1] [2, 1] := by
    refine ⟨reachable_ok r5, ?_, ?_, ?_, ?_, ?_, ?_, ?_⟩
    · rw [hD]; simp [step, copyIntensity, copyGridRadius, copyGridCosi, copyGridFreq, resize, init, memcpy]
    · rw [hD]; simp [step, copyIntensity, copyGridRadius, copyGridCosi, copyGridFreq, resize, init, memcpy]
    · rw [hD]; simp [step, copyIntensity, copyGridRadius, copyGridCosi, copyGridFreq, resize, init, memcpy]
    · rw [hD]; simp [step, copyIntensity, copyGridRadius, copyGridCosi, copyGridFreq, resize, init, memcpy]
    · intro i j hij hj
      obtain ⟨rfl, rfl⟩ : i = 0 ∧ j = 1 := by simp at hj; omega
      norm_num
    · intro i j hij hj
      obtain ⟨rfl, rfl⟩ : i = 0 ∧ j = 1 := by simp at hj; omega
      norm_num
    · intro i j hij hj
      obtain ⟨rfl, rfl⟩ : i = 0 ∧ j = 1 := by simp at hj; omega
      norm_num
  have f1 : D.lampAltitude = 8 / 3 := by rw [hD]; simp [step]
  have f2 : D.minLamp = 1 ∧ D.maxLamp = 1e30 ∧ D.minComputed = tiny ∧ D.maxComputed = big := by
    rw [hD]; simp [step, copyIntensity, copyGridRadius, copyGridCosi, copyGridFreq, resize, init, memcpy]
  obtain ⟨f2, f3, f4, f5⟩ := f2
  obtain ⟨pos, hpos⟩ : ∃ pos : Vec, pos = ![0, 4, Real.pi / 2, 0] := ⟨_, rfl⟩
  have p1 : pos 1 = 4 := by rw [hpos]; rfl
  have p2 : pos 2 = Real.pi / 2 := by rw [hpos]; rfl
  have s4 : √(4 : ℝ) = 2 := by rw [show (4 : ℝ) = 2 ^ 2 by norm_num]; exact Real.sqrt_sq (by norm_num)
  have hnull : sp (gmunu 0 pos) ![2, 1, 0, 0] ![2, 1, 0, 0] = 0 := by
    rw [sp_eq, gmunu_00, gmunu_11, p1, p2]
    simp only [Matrix.cons_val]
    norm_num
  refine ⟨D, fun _ => 4, pos, ![2, 1, 0, 0], 3, r5, p1.symm, hnull, ?_⟩
  obtain ⟨hrot, -, -⟩ := finish_ok (kerr_norm_neg (a := 0) (pos := pos) (by rw [p1]; norm_num) p2 (Or.inl rfl)
    (by unfold KerrSlow; rw [p1, s4]; norm_num))
  rw [← kerr_eq (by rw [p1]; norm_num) p2] at hrot
  obtain ⟨c, c1, -⟩ := cosine_ok (kerr_lorentzian (a := 0) (pos := pos) (by rw [p1]; norm_num) (by rw [p1]; norm_num) (by rw [p2]; simp))
    hrot hnull (fun h => by have := congrFun h 1; simp at this)
  have hshift : lampShift 0 D.lampAltitude 4 = .ok (some 1) := by
    unfold lampShift
    simp only
    have e1 : (4 : ℝ) ^ (1.5 : ℝ) = 8 := by rw [pow_three_half (by norm_num), s4]; norm_num
    rw [f1, e1, if_neg (by norm_num), if_neg (by norm_num)]
    have e2 : √((4 : ℝ) * 4 * 4 + 2 * 0 * 8 - 3 * 4 * 4) = 4 := by
      rw [show (4 : ℝ) * 4 * 4 + 2 * 0 * 8 - 3 * 4 * 4 = 4 ^ 2 by norm_num]; exact Real.sqrt_sq (by norm_num)
    have e3 : √((8 / 3 * (8 / 3) + 0 * 0 - 2 * (8 / 3)) / (8 / 3 * (8 / 3) + 0 * 0) : ℝ) = 1 / 2 := by
      rw [show (8 / 3 * (8 / 3) + 0 * 0 - 2 * (8 / 3)) / (8 / 3 * (8 / 3) + 0 * 0) = ((1 : ℝ) / 2) ^ 2 by norm_num]
      exact Real.sqrt_sq (by norm_num)
    rw [e2, e3]
    norm_num
  unfold emission
  rw [hshift]
  simp only [bind, Except.bind, inBand, f2, f3, f4, f5]
  rw [if_neg (by norm_num at hb ⊢; exact ⟨ht, hb⟩), if_neg (by norm_num)]
  simp only [if_true]
  rw [c1]
  exact freq_wrong hval (by norm_num)

/-! ## The mean over the cosines -/

/-- C88. The mean is between the least and the greatest of the values. -/
theorem trapezeMean_mem {c v : ℕ → ℝ} {n : ℕ} {lo hi : ℝ} (hn : 0 < n) (hc : ∀ i < n, c i < c (i + 1)) (hv : ∀ i ≤ n, lo ≤ v i ∧ v i ≤ hi) :
    lo ≤ trapezeMean c v n ∧ trapezeMean c v n ≤ hi := by
  have htel : ∑ i ∈ Finset.range n, (c (i + 1) - c i) = c n - c 0 := Finset.sum_range_sub c n
  have hpos : 0 < c n - c 0 := by
    rw [← htel]
    exact Finset.sum_pos (fun i hi => by linarith [hc i (Finset.mem_range.1 hi)]) ⟨0, Finset.mem_range.2 hn⟩
  unfold trapezeMean
  constructor
  · rw [le_div_iff₀ hpos, ← htel, Finset.mul_sum]
    refine Finset.sum_le_sum fun i hi => ?_
    have hi := Finset.mem_range.1 hi
    have h1 := hc i hi
    have h2 := (hv i (by omega)).1
    have h3 := (hv (i + 1) (by omega)).1
    nlinarith
  · rw [div_le_iff₀ hpos, ← htel, Finset.mul_sum]
    refine Finset.sum_le_sum fun i hi => ?_
    have hi := Finset.mem_range.1 hi
    have h1 := hc i hi
    have h2 := (hv i (by omega)).2
    have h3 := (hv (i + 1) (by omega)).2
    nlinarith

/-- C88. For values that depend linearly on the cosine it is the value at the middle. -/
theorem trapezeMean_linear {c : ℕ → ℝ} {n : ℕ} (al be : ℝ) (h : c 0 ≠ c n) :
    trapezeMean c (fun i => al + be * c i) n = al + be * ((c 0 + c n) / 2) := by
  have hsum : ∀ m, ∑ i ∈ Finset.range m, (c (i + 1) - c i) * ((al + be * c i + (al + be * c (i + 1))) / 2) =
      (c m - c 0) * (al + be * ((c 0 + c m) / 2)) := by
    intro m
    induction m with
    | zero => simp
    | succ m ih => rw [Finset.sum_range_succ, ih]; ring
  unfold trapezeMean
  rw [hsum, mul_div_assoc, mul_comm, div_mul_cancel₀]
  exact fun h' => h (by linarith)

/-! ## An example -/

/-- Two frequencies, two cosines, two radii. -/
noncomputable def cube : Disk :=
  { init 0 1e40 with emission := some [1, 2, 3, 4, 5, 6, 7, 8], freq := some [2, 1], cosi := some [0, 1], radius := some [6, 10],
                     nnu := 2, ni := 2, nr := 2 }

theorem cube_valid : Valid cube [1, 2, 3, 4, 5, 6, 7, 8] [6, 10] [0, 1] [2, 1] := by
  refine ⟨⟨?_, ?_, ?_, ?_⟩, rfl, rfl, rfl, rfl, ?_, ?_, ?_⟩
  · intro l hl
    obtain rfl : [1, 2, 3, 4, 5, 6, 7, 8] = l := by simpa [cube] using hl
    simp [cube]
  · intro l hl
    obtain rfl : [6, 10] = l := by simpa [cube] using hl
    simp [cube]
  · intro l hl
    obtain rfl : [0, 1] = l := by simpa [cube] using hl
    simp [cube]
  · intro l hl
    obtain rfl : [2, 1] = l := by simpa [cube] using hl
    simp [cube]
  · intro i j hij hj
    obtain ⟨rfl, rfl⟩ : i = 0 ∧ j = 1 := by simp at hj; omega
    norm_num
  · intro i j hij hj
    obtain ⟨rfl, rfl⟩ : i = 0 ∧ j = 1 := by simp at hj; omega
    norm_num
  · intro i j hij hj
    obtain ⟨rfl, rfl⟩ : i = 0 ∧ j = 1 := by simp at hj; omega
    norm_num

/-- In the middle of the cube. -/
example : intensity cube .spherical (fun _ => 8) (1 / 2) (3 / 2) = .ok (9 / 2) := by
  rw [(inside_ok cube_valid (co := fun _ => 8) (cosi := 1 / 2) (nu := 3 / 2) (k := 0) (m := 0) (by simp) (by simp) (by norm_num)
    (by norm_num) (by norm_num) (by norm_num) (by norm_num) (by norm_num)).2.1 rfl 0 (by simp) (by norm_num) (by norm_num) (by norm_num)]
  simp [trilerp, lerp, bilerp, sample, cube]
  norm_num

/-- Above the highest frequency. -/
example : intensity cube .spherical (fun _ => 8) (1 / 2) 3 = .error .ub := freq_wrong cube_valid (by norm_num)

end Gyoto.DirectionalDisk
