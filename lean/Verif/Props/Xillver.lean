import Verif.Model.Xillver
import Verif.Lemmas.DirectionalDisk
import Mathlib.Analysis.Real.Pi.Bounds
import Mathlib.Tactic.Positivity
import Verif.Model.KerrBL
import Verif.Lemmas.Plunge
import Mathlib.Analysis.Calculus.Deriv.Inv
import Mathlib.Analysis.Calculus.Deriv.Pow

/-!
# C146: the illumination of disks under a lamp
-/

namespace Gyoto.Xillver

open Gyoto.GridRead Gyoto.GridInterp
open Gyoto.DirectionalDisk (upIndex mix2 ratio Increasing ratio_ok mix2_eq upIndex_high upIndex_mid upIndex_low read_last)

/-! ## The lamp -/

private theorem forward_ok {p : ℝ} : ∀ (n : ℕ) (t : ℝ), -t ≤ n * p → ∃ m : ℕ, forward p n t = .ok (t + m * p) ∧ 0 ≤ t + m * p := by
  intro n
  induction n with
  | zero =>
    intro t h
    simp only [Nat.cast_zero, zero_mul] at h
    refine ⟨0, ?_, by simp only [Nat.cast_zero, zero_mul]; linarith⟩
    simp only [forward]
    rw [if_neg (by linarith)]
    simp
  | succ n ih =>
    intro t h
    simp only [forward]
    by_cases c : t < 0
    · rw [if_pos c]
      push_cast at h
      obtain ⟨m, e, h0⟩ := ih (t + p) (by linarith)
      refine ⟨m + 1, ?_, ?_⟩
      · rw [e]
        congr 1
        push_cast
        ring
      · push_cast
        linarith
    · rw [if_neg c]
      exact ⟨0, by simp, by simpa using c⟩

private theorem fmod_ok {x y : ℝ} (hx : 0 ≤ x) (hy : 0 < y) : ∃ (z : ℝ) (k : ℤ), fmod x y = .ok z ∧ z = x - y * k ∧ 0 ≤ z ∧ z < y := by
  refine ⟨x - y * ⌊x / y⌋, ⌊x / y⌋, ?_, rfl, ?_, ?_⟩
  · unfold fmod
    rw [if_neg hy.ne', if_pos hx, abs_of_pos hy]
  · have := Int.floor_le (x / y)
    rw [le_div_iff₀ hy] at this
    linarith
  · have := Int.lt_floor_add_one (x / y)
    rw [div_lt_iff₀ hy] at this
    linarith

/-- **C146.** The azimuth from the lamp: for a lamp of positive period whose date of origin is in the first period, at any date and any
azimuth of the disk, it is in `[0, 2π]` and differs from the azimuth minus the uniform motion of the lamp by a number of turns. -/
theorem lamp_partial {l : Lamp} (hP : 0 < l.period) (h0 : 0 ≤ l.zero) (h1 : l.zero < l.period) (t : ℝ) {phi : ℝ} (hp : 0 ≤ phi)
    (hp' : phi ≤ 2 * Real.pi) :
    ∃ d, l.dphi t phi = .ok d ∧ 0 ≤ d ∧ d ≤ 2 * Real.pi ∧
      ∃ k : ℤ, d = phi - 2 * Real.pi * ((t - l.zero) / l.period) + 2 * Real.pi * k := by
  have hpi := Real.pi_pos
  obtain ⟨m, e1, hm⟩ := forward_ok (p := l.period) ⌈-t / l.period⌉₊ t (by
    have := Nat.le_ceil (-t / l.period)
    rwa [div_le_iff₀ hP] at this)
  obtain ⟨z, k, e2, ez, hz0, hz1⟩ := fmod_ok hm hP
  obtain ⟨q, hq⟩ : ∃ q, q = (z - l.zero) / l.period * 2 * Real.pi := ⟨_, rfl⟩
  have hq1 : -(2 * Real.pi) < q := by
    have : -1 < (z - l.zero) / l.period := by rw [lt_div_iff₀ hP]; linarith
    rw [hq]
    nlinarith
  have hq2 : q < 2 * Real.pi := by
    have : (z - l.zero) / l.period < 1 := by rw [div_lt_one hP]; linarith
    rw [hq]
    nlinarith
  have hqe : q = 2 * Real.pi * ((t - l.zero) / l.period) + 2 * Real.pi * ((m : ℤ) - k : ℤ) := by
    rw [hq, ez]
    push_cast
    field_simp
    ring
  have hd : l.dphi t phi = (if phi - q < -2 * Real.pi ∨ phi - q > 4 * Real.pi then .error .error
      else
        let dphi := if phi - q < 0 then phi - q + 2 * Real.pi else phi - q
        let dphi := if dphi > 2 * Real.pi then dphi - 2 * Real.pi else dphi
        if dphi < 0 ∨ dphi > 2 * Real.pi then .error .error else .ok dphi) := by
    unfold Lamp.dphi
    simp only [bind, Except.bind]
    rw [e1]
    simp only
    rw [e2]
    simp only [← hq]
  rw [hd, if_neg (by push Not; constructor <;> linarith)]
  by_cases c1 : phi - q < 0
  · refine ⟨phi - q + 2 * Real.pi, ?_, by linarith, by linarith, 1 - ((m : ℤ) - k), ?_⟩
    · simp only
      rw [if_pos c1, if_neg (show ¬ phi - q + 2 * Real.pi > 2 * Real.pi by linarith), if_neg (by push Not; constructor <;> linarith)]
    · rw [hqe]
      push_cast
      ring
  by_cases c2 : phi - q > 2 * Real.pi
  · refine ⟨phi - q - 2 * Real.pi, ?_, by linarith, by linarith, -1 - ((m : ℤ) - k), ?_⟩
    · simp only
      rw [if_neg c1, if_pos c2, if_neg (by push Not; constructor <;> linarith)]
    · rw [hqe]
      push_cast
      ring
  · refine ⟨phi - q, ?_, by linarith, by linarith, -((m : ℤ) - k), ?_⟩
    · simp only
      rw [if_neg c1, if_neg c2, if_neg (by push Not; constructor <;> linarith)]
    · rw [hqe]
      push_cast
      ring

/-- **C146.** A date of origin that is not negative is brought in the first period. -/
theorem zero_partial {l : Lamp} (hr : l.radius ≠ 0) (hP : 0 < l.period) {tt : ℝ} (ht : 0 ≤ tt) :
    ∃ l', l.setZero tt = .ok l' ∧ l'.period = l.period ∧ 0 ≤ l'.zero ∧ l'.zero < l'.period ∧
      ∃ k : ℤ, l'.zero = tt - l.period * k := by
  obtain ⟨z, k, e, ez, h0, h1⟩ := fmod_ok ht hP
  refine ⟨{ l with zero := z }, ?_, rfl, h0, h1, k, ez⟩
  unfold Lamp.setZero
  rw [if_neg hr]
  simp only [bind, Except.bind]
  rw [e]
  rfl

private theorem period1 (z : ℝ) : (⟨0, 1, z⟩ : Lamp).period = 2 * Real.pi := by
  simp [Lamp.period]

/-- **C146, wrong.** A negative date of origin is accepted and kept negative: an exception at dates and places of the disk where the
reflection is defined. -/
theorem zero_negative_wrong : ∃ (l l' : Lamp) (tt t phi : ℝ), l.setZero tt = .ok l' ∧ 0 < l'.period ∧ 0 ≤ t ∧ 0 ≤ phi ∧ phi ≤ 2 * Real.pi ∧
    l'.dphi t phi = .error .error := by
  have hpi := Real.pi_pos
  refine ⟨⟨0, 1, 0⟩, ⟨0, 1, -Real.pi⟩, -Real.pi, 7 * Real.pi / 4, Real.pi / 4, ?_, ?_, by positivity, by positivity, by linarith, ?_⟩
  · unfold Lamp.setZero
    rw [if_neg (by norm_num), period1]
    have hc : ⌈-Real.pi / (2 * Real.pi)⌉ = 0 := by
      rw [Int.ceil_eq_iff]
      have : -Real.pi / (2 * Real.pi) = -(1 / 2) := by field_simp
      rw [this]
      norm_num
    simp only [bind, Except.bind, fmod]
    rw [if_neg (by positivity), if_neg (by linarith), abs_of_pos (by positivity), hc]
    simp [pure, Except.pure]
  · rw [period1]
    positivity
  · have hf : forward (2 * Real.pi) ⌈-(7 * Real.pi / 4) / (2 * Real.pi)⌉₊ (7 * Real.pi / 4) = .ok (7 * Real.pi / 4) := by
      have : ⌈-(7 * Real.pi / 4) / (2 * Real.pi)⌉₊ = 0 := by
        rw [Nat.ceil_eq_zero]
        apply div_nonpos_of_nonpos_of_nonneg <;> linarith
      rw [this]
      simp only [forward]
      rw [if_neg (by linarith)]
    have hm : fmod (7 * Real.pi / 4) (2 * Real.pi) = .ok (7 * Real.pi / 4) := by
      have hc : ⌊7 * Real.pi / 4 / (2 * Real.pi)⌋ = 0 := by
        rw [Int.floor_eq_iff]
        have : 7 * Real.pi / 4 / (2 * Real.pi) = 7 / 8 := by field_simp; norm_num
        rw [this]
        norm_num
      unfold fmod
      rw [if_neg (by positivity), if_pos (by positivity), abs_of_pos (by positivity), hc]
      simp
    unfold Lamp.dphi
    simp only [bind, Except.bind]
    rw [period1, hf]
    simp only
    rw [hm]
    simp only
    rw [if_pos]
    left
    have : (7 * Real.pi / 4 - -Real.pi) / (2 * Real.pi) * 2 * Real.pi = 11 * Real.pi / 4 := by
      field_simp
      norm_num
    rw [this]
    linarith

/-- **C146, wrong.** Without a radius for the lamp and without spin, as the constructor leaves them, the period is zero: at a negative date
the loop does not end.  The same happens for every period that is not positive. -/
theorem stuck_wrong {l : Lamp} (hP : l.period ≤ 0) {t : ℝ} (ht : t < 0) (phi : ℝ) :
    l.dphi t phi = .error .ub ∧ (∀ n : ℕ, t + n * l.period < 0) ∧ (⟨0, 0, 0⟩ : Lamp).period = 0 := by
  refine ⟨?_, fun n => ?_, ?_⟩
  · have : ⌈-t / l.period⌉₊ = 0 := by
      rw [Nat.ceil_eq_zero]
      exact div_nonpos_of_nonneg_of_nonpos (by linarith) hP
    unfold Lamp.dphi
    simp only [bind, Except.bind]
    rw [this]
    simp only [forward]
    rw [if_pos ht]
  · have : (n : ℝ) * l.period ≤ 0 := mul_nonpos_of_nonneg_of_nonpos (Nat.cast_nonneg n) hP
    linarith
  · have : (0 : ℝ) ^ (1.5 : ℝ) = 0 := Real.zero_rpow (by norm_num)
    simp [Lamp.period, this]

/-- A lamp of radius 4 without spin. -/
example : ∃ d, (⟨0, 4, 0⟩ : Lamp).dphi 1 1 = .ok d ∧ 0 ≤ d ∧ d ≤ 2 * Real.pi := by
  have hpi := Real.pi_gt_three
  have hp : 0 < (⟨0, 4, 0⟩ : Lamp).period := by
    have : (0 : ℝ) < (4 : ℝ) ^ (1.5 : ℝ) := by positivity
    simp only [Lamp.period]
    positivity
  obtain ⟨d, h, h0, h1, _⟩ := lamp_partial (l := ⟨0, 4, 0⟩) hp le_rfl hp 1 (phi := 1) (by norm_num) (by linarith)
  exact ⟨d, h, h0, h1⟩

/-! ## The table -/

/-- A table whose arrays have the sizes announced, with increasing radii and azimuths, the azimuths in a turn. -/
structure Good (s : Table) (I R P : List ℝ) : Prop where
  illumination : s.illumination = some I
  radius : s.radius = some R
  phi : s.phi = some P
  nr : R.length = s.nr
  nphi : P.length = s.nphi
  size : I.length = s.nr * s.nphi
  incR : Increasing R
  incP : Increasing P
  two : 2 ≤ s.nr
  twoP : 2 ≤ s.nphi
  first : (0 : ℝ) ≤ P[0]'(by omega)

private theorem radius_index {R : List ℝ} {n k : ℕ} {rr : ℝ} (hl : R.length = n) (hs : Increasing R) (hk : k + 1 < n)
    (h1 : R[k]'(by omega) < rr) (h2 : rr ≤ R[k + 1]'(by omega)) : searchUp (some R) rr n 0 = .ok (k + 1) := by
  obtain ⟨j, e, -, k2, k3, k4⟩ := searchUp_ok (l := R) (x := rr) (m := k + 1) (by omega) h2 n 0 (by omega) (by omega)
  rw [e]
  congr 1
  by_contra hne
  rcases Nat.lt_or_gt_of_ne hne with h | h
  · have := hs.le (show j ≤ k by omega) (by omega)
    linarith
  · have := k4 (k + 1) (by omega) (by omega) h
    linarith

private theorem size_lt {a b i j : ℕ} (hi : i < a) (hj : j < b) : b * i + j < a * b := by
  have : b * (i + 1) ≤ b * a := Nat.mul_le_mul_left b hi
  rw [Nat.mul_succ] at this
  rw [Nat.mul_comm a b]
  omega

/-- What `flux` computes from the indices. -/
private theorem flux_eq {s : Table} {I R P : List ℝ} (g : Good s I R P) {rr d pl pu : ℝ} {k ip il iu : ℕ} (hk : k + 1 < s.nr)
    (h1 : R[k]'(by have := g.nr; omega) < rr) (h2 : rr ≤ R[k + 1]'(by have := g.nr; omega)) (h3 : rr < R[s.nr - 1]'(by have := g.nr; omega))
    (hi : s.indices rr d = .ok (k + 1, ip)) (hip : ip ≠ 0)
    (hiu : (il, iu) = if d > P[s.nphi - 1]'(by have := g.nphi; have := g.twoP; omega) then (s.nphi - 1, 0) else (ip - 1, ip))
    (hil : il < s.nphi) (hiu' : iu < s.nphi) (hpl : pl = P[il]'(by have := g.nphi; omega))
    (hpu : pu = if d > P[s.nphi - 1]'(by have := g.nphi; have := g.twoP; omega) then (2 : ℝ) * Real.pi + P[iu]'(by have := g.nphi; omega)
      else P[iu]'(by have := g.nphi; omega)) (hne : pl ≠ pu) :
    s.flux rr d = .ok (some (bilerp (R[k]'(by have := g.nr; omega)) (R[k + 1]'(by have := g.nr; omega)) pl pu
      (I[s.nphi * k + il]'(g.size ▸ size_lt (by omega) hil)) (I[s.nphi * (k + 1) + il]'(g.size ▸ size_lt hk hil))
      (I[s.nphi * k + iu]'(g.size ▸ size_lt (by omega) hiu')) (I[s.nphi * (k + 1) + iu]'(g.size ▸ size_lt hk hiu')) rr d)) := by
  have hnr := g.nr
  have hnp := g.nphi
  have h2r := g.two
  have h2p := g.twoP
  have hR0 : R[0]'(by omega) ≤ R[k]'(by omega) := g.incR.le (by omega) (by omega)
  have hRk : R[k]'(by omega) < R[k + 1]'(by omega) := g.incR k (k + 1) (by omega) (by omega)
  unfold Table.flux
  rw [g.radius, g.phi, g.illumination]
  rw [show read (some R) 0 = .ok (R[0]'(by omega)) from read_ok (i := 0) (by omega), read_last hnr (by omega)]
  simp only [bind, Except.bind]
  rw [if_neg (by push Not; exact ⟨by linarith, h3⟩), hi]
  simp only
  rw [if_neg (by push Not; exact ⟨by omega, hip⟩), read_last hnp (by omega)]
  simp only [Nat.add_sub_cancel]
  rw [← hiu]
  simp only
  rw [read_ok (size_lt (show k < s.nr by omega) hil |>.trans_eq g.size.symm), read_ok (size_lt (show k < s.nr by omega) hiu' |>.trans_eq g.size.symm),
    read_ok (size_lt hk hil |>.trans_eq g.size.symm), read_ok (size_lt hk hiu' |>.trans_eq g.size.symm)]
  simp only
  rw [read_ok (show k < R.length by omega), read_ok (show k + 1 < R.length by omega)]
  simp only
  rw [ratio_ok hRk.ne]
  simp only
  rw [read_ok (show il < P.length by omega), read_ok (show iu < P.length by omega)]
  simp only
  by_cases c : d > P[s.nphi - 1]'(by omega)
  · rw [if_pos c] at hpu
    rw [if_pos c, ← hpl, ← hpu, ratio_ok hne]
    simp only [pure, Except.pure]
    rw [mix2_eq hRk.ne hne]
  · rw [if_neg c] at hpu
    rw [if_neg c, ← hpl, ← hpu, ratio_ok hne]
    simp only [pure, Except.pure]
    rw [mix2_eq hRk.ne hne]

/-- **C146.** Between two azimuths of the table and two radii, the illumination is the mean of the four values around. -/
theorem flux_partial {s : Table} {I R P : List ℝ} (g : Good s I R P) {rr d : ℝ} {k j : ℕ} (hk : k + 1 < s.nr) (hj : j + 1 < s.nphi)
    (h1 : R[k]'(by have := g.nr; omega) < rr) (h2 : rr ≤ R[k + 1]'(by have := g.nr; omega)) (h3 : rr < R[s.nr - 1]'(by have := g.nr; omega))
    (p1 : P[j]'(by have := g.nphi; omega) < d) (p2 : d ≤ P[j + 1]'(by have := g.nphi; omega)) (p3 : d ≤ 2 * Real.pi) :
    s.flux rr d = .ok (some (bilerp (R[k]'(by have := g.nr; omega)) (R[k + 1]'(by have := g.nr; omega))
      (P[j]'(by have := g.nphi; omega)) (P[j + 1]'(by have := g.nphi; omega))
      (I[s.nphi * k + j]'(g.size ▸ size_lt (by omega) (by omega))) (I[s.nphi * (k + 1) + j]'(g.size ▸ size_lt hk (by omega)))
      (I[s.nphi * k + (j + 1)]'(g.size ▸ size_lt (by omega) hj)) (I[s.nphi * (k + 1) + (j + 1)]'(g.size ▸ size_lt hk hj)) rr d)) := by
  have hnr := g.nr
  have hnp := g.nphi
  have hf := g.first
  have hP0 : P[0]'(by omega) ≤ P[j]'(by omega) := g.incP.le (by omega) (by omega)
  have hPn : P[j + 1]'(by omega) ≤ P[s.nphi - 1]'(by omega) := g.incP.le (by omega) (by omega)
  have hPj : P[j]'(by omega) < P[j + 1]'(by omega) := g.incP j (j + 1) (by omega) (by omega)
  have hc : ¬ d > P[s.nphi - 1]'(by omega) := by linarith
  have hi : s.indices rr d = .ok (k + 1, j + 1) := by
    unfold Table.indices
    rw [if_neg (by push Not; exact ⟨by linarith, p3⟩), g.phi, g.radius]
    rw [show read (some P) 0 = .ok (P[0]'(by omega)) from read_ok (i := 0) (by omega)]
    simp only [bind, Except.bind]
    rw [if_neg (show ¬ (some R = none) by simp), if_neg (show ¬ d < P[0]'(by omega) by linarith), radius_index hnr g.incR hk h1 h2]
    simp only
    by_cases c : d < P[s.nphi - 1]'(by omega)
    · rw [upIndex_mid hnp g.incP hj p1 p2 c]
      rfl
    · rw [upIndex_high hnp (by omega) (not_lt.1 c)]
      have : j + 1 = s.nphi - 1 := by
        by_contra hne
        have := g.incP (j + 1) (s.nphi - 1) (by omega) (by omega)
        linarith
      rw [← this]
      rfl
  exact flux_eq g (il := j) (iu := j + 1) hk h1 h2 h3 hi (by omega) (by rw [if_neg hc]; rfl) (by omega) hj rfl (by rw [if_neg hc]) hPj.ne

/-- **C146.** Past the last azimuth of the table, up to `2π`, the illumination is the mean of the four values around, the next azimuth being
the first one a turn later. -/
theorem flux_wrap {s : Table} {I R P : List ℝ} (g : Good s I R P) {rr d : ℝ} {k : ℕ} (hk : k + 1 < s.nr)
    (h1 : R[k]'(by have := g.nr; omega) < rr) (h2 : rr ≤ R[k + 1]'(by have := g.nr; omega)) (h3 : rr < R[s.nr - 1]'(by have := g.nr; omega))
    (p1 : P[s.nphi - 1]'(by have := g.nphi; have := g.twoP; omega) < d) (p3 : d ≤ 2 * Real.pi) :
    s.flux rr d = .ok (some (bilerp (R[k]'(by have := g.nr; omega)) (R[k + 1]'(by have := g.nr; omega))
      (P[s.nphi - 1]'(by have := g.nphi; have := g.twoP; omega)) ((2 : ℝ) * Real.pi + P[0]'(by have := g.nphi; have := g.twoP; omega))
      (I[s.nphi * k + (s.nphi - 1)]'(g.size ▸ size_lt (by omega) (by have := g.twoP; omega)))
      (I[s.nphi * (k + 1) + (s.nphi - 1)]'(g.size ▸ size_lt hk (by have := g.twoP; omega)))
      (I[s.nphi * k + 0]'(g.size ▸ size_lt (by omega) (by have := g.twoP; omega)))
      (I[s.nphi * (k + 1) + 0]'(g.size ▸ size_lt hk (by have := g.twoP; omega))) rr d)) := by
  have hnr := g.nr
  have hnp := g.nphi
  have h2p := g.twoP
  have hf := g.first
  have hP0 : P[0]'(by omega) ≤ P[s.nphi - 1]'(by omega) := g.incP.le (by omega) (by omega)
  have hi : s.indices rr d = .ok (k + 1, s.nphi - 1) := by
    unfold Table.indices
    rw [if_neg (by push Not; exact ⟨by linarith, p3⟩), g.phi, g.radius]
    rw [show read (some P) 0 = .ok (P[0]'(by omega)) from read_ok (i := 0) (by omega)]
    simp only [bind, Except.bind]
    rw [if_neg (show ¬ (some R = none) by simp), if_neg (show ¬ d < P[0]'(by omega) by linarith), radius_index hnr g.incR hk h1 h2]
    simp only
    rw [upIndex_high hnp (by omega) p1.le]
    rfl
  refine flux_eq g (il := s.nphi - 1) (iu := 0) hk h1 h2 h3 hi (by omega) (by rw [if_pos p1]) (by omega) (by omega) rfl (by rw [if_pos p1]) ?_
  intro e
  linarith

/-- A table of two radii and three azimuths. -/
def sample : Table := ⟨some [0, 0, 1, 0, 0, 1], some [1, 3], some [1, 2, 3], 2, 3⟩

private theorem sample_good : Good sample [0, 0, 1, 0, 0, 1] [1, 3] [1, 2, 3] := by
  refine ⟨rfl, rfl, rfl, rfl, rfl, rfl, ?_, ?_, le_refl 2, by norm_num [sample], by norm_num⟩
  · intro i j hij h
    have hj : j = 1 := by simp at h; omega
    have hi : i = 0 := by omega
    subst hj hi
    norm_num
  · intro i j hij h
    have hj : j = 1 ∨ j = 2 := by simp at h; omega
    rcases hj with rfl | rfl
    · have hi : i = 0 := by omega
      subst hi
      norm_num
    · have hi : i = 0 ∨ i = 1 := by omega
      rcases hi with rfl | rfl <;> norm_num

/-- At radius 2, between the azimuths 2 and 3. -/
example : sample.flux 2 (5 / 2) = .ok (some (1 / 2)) := by
  have hpi := Real.pi_gt_three
  have h := flux_partial sample_good (k := 0) (j := 1) (rr := 2) (d := 5 / 2) (by norm_num [sample]) (by norm_num [sample]) (by norm_num) (by norm_num)
    (by norm_num [sample]) (by norm_num) (by norm_num) (by linarith)
  rw [h]
  norm_num [bilerp, sample]

/-- **C146, wrong.** Under the first azimuth of the table: the index is that of the last interval, a turn later, and the azimuth is not;
the value is extrapolated from the last interval, backwards.  Here a table of values that are not negative gives a negative one. -/
theorem gap_wrong : ∃ (s : Table) (I R P : List ℝ) (rr d : ℝ), Good s I R P ∧ (∀ x ∈ I, 0 ≤ x) ∧ 1 < rr ∧ rr < 3 ∧ 0 < d ∧ d < P.headD 0 ∧
    s.flux rr d = .ok (some (-(3 / 2))) := by
  have hpi := Real.pi_gt_three
  obtain ⟨s, hs⟩ : ∃ s : Table, s = sample := ⟨_, rfl⟩
  have g : Good s [0, 0, 1, 0, 0, 1] [1, 3] [1, 2, 3] := hs ▸ sample_good
  simp only [sample] at hs
  refine ⟨s, _, _, _, 2, 1 / 2, g, by simp, by norm_num, by norm_num, by norm_num, by norm_num, ?_⟩
  have hi : s.indices 2 (1 / 2) = .ok (0 + 1, 2) := by
    unfold Table.indices
    rw [if_neg (by push Not; constructor <;> linarith), g.phi, g.radius]
    rw [show read (some [1, 2, 3]) 0 = .ok 1 from read_ok (l := [1, 2, 3]) (i := 0) (by simp)]
    simp only [bind, Except.bind]
    rw [if_neg (show ¬ (some [(1 : ℝ), 3] = none) by simp), if_pos (show (1 / 2 : ℝ) < 1 by norm_num),
      radius_index (k := 0) g.nr g.incR (by rw [hs]; norm_num) (by norm_num) (by norm_num)]
    simp only
    rw [upIndex_high g.nphi (by rw [hs]; norm_num) (by subst hs; norm_num; linarith)]
    subst hs
    rfl
  have hc : ¬ (1 / 2 : ℝ) > ([1, 2, 3] : List ℝ)[s.nphi - 1]'(by subst hs; simp) := by
    subst hs
    norm_num
  have := flux_eq g (k := 0) (ip := 2) (il := 1) (iu := 2) (rr := 2) (d := 1 / 2) (pl := 2) (pu := 3) (by rw [hs]; norm_num) (by norm_num)
    (by norm_num) (by subst hs; norm_num) hi (by norm_num) (by rw [if_neg hc]) (by rw [hs]; norm_num) (by rw [hs]; norm_num) (by norm_num)
    (by rw [if_neg hc]; norm_num) (by norm_num)
  rw [this]
  subst hs
  norm_num [bilerp]

/-- **C146, wrong.** Right under the lamp (a difference of azimuth equal to zero), and at the first azimuth of the table, an exception. -/
theorem edge_wrong {s : Table} {I R P : List ℝ} (g : Good s I R P) {rr : ℝ} {k : ℕ} (hk : k + 1 < s.nr)
    (h1 : R[k]'(by have := g.nr; omega) < rr) (h2 : rr ≤ R[k + 1]'(by have := g.nr; omega)) (h3 : rr < R[s.nr - 1]'(by have := g.nr; omega))
    (hP : P[0]'(by have := g.nphi; have := g.twoP; omega) ≤ 2 * Real.pi) :
    s.flux rr 0 = .error .error ∧ s.flux rr (P[0]'(by have := g.nphi; have := g.twoP; omega)) = .error .error := by
  have hnr := g.nr
  have hnp := g.nphi
  have h2r := g.two
  have h2p := g.twoP
  have hR0 : R[0]'(by omega) ≤ R[k]'(by omega) := g.incR.le (by omega) (by omega)
  have start : ∀ d, (s.indices rr d = .error .error ∨ s.indices rr d = .ok (k + 1, 0)) → s.flux rr d = .error .error := by
    intro d hd
    unfold Table.flux
    rw [g.radius, show read (some R) 0 = .ok (R[0]'(by omega)) from read_ok (i := 0) (by omega), read_last hnr (by omega)]
    simp only [bind, Except.bind]
    rw [if_neg (by push Not; exact ⟨by linarith, h3⟩)]
    rcases hd with hd | hd
    · rw [hd]
    · rw [hd]
      simp
  have h0 : s.indices rr 0 = .error .error := by
    unfold Table.indices
    rw [if_pos (Or.inl le_rfl)]
  refine ⟨start 0 (Or.inl h0), start _ ?_⟩
  rcases g.first.eq_or_lt with e | e
  · rw [← e]
    exact Or.inl h0
  right
  unfold Table.indices
  rw [if_neg (by push Not; exact ⟨e, hP⟩), g.phi, g.radius]
  rw [show read (some P) 0 = .ok (P[0]'(by omega)) from read_ok (i := 0) (by omega)]
  simp only [bind, Except.bind]
  rw [if_neg (show ¬ (some R = none) by simp), if_neg (lt_irrefl _), radius_index hnr g.incR hk h1 h2]
  simp only
  rw [upIndex_low hnp (by omega) le_rfl g.incP]
  rfl

/-! ## The metric -/

/-- The calls one after the other, with the flags of the exceptions. -/
def calls : World → Link → List Call → World × Link × Bool
  | w, l, [] => (w, l, false)
  | w, l, c :: cs =>
    let r := call w l c
    let q := calls r.1 r.2.1 cs
    (q.1, q.2.1, r.2.2 || q.2.2)

/-- The object knows the spin of its metric, and will be told of a new one. -/
def Follows (w : World) (l : Link) : Prop := ∀ m, l.gg = some m → m ∈ l.hooks ∧ l.aa = (w m).2

/-- **C146.** The spin used for the period of the lamp is that of the metric after any sequence of calls, none of which is refused. -/
theorem spin_partial (w : World) (l : Link) (h : Follows w l) (cs : List Call) (hc : (calls w l cs).2.2 = false) :
    Follows (calls w l cs).1 (calls w l cs).2.1 := by
  induction cs generalizing w l with
  | nil => exact h
  | cons c cs ih =>
    simp only [calls, Bool.or_eq_false_iff] at hc ⊢
    refine ih _ _ ?_ hc.2
    have hc1 := hc.1
    cases c with
    | metric m =>
      simp only [call] at hc1 ⊢
      by_cases e : (w m).1 = true
      · simp only [e, if_true]
        intro k hk
        injection hk with hk
        subst hk
        exact ⟨List.mem_cons_self, rfl⟩
      · simp only [e] at hc1
        simp at hc1
    | spin m a =>
      simp only [call]
      by_cases e : m ∈ l.hooks ∧ l.gg = some m
      · rw [if_pos e]
        intro k hk
        simp only at hk ⊢
        have : k = m := by
          rw [e.2] at hk
          exact (Option.some.inj hk).symm
        subst this
        exact ⟨e.1, by simp⟩
      · rw [if_neg e]
        intro k hk
        obtain ⟨h1, h2⟩ := h k hk
        have : k ≠ m := by
          rintro rfl
          exact e ⟨h1, hk⟩
        simp only [if_neg this]
        exact ⟨h1, h2⟩

/-- **C146, wrong.** A metric that is refused leaves the previous one in place without the hook: its new spin is not seen. -/
theorem refused_wrong : ∃ (w : World) (cs : List Call), (calls w ⟨none, [], 0⟩ cs).2.1.gg = some 0 ∧
    (calls w ⟨none, [], 0⟩ cs).2.1.aa ≠ ((calls w ⟨none, [], 0⟩ cs).1 0).2 := by
  refine ⟨fun k => (k == 0, 0), [.metric 0, .metric 1, .spin 0 (1 / 2)], ?_, ?_⟩
  · simp [calls, call]
  · simp [calls, call]

/-- **C146, wrong.** A clone keeps the spin of its metric, and is not told of a new one. -/
theorem clone_wrong (w : World) (l : Link) {m : ℕ} (hm : l.gg = some m) (copy : ℕ) {a : ℝ} (ha : a ≠ l.aa) :
    (clone copy l).gg = some copy ∧
    (call w (clone copy l) (.spin copy a)).2.1.aa ≠ ((call w (clone copy l) (.spin copy a)).1 copy).2 := by
  have hg : (clone copy l).gg = some copy := by simp [clone, hm]
  have e : call w (clone copy l) (.spin copy a) = (fun k => if k = copy then ((w k).1, a) else w k, clone copy l, false) := by
    simp only [call]
    rw [if_neg]
    rintro ⟨h1, -⟩
    simp [clone] at h1
  refine ⟨hg, ?_⟩
  rw [e]
  simpa [clone] using ha.symm

/-- Two metrics of Kerr, one after the other, then a new spin for the second one. -/
example : Follows (calls (fun _ => (true, 0)) ⟨none, [], 0⟩ [.metric 0, .metric 1, .spin 1 (1 / 2)]).1
    (calls (fun _ => (true, 0)) ⟨none, [], 0⟩ [.metric 0, .metric 1, .spin 1 (1 / 2)]).2.1 :=
  spin_partial _ _ (fun m h => by simp at h) _ (by simp [calls, call])

/-- **C146.** The lamp turns as a particle on a circular geodesic of the equator: at the angular velocity of its period, the norm of the
velocity is stationary in the radius. -/
theorem period_ok {l : Lamp} (hr : 0 < l.radius) (ha : 0 < l.radius ^ (1.5 : ℝ) + l.aa) (t phi : ℝ) :
    HasDerivAt (fun r => MetricAlg.sp (KerrBL.gmunu l.aa ![t, r, Real.pi / 2, phi]) ![1, 0, 0, 2 * Real.pi / l.period]
      ![1, 0, 0, 2 * Real.pi / l.period]) 0 l.radius := by
  have hO : 2 * Real.pi / l.period = 1 / (l.radius ^ (1.5 : ℝ) + l.aa) := by
    have := Real.pi_ne_zero
    have := ha.ne'
    unfold Lamp.period
    field_simp
  rw [hO]
  have hq : (l.radius ^ (1.5 : ℝ)) ^ 2 = l.radius ^ 3 := by
    rw [← Real.rpow_natCast, ← Real.rpow_mul hr.le, ← Real.rpow_natCast]
    norm_num
  generalize l.radius ^ (1.5 : ℝ) = q at *
  generalize l.radius = R at *
  generalize l.aa = a at *
  generalize hW : 1 / (q + a) = W
  have hk : (1 - a * W) ^ 2 = R ^ 3 * W ^ 2 := by
    rw [← hW, ← hq]
    have := ha.ne'
    field_simp
    ring
  have hd : HasDerivAt (fun r : ℝ => -1 + (2 - 4 * a * W + 2 * a ^ 2 * W ^ 2) * r⁻¹ + W ^ 2 * (r ^ 2 + a ^ 2)) 0 R := by
    have h1 := ((hasDerivAt_inv hr.ne').const_mul (2 - 4 * a * W + 2 * a ^ 2 * W ^ 2)).const_add (-1)
    have h2 := ((hasDerivAt_pow 2 R).add_const (a ^ 2)).const_mul (W ^ 2)
    refine (h1.add h2).congr_deriv ?_
    have hR := hr.ne'
    field_simp
    push_cast
    linear_combination (-2) * hk
  refine hd.congr_of_eventuallyEq ?_
  filter_upwards [lt_mem_nhds hr] with r h0
  unfold KerrBL.gmunu
  rw [Plunge.sp_circ']
  simp
  have := h0.ne'
  field_simp
  ring

/-- The lamp at radius 4 around a black hole without rotation. -/
example : HasDerivAt (fun r => MetricAlg.sp (KerrBL.gmunu 0 ![0, r, Real.pi / 2, 0]) ![1, 0, 0, 2 * Real.pi / (⟨0, 4, 0⟩ : Lamp).period]
    ![1, 0, 0, 2 * Real.pi / (⟨0, 4, 0⟩ : Lamp).period]) 0 4 :=
  period_ok (l := ⟨0, 4, 0⟩) (by norm_num) (by rw [add_zero]; positivity) 0 0

end Gyoto.Xillver
