import Verif.Model.Disk3D
import Verif.Lemmas.GridRead
import Verif.Lemmas.PhiTheta
import Mathlib.Analysis.SpecialFunctions.Trigonometric.Deriv
import Mathlib.Analysis.Real.Pi.Bounds
import Mathlib.Tactic.LinearCombination

/-!
# Thick disks read from a grid
-/

namespace Gyoto.Disk3D

open Gyoto.GridRead Gyoto.PhiTheta Gyoto.ThinDisk Real

/-! ## The arrays have the size of the grid -/

/-- The sizes of the arrays and the steps are those of the grid. -/
structure Inv (d : Disk) : Prop where
  emissquant : ∀ l, d.emissquant = some l → l.length = d.nnu * d.nphi * d.nz * d.nr ∧ 0 < d.nnu ∧ 2 ≤ d.nphi ∧ 2 ≤ d.nz ∧ 2 ≤ d.nr ∧
    d.dr = (d.rout - d.rin) / ((d.nr : ℝ) - 1) ∧ d.dz = (d.zmax - d.zmin) / ((d.nz : ℝ) - 1) ∧
    (d.repeatPhi = 1 → d.dphi = (d.phimax - d.phimin) / ((d.nphi : ℝ) - 1))
  velocity : ∀ l, d.velocity = some l → l.length = 3 * d.nphi * d.nz * d.nr

/-- The arrays given by the caller have at least the announced size. -/
def Fits : Op → Prop
  | .copyEmissquant (some p) a b c e => a * b * c * e ≤ p.length
  | .copyOpacity (some p) a b c e => a * b * c * e ≤ p.length
  | .copyVelocity (some p) a b c => 3 * a * b * c ≤ p.length
  | _ => True

/-- The disks that calls of the methods can give, exceptions included. -/
inductive Reachable (big : ℝ) : Disk → Prop
  | init : Reachable big (init big)
  | step {d} (op : Op) : Reachable big d → Fits op → Reachable big (step d op).1

theorem cast_pred {n : ℕ} (h : 1 ≤ n) : ((n - 1 : ℕ) : ℝ) = (n : ℝ) - 1 := by rw [Nat.cast_sub h, Nat.cast_one]

theorem resize_emissquant (a b c e : ℕ) (d : Disk) : (resize a b c e d).emissquant = d.emissquant := by
  unfold resize
  simp only
  split_ifs <;> rfl

theorem resize_velocity (a b c e : ℕ) {d : Disk} (h : ∀ l, d.velocity = some l → l.length = 3 * d.nphi * d.nz * d.nr) :
    ∀ l, (resize a b c e d).velocity = some l → l.length = 3 * b * c * e := by
  intro l hl
  by_cases h1 : d.nphi = b <;> by_cases h2 : d.nz = c <;> by_cases h3 : d.nr = e <;> simp [resize, h1, h2, h3] at hl
  rw [← h1, ← h2, ← h3]; exact h l hl

/-- C86. Every method keeps the arrays of emission and velocity and the steps in line with the dimensions, and none reads beyond what the
caller gave. -/
theorem step_partial {d : Disk} {op : Op} (h : Inv d) (hf : Fits op) : Inv (step d op).1 ∧ (step d op).2 ≠ some .ub := by
  obtain ⟨hE, hV⟩ := h
  cases op with
  | copyEmissquant p a b c e =>
    cases p with
    | none => exact ⟨⟨by simp [step, copyEmissquant], hV⟩, by simp [step, copyEmissquant]⟩
    | some p =>
      have kV := resize_velocity a b c e (d := { d with emissquant := none }) hV
      obtain ⟨D, hD⟩ : ∃ D, D = resize a b c e { d with emissquant := none } := ⟨_, rfl⟩
      have e1 : D.nnu = a := by rw [hD]; rfl
      have e2 : D.nphi = b := by rw [hD]; rfl
      have e3 : D.nz = c := by rw [hD]; rfl
      have e4 : D.nr = e := by rw [hD]; rfl
      have e0 : D.emissquant = none := by rw [hD, resize_emissquant]
      rw [← hD, ← e2, ← e3, ← e4] at kV
      simp only [step, copyEmissquant]
      rw [← hD]
      have hno : ∀ l, D.emissquant = some l → False := by rw [e0]; simp
      by_cases c1 : a * b * c * e = 0
      · rw [if_pos c1]; exact ⟨⟨fun l hl => (hno l hl).elim, kV⟩, by simp⟩
      rw [if_neg c1]
      by_cases c2 : D.nr = 1 ∨ D.nz = 1 ∨ D.nphi = 1
      · rw [if_pos c2]; exact ⟨⟨fun l hl => (hno l hl).elim, kV⟩, by simp⟩
      rw [if_neg c2]
      by_cases c3 : D.repeatPhi = 0
      · rw [if_pos c3]; exact ⟨⟨fun l hl => (hno l hl).elim, kV⟩, by simp⟩
      rw [if_neg c3, memcpy_ok hf]
      have hab : a ≠ 0 ∧ b ≠ 0 ∧ c ≠ 0 ∧ e ≠ 0 :=
        ⟨by rintro rfl; simp at c1, by rintro rfl; simp at c1, by rintro rfl; simp at c1, by rintro rfl; simp at c1⟩
      push Not at c2
      refine ⟨⟨fun l hl => ?_, kV⟩, by simp⟩
      obtain rfl : p.take (a * b * c * e) = l := Option.some.inj hl
      simp only
      refine ⟨by rw [take_len hf, e1, e2, e3, e4], by omega, by omega, by omega, by omega, ?_, ?_, fun h1 => ?_⟩
      · rw [cast_pred (by omega)]
      · rw [cast_pred (by omega)]
      · rw [h1, mul_one, cast_pred (by omega)]
  | copyOpacity p a b c e =>
    obtain ⟨D, hD⟩ : ∃ D, D = (if d.opacity.isSome then { d with opacity := none, radtransf := false } else d) := ⟨_, rfl⟩
    have hi : Inv D := by
      rw [hD]; split_ifs
      · exact ⟨hE, hV⟩
      · exact ⟨hE, hV⟩
    cases p with
    | none => simp only [step, copyOpacity]; rw [← hD]; exact ⟨hi, by simp⟩
    | some p =>
      simp only [step, copyOpacity]; rw [← hD]
      by_cases c1 : D.nnu ≠ a ∨ D.nphi ≠ b ∨ D.nz ≠ c ∨ D.nr ≠ e
      · rw [if_pos c1]; exact ⟨hi, by simp⟩
      rw [if_neg c1]
      push Not at c1
      have hf' : D.nnu * D.nphi * D.nz * D.nr ≤ p.length := by rw [c1.1, c1.2.1, c1.2.2.1, c1.2.2.2]; exact hf
      rw [memcpy_ok hf']
      obtain ⟨kE, kV⟩ := hi
      exact ⟨⟨kE, kV⟩, by simp⟩
  | copyVelocity p a b c =>
    have hi : Inv { d with velocity := none } := ⟨hE, by simp⟩
    cases p with
    | none => exact ⟨hi, by simp [step, copyVelocity]⟩
    | some p =>
      simp only [step, copyVelocity]
      by_cases c0 : d.emissquant = none
      · rw [if_pos c0]; exact ⟨hi, by simp⟩
      rw [if_neg c0]
      by_cases c1 : d.nphi ≠ a ∨ d.nz ≠ b ∨ d.nr ≠ c
      · rw [if_pos c1]; exact ⟨hi, by simp⟩
      rw [if_neg c1]
      push Not at c1
      have hf' : 3 * d.nphi * d.nz * d.nr ≤ p.length := by rw [c1.1, c1.2.1, c1.2.2]; exact hf
      rw [memcpy_ok hf']
      refine ⟨⟨hE, fun l hl => ?_⟩, by simp⟩
      obtain rfl := Option.some.inj hl
      exact take_len hf'
  | repeatPhi n =>
    refine ⟨?_, by simp [step]⟩
    simp only [step]
    split_ifs with hc
    · refine ⟨fun l hl => ?_, hV⟩
      obtain ⟨h1, h2, h3, h4, h5, h6, h7, h8⟩ := hE l hl
      refine ⟨h1, h2, h3, h4, h5, h6, h7, fun h9 => ?_⟩
      simp only at h9 ⊢
      rw [h9, mul_one, cast_pred (by omega)]
    · refine ⟨fun l hl => ?_, hV⟩
      obtain ⟨h1, h2, h3, h4, h5, h6, h7, h8⟩ := hE l hl
      refine ⟨h1, h2, h3, h4, h5, h6, h7, fun h9 => ?_⟩
      simp only at h9 hc
      omega
  | rin x =>
    refine ⟨?_, by simp [step]⟩
    simp only [step]
    split_ifs with hc
    · refine ⟨fun l hl => ?_, hV⟩
      obtain ⟨h1, h2, h3, h4, h5, h6, h7, h8⟩ := hE l hl
      refine ⟨h1, h2, h3, h4, h5, by simp only; rw [cast_pred (by omega)], h7, h8⟩
    · refine ⟨fun l hl => ?_, hV⟩
      obtain ⟨h1, h2, h3, h4, h5, h6, h7, h8⟩ := hE l hl
      omega
  | rout x =>
    refine ⟨?_, by simp [step]⟩
    simp only [step]
    split_ifs with hc
    · refine ⟨fun l hl => ?_, hV⟩
      obtain ⟨h1, h2, h3, h4, h5, h6, h7, h8⟩ := hE l hl
      refine ⟨h1, h2, h3, h4, h5, by simp only; rw [cast_pred (by omega)], h7, h8⟩
    · refine ⟨fun l hl => ?_, hV⟩
      obtain ⟨h1, h2, h3, h4, h5, h6, h7, h8⟩ := hE l hl
      omega
  | zmin x =>
    refine ⟨?_, by simp [step]⟩
    simp only [step]
    split_ifs with hc
    · refine ⟨fun l hl => ?_, hV⟩
      obtain ⟨h1, h2, h3, h4, h5, h6, h7, h8⟩ := hE l hl
      refine ⟨h1, h2, h3, h4, h5, h6, by simp only; rw [cast_pred (by omega)], h8⟩
    · refine ⟨fun l hl => ?_, hV⟩
      obtain ⟨h1, h2, h3, h4, h5, h6, h7, h8⟩ := hE l hl
      omega
  | zmax x =>
    refine ⟨?_, by simp [step]⟩
    simp only [step]
    split_ifs with hc
    · refine ⟨fun l hl => ?_, hV⟩
      obtain ⟨h1, h2, h3, h4, h5, h6, h7, h8⟩ := hE l hl
      refine ⟨h1, h2, h3, h4, h5, h6, by simp only; rw [cast_pred (by omega)], h8⟩
    · refine ⟨fun l hl => ?_, hV⟩
      obtain ⟨h1, h2, h3, h4, h5, h6, h7, h8⟩ := hE l hl
      omega
  | phimin x =>
    refine ⟨?_, by simp [step]⟩
    simp only [step]
    split_ifs with hc
    · refine ⟨fun l hl => ?_, hV⟩
      obtain ⟨h1, h2, h3, h4, h5, h6, h7, h8⟩ := hE l hl
      refine ⟨h1, h2, h3, h4, h5, h6, h7, fun _ => by simp only; rw [cast_pred (by omega)]⟩
    · refine ⟨fun l hl => ?_, hV⟩
      obtain ⟨h1, h2, h3, h4, h5, h6, h7, h8⟩ := hE l hl
      omega
  | phimax x =>
    refine ⟨?_, by simp [step]⟩
    simp only [step]
    split_ifs with hc
    · refine ⟨fun l hl => ?_, hV⟩
      obtain ⟨h1, h2, h3, h4, h5, h6, h7, h8⟩ := hE l hl
      refine ⟨h1, h2, h3, h4, h5, h6, h7, fun _ => by simp only; rw [cast_pred (by omega)]⟩
    · refine ⟨fun l hl => ?_, hV⟩
      obtain ⟨h1, h2, h3, h4, h5, h6, h7, h8⟩ := hE l hl
      omega
  | nu0 x => exact ⟨⟨hE, hV⟩, by simp [step]⟩
  | dnu x => exact ⟨⟨hE, hV⟩, by simp [step]⟩
  | zsym b => exact ⟨⟨hE, hV⟩, by simp [step]⟩
  | tPattern x => exact ⟨⟨hE, hV⟩, by simp [step]⟩
  | omegaPattern x => exact ⟨⟨hE, hV⟩, by simp [step]⟩
  | opticallyThin b => exact ⟨⟨hE, hV⟩, by simp [step]⟩

/-- C86. Whatever the calls, these arrays have the size of the grid. -/
theorem reachable_partial {big : ℝ} {d : Disk} (h : Reachable big d) : Inv d := by
  induction h with
  | init => exact ⟨by simp [init], by simp [init]⟩
  | step op _ hf ih => exact (step_partial ih hf).1

/-- C86. The copy of a disk whose opacity has the size of the grid has the same contents. -/
theorem clone_partial {d : Disk} (h : Inv d) (ho : ∀ l, d.opacity = some l → l.length = d.nnu * d.nphi * d.nz * d.nr) :
    clone d = .ok d := by
  unfold clone
  rw [copyArray_ok (fun l hl => (h.emissquant l hl).1), copyArray_ok ho, copyArray_ok h.velocity]
  rfl

/-- C86 (negation). The opacity is kept when the dimensions change: afterwards it has not the size of the grid, and the copy of the disk reads
beyond it. -/
theorem opacity_wrong : ∃ d : Disk, Reachable 1 d ∧ (∃ l, d.opacity = some l ∧ l.length ≠ d.nnu * d.nphi * d.nz * d.nr) ∧
    clone d = .error .ub := by
  have r1 := Reachable.step (.copyEmissquant (some (List.replicate 8 0)) 1 2 2 2) (Reachable.init (big := 1)) (by simp [Fits])
  have r2 := Reachable.step (.copyOpacity (some (List.replicate 8 0)) 1 2 2 2) r1 (by simp [Fits])
  have r3 := Reachable.step (.copyEmissquant (some (List.replicate 12 0)) 1 3 2 2) r2 (by simp [Fits])
  refine ⟨_, r3, ?_, ?_⟩
  · simp [step, copyEmissquant, copyOpacity, resize, init, memcpy]
  · simp [step, copyEmissquant, copyOpacity, resize, init, memcpy, clone, copyArray, bind, Except.bind, Except.map]

/-! ## The nearest sample -/

/-- The integer nearest to a number of the right size. -/
theorem nearest_ok {x : ℝ} {n : ℕ} (hn : 1 ≤ n) (hn' : n < 2 ^ 64) (h0 : 0 ≤ x) (h1 : x ≤ (n : ℝ) - 1) :
    ∃ k : ℕ, toSize ⌊x + 0.5⌋ = .ok k ∧ k < n ∧ |x - k| ≤ 1 / 2 := by
  obtain ⟨m, hm⟩ : ∃ m : ℕ, ⌊x + 0.5⌋ = m := Int.eq_ofNat_of_zero_le (Int.floor_nonneg.2 (by linarith))
  have m1 : (m : ℝ) ≤ x + 0.5 := by have := Int.floor_le (x + 0.5); rw [hm] at this; exact_mod_cast this
  have m2 : x + 0.5 < (m : ℝ) + 1 := by have := Int.lt_floor_add_one (x + 0.5); rw [hm] at this; exact_mod_cast this
  have m3 : m < n := by
    have : (m : ℝ) < n := by norm_num at m1; linarith
    exact_mod_cast this
  refine ⟨m, ?_, m3, ?_⟩
  · rw [hm]
    have := toSize_ok (k := (m : ℤ)) (by omega) (by omega)
    rwa [Int.toNat_natCast] at this
  · norm_num at m1 m2
    rw [abs_le]; constructor <;> linarith

/-- The dimensions fit in a `size_t`. -/
def Sized (d : Disk) : Prop := d.nr < 2 ^ 64 ∧ d.nphi < 2 ^ 64 ∧ d.nz < 2 ^ 64

/-- The frequency has an index. -/
def FreqOk (d : Disk) (nu : ℝ) : Prop := nu ≤ d.nu0 ∨ (0 < d.dnu ∧ (nu - d.nu0) / d.dnu + 0.5 < 2 ^ 64)

theorem freqIndex_ok {d : Disk} {nu : ℝ} (h : FreqOk d nu) (h0 : 0 < d.nnu) : ∃ k, freqIndex d nu = .ok k ∧ k < d.nnu := by
  unfold freqIndex
  by_cases h1 : nu ≤ d.nu0
  · rw [if_pos h1]; exact ⟨0, rfl, h0⟩
  rw [if_neg h1]
  rcases h with h | ⟨h2, h3⟩
  · exact absurd h h1
  rw [if_neg h2.ne']
  have h4 : 0 ≤ (nu - d.nu0) / d.dnu := div_nonneg (by linarith) h2.le
  have h5 : (0 : ℤ) ≤ ⌊(nu - d.nu0) / d.dnu + 0.5⌋ := Int.floor_nonneg.2 (by linarith)
  have h6 : ⌊(nu - d.nu0) / d.dnu + 0.5⌋ < 2 ^ 64 := by
    rw [Int.floor_lt]; norm_num at h3 ⊢; exact h3
  rw [toSize_ok h5 h6]
  refine ⟨_, rfl, ?_⟩
  split_ifs <;> omega

theorem nearest_cell {x a b s : ℝ} {n : ℕ} (hn : 2 ≤ n) (hn' : n < 2 ^ 64) (hab : a < b) (hs : s = (b - a) / ((n : ℝ) - 1)) (hxa : a ≤ x)
    (hxb : x ≤ b) : ∃ k : ℕ, toSize ⌊(x - a) / s + 0.5⌋ = .ok k ∧ k < n ∧ |x - (a + k * s)| ≤ s / 2 := by
  have hn1 : (0 : ℝ) < (n : ℝ) - 1 := by
    have : (2 : ℝ) ≤ n := by exact_mod_cast hn
    linarith
  have hs0 : 0 < s := by rw [hs]; exact div_pos (by linarith) hn1
  obtain ⟨k, h1, h2, h3⟩ := nearest_ok (x := (x - a) / s) (n := n) (by omega) hn' (div_nonneg (by linarith) hs0.le)
    (by rw [div_le_iff₀ hs0, hs, mul_div_cancel₀ _ hn1.ne']; linarith)
  refine ⟨k, h1, h2, ?_⟩
  have : x - (a + k * s) = ((x - a) / s - k) * s := by field_simp; ring
  rw [this, abs_mul, abs_of_pos hs0]
  nlinarith

/-- C86. At a point of the grid, without repetition, the indices are those of the sample nearest in azimuth, height and radius; below the
equatorial plane of a grid that only covers the upper half, those of the mirrored point. -/
theorem indices_partial {d : Disk} {kind : Kind} {co : ℕ → ℝ} {nu : ℝ} {e : List ℝ} (h : Inv d) (hs : Sized d)
    (he : d.emissquant = some e) (hf : FreqOk d nu) (hrp : d.repeatPhi = 1) (hp : d.phimin < d.phimax) (hz : d.zmin < d.zmax)
    (hr : d.rin < d.rout) (x : ℝ) (hx : ∃ n : ℤ, x = (cylindrical kind co).2.2 - d.omegaPattern * (co 0 - d.tPattern) + n * (2 * π))
    (hx0 : 0 < x) (hx1 : x < 2 * π) (hxa : d.phimin ≤ x) (hxb : x ≤ d.phimax)
    (z : ℝ) (hzc : z = if d.zmin ≥ 0 then |(cylindrical kind co).2.1| else (cylindrical kind co).2.1) (hza : d.zmin ≤ z)
    (hzb : z ≤ d.zmax) (hra : d.rin ≤ (cylindrical kind co).1) (hrb : (cylindrical kind co).1 ≤ d.rout) :
    ∃ i0 i1 i2 i3, getIndices d kind co nu = .ok (i0, i1, i2, i3) ∧ i0 < d.nnu ∧ i1 < d.nphi ∧ i2 < d.nz ∧ i3 < d.nr ∧
      |x - (d.phimin + i1 * d.dphi)| ≤ d.dphi / 2 ∧ |z - (d.zmin + i2 * d.dz)| ≤ d.dz / 2 ∧
      |(cylindrical kind co).1 - (d.rin + i3 * d.dr)| ≤ d.dr / 2 := by
  obtain ⟨-, n0, n1, n2, n3, s3, s2, s1⟩ := h.emissquant e he
  obtain ⟨i0, f0, f1⟩ := freqIndex_ok hf n0
  obtain ⟨i1, a1, a2, a3⟩ := nearest_cell n1 hs.2.1 hp (s1 hrp) hxa hxb
  obtain ⟨i2, b1, b2, b3⟩ := nearest_cell n2 hs.2.2 hz s2 hza hzb
  obtain ⟨i3, c1, c2, c3⟩ := nearest_cell n3 hs.1 hr s3 hra hrb
  have pos : ∀ {a b s : ℝ} {n : ℕ}, 2 ≤ n → a < b → s = (b - a) / ((n : ℝ) - 1) → 0 < s := fun {_ _ _ n} hn hab hs => by
    have : (2 : ℝ) ≤ n := by exact_mod_cast hn
    rw [hs]; exact div_pos (by linarith) (by linarith)
  have p1 := pos n1 hp (s1 hrp)
  have p2 := pos n2 hz s2
  have p3 := pos n3 hr s3
  have hw : ∀ y, (∃ n : ℤ, x = y + n * (2 * π)) → wrapDown (2 * π) (2 * π) (wrapUp (2 * π) 0 y) = x := by
    rintro y ⟨n, hn⟩
    have hpi := Real.two_pi_pos
    obtain ⟨m, m1, m2, m3⟩ := wrapUp_spec (2 * π) 0 y hpi
    obtain ⟨q, q1, q2, q3⟩ := wrapDown_spec (2 * π) (2 * π) (wrapUp (2 * π) 0 y) hpi
    obtain ⟨w, hw⟩ : ∃ w, w = wrapDown (2 * π) (2 * π) (wrapUp (2 * π) 0 y) := ⟨_, rfl⟩
    rw [← hw] at q1 q2 q3 ⊢
    have hw0 : 0 ≤ w := by
      rcases Nat.eq_zero_or_pos q with h0 | h0
      · rw [q1, h0]; simpa using m2
      · have := q3 h0; linarith
    have hwx : w - x = ((m : ℝ) - q - n) * (2 * π) := by rw [q1, m1, hn]; ring
    have hi : (m : ℤ) - q - n = 0 := by
      have l1 : -1 < ((m : ℝ) - q - n) := by
        by_contra hc
        push Not at hc
        nlinarith
      have l2 : ((m : ℝ) - q - n) < 1 := by
        by_contra hc
        push Not at hc
        nlinarith
      have l1' : -1 < (m : ℤ) - q - n := by exact_mod_cast l1
      have l2' : (m : ℤ) - q - n < 1 := by exact_mod_cast l2
      omega
    have : ((m : ℝ) - q - n) = 0 := by exact_mod_cast hi
    rw [this, zero_mul] at hwx
    linarith
  have hI1 : phiIndex d ((cylindrical kind co).2.2 - d.omegaPattern * (co 0 - d.tPattern)) = .ok i1 := by
    unfold phiIndex
    simp only
    rw [hw _ hx, if_neg (by linarith), if_neg (by linarith), a1]
    simp only [bind, Except.bind]
    rw [if_neg (by omega), Nat.mod_eq_of_lt a2]
  have hI2 : zIndex d (cylindrical kind co).2.1 = .ok i2 := by
    have : (if (cylindrical kind co).2.1 < 0 ∧ d.zmin ≥ 0 then (cylindrical kind co).2.1 * (-1) else (cylindrical kind co).2.1) = z := by
      rw [hzc]
      by_cases c1 : d.zmin ≥ 0
      · rw [if_pos c1]
        by_cases c2 : (cylindrical kind co).2.1 < 0
        · rw [if_pos ⟨c2, c1⟩, abs_of_neg c2]; ring
        · rw [if_neg (fun h => c2 h.1), abs_of_nonneg (not_lt.1 c2)]
      · rw [if_neg c1, if_neg (fun h => c1 h.2)]
    unfold zIndex
    simp only [bind, Except.bind]
    rw [this, b1]
    simp only
    rw [if_neg (by omega), if_neg (by omega)]
  have hI3 : radIndex d (cylindrical kind co).1 = .ok i3 := by
    unfold radIndex
    simp only [bind, Except.bind]
    rw [c1]
    simp only
    rw [if_neg (by omega), if_neg (by omega)]
  refine ⟨i0, i1, i2, i3, ?_, f1, a2, b2, c2, a3, b3, c3⟩
  unfold getIndices
  rw [f0]
  simp only [bind, Except.bind]
  rw [if_neg (by positivity), hI1, hI2, hI3]

/-- The velocities are stored component by component, the azimuth varying fastest and the radius slowest. -/
def sample (d : Disk) (v : List ℝ) (i1 i2 i3 c : ℕ) : ℝ := v.getD (((i3 * d.nz + i2) * d.nphi + i1) * 3 + c) 0

/-- C86. With valid indices the three rates of the nearest sample are read. -/
theorem rates_ok {d : Disk} {kind : Kind} {co : ℕ → ℝ} {v : List ℝ} {i0 i1 i2 i3 : ℕ} (h : Inv d) (hv : d.velocity = some v)
    (hi : getIndices d kind co 0 = .ok (i0, i1, i2, i3)) (h1 : i1 < d.nphi) (h2 : i2 < d.nz) (h3 : i3 < d.nr) :
    rates d kind co = .ok (sample d v i1 i2 i3 0, sample d v i1 i2 i3 1, sample d v i1 i2 i3 2) := by
  have hl := h.velocity v hv
  have k1 : (i3 * d.nz + i2) + 1 ≤ d.nr * d.nz := by
    have : (i3 + 1) * d.nz ≤ d.nr * d.nz := Nat.mul_le_mul_right _ h3
    rw [Nat.succ_mul] at this
    omega
  have k2 : ((i3 * d.nz + i2) * d.nphi + i1) + 1 ≤ d.nr * d.nz * d.nphi := by
    have : (i3 * d.nz + i2 + 1) * d.nphi ≤ d.nr * d.nz * d.nphi := Nat.mul_le_mul_right _ k1
    rw [Nat.succ_mul] at this
    omega
  have k3 : ((i3 * d.nz + i2) * d.nphi + i1) * 3 + 3 ≤ v.length := by
    have : (((i3 * d.nz + i2) * d.nphi + i1) + 1) * 3 ≤ d.nr * d.nz * d.nphi * 3 := Nat.mul_le_mul_right _ k2
    rw [hl, show 3 * d.nphi * d.nz * d.nr = d.nr * d.nz * d.nphi * 3 by ring]
    omega
  have key : ∀ c : ℕ, c < 3 → ∀ j : ℤ, j = c →
      read (some v) ((i3 : ℤ) * 3 * d.nphi * d.nz + (i2 : ℤ) * 3 * d.nphi + (i1 : ℤ) * 3 + j) = .ok (sample d v i1 i2 i3 c) := by
    intro c hc j hj
    have hlt : ((i3 * d.nz + i2) * d.nphi + i1) * 3 + c < v.length := by omega
    rw [read_ok' (k := ((i3 * d.nz + i2) * d.nphi + i1) * 3 + c) (by rw [hj]; push_cast; ring) hlt]
    unfold sample
    simp [hlt]
  unfold rates
  rw [if_neg (by rw [hv]; simp), hi, hv]
  simp only [bind, Except.bind]
  rw [key 0 (by norm_num) 0 rfl, key 1 (by norm_num) 1 rfl, key 2 (by norm_num) 2 rfl]

/-- C86. The rates in spherical coordinates are those of the same motion: a curve with these rates has the rates of the grid for its height
and its cylindrical radius. -/
theorem spherical_ok {r th : ℝ → ℝ} {t phiprime zprime rprime : ℝ} {pos : ℕ → ℝ} (hr0 : 0 < r t) (hs0 : 0 < sin (th t))
    (h1 : pos 1 = r t) (h2 : pos 2 = th t) (hr : HasDerivAt r (sphericalRates pos phiprime zprime rprime).1 t)
    (hth : HasDerivAt th (sphericalRates pos phiprime zprime rprime).2.1 t) :
    HasDerivAt (fun s => r s * cos (th s)) zprime t ∧ HasDerivAt (fun s => r s * sin (th s)) rprime t ∧
      (sphericalRates pos phiprime zprime rprime).2.2 = phiprime := by
  have hcyl : √(r t * r t - r t * cos (th t) * (r t * cos (th t))) = r t * sin (th t) := by
    rw [show r t * r t - r t * cos (th t) * (r t * cos (th t)) = (r t * sin (th t)) ^ 2 by
      have := sin_sq_add_cos_sq (th t)
      linear_combination (-(r t) ^ 2) * this]
    exact sqrt_sq (by positivity)
  simp only [sphericalRates, h1, h2, hcyl] at hr hth ⊢
  have hsc := sin_sq_add_cos_sq (th t)
  refine ⟨?_, ?_, trivial⟩
  · refine (hr.mul hth.cos).congr_deriv ?_
    have hr1 : r t ≠ 0 := hr0.ne'
    field_simp
    ring
  · refine (hr.mul hth.sin).congr_deriv ?_
    field_simp
    linear_combination (sin (th t) * rprime + cos (th t) * zprime) * hsc

/-- C86. The pattern turns rigidly: at a later date, what was found at an azimuth is found further on by the angle it has turned. -/
theorem turns {d : Disk} {co co' : ℕ → ℝ} {nu : ℝ} (h1 : co' 1 = co 1) (h2 : co' 2 = co 2)
    (h3 : co' 3 = co 3 + d.omegaPattern * (co' 0 - co 0)) : getIndices d .spherical co' nu = getIndices d .spherical co nu := by
  unfold getIndices cylindrical
  simp only [h1, h2, h3]
  rw [show co 3 + d.omegaPattern * (co' 0 - co 0) - d.omegaPattern * (co' 0 - d.tPattern) = co 3 - d.omegaPattern * (co 0 - d.tPattern) by ring]

/-! ## Where the look-up fails -/

theorem phiIndex_plain {d : Disk} {phi : ℝ} {k : ℕ} (h0 : 0 ≤ phi) (h1 : phi ≤ 2 * π) (ha : d.phimin ≤ phi) (hb : phi ≤ d.phimax)
    (hn : d.nphi ≠ 0) (hk : toSize ⌊(phi - d.phimin) / d.dphi + 0.5⌋ = .ok k) : phiIndex d phi = .ok (k % d.nphi) := by
  have w1 : wrapUp (2 * π) 0 phi = phi := by unfold wrapUp; rw [dif_neg (by rintro ⟨_, h⟩; linarith)]
  have w2 : wrapDown (2 * π) (2 * π) phi = phi := by unfold wrapDown; rw [dif_neg (by rintro ⟨_, h⟩; linarith)]
  unfold phiIndex
  simp only
  rw [w1, w2, if_neg (by linarith), if_neg (by linarith), hk]
  simp only [bind, Except.bind]
  rw [if_neg hn]

/-- C86 (negation). A pattern announced as repeated is not: the index one period further is not the same. -/
theorem repeat_wrong : ∃ d : Disk, Reachable 1 d ∧ d.repeatPhi = 2 ∧
    phiIndex d (1 / 2) = .ok 1 ∧ phiIndex d (1 / 2 + (d.phimax - d.phimin) / d.repeatPhi) = .ok 0 := by
  have hpi := Real.pi_gt_three
  have r1 := Reachable.step (.phimax 4) (Reachable.step (.phimin 0) (Reachable.init (big := 1)) trivial) trivial
  have r2 := Reachable.step (.repeatPhi 2) r1 trivial
  have r3 := Reachable.step (.copyEmissquant (some (List.replicate 12 0)) 1 3 2 2) r2 (by simp [Fits])
  obtain ⟨D, hD⟩ : ∃ D, D = (step (step (step (step (init 1) (.phimin 0)).1 (.phimax 4)).1 (.repeatPhi 2)).1
    (.copyEmissquant (some (List.replicate 12 0)) 1 3 2 2)).1 := ⟨_, rfl⟩
  rw [← hD] at r3
  have f1 : D.nphi = 3 := by rw [hD]; simp [step, copyEmissquant, resize, init, memcpy]
  have f2 : D.repeatPhi = 2 := by rw [hD]; simp [step, copyEmissquant, resize, init, memcpy]
  have f3 : D.phimin = 0 := by rw [hD]; simp [step, copyEmissquant, resize, init, memcpy]
  have f4 : D.phimax = 4 := by rw [hD]; simp [step, copyEmissquant, resize, init, memcpy]
  have f5 : D.dphi = 1 := by rw [hD]; simp [step, copyEmissquant, resize, init, memcpy]
  refine ⟨D, r3, f2, ?_, ?_⟩
  · have hk : toSize ⌊(1 / 2 - D.phimin) / D.dphi + 0.5⌋ = .ok 1 := by
      rw [f3, f5, show ⌊((1 : ℝ) / 2 - 0) / 1 + 0.5⌋ = 1 by rw [Int.floor_eq_iff]; norm_num]
      exact toSize_ok (k := 1) (by norm_num) (by norm_num)
    rw [phiIndex_plain (by norm_num) (by linarith) (by rw [f3]; norm_num) (by rw [f4]; norm_num) (by omega) hk, f1]
  · rw [f2, f3, f4]
    have hk : toSize ⌊(1 / 2 + (4 - 0) / ((2 : ℕ) : ℝ) - D.phimin) / D.dphi + 0.5⌋ = .ok 3 := by
      rw [f3, f5, show ⌊((1 : ℝ) / 2 + (4 - 0) / ((2 : ℕ) : ℝ) - 0) / 1 + 0.5⌋ = 3 by rw [Int.floor_eq_iff]; norm_num]
      exact toSize_ok (k := 3) (by norm_num) (by norm_num)
    rw [phiIndex_plain (by norm_num) (by norm_num; linarith) (by rw [f3]; norm_num) (by rw [f4]; norm_num) (by omega) hk, f1]

/-- C86 (negation). The setters of the limits in azimuth forget the repetition. -/
theorem phimax_wrong : ∃ d : Disk, Reachable 1 d ∧ d.emissquant ≠ none ∧
    d.dphi ≠ (d.phimax - d.phimin) / (((d.nphi : ℝ) - 1) * d.repeatPhi) := by
  have r1 := Reachable.step (.repeatPhi 2) (Reachable.init (big := 1)) trivial
  have r3 := Reachable.step (.copyEmissquant (some (List.replicate 12 0)) 1 3 2 2) r1 (by simp [Fits])
  have r4 := Reachable.step (.phimax 4) r3 trivial
  refine ⟨_, r4, ?_, ?_⟩
  · simp [step, copyEmissquant, resize, init, memcpy]
  · simp [step, copyEmissquant, resize, init, memcpy]
    norm_num

/-- C86 (negation). A grid that starts above the equatorial plane is taken as symmetric, and points between its lower face and the mirrored
one count as inside; half a step away from the face the index is undefined. -/
theorem gap_wrong {d : Disk} {z r : ℝ} (hz : 0 < d.zmin) (hzz : d.zmin < d.zmax) (hd : 0 < d.dz) (hs : d.zsym = true)
    (hg : |z| < d.zmin - d.dz / 2) (hr : d.rin ≤ r) (hr' : r ≤ d.rout) : ¬Outside d z r ∧ zIndex d z = .error .ub := by
  have ha := abs_lt.1 (lt_of_lt_of_le hg (by linarith : d.zmin - d.dz / 2 ≤ d.zmin))
  constructor
  · unfold Outside
    rw [hs]
    rintro (⟨-, ⟨h, -⟩ | ⟨-, h⟩⟩ | ⟨h, -⟩ | h | h | h)
    · linarith
    · linarith
    · simp at h
    · linarith
    · linarith
    · linarith
  · have e : (if z < 0 ∧ d.zmin ≥ 0 then z * (-1) else z) = |z| := by
      by_cases c : z < 0
      · rw [if_pos ⟨c, hz.le⟩, abs_of_neg c]; ring
      · rw [if_neg (fun h => c h.1), abs_of_nonneg (not_lt.1 c)]
    have hfl : ⌊(|z| - d.zmin) / d.dz + 0.5⌋ ≤ -1 := by
      have : ⌊(|z| - d.zmin) / d.dz + 0.5⌋ < 0 := by
        rw [Int.floor_lt]
        have : (|z| - d.zmin) / d.dz < -0.5 := by rw [div_lt_iff₀ hd]; norm_num; linarith
        push_cast; linarith
      omega
    have hfl' : (⌊(|z| - d.zmin) / d.dz + 0.5⌋ : ℝ) ≤ -1 := by exact_mod_cast hfl
    unfold zIndex
    simp only [bind, Except.bind]
    rw [e, toSize_neg hfl']

/-! ## The walk along the photon -/

/-- Inside the grid at a date. -/
def Inside (d : Disk) (pos : ℝ → ℝ × ℝ) (t : ℝ) : Prop := ¬Outside d (heightRadius (pos t)).1 (heightRadius (pos t)).2

theorem entry_spec (d : Disk) (pos : ℝ → ℝ × ℝ) (t1 t : ℝ) : ∃ n : ℕ, entry d pos t1 t = t - n * deltat ∧
    (∀ k : ℕ, k < n → t1 + deltat < t - k * deltat ∧ ¬Inside d pos (t - k * deltat)) ∧
    (entry d pos t1 t ≤ t1 + deltat ∨ Inside d pos (entry d pos t1 t)) := by
  fun_induction entry d pos t1 t with
  | case1 t h ih =>
    obtain ⟨n, h1, h2, h3⟩ := ih
    refine ⟨n + 1, by rw [h1]; push_cast; ring, fun k hk => ?_, h3⟩
    rcases k with - | k
    · simpa [Inside] using h
    · have := h2 k (by omega)
      rw [show t - deltat - k * deltat = t - ((k + 1 : ℕ) : ℝ) * deltat by push_cast; ring] at this
      exact this
  | case2 t h =>
    refine ⟨0, by simp, fun k hk => absurd hk (by omega), ?_⟩
    by_cases c : t1 + deltat < t
    · right
      intro ho
      exact h ⟨c, ho⟩
    · exact Or.inl (not_lt.1 c)

theorem hits_spec (d : Disk) (pos : ℝ → ℝ × ℝ) (t1 t : ℝ) : ∀ i, (h : i < (hits d pos t1 t).length) →
    (hits d pos t1 t)[i] = max (t - (i + 1) * deltat) t1 ∧ t1 < t - i * deltat ∧ Inside d pos (hits d pos t1 t)[i] := by
  fun_induction hits d pos t1 t with
  | case1 t h t' ho => simp
  | case2 t h t' ho ih =>
    intro i hi
    have hd := deltat_pos
    have ht' : t' = t - deltat := rfl
    rcases i with - | i
    · simp only [List.getElem_cons_zero]
      refine ⟨?_, by push_cast; linarith, ho⟩
      rw [max_eq_left (by push_cast; linarith), ht']; push_cast; ring
    · by_cases hr : d.radtransf = true
      · simp only [if_pos hr, List.length_cons, List.getElem_cons_succ] at hi ⊢
        obtain ⟨h1, h2, h3⟩ := ih i (by omega)
        refine ⟨?_, ?_, h3⟩
        · rw [h1, ht']; congr 1; push_cast; ring
        · rw [ht'] at h2; push_cast; linarith
      · simp [hr] at hi
  | case3 t h h2 ho => simp
  | case4 t h h2 ho =>
    intro i hi
    simp only [List.length_singleton] at hi
    obtain rfl : i = 0 := by omega
    simp only [List.getElem_cons_zero]
    refine ⟨?_, by push_cast; linarith, ho⟩
    rw [max_eq_right]; push_cast; linarith
  | case5 t h h2 => simp

/-- The walk goes on until the photon leaves the grid or the segment ends. -/
theorem hits_complete (d : Disk) (pos : ℝ → ℝ × ℝ) (t1 t : ℝ) (hr : d.radtransf = true) :
    ∀ n : ℕ, t1 < t - n * deltat → (∀ k : ℕ, k ≤ n → Inside d pos (max (t - (k + 1) * deltat) t1)) → n < (hits d pos t1 t).length := by
  fun_induction hits d pos t1 t with
  | case1 t h t' ho =>
    intro n hn hk
    have := hk 0 (by omega)
    have hd := deltat_pos
    rw [max_eq_left (by push_cast; linarith)] at this
    rw [show t - ((0 : ℕ) + 1) * deltat = t' by simp only [t']; push_cast; ring] at this
    exact absurd ho this
  | case2 t h t' ho ih =>
    intro n hn hk
    have ht' : t' = t - deltat := rfl
    simp only [if_pos hr, List.length_cons]
    rcases n with - | n
    · omega
    · have := ih n (by rw [ht']; push_cast at hn; linarith) (fun k hk' => by
        have := hk (k + 1) (by omega)
        rw [show t' - ((k : ℝ) + 1) * deltat = t - (((k + 1 : ℕ) : ℝ) + 1) * deltat by rw [ht']; push_cast; ring]
        exact this)
      omega
  | case3 t h h2 ho =>
    intro n hn hk
    have := hk 0 (by omega)
    rw [max_eq_right (by push_cast; linarith)] at this
    exact absurd ho this
  | case4 t h h2 ho =>
    intro n hn hk
    have hd := deltat_pos
    rcases n with - | n
    · simp
    · have : (0 : ℝ) ≤ n := Nat.cast_nonneg n
      push_cast at hn
      nlinarith
  | case5 t h h2 =>
    intro n hn hk
    have hd := deltat_pos
    have : (0 : ℝ) ≤ n := Nat.cast_nonneg n
    nlinarith

/-- C87. Every point processed lies inside the grid and on the segment; without radiative transfer there is at most one; when nothing was met
nothing is processed. -/
theorem impact_ok (d : Disk) (pos : ℝ → ℝ × ℝ) (t1 t2 : ℝ) :
    (∀ t ∈ (impact d pos t1 t2).2, Inside d pos t ∧ t1 ≤ t ∧ t < t2) ∧
    (d.radtransf = false → (impact d pos t1 t2).2.length ≤ 1) ∧
    ((impact d pos t1 t2).1 = 0 → (impact d pos t1 t2).2 = []) ∧ (impact d pos t1 t2).1 ≤ 1 := by
  have hd := deltat_pos
  unfold impact
  simp only
  split_ifs with h1 h2
  · simp
  · simp
  · refine ⟨fun t ht => ?_, fun hr => ?_, by simp, le_rfl⟩
    · obtain ⟨i, hi, rfl⟩ := List.getElem_of_mem ht
      obtain ⟨k1, k2, k3⟩ := hits_spec d pos t1 _ i hi
      obtain ⟨n, e1, e2, -⟩ := entry_spec d pos t1 t2
      have hi0 : (0 : ℝ) ≤ i := Nat.cast_nonneg i
      have hn0 : (0 : ℝ) ≤ n := Nat.cast_nonneg n
      refine ⟨k3, ?_, ?_⟩
      · rw [k1]; exact le_max_right _ _
      · rw [k1, max_lt_iff]
        constructor <;> nlinarith
    · unfold hits
      rw [hr]
      simp only [Bool.false_eq_true, if_false]
      split_ifs <;> simp

/-- C87. Nothing is met exactly when the segment is far away on one side or none of the dates `t2`, `t2 - 0.1`, … later than `t1 + 0.1` is
inside. -/
theorem impact_zero_iff (d : Disk) (pos : ℝ → ℝ × ℝ) (t1 t2 : ℝ) : (impact d pos t1 t2).1 = 0 ↔
    ((pos t1).1 > 2 * d.rout ∧ (pos t2).1 > 2 * d.rout ∧ (heightRadius (pos t1)).1 * (heightRadius (pos t2)).1 > 0) ∨
    ∀ n : ℕ, t1 + deltat < t2 - n * deltat → ¬Inside d pos (t2 - n * deltat) := by
  have hd := deltat_pos
  obtain ⟨n, e1, e2, e3⟩ := entry_spec d pos t1 t2
  unfold impact
  simp only
  by_cases h1 : (pos t1).1 > 2 * d.rout ∧ (pos t2).1 > 2 * d.rout ∧ (heightRadius (pos t1)).1 * (heightRadius (pos t2)).1 > 0
  · rw [if_pos h1]; simp [h1]
  rw [if_neg h1]
  by_cases h2 : entry d pos t1 t2 ≤ t1 + deltat
  · rw [if_pos h2]
    refine ⟨fun _ => Or.inr fun k hk => ?_, fun _ => rfl⟩
    by_cases hkn : k < n
    · exact (e2 k hkn).2
    · have : (n : ℝ) ≤ k := by exact_mod_cast not_lt.1 hkn
      rw [e1] at h2
      nlinarith
  · rw [if_neg h2]
    refine ⟨fun h => by simp at h, ?_⟩
    rintro (h | h)
    · exact absurd h h1
    · rcases e3 with e3 | e3
      · exact absurd e3 h2
      · rw [e1] at e3 h2
        exact absurd e3 (h n (not_le.1 h2))

/-- C87. With radiative transfer the points processed are, from the first date inside, those after each further step of 0.1, the last one at
the end of the segment, as long as the photon stays inside. -/
theorem impact_path (d : Disk) (pos : ℝ → ℝ × ℝ) (t1 t2 : ℝ) (hr : d.radtransf = true) (h1 : (impact d pos t1 t2).1 = 1) :
    ∃ n : ℕ, Inside d pos (t2 - n * deltat) ∧ t1 + deltat < t2 - n * deltat ∧
      (∀ k : ℕ, k < n → ¬Inside d pos (t2 - k * deltat)) ∧
      ∀ i : ℕ, (i < (impact d pos t1 t2).2.length ↔
        t1 < t2 - (n + i) * deltat ∧ ∀ k : ℕ, k ≤ i → Inside d pos (max (t2 - (n + k + 1) * deltat) t1)) ∧
        ∀ hi : i < (impact d pos t1 t2).2.length, (impact d pos t1 t2).2[i] = max (t2 - (n + i + 1) * deltat) t1 := by
  obtain ⟨n, e1, e2, e3⟩ := entry_spec d pos t1 t2
  have heq : impact d pos t1 t2 = (1, hits d pos t1 (entry d pos t1 t2)) ∧ ¬entry d pos t1 t2 ≤ t1 + deltat := by
    revert h1
    unfold impact
    simp only
    split_ifs with c1 c2
    · simp
    · simp
    · exact fun _ => ⟨rfl, c2⟩
  obtain ⟨heq, h2⟩ := heq
  rw [heq]
  have e3 := e3.resolve_left h2
  refine ⟨n, by rw [← e1]; exact e3, by rw [← e1]; exact not_le.1 h2, fun k hk => (e2 k hk).2, fun i => ?_⟩
  have hs := hits_spec d pos t1 (entry d pos t1 t2)
  have hc := hits_complete d pos t1 (entry d pos t1 t2) hr
  rw [e1] at hs hc ⊢
  have ar : ∀ k : ℕ, t2 - n * deltat - ((k : ℝ) + 1) * deltat = t2 - (n + k + 1) * deltat := fun k => by ring
  have ar' : ∀ k : ℕ, t2 - n * deltat - (k : ℝ) * deltat = t2 - (n + k) * deltat := fun k => by ring
  refine ⟨⟨fun hi => ⟨?_, fun k hk => ?_⟩, fun hi => ?_⟩, fun hi => ?_⟩
  · have := (hs i hi).2.1
    rwa [ar'] at this
  · obtain ⟨k1, -, k3⟩ := hs k (by simp only at hi ⊢; omega)
    rw [k1, ar] at k3
    exact k3
  · refine hc i ?_ fun k hk => ?_
    · rw [ar']; exact hi.1
    · rw [ar]; exact hi.2 k hk
  · rw [← ar]; exact (hs i hi).1

/-- C87 (negation). A segment that lasts 0.1 or less is never met, even entirely inside. -/
theorem impact_short_wrong (d : Disk) (pos : ℝ → ℝ × ℝ) {t1 t2 : ℝ} (h : t2 ≤ t1 + 0.1) : impact d pos t1 t2 = (0, []) := by
  have h0 : (impact d pos t1 t2).1 = 0 := by
    rw [impact_zero_iff]
    right
    intro n hn
    have hd := deltat_pos
    have hd' : deltat = 0.1 := rfl
    have : (0 : ℝ) ≤ n := Nat.cast_nonneg n
    nlinarith
  have h1 := (impact_ok d pos t1 t2).2.2.1 h0
  exact Prod.ext h0 h1

/-- Two samples in each direction between the radii 0 and 1, the heights -1 and 1. -/
noncomputable def box : Disk :=
  { init 1 with emissquant := some (List.replicate 8 0), nnu := 1, nphi := 2, nz := 2, nr := 2, phimin := 0, phimax := 6, dphi := 6,
                zmin := -1, zmax := 1, dz := 2, rin := 0, rout := 1, dr := 1, radtransf := true }

theorem box_inv : Inv box := by
  constructor
  · intro l hl
    obtain rfl : List.replicate 8 0 = l := by simpa [box] using hl
    simp only [box]
    norm_num
  · simp [box, init]

/-- At the radius 3/4, in the equatorial plane, at the azimuth 1: the first column, the upper layer, the outer ring. -/
example : ∃ i0 i1 i2 i3, getIndices box .spherical (fun i => if i = 1 then 3 / 4 else if i = 2 then π / 2 else if i = 3 then 1 else 0) 0 =
    .ok (i0, i1, i2, i3) ∧ i0 < 1 ∧ i1 < 2 ∧ i2 < 2 ∧ i3 < 2 := by
  have hpi := Real.pi_gt_three
  have e : cylindrical .spherical (fun i => if i = 1 then 3 / 4 else if i = 2 then π / 2 else if i = 3 then 1 else 0) = (3 / 4, 0, 1) := by
    unfold cylindrical
    simp
    exact sqrt_mul_self (by norm_num)
  obtain ⟨a, b, c, f, h, h0, h1, h2, h3, -⟩ := indices_partial (kind := .spherical)
    (co := fun i => if i = 1 then 3 / 4 else if i = 2 then π / 2 else if i = 3 then 1 else 0) (nu := 0) box_inv
    (by unfold Sized box; norm_num) rfl (Or.inl (le_of_eq rfl)) rfl (by norm_num [box]) (by norm_num [box]) (by norm_num [box])
    1 ⟨0, by rw [e]; simp [box, init]⟩ one_pos (by linarith) (by norm_num [box]) (by norm_num [box]) 0
    (by rw [e]; simp [box]) (by norm_num [box]) (by norm_num [box]) (by rw [e]; norm_num [box]) (by rw [e]; norm_num [box])
  exact ⟨a, b, c, f, h, h0, h1, h2, h3⟩

theorem box_inside {pos : ℝ → ℝ × ℝ} {t : ℝ} (h : pos t = (1 / 2, π / 2)) : Inside box pos t := by
  have e : heightRadius (pos t) = (0, 1 / 2) := by
    unfold heightRadius
    rw [h]
    simp only [cos_pi_div_two, mul_zero, sub_zero, Prod.mk.injEq, true_and]
    rw [show (1 : ℝ) / 2 * (1 / 2) = (1 / 2) ^ 2 by norm_num]
    exact sqrt_sq (by norm_num)
  unfold Inside Outside
  rw [e]
  simp only [box, init]
  norm_num

/-- A photon staying inside for 0.25: three points are processed. -/
example : impact box (fun _ => (1 / 2, π / 2)) 0 0.25 = (1, [0.25 - 0.1, 0.25 - 0.1 - 0.1, 0]) := by
  have hin : ∀ t, ¬Outside box (heightRadius ((fun _ => (1 / 2, π / 2) : ℝ → ℝ × ℝ) t)).1
      (heightRadius ((fun _ => (1 / 2, π / 2) : ℝ → ℝ × ℝ) t)).2 := fun t => box_inside rfl
  have hd : deltat = 0.1 := rfl
  have hrt : box.radtransf = true := rfl
  have hro : box.rout = 1 := rfl
  have he : entry box (fun _ => (1 / 2, π / 2)) 0 0.25 = 0.25 := by
    unfold entry; exact dif_neg (fun h => hin 0 h.2)
  unfold impact
  simp only
  rw [if_neg (by rw [hro]; norm_num), he, if_neg (by rw [hd]; norm_num)]
  unfold hits
  rw [dif_pos (by rw [hd]; norm_num)]
  simp only
  rw [if_neg (hin 0), if_pos hrt]
  unfold hits
  rw [dif_pos (by rw [hd]; norm_num)]
  simp only
  rw [if_neg (hin 0), if_pos hrt]
  unfold hits
  rw [dif_neg (by rw [hd]; norm_num), if_pos (by rw [hd]; norm_num), if_neg (hin 0), hd]

/-- The same photon over 0.1 is not met. -/
example : impact box (fun _ => (1 / 2, π / 2)) 0 0.1 = (0, []) := impact_short_wrong _ _ (by norm_num)

end Gyoto.Disk3D
