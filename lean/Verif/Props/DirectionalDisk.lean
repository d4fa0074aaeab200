import Verif.Lemmas.DirectionalDisk
import Verif.Props.Orbits
import Verif.Props.BField

/-!
# Disks whose emission depends on the direction
-/

namespace Gyoto.DirectionalDisk

open Gyoto.GridRead Gyoto.GridInterp Gyoto.MetricAlg Gyoto.ThinDisk Gyoto.KerrBL Gyoto.Orbits

/-! ## The arrays have the size of the grid -/

/-- The sizes of the arrays are those of the grid. -/
structure Inv (d : Disk) : Prop where
  emission : ∀ l, d.emission = some l → l.length = d.nnu * d.ni * d.nr ∧ 0 < d.nnu ∧ 0 < d.ni ∧ 0 < d.nr
  radius : ∀ l, d.radius = some l → l.length = d.nr
  cosi : ∀ l, d.cosi = some l → l.length = d.ni
  freq : ∀ l, d.freq = some l → l.length = d.nnu

/-- The arrays given by the caller have at least the announced size. -/
def Fits : Op → Prop
  | .copyIntensity (some p) a b c => a * b * c ≤ p.length
  | .copyGridRadius (some p) n => n ≤ p.length
  | .copyGridCosi (some p) n => n ≤ p.length
  | .copyGridFreq (some p) n => n ≤ p.length
  | _ => True

/-- The states reached by any sequence of calls. -/
inductive Reachable (tiny big : ℝ) : Disk → Prop
  | init : Reachable tiny big (init tiny big)
  | step {d} (op : Op) : Reachable tiny big d → Fits op → Reachable tiny big (step d op).1

theorem resize_inv {d : Disk} (h : Inv d) (a b c : ℕ) :
    (∀ l, (resize a b c d).radius = some l → l.length = c) ∧ (∀ l, (resize a b c d).cosi = some l → l.length = b) ∧
    (∀ l, (resize a b c d).freq = some l → l.length = a) ∧ (resize a b c d).emission = d.emission ∧
    (resize a b c d).nnu = a ∧ (resize a b c d).ni = b ∧ (resize a b c d).nr = c := by
  obtain ⟨-, h2, h3, h4⟩ := h
  unfold resize
  simp only
  by_cases c1 : d.nnu = a <;> by_cases c2 : d.ni = b <;> by_cases c3 : d.nr = c <;> simp [c1, c2, c3] <;> grind

/-- C88. One call keeps the sizes in step, and reads no array of the caller beyond its end. -/
theorem step_ok {d : Disk} {op : Op} (h : Inv d) (hf : Fits op) : Inv (step d op).1 ∧ (step d op).2 ≠ some .ub := by
  have h' := h
  obtain ⟨h1, h2, h3, h4⟩ := h'
  cases op with
  | copyIntensity p a b c =>
    cases p with
    | none => exact ⟨⟨by simp [step, copyIntensity], h2, h3, h4⟩, by simp [step, copyIntensity]⟩
    | some p =>
      have h0 : Inv { d with emission := none } := ⟨by simp, h2, h3, h4⟩
      obtain ⟨r1, r2, r3, r4, r5, r6, r7⟩ := resize_inv h0 a b c
      simp only [step, copyIntensity]
      by_cases hn : a * b * c = 0
      · rw [if_pos hn]
        refine ⟨⟨?_, ?_, ?_, ?_⟩, by simp⟩
        · rw [r4]; simp
        · rw [r7]; exact r1
        · rw [r6]; exact r2
        · rw [r5]; exact r3
      · rw [if_neg hn, memcpy_ok (by exact hf)]
        refine ⟨⟨?_, ?_, ?_, ?_⟩, by simp⟩
        · intro l hl
          simp only [Option.some.injEq] at hl
          rw [← hl, take_len (by exact hf)]
          simp only [r5, r6, r7]
          refine ⟨trivial, Nat.pos_of_ne_zero ?_, Nat.pos_of_ne_zero ?_, Nat.pos_of_ne_zero ?_⟩ <;> rintro rfl <;> simp at hn
        · simp only [r7]; exact r1
        · simp only [r6]; exact r2
        · simp only [r5]; exact r3
  | copyGridRadius p n =>
    cases p with
    | none => exact ⟨⟨h1, by simp [step, copyGridRadius], h3, h4⟩, by simp [step, copyGridRadius]⟩
    | some p =>
      simp only [step, copyGridRadius]
      by_cases c1 : d.emission = none
      · rw [if_pos c1]; exact ⟨⟨h1, by simp, h3, h4⟩, by simp⟩
      rw [if_neg c1]
      by_cases c2 : d.nr = n
      · have hf' : d.nr ≤ p.length := by rw [c2]; exact hf
        rw [if_neg (by simpa using c2), memcpy_ok hf']
        refine ⟨⟨h1, fun l hl => ?_, h3, h4⟩, by simp⟩
        simp only [Option.some.injEq] at hl
        rw [← hl, take_len hf']
      · rw [if_pos (by simpa using c2)]; exact ⟨⟨h1, by simp, h3, h4⟩, by simp⟩
  | copyGridCosi p n =>
    cases p with
    | none => exact ⟨⟨h1, h2, by simp [step, copyGridCosi], h4⟩, by simp [step, copyGridCosi]⟩
    | some p =>
      simp only [step, copyGridCosi]
      by_cases c1 : d.emission = none
      · rw [if_pos c1]; exact ⟨⟨h1, h2, by simp, h4⟩, by simp⟩
      rw [if_neg c1]
      by_cases c2 : d.ni = n
      · have hf' : d.ni ≤ p.length := by rw [c2]; exact hf
        rw [if_neg (by simpa using c2), memcpy_ok hf']
        refine ⟨⟨h1, h2, fun l hl => ?_, h4⟩, by simp⟩
        simp only [Option.some.injEq] at hl
        rw [← hl, take_len hf']
      · rw [if_pos (by simpa using c2)]; exact ⟨⟨h1, h2, by simp, h4⟩, by simp⟩
  | copyGridFreq p n =>
    cases p with
    | none => exact ⟨⟨h1, h2, h3, by simp [step, copyGridFreq]⟩, by simp [step, copyGridFreq]⟩
    | some p =>
      simp only [step, copyGridFreq]
      by_cases c1 : d.emission = none
      · rw [if_pos c1]; exact ⟨⟨h1, h2, h3, by simp⟩, by simp⟩
      rw [if_neg c1]
      by_cases c2 : d.nnu = n
      · have hf' : d.nnu ≤ p.length := by rw [c2]; exact hf
        rw [if_neg (by simpa using c2), memcpy_ok hf']
        refine ⟨⟨h1, h2, h3, fun l hl => ?_⟩, by simp⟩
        simp only [Option.some.injEq] at hl
        rw [← hl, take_len hf']
      · rw [if_pos (by simpa using c2)]; exact ⟨⟨h1, h2, h3, by simp⟩, by simp⟩
  | averageOverAngle b => exact ⟨⟨h1, h2, h3, h4⟩, by simp [step]⟩
  | lampAltitude z => exact ⟨⟨h1, h2, h3, h4⟩, by simp [step]⟩
  | lampCutOffs v =>
    rcases v with - | ⟨x, - | ⟨y, - | ⟨z, v⟩⟩⟩ <;> exact ⟨⟨h1, h2, h3, h4⟩, by simp [step]⟩

/-- C88. Whatever the calls, the arrays have the size of the grid. -/
theorem reachable_ok {tiny big : ℝ} {d : Disk} (h : Reachable tiny big d) : Inv d := by
  induction h with
  | init => exact ⟨by simp [init], by simp [init], by simp [init], by simp [init]⟩
  | step op _ hf ih => exact (step_ok ih hf).1

/-- C88. The copy of a disk has the same contents. -/
theorem clone_ok {d : Disk} (h : Inv d) : clone d = .ok d := by
  unfold clone
  rw [copyArray_ok (fun l hl => (h.emission l hl).1), copyArray_ok h.freq, copyArray_ok h.cosi, copyArray_ok h.radius]
  rfl

/-- C88 (negation). The cut-offs are set in electron-volts and read back in hertz: set again with what was read, they are multiplied. -/
theorem cutoffs_wrong (d : Disk) {x y : ℝ} (hx : 0 < x) : lampCutOffs (step d (.lampCutOffs [x, y])).1 ≠ [x, y] := by
  simp only [step, lampCutOffs]
  intro h
  simp only [List.cons.injEq] at h
  have := h.1
  norm_num [eV2Hz] at this
  linarith

/-! ## The intensity -/

/-- All the arrays are there, the radii and the cosines increase, the frequencies decrease. -/
structure Valid (d : Disk) (e r c f : List ℝ) : Prop where
  inv : Inv d
  emission : d.emission = some e
  radius : d.radius = some r
  cosi : d.cosi = some c
  freq : d.freq = some f
  up : Increasing r
  upc : Increasing c
  down : Decreasing f

/-- The intensity of a sample: the frequency varies fastest, the radius slowest. -/
def sample (d : Disk) (e : List ℝ) (i0 i1 i2 : ℕ) : ℝ := e.getD ((i2 * d.ni + i1) * d.nnu + i0) 0

theorem Valid.nr {d : Disk} {e r c f : List ℝ} (h : Valid d e r c f) : r.length = d.nr ∧ 0 < d.nr :=
  ⟨h.inv.radius r h.radius, (h.inv.emission e h.emission).2.2.2⟩
theorem Valid.ni {d : Disk} {e r c f : List ℝ} (h : Valid d e r c f) : c.length = d.ni ∧ 0 < d.ni :=
  ⟨h.inv.cosi c h.cosi, (h.inv.emission e h.emission).2.2.1⟩
theorem Valid.nnu {d : Disk} {e r c f : List ℝ} (h : Valid d e r c f) : f.length = d.nnu ∧ 0 < d.nnu :=
  ⟨h.inv.freq f h.freq, (h.inv.emission e h.emission).2.1⟩

theorem cell_ok {d : Disk} {e : List ℝ} (h : Inv d) (he : d.emission = some e) {i0 i1 i2 : ℕ} (h0 : i0 < d.nnu) (h1 : i1 < d.ni)
    (h2 : i2 < d.nr) : cell d i0 i1 i2 = .ok (sample d e i0 i1 i2) := by
  have hl := (h.emission e he).1
  have k1 : (i2 * d.ni + i1) + 1 ≤ d.nr * d.ni := by
    have : (i2 + 1) * d.ni ≤ d.nr * d.ni := Nat.mul_le_mul_right _ h2
    rw [Nat.succ_mul] at this
    omega
  have k2 : ((i2 * d.ni + i1) * d.nnu + i0) + 1 ≤ d.nr * d.ni * d.nnu := by
    have : (i2 * d.ni + i1 + 1) * d.nnu ≤ d.nr * d.ni * d.nnu := Nat.mul_le_mul_right _ k1
    rw [Nat.succ_mul] at this
    omega
  have hlt : (i2 * d.ni + i1) * d.nnu + i0 < e.length := by
    rw [hl, show d.nnu * d.ni * d.nr = d.nr * d.ni * d.nnu by ring]; omega
  unfold cell
  rw [he, read_ok' (k := (i2 * d.ni + i1) * d.nnu + i0) (by push_cast; ring) hlt]
  unfold sample
  simp [hlt]

theorem bilinear_ok {d : Disk} {e r c f : List ℝ} (h : Valid d e r c f) {k j m : ℕ} (hk : k + 1 < f.length) (hj : j < c.length)
    (hm : m + 1 < r.length) (nu rr : ℝ) : bilinear d k j (m + 1) nu rr =
      .ok (bilerp f[k + 1] f[k] r[m] r[m + 1] (sample d e (k + 1) j m) (sample d e k j m) (sample d e (k + 1) j (m + 1))
        (sample d e k j (m + 1)) nu rr) := by
  have h1 := h.nr; have h2 := h.ni; have h3 := h.nnu
  have hcell : ∀ i0 i1 i2, i0 < d.nnu → i1 < d.ni → i2 < d.nr → cell d i0 i1 i2 = .ok (sample d e i0 i1 i2) :=
    fun i0 i1 i2 => cell_ok h.inv h.emission
  unfold bilinear
  rw [Nat.add_sub_cancel, hcell (k + 1) j m (by omega) (by omega) (by omega), hcell (k + 1) j (m + 1) (by omega) (by omega) (by omega),
    hcell k j m (by omega) (by omega) (by omega), hcell k j (m + 1) (by omega) (by omega) (by omega), h.freq, h.radius,
    read_ok hk, read_ok (show k < f.length by omega), read_ok hm, read_ok (show m < r.length by omega)]
  simp only [bind, Except.bind]
  rw [ratio_ok (h.down k (k + 1) (by omega) hk).ne, ratio_ok (h.up m (m + 1) (by omega) hm).ne]
  simp only [pure, Except.pure]
  rw [mix2_eq (h.down k (k + 1) (by omega) hk).ne (h.up m (m + 1) (by omega) hm).ne]

theorem trilinear_ok {d : Disk} {e r c f : List ℝ} (h : Valid d e r c f) {k j m : ℕ} (hk : k + 1 < f.length) (hj : j + 1 < c.length)
    (hm : m + 1 < r.length) (nu cosi rr : ℝ) : trilinear d k (j + 1) (m + 1) nu cosi rr =
      .ok (trilerp f[k + 1] f[k] c[j] c[j + 1] r[m] r[m + 1]
        (sample d e (k + 1) j m) (sample d e k j m) (sample d e (k + 1) (j + 1) m) (sample d e k (j + 1) m)
        (sample d e (k + 1) j (m + 1)) (sample d e k j (m + 1)) (sample d e (k + 1) (j + 1) (m + 1)) (sample d e k (j + 1) (m + 1))
        nu cosi rr) := by
  have h1 := h.nr; have h2 := h.ni; have h3 := h.nnu
  have hcell : ∀ i0 i1 i2, i0 < d.nnu → i1 < d.ni → i2 < d.nr → cell d i0 i1 i2 = .ok (sample d e i0 i1 i2) :=
    fun i0 i1 i2 => cell_ok h.inv h.emission
  have q1 := (h.down k (k + 1) (by omega) hk).ne
  have q2 := (h.upc j (j + 1) (by omega) hj).ne
  have q3 := (h.up m (m + 1) (by omega) hm).ne
  unfold trilinear
  rw [if_neg (by omega), Nat.add_sub_cancel, Nat.add_sub_cancel, hcell (k + 1) j m (by omega) (by omega) (by omega),
    hcell (k + 1) j (m + 1) (by omega) (by omega) (by omega), hcell k j m (by omega) (by omega) (by omega),
    hcell k j (m + 1) (by omega) (by omega) (by omega), hcell (k + 1) (j + 1) m (by omega) (by omega) (by omega),
    hcell (k + 1) (j + 1) (m + 1) (by omega) (by omega) (by omega), hcell k (j + 1) m (by omega) (by omega) (by omega),
    hcell k (j + 1) (m + 1) (by omega) (by omega) (by omega), h.freq, h.radius, h.cosi,
    read_ok hk, read_ok (show k < f.length by omega), read_ok hm, read_ok (show m < r.length by omega), read_ok hj,
    read_ok (show j < c.length by omega)]
  simp only [bind, Except.bind]
  rw [ratio_ok q1, ratio_ok q2, ratio_ok q3]
  simp only [pure, Except.pure]
  rw [mix3_eq q1 q2 q3]

theorem trapezes_ok {d : Disk} {e r c f : List ℝ} (h : Valid d e r c f) {i0 i2 : ℕ} (h0 : i0 < d.nnu) (h2 : i2 < d.nr) :
    ∀ n ii s w, ii + n < c.length → trapezes d i0 i2 n ii s w =
      .ok (s + ∑ i ∈ Finset.range n, (c.getD (ii + i + 1) 0 - c.getD (ii + i) 0) * ((sample d e i0 (ii + i) i2 + sample d e i0 (ii + i + 1) i2) / 2),
        w + (c.getD (ii + n) 0 - c.getD ii 0)) := by
  intro n
  have h1 := h.ni
  induction n with
  | zero => intro ii s w _; simp [trapezes]
  | succ n ih =>
    intro ii s w hn
    unfold trapezes
    rw [h.cosi, read_ok (show ii + 1 < c.length by omega), read_ok (show ii < c.length by omega),
      cell_ok h.inv h.emission h0 (by omega) h2, cell_ok h.inv h.emission h0 (show ii < d.ni by omega) h2]
    simp only [bind, Except.bind]
    rw [ih (ii + 1) _ _ (by omega), Finset.sum_range_succ']
    have g1 : c.getD (ii + 1) 0 = c[ii + 1]'(by omega) := by simp [show ii + 1 < c.length by omega]
    have g2 : c.getD ii 0 = c[ii]'(by omega) := by simp [show ii < c.length by omega]
    congr 1
    rw [Prod.mk.injEq]
    constructor
    · simp only [Nat.add_zero, g1, g2, show ∀ i, ii + 1 + i = ii + (i + 1) from fun i => by omega]
      ring
    · rw [show ii + 1 + n = ii + (n + 1) by omega, g1, g2]; ring

theorem meanCosi_ok {d : Disk} {e r c f : List ℝ} (h : Valid d e r c f) {i0 i2 : ℕ} (h0 : i0 < d.nnu) (h2 : i2 < d.nr) (hn : 2 ≤ c.length) :
    meanCosi d i0 i2 = .ok (trapezeMean (fun i => c.getD i 0) (fun i => sample d e i0 i i2) (c.length - 1)) := by
  have h1 := h.ni
  unfold meanCosi
  rw [trapezes_ok h h0 h2 _ _ _ _ (by omega)]
  simp only [bind, Except.bind, zero_add]
  have g1 : c.getD (d.ni - 1) 0 = c[d.ni - 1]'(by omega) := by simp [show d.ni - 1 < c.length by omega]
  have g2 : c.getD 0 0 = c[0]'(by omega) := by simp [show 0 < c.length by omega]
  have := h.upc 0 (d.ni - 1) (by omega) (by omega)
  rw [if_neg (by rw [g1, g2]; linarith), h1.1]
  rfl

theorem averaged_ok {d : Disk} {e r c f : List ℝ} (h : Valid d e r c f) {k m : ℕ} (hk : k + 1 < f.length) (hn : 2 ≤ c.length)
    (hm : m + 1 < r.length) (nu rr : ℝ) : averaged d k (m + 1) nu rr =
      .ok (bilerp f[k + 1] f[k] r[m] r[m + 1]
        (trapezeMean (fun i => c.getD i 0) (fun i => sample d e (k + 1) i m) (c.length - 1))
        (trapezeMean (fun i => c.getD i 0) (fun i => sample d e k i m) (c.length - 1))
        (trapezeMean (fun i => c.getD i 0) (fun i => sample d e (k + 1) i (m + 1)) (c.length - 1))
        (trapezeMean (fun i => c.getD i 0) (fun i => sample d e k i (m + 1)) (c.length - 1)) nu rr) := by
  have h1 := h.nr; have h2 := h.ni; have h3 := h.nnu
  unfold averaged
  rw [Nat.add_sub_cancel, meanCosi_ok h (by omega) (by omega) hn, meanCosi_ok h (by omega) (by omega) hn,
    meanCosi_ok h (by omega) (by omega) hn, meanCosi_ok h (by omega) (by omega) hn, h.freq, h.radius,
    read_ok hk, read_ok (show k < f.length by omega), read_ok hm, read_ok (show m < r.length by omega)]
  simp only [bind, Except.bind]
  rw [ratio_ok (h.down k (k + 1) (by omega) hk).ne, ratio_ok (h.up m (m + 1) (by omega) hm).ne]
  simp only [pure, Except.pure]
  rw [mix2_eq (h.down k (k + 1) (by omega) hk).ne (h.up m (m + 1) (by omega) hm).ne]

/-- C88. At a radius or a frequency outside of the grid, not beyond its highest frequency, there is no emission. -/
theorem outside_partial {d : Disk} {e r c f : List ℝ} (h : Valid d e r c f) {co : ℕ → ℝ} {cosi nu : ℝ}
    (hf : nu ≤ f[0]'(by have := h.nnu; omega))
    (ho : co 1 ≤ r[0]'(by have := h.nr; omega) ∨ r[d.nr - 1]'(by have := h.nr; omega) ≤ co 1 ∨
      nu ≤ f[d.nnu - 1]'(by have := h.nnu; omega) ∨ nu = f[0]'(by have := h.nnu; omega)) :
    intensity d .spherical co cosi nu = .ok 0 := by
  obtain ⟨r1, r2⟩ := h.nr
  obtain ⟨c1, c2⟩ := h.ni
  obtain ⟨f1, f2⟩ := h.nnu
  obtain ⟨i2, e2, -⟩ := upIndex_lt (co 1) r1 r2
  obtain ⟨i1, e1, -⟩ := upIndex_lt cosi c1 c2
  have : ∃ i0, freqIndex (some f) d.nnu nu = .ok i0 := by
    by_cases c : nu ≤ f[d.nnu - 1]'(by omega)
    · exact ⟨_, freqIndex_low f1 f2 c⟩
    · obtain ⟨k, k1, k2, k3⟩ := exists_cell_down (l := f) (nu := nu) (d.nnu - 1) (by omega) (not_le.1 c) hf
      exact ⟨k, freqIndex_mid f1 h.down (by omega) k2 k3⟩
  obtain ⟨i0, e0⟩ := this
  have g0 : getIndices d .spherical co cosi nu = .ok (i0, i1, i2) := by
    unfold getIndices
    rw [h.radius, h.cosi, h.freq, show projectedRadius .spherical co = co 1 from rfl, e2, e1, e0]
    rfl
  have q1 : read (some r) 0 = .ok r[0] := read_ok' (k := 0) rfl (by omega)
  have q2 : read (some f) 0 = .ok f[0] := read_ok' (k := 0) rfl (by omega)
  unfold intensity
  simp only
  rw [g0, h.radius, h.freq, q1, q2, read_last r1 r2, read_last f1 f2]
  simp only [bind, Except.bind]
  by_cases c : co 1 ≤ r[0] ∨ co 1 ≥ r[d.nr - 1]
  · rw [if_pos c]; rfl
  · rw [if_neg c, if_pos]
    · rfl
    · push Not at c
      rcases ho with ho | ho | ho | ho
      · linarith
      · linarith
      · exact Or.inl ho
      · exact Or.inr ho.ge

/-- C88. In a cell of the grid the intensity is interpolated between the corners: in frequency, cosine and radius; in frequency and radius
alone for a cosine below or above the grid; in frequency and radius, after the mean over the cosines, if asked for. -/
theorem inside_ok {d : Disk} {e r c f : List ℝ} (h : Valid d e r c f) {co : ℕ → ℝ} {cosi nu : ℝ} {k m : ℕ} (hk : k + 1 < f.length)
    (hm : m + 1 < r.length) (k1 : f[k + 1] < nu) (k2 : nu ≤ f[k]) (k3 : nu < f[0]) (m1 : r[m] < co 1) (m2 : co 1 ≤ r[m + 1])
    (m3 : co 1 < r[r.length - 1]) :
    (d.average = true → 2 ≤ c.length → intensity d .spherical co cosi nu = .ok (bilerp f[k + 1] f[k] r[m] r[m + 1]
        (trapezeMean (fun i => c.getD i 0) (fun i => sample d e (k + 1) i m) (c.length - 1))
        (trapezeMean (fun i => c.getD i 0) (fun i => sample d e k i m) (c.length - 1))
        (trapezeMean (fun i => c.getD i 0) (fun i => sample d e (k + 1) i (m + 1)) (c.length - 1))
        (trapezeMean (fun i => c.getD i 0) (fun i => sample d e k i (m + 1)) (c.length - 1)) nu (co 1))) ∧
    (d.average = false → ∀ j, (hj : j + 1 < c.length) → c[j] < cosi → cosi ≤ c[j + 1] → cosi < c[c.length - 1] →
      intensity d .spherical co cosi nu = .ok (trilerp f[k + 1] f[k] c[j] c[j + 1] r[m] r[m + 1]
        (sample d e (k + 1) j m) (sample d e k j m) (sample d e (k + 1) (j + 1) m) (sample d e k (j + 1) m)
        (sample d e (k + 1) j (m + 1)) (sample d e k j (m + 1)) (sample d e (k + 1) (j + 1) (m + 1)) (sample d e k (j + 1) (m + 1))
        nu cosi (co 1))) ∧
    (d.average = false → ∀ j, (hj : j < c.length) → ((j = 0 ∧ cosi ≤ c[j]) ∨ (j = c.length - 1 ∧ c[j] ≤ cosi)) →
      intensity d .spherical co cosi nu = .ok (bilerp f[k + 1] f[k] r[m] r[m + 1] (sample d e (k + 1) j m) (sample d e k j m)
        (sample d e (k + 1) j (m + 1)) (sample d e k j (m + 1)) nu (co 1))) := by
  obtain ⟨r1, r2⟩ := h.nr
  obtain ⟨c1, c2⟩ := h.ni
  obtain ⟨f1, f2⟩ := h.nnu
  have q1 : read (some r) 0 = .ok r[0] := read_ok' (k := 0) rfl (by omega)
  have q2 : read (some f) 0 = .ok f[0] := read_ok' (k := 0) rfl (by omega)
  have q3 : read (some c) 0 = .ok c[0] := read_ok' (k := 0) rfl (by omega)
  have l1 := h.up.le (show 0 ≤ m by omega) (show m < r.length by omega)
  have l2 := h.down.le (show k + 1 ≤ d.nnu - 1 by omega) (by omega)
  have m3' : co 1 < r[d.nr - 1]'(by omega) := by simpa only [r1] using m3
  have e2 : upIndex (some r) d.nr (co 1) = .ok (m + 1) := upIndex_mid r1 h.up (by omega) m1 m2 m3'
  have e0 : freqIndex (some f) d.nnu nu = .ok k := freqIndex_mid f1 h.down (by omega) k1 k2
  have key : ∀ i1, upIndex (some c) d.ni cosi = .ok i1 → intensity d .spherical co cosi nu =
      if d.average then averaged d k (m + 1) nu (co 1) else
        if cosi ≤ c[0] ∨ cosi ≥ c[d.ni - 1]'(by omega) then bilinear d k i1 (m + 1) nu (co 1) else trilinear d k i1 (m + 1) nu cosi (co 1) := by
    intro i1 e1
    have g0 : getIndices d .spherical co cosi nu = .ok (k, i1, m + 1) := by
      unfold getIndices
      rw [h.radius, h.cosi, h.freq, show projectedRadius .spherical co = co 1 from rfl, e2, e1, e0]
      rfl
    unfold intensity
    simp only
    rw [g0, h.radius, h.freq, h.cosi, q1, q2, q3, read_last r1 r2, read_last f1 f2, read_last c1 c2]
    simp only [bind, Except.bind]
    rw [if_neg (by rintro (h | h) <;> linarith), if_neg (by rintro (h | h) <;> linarith), if_neg (by omega)]
  refine ⟨fun ha hn => ?_, fun ha j hj j1 j2 j3 => ?_, fun ha j hj hjj => ?_⟩
  · obtain ⟨i1, e1, -⟩ := upIndex_lt cosi c1 c2
    rw [key i1 e1, if_pos ha, averaged_ok h hk hn hm]
  · have j3' : cosi < c[d.ni - 1]'(by omega) := by simpa only [c1] using j3
    have l3 := h.upc.le (show 0 ≤ j by omega) (show j < c.length by omega)
    rw [key (j + 1) (upIndex_mid c1 h.upc (by omega) j1 j2 j3'), if_neg (by simp [ha]),
      if_neg (by rintro (h | h) <;> linarith), trilinear_ok h hk hj hm]
  · rcases hjj with ⟨rfl, j1⟩ | ⟨rfl, j1⟩
    · rw [key 0 (upIndex_low c1 c2 j1 h.upc), if_neg (by simp [ha]), if_pos (Or.inl j1), bilinear_ok h hk hj hm]
    · have j1' : c[d.ni - 1]'(by omega) ≤ cosi := by simpa only [c1] using j1
      rw [key (d.ni - 1) (upIndex_high c1 c2 j1'), if_neg (by simp [ha]), if_pos (Or.inr j1'), ← c1, bilinear_ok h hk hj hm]

/-- C88 (negation). Beyond the highest frequency of the grid, where there should be no emission, the search runs out of the array. -/
theorem freq_wrong {d : Disk} {e r c f : List ℝ} (h : Valid d e r c f) {co : ℕ → ℝ} {cosi nu : ℝ}
    (hf : f[0]'(by have := h.nnu; omega) < nu) : intensity d .spherical co cosi nu = .error .ub := by
  obtain ⟨r1, r2⟩ := h.nr
  obtain ⟨c1, c2⟩ := h.ni
  obtain ⟨f1, f2⟩ := h.nnu
  obtain ⟨i2, e2, -⟩ := upIndex_lt (co 1) r1 r2
  obtain ⟨i1, e1, -⟩ := upIndex_lt cosi c1 c2
  have e0 : freqIndex (some f) d.nnu nu = .error .ub := freqIndex_ub f1 f2 fun x hx => by
    obtain ⟨i, hi, rfl⟩ := List.getElem_of_mem hx
    have := h.down.le (show 0 ≤ i by omega) hi
    linarith
  have g0 : getIndices d .spherical co cosi nu = .error .ub := by
    unfold getIndices
    rw [h.radius, h.cosi, h.freq, show projectedRadius .spherical co = co 1 from rfl, e2, e1, e0]
    rfl
  unfold intensity
  simp only
  rw [g0]
  rfl

end Gyoto.DirectionalDisk
