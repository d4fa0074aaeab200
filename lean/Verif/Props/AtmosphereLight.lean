import Verif.Props.Atmosphere

/-!
# C141: the light of a neutron star with an atmosphere
-/

namespace Gyoto.Atmosphere

open Gyoto.GridRead Gyoto.GridInterp Gyoto.MetricAlg Gyoto.Spacetime
open Gyoto.DirectionalDisk (Increasing Decreasing Lorentzian upIndex freqIndex mix2 ratio ratio_ok mix2_eq mix3_eq upIndex_lt upIndex_mid upIndex_low
  upIndex_high freqIndex_mid freqIndex_low freqIndex_ub read_last exists_cell_down)

/-- All the arrays are there, the gravities and the cosines increase, the frequencies decrease. -/
structure Valid (d : Star) (e g c f : List ℝ) : Prop where
  inv : Inv d
  emission : d.emission = some e
  surfgrav : d.surfgrav = some g
  cosi : d.cosi = some c
  freq : d.freq = some f
  up : Increasing g
  upc : Increasing c
  down : Decreasing f

/-- The intensity of a sample as the function reads it: the gravity varies fastest, the frequency slowest. -/
def sample (d : Star) (e : List ℝ) (i0 i1 i2 : ℕ) : ℝ := e.getD ((i0 * d.ni + i1) * d.nsg + i2) 0

/-- The intensity of a sample as the header has it: `double[nsg_][ni_][nnu_]` (`include/GyotoNeutronStarModelAtmosphere.h:51-55`). -/
def documented (d : Star) (e : List ℝ) (i0 i1 i2 : ℕ) : ℝ := e.getD ((i2 * d.ni + i1) * d.nnu + i0) 0

theorem Valid.nsg {d : Star} {e g c f : List ℝ} (h : Valid d e g c f) : g.length = d.nsg ∧ 0 < d.nsg :=
  ⟨h.inv.surfgrav g h.surfgrav, (h.inv.emission e h.emission).2.2.2⟩
theorem Valid.ni {d : Star} {e g c f : List ℝ} (h : Valid d e g c f) : c.length = d.ni ∧ 0 < d.ni :=
  ⟨h.inv.cosi c h.cosi, (h.inv.emission e h.emission).2.2.1⟩
theorem Valid.nnu {d : Star} {e g c f : List ℝ} (h : Valid d e g c f) : f.length = d.nnu ∧ 0 < d.nnu :=
  ⟨h.inv.freq f h.freq, (h.inv.emission e h.emission).2.1⟩

theorem cell_ok {d : Star} {e : List ℝ} (h : Inv d) (he : d.emission = some e) {i0 i1 i2 : ℕ} (h0 : i0 < d.nnu) (h1 : i1 < d.ni)
    (h2 : i2 < d.nsg) : cell d i0 i1 i2 = .ok (sample d e i0 i1 i2) := by
  have hl := (h.emission e he).1
  have k1 : (i0 * d.ni + i1) + 1 ≤ d.nnu * d.ni := by
    have : (i0 + 1) * d.ni ≤ d.nnu * d.ni := Nat.mul_le_mul_right _ h0
    rw [Nat.succ_mul] at this
    omega
  have k2 : ((i0 * d.ni + i1) * d.nsg + i2) + 1 ≤ d.nnu * d.ni * d.nsg := by
    have : (i0 * d.ni + i1 + 1) * d.nsg ≤ d.nnu * d.ni * d.nsg := Nat.mul_le_mul_right _ k1
    rw [Nat.succ_mul] at this
    omega
  have hlt : (i0 * d.ni + i1) * d.nsg + i2 < e.length := by rw [hl]; omega
  unfold cell
  rw [he, read_ok' (k := (i0 * d.ni + i1) * d.nsg + i2) (by push_cast; ring) hlt]
  unfold sample
  simp [hlt]

theorem freqRatio_ok {d : Star} {e g c f : List ℝ} (h : Valid d e g c f) {k : ℕ} (hk : k + 1 < f.length) (nu : ℝ) :
    freqRatio d k nu = .ok ((nu - f[k + 1]) / (f[k] - f[k + 1])) := by
  unfold freqRatio
  rw [h.freq, read_ok hk, read_ok (show k < f.length by omega)]
  exact ratio_ok (h.down k (k + 1) (by omega) hk).ne

theorem gravCell_ok {d : Star} {e g c f : List ℝ} (h : Valid d e g c f) {m : ℕ} (hm : m + 1 < g.length) (sg : ℝ) :
    gravCell d (m + 1) sg = .ok (m, m + 1, (sg - g[m]) / (g[m + 1] - g[m])) := by
  have h1 := h.nsg
  unfold gravCell
  rw [if_neg (by omega), Nat.add_sub_cancel, h.surfgrav, read_ok hm, read_ok (show m < g.length by omega)]
  simp only [bind, Except.bind]
  rw [ratio_ok (h.up m (m + 1) (by omega) hm).ne]
  rfl

theorem gravCell_single {d : Star} {e g c f : List ℝ} (h : Valid d e g c f) (h1 : g.length = 1) (i2 : ℕ) (sg : ℝ) :
    gravCell d i2 sg = .ok (0, 0, 0) := by
  have h2 := h.nsg
  unfold gravCell
  rw [if_pos (by omega), h.surfgrav, show read (some g) 0 = .ok g[0] from read_ok' (k := 0) rfl (by omega)]
  rfl

theorem bilinear_gen {d : Star} {e g c f : List ℝ} (h : Valid d e g c f) {k j i2 gl gu : ℕ} {z sg : ℝ} (hk : k + 1 < f.length) (hj : j < c.length)
    (hg : gravCell d i2 sg = .ok (gl, gu, z)) (h1 : gl < g.length) (h2 : gu < g.length) (nu : ℝ) : bilinear d k j i2 nu sg =
      .ok (mix2 (sample d e (k + 1) j gl) (sample d e k j gl) (sample d e (k + 1) j gu) (sample d e k j gu)
        ((nu - f[k + 1]) / (f[k] - f[k + 1])) z) := by
  have q1 := h.nsg; have q2 := h.ni; have q3 := h.nnu
  have hcell : ∀ i0 i1 i2, i0 < d.nnu → i1 < d.ni → i2 < d.nsg → cell d i0 i1 i2 = .ok (sample d e i0 i1 i2) :=
    fun i0 i1 i2 => cell_ok h.inv h.emission
  unfold bilinear
  rw [hg]
  simp only [bind, Except.bind]
  rw [hcell (k + 1) j gl (by omega) (by omega) (by omega), hcell (k + 1) j gu (by omega) (by omega) (by omega),
    hcell k j gl (by omega) (by omega) (by omega), hcell k j gu (by omega) (by omega) (by omega), freqRatio_ok h hk]
  rfl

/-- The polynomial of the interpolation in the three directions. -/
noncomputable def mix3 (I000 I100 I010 I110 I001 I101 I011 I111 x y z : ℝ) : ℝ :=
  I000 + (I100 - I000) * x + (I010 - I000) * y + (I001 - I000) * z + (I110 - I010 - I100 + I000) * x * y +
      (I011 - I010 - I001 + I000) * y * z + (I101 - I001 - I100 + I000) * x * z +
      (I111 - I011 - I101 - I110 + I100 + I001 + I010 - I000) * x * y * z

theorem trilinear_gen {d : Star} {e g c f : List ℝ} (h : Valid d e g c f) {k j i2 gl gu : ℕ} {z sg : ℝ} (hk : k + 1 < f.length)
    (hj : j + 1 < c.length) (hg : gravCell d i2 sg = .ok (gl, gu, z)) (h1 : gl < g.length) (h2 : gu < g.length) (nu cosi : ℝ) :
    trilinear d k (j + 1) i2 nu cosi sg = .ok (mix3 (sample d e (k + 1) j gl) (sample d e k j gl) (sample d e (k + 1) (j + 1) gl)
      (sample d e k (j + 1) gl) (sample d e (k + 1) j gu) (sample d e k j gu) (sample d e (k + 1) (j + 1) gu) (sample d e k (j + 1) gu)
      ((nu - f[k + 1]) / (f[k] - f[k + 1])) ((cosi - c[j]) / (c[j + 1] - c[j])) z) := by
  have q1 := h.nsg; have q2 := h.ni; have q3 := h.nnu
  have hcell : ∀ i0 i1 i2, i0 < d.nnu → i1 < d.ni → i2 < d.nsg → cell d i0 i1 i2 = .ok (sample d e i0 i1 i2) :=
    fun i0 i1 i2 => cell_ok h.inv h.emission
  unfold trilinear
  rw [if_neg (by omega), hg]
  simp only [bind, Except.bind]
  rw [Nat.add_sub_cancel, hcell (k + 1) j gl (by omega) (by omega) (by omega), hcell (k + 1) j gu (by omega) (by omega) (by omega),
    hcell k j gl (by omega) (by omega) (by omega), hcell k j gu (by omega) (by omega) (by omega),
    hcell (k + 1) (j + 1) gl (by omega) (by omega) (by omega), hcell (k + 1) (j + 1) gu (by omega) (by omega) (by omega),
    hcell k (j + 1) gl (by omega) (by omega) (by omega), hcell k (j + 1) gu (by omega) (by omega) (by omega), freqRatio_ok h hk, h.cosi,
    read_ok hj, read_ok (show j < c.length by omega)]
  simp only [ratio_ok (h.upc j (j + 1) (by omega) hj).ne]
  rfl

theorem trapezes_ok {d : Star} {e g c f : List ℝ} (h : Valid d e g c f) {i0 i2 : ℕ} (h0 : i0 < d.nnu) (h2 : i2 < d.nsg) :
    ∀ n ii s w, ii + n < c.length → trapezes d i0 i2 n ii s w =
      .ok (s + ∑ i ∈ Finset.range n, (c.getD (ii + i + 1) 0 - c.getD (ii + i) 0) * ((sample d e i0 (ii + i) i2 + sample d e i0 (ii + i + 1) i2) / 2),
        w + (c.getD (ii + n) 0 - c.getD ii 0)) := by
  intro n
  have h1 := h.ni
  induction n with
  | zero => intro ii s w _; simp [trapezes]
  | succ n ih =>
    intro ii s w hn
    unfold trapezes
    rw [h.cosi, read_ok (show ii + 1 < c.length by omega), read_ok (show ii < c.length by omega),
      cell_ok h.inv h.emission h0 (by omega) h2, cell_ok h.inv h.emission h0 (show ii < d.ni by omega) h2]
    simp only [bind, Except.bind]
    rw [ih (ii + 1) _ _ (by omega), Finset.sum_range_succ']
    have g1 : c.getD (ii + 1) 0 = c[ii + 1]'(by omega) := by simp [show ii + 1 < c.length by omega]
    have g2 : c.getD ii 0 = c[ii]'(by omega) := by simp [show ii < c.length by omega]
    congr 1
    rw [Prod.mk.injEq]
    constructor
    · simp only [Nat.add_zero, g1, g2, show ∀ i, ii + 1 + i = ii + (i + 1) from fun i => by omega]
      ring
    · rw [show ii + 1 + n = ii + (n + 1) by omega, g1, g2]; ring

/-- The mean over the cosines of the samples of a frequency and a gravity. -/
noncomputable def mean (d : Star) (e c : List ℝ) (i0 i2 : ℕ) : ℝ := trapezeMean (fun i => c.getD i 0) (fun i => sample d e i0 i i2) (c.length - 1)

theorem meanCosi_ok {d : Star} {e g c f : List ℝ} (h : Valid d e g c f) {i0 i2 : ℕ} (h0 : i0 < d.nnu) (h2 : i2 < d.nsg) (hn : 2 ≤ c.length) :
    meanCosi d i0 i2 = .ok (mean d e c i0 i2) := by
  have h1 := h.ni
  unfold meanCosi
  rw [trapezes_ok h h0 h2 _ _ _ _ (by omega)]
  simp only [bind, Except.bind, zero_add]
  have g1 : c.getD (d.ni - 1) 0 = c[d.ni - 1]'(by omega) := by simp [show d.ni - 1 < c.length by omega]
  have g2 : c.getD 0 0 = c[0]'(by omega) := by simp [show 0 < c.length by omega]
  have := h.upc 0 (d.ni - 1) (by omega) (by omega)
  rw [if_neg (by rw [g1, g2]; linarith), mean, h1.1]
  rfl

theorem averaged_gen {d : Star} {e g c f : List ℝ} (h : Valid d e g c f) {k i2 gl gu : ℕ} {z sg : ℝ} (hk : k + 1 < f.length) (hn : 2 ≤ c.length)
    (hg : gravCell d i2 sg = .ok (gl, gu, z)) (h1 : gl < g.length) (h2 : gu < g.length) (nu : ℝ) : averaged d k i2 nu sg =
      .ok (mix2 (mean d e c (k + 1) gl) (mean d e c k gl) (mean d e c (k + 1) gu) (mean d e c k gu) ((nu - f[k + 1]) / (f[k] - f[k + 1])) z) := by
  have q1 := h.nsg; have q2 := h.ni; have q3 := h.nnu
  unfold averaged
  rw [hg]
  simp only [bind, Except.bind]
  rw [meanCosi_ok h (by omega) (by omega) hn, meanCosi_ok h (by omega) (by omega) hn,
    meanCosi_ok h (by omega) (by omega) hn, meanCosi_ok h (by omega) (by omega) hn, freqRatio_ok h hk]
  rfl

/-- What the intensity is once the indices are known. -/
theorem intensity_key {d : Star} {e g c f : List ℝ} (h : Valid d e g c f) {sg cosi nu : ℝ} {k i1 i2 : ℕ} (hk : k + 1 < f.length)
    (k1 : f[k + 1] < nu) (k2 : nu ≤ f[k]) (k3 : nu < f[0]) (e2 : gravIndex d sg = .ok i2) (e1 : upIndex (some c) d.ni cosi = .ok i1) (hi : i2 ≠ 0)
    (hs : 1 < d.nsg → g[0]'(by have := h.nsg; omega) < sg ∧ sg < g[d.nsg - 1]'(by have := h.nsg; omega)) :
    intensity d sg cosi nu = (if d.average then averaged d k i2 nu sg else
      if cosi ≤ c[0]'(by have := h.ni; omega) ∨ cosi ≥ c[d.ni - 1]'(by have := h.ni; omega) then bilinear d k i1 i2 nu sg
      else trilinear d k i1 i2 nu cosi sg).bind fun I => .ok (I / 1e3) := by
  obtain ⟨r1, r2⟩ := h.nsg
  obtain ⟨c1, c2⟩ := h.ni
  obtain ⟨f1, f2⟩ := h.nnu
  have q1 : read (some g) 0 = .ok g[0] := read_ok' (k := 0) rfl (by omega)
  have q2 : read (some f) 0 = .ok f[0] := read_ok' (k := 0) rfl (by omega)
  have q3 : read (some c) 0 = .ok c[0] := read_ok' (k := 0) rfl (by omega)
  have l2 := h.down.le (show k + 1 ≤ d.nnu - 1 by omega) (by omega)
  have e0 : freqIndex (some f) d.nnu nu = .ok k := freqIndex_mid f1 h.down (by omega) k1 k2
  have g0 : getIndices d sg cosi nu = .ok (k, i1, i2) := by
    unfold getIndices
    rw [h.cosi, h.freq, e2, e1, e0]
    rfl
  unfold intensity
  rw [g0, h.surfgrav, h.freq, h.cosi, q1, q2, q3, read_last r1 r2, read_last f1 f2, read_last c1 c2]
  simp only [bind, Except.bind]
  rw [if_neg (by rintro ⟨a, b⟩; have := hs a; rcases b with b | b <;> linarith), if_neg (by rintro (h | h) <;> linarith), if_neg (by omega)]
  by_cases ha : d.average = true
  · rw [if_pos ha, if_pos ha]; rfl
  · rw [if_neg ha, if_neg ha]
    split_ifs <;> rfl

/-- C141. In a cell of the grid the intensity is interpolated between the corners, a thousandth of what the table has: in frequency, cosine and gravity; in
frequency and gravity alone for a cosine below or above the grid; in frequency and gravity, after the mean over the cosines, if asked for. -/
theorem inside_ok {d : Star} {e g c f : List ℝ} (h : Valid d e g c f) {sg cosi nu : ℝ} {k m : ℕ} (hk : k + 1 < f.length)
    (hm : m + 1 < g.length) (k1 : f[k + 1] < nu) (k2 : nu ≤ f[k]) (k3 : nu < f[0]) (m1 : g[m] < sg) (m2 : sg ≤ g[m + 1])
    (m3 : sg < g[g.length - 1]) :
    (d.average = true → 2 ≤ c.length → intensity d sg cosi nu = .ok (bilerp f[k + 1] f[k] g[m] g[m + 1]
        (mean d e c (k + 1) m) (mean d e c k m) (mean d e c (k + 1) (m + 1)) (mean d e c k (m + 1)) nu sg / 1000)) ∧
    (d.average = false → ∀ j, (hj : j + 1 < c.length) → c[j] < cosi → cosi ≤ c[j + 1] → cosi < c[c.length - 1] →
      intensity d sg cosi nu = .ok (trilerp f[k + 1] f[k] c[j] c[j + 1] g[m] g[m + 1]
        (sample d e (k + 1) j m) (sample d e k j m) (sample d e (k + 1) (j + 1) m) (sample d e k (j + 1) m)
        (sample d e (k + 1) j (m + 1)) (sample d e k j (m + 1)) (sample d e (k + 1) (j + 1) (m + 1)) (sample d e k (j + 1) (m + 1))
        nu cosi sg / 1000)) ∧
    (d.average = false → ∀ j, (hj : j < c.length) → ((j = 0 ∧ cosi ≤ c[j]) ∨ (j = c.length - 1 ∧ c[j] ≤ cosi)) →
      intensity d sg cosi nu = .ok (bilerp f[k + 1] f[k] g[m] g[m + 1] (sample d e (k + 1) j m) (sample d e k j m)
        (sample d e (k + 1) j (m + 1)) (sample d e k j (m + 1)) nu sg / 1000)) := by
  obtain ⟨r1, r2⟩ := h.nsg
  obtain ⟨c1, c2⟩ := h.ni
  have l1 := h.up.le (show 0 ≤ m by omega) (show m < g.length by omega)
  have m3' : sg < g[d.nsg - 1]'(by omega) := by simpa only [r1] using m3
  have e2 : gravIndex d sg = .ok (m + 1) := by
    unfold gravIndex
    rw [h.surfgrav, if_neg (by simp), if_neg (by omega)]
    exact upIndex_mid r1 h.up (by omega) m1 m2 m3'
  have key : ∀ i1, upIndex (some c) d.ni cosi = .ok i1 → _ := fun i1 e1 =>
    intensity_key h hk k1 k2 k3 e2 e1 (by omega) (fun _ => ⟨by linarith, m3'⟩)
  have hg := gravCell_ok h hm sg
  have n1 := (h.down k (k + 1) (by omega) hk).ne
  have n3 := (h.up m (m + 1) (by omega) hm).ne
  have hK : (1e3 : ℝ) = 1000 := by norm_num
  refine ⟨fun ha hn => ?_, fun ha j hj j1 j2 j3 => ?_, fun ha j hj hjj => ?_⟩
  · obtain ⟨i1, e1, -⟩ := upIndex_lt cosi c1 c2
    rw [key i1 e1, if_pos ha, averaged_gen h hk hn hg (by omega) hm, mix2_eq n1 n3, hK]
    rfl
  · have j3' : cosi < c[d.ni - 1]'(by omega) := by simpa only [c1] using j3
    have l3 := h.upc.le (show 0 ≤ j by omega) (show j < c.length by omega)
    rw [key (j + 1) (upIndex_mid c1 h.upc (by omega) j1 j2 j3'), if_neg (by simp [ha]),
      if_neg (by rintro (h | h) <;> linarith), trilinear_gen h hk hj hg (by omega) hm, mix3,
      mix3_eq n1 (h.upc j (j + 1) (by omega) hj).ne n3, hK]
    rfl
  · rcases hjj with ⟨rfl, j1⟩ | ⟨rfl, j1⟩
    · rw [key 0 (upIndex_low c1 c2 j1 h.upc), if_neg (by simp [ha]), if_pos (Or.inl j1), bilinear_gen h hk hj hg (by omega) hm, mix2_eq n1 n3, hK]
      rfl
    · have j1' : c[d.ni - 1]'(by omega) ≤ cosi := by simpa only [c1] using j1
      rw [key (d.ni - 1) (upIndex_high c1 c2 j1'), if_neg (by simp [ha]), if_pos (Or.inr j1'), ← c1, bilinear_gen h hk hj hg (by omega) hm,
        mix2_eq n1 n3, hK]
      rfl

/-- C141. With one gravity in the table, that of the star does not matter. -/
theorem single_ok {d : Star} {e g c f : List ℝ} (h : Valid d e g c f) {sg cosi nu : ℝ} {k : ℕ} (hk : k + 1 < f.length)
    (h1 : g.length = 1) (k1 : f[k + 1] < nu) (k2 : nu ≤ f[k]) (k3 : nu < f[0]) :
    (d.average = true → 2 ≤ c.length → intensity d sg cosi nu = .ok (lerp f[k + 1] f[k] (mean d e c (k + 1) 0) (mean d e c k 0) nu / 1000)) ∧
    (d.average = false → ∀ j, (hj : j + 1 < c.length) → c[j] < cosi → cosi ≤ c[j + 1] → cosi < c[c.length - 1] →
      intensity d sg cosi nu = .ok (bilerp f[k + 1] f[k] c[j] c[j + 1]
        (sample d e (k + 1) j 0) (sample d e k j 0) (sample d e (k + 1) (j + 1) 0) (sample d e k (j + 1) 0) nu cosi / 1000)) ∧
    (d.average = false → ∀ j, (hj : j < c.length) → ((j = 0 ∧ cosi ≤ c[j]) ∨ (j = c.length - 1 ∧ c[j] ≤ cosi)) →
      intensity d sg cosi nu = .ok (lerp f[k + 1] f[k] (sample d e (k + 1) j 0) (sample d e k j 0) nu / 1000)) := by
  obtain ⟨r1, r2⟩ := h.nsg
  obtain ⟨c1, c2⟩ := h.ni
  have e2 : gravIndex d sg = .ok 1 := by
    unfold gravIndex
    rw [h.surfgrav, if_neg (by simp), if_pos (by omega)]
  have key : ∀ i1, upIndex (some c) d.ni cosi = .ok i1 → _ := fun i1 e1 =>
    intensity_key h hk k1 k2 k3 e2 e1 (by omega) (fun h => absurd h (by omega))
  have hg := gravCell_single h h1 1 sg
  have n1 := (h.down k (k + 1) (by omega) hk).ne
  have n1' : f[k] - f[k + 1] ≠ 0 := fun h => n1 (by linarith)
  have hK : (1e3 : ℝ) = 1000 := by norm_num
  have lin : ∀ a b : ℝ, mix2 a b a b ((nu - f[k + 1]) / (f[k] - f[k + 1])) 0 = lerp f[k + 1] f[k] a b nu := by
    intro a b
    unfold mix2 lerp
    field_simp
    ring
  refine ⟨fun ha hn => ?_, fun ha j hj j1 j2 j3 => ?_, fun ha j hj hjj => ?_⟩
  · obtain ⟨i1, e1, -⟩ := upIndex_lt cosi c1 c2
    rw [key i1 e1, if_pos ha, averaged_gen h hk hn hg (by omega) (by omega), lin, hK]
    rfl
  · have j3' : cosi < c[d.ni - 1]'(by omega) := by simpa only [c1] using j3
    have l3 := h.upc.le (show 0 ≤ j by omega) (show j < c.length by omega)
    have n2 := (h.upc j (j + 1) (by omega) hj).ne
    rw [key (j + 1) (upIndex_mid c1 h.upc (by omega) j1 j2 j3'), if_neg (by simp [ha]),
      if_neg (by rintro (h | h) <;> linarith), trilinear_gen h hk hj hg (by omega) (by omega), ← mix2_eq n1 n2, hK]
    unfold mix3 mix2
    simp only [Except.bind]
    congr 1
    ring
  · rcases hjj with ⟨rfl, j1⟩ | ⟨rfl, j1⟩
    · rw [key 0 (upIndex_low c1 c2 j1 h.upc), if_neg (by simp [ha]), if_pos (Or.inl j1), bilinear_gen h hk hj hg (by omega) (by omega), lin, hK]
      rfl
    · have j1' : c[d.ni - 1]'(by omega) ≤ cosi := by simpa only [c1] using j1
      rw [key (d.ni - 1) (upIndex_high c1 c2 j1'), if_neg (by simp [ha]), if_pos (Or.inr j1'), ← c1, bilinear_gen h hk hj hg (by omega) (by omega),
        lin, hK]
      rfl

/-- The indices are found, up to the highest frequency. -/
theorem indices_exist {d : Star} {e g c f : List ℝ} (h : Valid d e g c f) (sg cosi : ℝ) {nu : ℝ} (hf : nu ≤ f[0]'(by have := h.nnu; omega)) :
    ∃ p, getIndices d sg cosi nu = .ok p := by
  obtain ⟨r1, r2⟩ := h.nsg
  obtain ⟨c1, c2⟩ := h.ni
  obtain ⟨f1, f2⟩ := h.nnu
  obtain ⟨i1, e1, -⟩ := upIndex_lt cosi c1 c2
  have e2 : ∃ i2, gravIndex d sg = .ok i2 := by
    unfold gravIndex
    rw [h.surfgrav, if_neg (by simp)]
    split_ifs
    · exact ⟨_, rfl⟩
    · obtain ⟨i, hi, -⟩ := upIndex_lt sg r1 r2
      exact ⟨i, hi⟩
  have : ∃ i0, freqIndex (some f) d.nnu nu = .ok i0 := by
    by_cases c : nu ≤ f[d.nnu - 1]'(by omega)
    · exact ⟨_, freqIndex_low f1 f2 c⟩
    · obtain ⟨k, k1, k2, k3⟩ := exists_cell_down (l := f) (nu := nu) (d.nnu - 1) (by omega) (not_le.1 c) hf
      exact ⟨k, freqIndex_mid f1 h.down (by omega) k2 k3⟩
  obtain ⟨i0, e0⟩ := this
  obtain ⟨i2, e2⟩ := e2
  refine ⟨(i0, i1, i2), ?_⟩
  unfold getIndices
  rw [h.cosi, h.freq, e2, e1, e0]
  rfl

/-- C141. A gravity outside of a table that has several is refused; at a frequency outside of the table, not beyond its highest one, there is no light. -/
theorem outside_partial {d : Star} {e g c f : List ℝ} (h : Valid d e g c f) {sg cosi nu : ℝ} (hf : nu ≤ f[0]'(by have := h.nnu; omega)) :
    (1 < d.nsg → (sg ≤ g[0]'(by have := h.nsg; omega) ∨ g[d.nsg - 1]'(by have := h.nsg; omega) ≤ sg) → intensity d sg cosi nu = .error .error) ∧
    ((1 < d.nsg → g[0]'(by have := h.nsg; omega) < sg ∧ sg < g[d.nsg - 1]'(by have := h.nsg; omega)) →
      (nu ≤ f[d.nnu - 1]'(by have := h.nnu; omega) ∨ nu = f[0]'(by have := h.nnu; omega)) → intensity d sg cosi nu = .ok 0) := by
  obtain ⟨r1, r2⟩ := h.nsg
  obtain ⟨f1, f2⟩ := h.nnu
  obtain ⟨p, hp⟩ := indices_exist h sg cosi hf
  have q1 : read (some g) 0 = .ok g[0] := read_ok' (k := 0) rfl (by omega)
  have q2 : read (some f) 0 = .ok f[0] := read_ok' (k := 0) rfl (by omega)
  constructor
  · intro h1 h2
    unfold intensity
    rw [hp, h.surfgrav, q1, read_last r1 r2]
    simp only [bind, Except.bind]
    rw [if_pos ⟨h1, h2⟩]
  · intro h1 h2
    unfold intensity
    rw [hp, h.surfgrav, h.freq, q1, q2, read_last r1 r2, read_last f1 f2]
    simp only [bind, Except.bind]
    rw [if_neg (by rintro ⟨a, b⟩; have := h1 a; rcases b with b | b <;> linarith), if_pos]
    · rfl
    · rcases h2 with h2 | h2
      · exact Or.inl h2
      · exact Or.inr h2.ge

/-- C141 (negation). Beyond the highest frequency, where there should be no light, the search runs out of the array. -/
theorem freq_wrong {d : Star} {e g c f : List ℝ} (h : Valid d e g c f) {sg cosi nu : ℝ} (hf : f[0]'(by have := h.nnu; omega) < nu) :
    intensity d sg cosi nu = .error .ub := by
  obtain ⟨r1, r2⟩ := h.nsg
  obtain ⟨c1, c2⟩ := h.ni
  obtain ⟨f1, f2⟩ := h.nnu
  obtain ⟨i1, e1, -⟩ := upIndex_lt cosi c1 c2
  have e2 : ∃ i2, gravIndex d sg = .ok i2 := by
    unfold gravIndex
    rw [h.surfgrav, if_neg (by simp)]
    split_ifs
    · exact ⟨_, rfl⟩
    · obtain ⟨i, hi, -⟩ := upIndex_lt sg r1 r2
      exact ⟨i, hi⟩
  obtain ⟨i2, e2⟩ := e2
  have e0 : freqIndex (some f) d.nnu nu = .error .ub := freqIndex_ub f1 f2 fun x hx => by
    obtain ⟨i, hi, rfl⟩ := List.getElem_of_mem hx
    have := h.down.le (show 0 ≤ i by omega) hi
    linarith
  have g0 : getIndices d sg cosi nu = .error .ub := by
    unfold getIndices
    rw [h.cosi, h.freq, e2, e1, e0]
    rfl
  unfold intensity
  rw [g0]
  rfl

/-- Three frequencies, two cosines, one gravity. -/
noncomputable def table : Star := ⟨"", some [1, 2, 3, 4, 5, 6], some [1], some [0, 1], some [3, 2, 1], 3, 2, 1, false⟩

theorem table_valid : Valid table [1, 2, 3, 4, 5, 6] [1] [0, 1] [3, 2, 1] := by
  refine ⟨⟨?_, ?_, ?_, ?_⟩, rfl, rfl, rfl, rfl, ?_, ?_, ?_⟩
  · rintro l ⟨rfl⟩; simp [table]
  · rintro l ⟨rfl⟩; simp [table]
  · rintro l ⟨rfl⟩; simp [table]
  · rintro l ⟨rfl⟩; simp [table]
  · intro i j hij hj
    simp at hj
    omega
  · intro i j hij hj
    obtain ⟨rfl, rfl⟩ : i = 0 ∧ j = 1 := by simp at hj; omega
    norm_num
  · intro i j hij hj
    have : j = 1 ∨ j = 2 := by simp at hj; omega
    rcases this with rfl | rfl
    · obtain rfl : i = 0 := by omega
      norm_num
    · have : i = 0 ∨ i = 1 := by omega
      rcases this with rfl | rfl <;> norm_num

/-- C141 (negation). At a sample of the table that the setters were given, the intensity is not the one that the header places there. -/
theorem layout_wrong : ∃ (d : Star) (e g c f : List ℝ) (sg cosi nu I : ℝ), Valid d e g c f ∧ f[1]? = some nu ∧ c[0]? = some cosi ∧ g[0]? = some sg ∧
    intensity d sg cosi nu = .ok I ∧ I ≠ documented d e 1 0 0 / 1000 := by
  refine ⟨table, _, _, _, _, 1, 0, 2, 3 / 1000, table_valid, rfl, rfl, rfl, ?_, ?_⟩
  · rw [(single_ok table_valid (sg := 1) (cosi := 0) (nu := 2) (k := 1) (by simp) rfl (by norm_num) (by norm_num) (by norm_num)).2.2 rfl 0
      (by simp) (by norm_num)]
    norm_num [lerp, sample, table]
  · norm_num [documented, table]

/-! ## The angle -/

/-- C141. For matter that only moves around the axis and a photon, the cosine is that of the angle with the acceleration in the frame of the matter, between 0
and 1, 0 for a photon that goes inwards; no exception is thrown. -/
theorem cosine_ok {g : Tensor} {A : Accel} {p u : Vec} (h : Lorentzian g) (hu : IsRotating g u) (hp : sp g p p = 0) (hp0 : p ≠ 0)
    (hr : A.grr * g 1 1 = 1) (ht : A.gtt * g 2 2 = 1) (hA : 0 < A.norm2) :
    ∃ n : Vec, sp g n n = 1 ∧ sp g n u = 0 ∧ n 1 * √A.norm2 * g 1 1 = A.r ∧ n 2 * √A.norm2 * g 2 2 = A.t ∧
      cosine g A p u = .ok (max 0 (sp g n p / -sp g u p)) ∧ sp g n p / -sp g u p ≤ 1 := by
  have hc := h.toCircular
  have hrr := h.rr
  have hhh := h.hh
  have hdet := h.det
  obtain ⟨N, hN⟩ : ∃ N, N = √A.norm2 := ⟨_, rfl⟩
  have hN0 : 0 < N := by rw [hN]; exact Real.sqrt_pos.2 hA
  have hN2 : N ^ 2 = A.grr * A.r * A.r + A.gtt * A.t * A.t := by rw [hN]; exact Real.sq_sqrt hA.le
  have hup := BField.sp_circular hc u p
  have huu := BField.sp_circular hc u u
  rw [hu.unit, hu.r, hu.theta] at huu
  rw [hu.r, hu.theta] at hup
  have hpp := BField.sp_circular hc p p
  rw [hp] at hpp
  -- the reversed Schwarz inequality in the plane of the time and the azimuth
  have hcs : sp g u p ^ 2 = g 1 1 * p 1 ^ 2 + g 2 2 * p 2 ^ 2 + (-(g 0 0 * g 3 3 - g 0 3 * g 0 3)) * (u 0 * p 3 - u 3 * p 0) ^ 2 := by
    rw [hup]
    linear_combination (-(g 0 0 * p 0 ^ 2 + g 3 3 * p 3 ^ 2 + 2 * g 0 3 * p 0 * p 3)) * huu + hpp
  have a1 : 0 ≤ g 1 1 * p 1 ^ 2 := by positivity
  have a2 : 0 ≤ g 2 2 * p 2 ^ 2 := by positivity
  have a3 : 0 ≤ (-(g 0 0 * g 3 3 - g 0 3 * g 0 3)) * (u 0 * p 3 - u 3 * p 0) ^ 2 := mul_nonneg (by linarith) (sq_nonneg _)
  have hup0 : sp g u p ≠ 0 := by
    intro h0
    rw [h0] at hcs
    have b1 : g 1 1 * p 1 ^ 2 = 0 := by linarith only [hcs, a1, a2, a3]
    have b2 : g 2 2 * p 2 ^ 2 = 0 := by linarith only [hcs, a1, a2, a3]
    have b3 : (-(g 0 0 * g 3 3 - g 0 3 * g 0 3)) * (u 0 * p 3 - u 3 * p 0) ^ 2 = 0 := by linarith only [hcs, a1, a2, a3]
    have p1 : p 1 = 0 := by simpa [hrr.ne'] using b1
    have p2 : p 2 = 0 := by simpa [hhh.ne'] using b2
    have p3 : u 0 * p 3 - u 3 * p 0 = 0 := by
      rcases mul_eq_zero.1 b3 with hx | hx
      · linarith
      · exact pow_eq_zero_iff (two_ne_zero) |>.1 hx
    rw [h0] at hup
    have e0 : p 0 = 0 := by linear_combination (-p 0) * huu + u 0 * hup + (g 3 3 * u 3 + g 0 3 * u 0) * p3
    have e3 : p 3 = 0 := by linear_combination (-p 3) * huu + u 3 * hup + (-(g 0 0 * u 0 + g 0 3 * u 3)) * p3
    apply hp0
    funext i
    fin_cases i <;> assumption
  have hr0 : g 1 1 ≠ 0 := hrr.ne'
  have ht0 : g 2 2 ≠ 0 := hhh.ne'
  have gr : A.grr = 1 / g 1 1 := by field_simp; linarith
  have gt : A.gtt = 1 / g 2 2 := by field_simp; linarith
  have hnp : ∀ v : Vec, sp g ![0, A.r * A.grr / N, A.t * A.gtt / N, 0] v = (A.r * v 1 + A.t * v 2) / N := by
    intro v
    rw [BField.sp_circular hc]
    simp only [Matrix.cons_val]
    rw [gr, gt]
    field_simp
    ring
  have hav : scalarProd g ![0, A.r * A.grr, A.t * A.gtt, 0] p = A.r * p 1 + A.t * p 2 := by
    rw [scalarProd_eq, BField.sp_circular hc]
    simp only [Matrix.cons_val]
    rw [gr, gt]
    field_simp
    ring
  have hsq : ((A.r * p 1 + A.t * p 2) / N) ^ 2 ≤ sp g u p ^ 2 := by
    rw [div_pow, div_le_iff₀ (by positivity)]
    have hq : (A.r * p 1 + A.t * p 2) ^ 2 ≤ (g 1 1 * p 1 ^ 2 + g 2 2 * p 2 ^ 2) * N ^ 2 := by
      rw [hN2, gr, gt]
      have : (g 1 1 * p 1 ^ 2 + g 2 2 * p 2 ^ 2) * (1 / g 1 1 * A.r * A.r + 1 / g 2 2 * A.t * A.t) - (A.r * p 1 + A.t * p 2) ^ 2 =
          (g 1 1 * p 1 * A.t - g 2 2 * p 2 * A.r) ^ 2 / (g 1 1 * g 2 2) := by
        field_simp
        ring
      have : 0 ≤ (g 1 1 * p 1 * A.t - g 2 2 * p 2 * A.r) ^ 2 / (g 1 1 * g 2 2) := by positivity
      linarith
    have : 0 ≤ N ^ 2 := by positivity
    nlinarith only [hq, hcs, a3, this]
  have hle : (A.r * p 1 + A.t * p 2) / N / -sp g u p ≤ 1 := by
    have habs : |(A.r * p 1 + A.t * p 2) / N / -sp g u p| ≤ 1 := by
      rw [abs_div, abs_neg, div_le_one (abs_pos.2 hup0)]
      exact sq_le_sq.1 hsq
    exact (abs_le.1 habs).2
  refine ⟨![0, A.r * A.grr / N, A.t * A.gtt / N, 0], ?_, ?_, ?_, ?_, ?_, ?_⟩
  · rw [hnp]
    simp only [Matrix.cons_val]
    rw [div_eq_one_iff_eq hN0.ne', eq_comm]
    field_simp
    linear_combination hN2
  · rw [hnp, hu.r, hu.theta]
    simp
  · rw [← hN]
    simp only [Matrix.cons_val]
    rw [gr]
    field_simp
  · rw [← hN]
    simp only [Matrix.cons_val]
    rw [gt]
    field_simp
  · rw [hnp]
    unfold cosine
    simp only
    rw [hav, scalarProd_eq, if_neg hup0, ← hN,
      show -(1 / N * (A.r * p 1 + A.t * p 2)) / sp g u p = (A.r * p 1 + A.t * p 2) / N / -sp g u p by field_simp, if_neg (not_lt.2 hle)]
    split_ifs with hx
    · rw [max_eq_left hx.le]
    · rw [max_eq_right (not_lt.1 hx)]
  · rw [hnp]
    exact hle

/-- Light at an angle of cosine 3/5 with the acceleration of matter at rest. -/
example : cosine (fun μ ν => if μ = ν then (if μ = 0 then -1 else 1) else 0) ⟨2, 0, 0, 1, 1⟩ ![5, 3, 4, 0] ![1, 0, 0, 0] = .ok (3 / 5) := by
  have h4 : √(4 : ℝ) = 2 := by rw [show (4 : ℝ) = 2 * 2 by norm_num]; exact Real.sqrt_mul_self (by norm_num)
  obtain ⟨g, hg⟩ : ∃ g : Tensor, g = fun μ ν => if μ = ν then (if μ = 0 then -1 else 1) else 0 := ⟨_, rfl⟩
  have hs : ∀ a b : Vec, scalarProd g a b = -(a 0 * b 0) + a 1 * b 1 + a 2 * b 2 + a 3 * b 3 := by
    intro a b
    have hy : g.IsSymm := by
      ext i j
      rw [hg]
      fin_cases i <;> fin_cases j <;> rfl
    have hc : BField.Circular g := by constructor <;> first | exact hy | simp [hg]
    rw [scalarProd_eq, BField.sp_circular hc, show g 0 0 = -1 by simp [hg], show g 1 1 = 1 by simp [hg], show g 2 2 = 1 by simp [hg],
      show g 3 3 = 1 by simp [hg], show g 0 3 = 0 by simp [hg]]
    ring
  rw [← hg]
  unfold cosine
  simp only [hs, Accel.norm2, Matrix.cons_val]
  norm_num [h4]

/-- C141. A point of the surface, off the axis, shines with the intensity of the table for the acceleration of the matter there in cgs units, when the unit of
length is 10 km, and for the angle with it; elsewhere there is no light. -/
theorem emission_ok {s : Star} {sl : Lorene.Slice} {a : Fin 3 → ℝ → ℝ → ℝ → ℝ} {surf : ℝ → ℝ → ℝ} {g : Tensor} {nu : ℝ} {l co u : Vec}
    (h : Lorentzian g) (hu : IsRotating g u) (hl : sp g l l = 0) (hl0 : l ≠ 0) (hrad : 0 < co 1) (hsin : Real.sin (co 2) ≠ 0)
    (hr : (sl.gcon 0 0).val (co 1) (co 2) (co 3) * g 1 1 = 1) (ht : (sl.gcon 1 1).val (co 1) (co 2) (co 3) * g 2 2 = co 1 ^ 2)
    (hphi : a 2 (co 1) (co 2) (co 3) = 0) (hne : a 0 (co 1) (co 2) (co 3) ≠ 0 ∨ a 1 (co 1) (co 2) (co 3) ≠ 0) :
    (1e-4 < |surf (co 2) (co 3) - co 1| → emission s sl a surf g nu l co u = .ok 0) ∧
    (|surf (co 2) (co 3) - co 1| ≤ 1e-4 → ∃ n : Vec, ∃ N : ℝ, 0 < N ∧ sp g n n = 1 ∧ sp g n u = 0 ∧
      n 1 * N * g 1 1 = a 0 (co 1) (co 2) (co 3) ∧ n 2 * N * g 2 2 = co 1 * a 1 (co 1) (co 2) (co 3) ∧
      emission s sl a surf g nu l co u = intensity s (N * (299792458 ^ 2 / 10000) * 100) (max 0 (sp g n l / -sp g u l)) nu) := by
  have hrr := h.rr
  have hhh := h.hh
  refine ⟨fun hs => ?_, fun hs => ?_⟩
  · unfold emission
    rw [if_pos hs]
  · obtain ⟨A, hAdef⟩ : ∃ A, A = accelAt sl a (co 1) (co 2) (co 3) := ⟨_, rfl⟩
    have ar : A.r = a 0 (co 1) (co 2) (co 3) := by rw [hAdef]; rfl
    have at' : A.t = co 1 * a 1 (co 1) (co 2) (co 3) := by rw [hAdef]; rfl
    have ap : A.p = 0 := by rw [hAdef]; simp [accelAt, hphi]
    have hr' : A.grr * g 1 1 = 1 := by rw [hAdef]; exact hr
    have ht' : A.gtt * g 2 2 = 1 := by
      rw [hAdef]
      show 1 / co 1 * (1 / co 1) * (sl.gcon 1 1).val (co 1) (co 2) (co 3) * g 2 2 = 1
      rw [mul_assoc, ht]
      field_simp
    have g1 : 0 < A.grr := by
      by_contra hx
      nlinarith [mul_nonneg (neg_nonneg.2 (not_lt.1 hx)) hrr.le]
    have g2 : 0 < A.gtt := by
      by_contra hx
      nlinarith [mul_nonneg (neg_nonneg.2 (not_lt.1 hx)) hhh.le]
    have hA : 0 < A.norm2 := by
      unfold Accel.norm2
      rw [mul_assoc, mul_assoc]
      rcases hne with hx | hx
      · have : 0 < A.r * A.r := mul_self_pos.2 (by rw [ar]; exact hx)
        have : 0 ≤ A.t * A.t := mul_self_nonneg _
        positivity
      · have : 0 < A.t * A.t := mul_self_pos.2 (by rw [at']; exact mul_ne_zero hrad.ne' hx)
        have : 0 ≤ A.r * A.r := mul_self_nonneg _
        positivity
    obtain ⟨n, n1, n2, n3, n4, n5, -⟩ := cosine_ok h hu hl hl0 hr' ht' hA
    refine ⟨n, √A.norm2, Real.sqrt_pos.2 hA, n1, n2, n3.trans ar, n4.trans at', ?_⟩
    unfold emission
    rw [if_neg (not_lt.2 hs), if_neg hrad.ne', if_neg (mul_ne_zero hrad.ne' hsin)]
    simp only
    rw [← hAdef, if_neg (by simp [ap]), if_neg (not_le.2 hA), n5]
    show intensity s A.gravity _ nu = _
    congr 1
    unfold Accel.gravity lightSpeed
    norm_num
    ring

end Gyoto.Atmosphere
