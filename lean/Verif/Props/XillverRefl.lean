import Verif.Model.XillverRefl
import Verif.Lemmas.DirectionalDisk

/-!
# C147: the reflected spectrum
-/

namespace Gyoto.XillverRefl

open Gyoto.GridRead Gyoto.GridInterp
open Gyoto.DirectionalDisk (upIndex mix2 ratio Increasing ratio_ok mix2_eq mix3_eq upIndex_high upIndex_mid upIndex_low read_last)

/-- The value of the array at three indices, the frequency varying slowest. -/
def sample (s : Table) (e : List ℝ) (inu ii ixi : ℕ) : ℝ := e.getD (inu * s.ni * s.nxi + ii * s.nxi + ixi) 0

/-- The value of the array at three indices in the layout of the header, `double[nxi_][ni_][nnu_]` (`include/GyotoXillverReflection.h:56-60`). -/
def documented (s : Table) (e : List ℝ) (inu ii ixi : ℕ) : ℝ := e.getD (ixi * s.ni * s.nnu + ii * s.nnu + inu) 0

/-- A table whose arrays have the sizes announced, with increasing axes. -/
structure Good (s : Table) (e X A F : List ℝ) : Prop where
  reflection : s.reflection = some e
  logxi : s.logxi = some X
  incl : s.incl = some A
  freq : s.freq = some F
  nnu : F.length = s.nnu
  ni : A.length = s.ni
  nxi : X.length = s.nxi
  size : e.length = s.nnu * s.ni * s.nxi
  incX : Increasing X
  incA : Increasing A
  incF : Increasing F

private theorem lt_size {a b c i j k : ℕ} (hi : i < a) (hj : j < b) (hk : k < c) : i * b * c + j * c + k < a * b * c := by
  have h1 : (i * b + j + 1) * c ≤ a * b * c := by
    refine Nat.mul_le_mul_right c ?_
    have : (i + 1) * b ≤ a * b := Nat.mul_le_mul_right b hi
    rw [Nat.succ_mul] at this
    omega
  have h2 : (i * b + j + 1) * c = i * b * c + j * c + c := by ring
  omega

private theorem cell_ok {s : Table} {e X A F : List ℝ} (g : Good s e X A F) {i j k : ℕ} (hi : i < s.nnu) (hj : j < s.ni) (hk : k < s.nxi) :
    s.cell i j k = .ok (sample s e i j k) := by
  have h : i * s.ni * s.nxi + j * s.nxi + k < e.length := g.size ▸ lt_size hi hj hk
  unfold Table.cell sample
  rw [g.reflection, read_ok h]
  simp [List.getD, h]

private theorem index {R : List ℝ} {n k : ℕ} {x : ℝ} (hl : R.length = n) (hs : Increasing R) (hk : k + 1 < n)
    (h1 : R[k]'(by omega) < x) (h2 : x ≤ R[k + 1]'(by omega)) : searchUp (some R) x n 0 = .ok (k + 1) := by
  obtain ⟨j, e, -, k2, k3, k4⟩ := searchUp_ok (l := R) (x := x) (m := k + 1) (by omega) h2 n 0 (by omega) (by omega)
  rw [e]
  congr 1
  by_contra hne
  rcases Nat.lt_or_gt_of_ne hne with h | h
  · have := hs.le (show j ≤ k by omega) (by omega)
    linarith
  · have := k4 (k + 1) (by omega) (by omega) h
    linarith

private theorem quotient_ok {R : List ℝ} {k : ℕ} (hs : Increasing R) (hk : k + 1 < R.length) (x : ℝ) :
    quotient (some R) (k + 1) x = .ok ((x - R[k]) / (R[k + 1] - R[k])) := by
  unfold quotient
  rw [Nat.add_sub_cancel, read_ok (show k < R.length by omega), read_ok hk]
  simp only [bind, Except.bind]
  exact ratio_ok (hs k (k + 1) (by omega) hk).ne

/-- The intensity once the index of the angle is known. -/
private theorem intensity_eq {s : Table} {e X A F : List ℝ} (g : Good s e X A F) {logxi incl nu : ℝ} {k m i : ℕ} (hk : k + 1 < F.length)
    (hm : m + 1 < X.length) (hA : 0 < A.length) (f1 : F[k] < nu) (f2 : nu ≤ F[k + 1]) (f3 : nu < F[F.length - 1]) (x1 : X[m] < logxi)
    (x2 : logxi ≤ X[m + 1]) (hi : upIndex (some A) s.ni incl = .ok i) :
    s.intensity logxi incl nu = (if incl < A[0] ∨ incl > A[A.length - 1] then s.bilinear (k + 1) i (m + 1) nu logxi
      else s.trilinear (k + 1) i (m + 1) nu incl logxi).bind fun I => .ok (I / 1e3) := by
  have q1 := g.nnu
  have q2 := g.ni
  have q3 := g.nxi
  have hX0 : X[0] ≤ X[m] := g.incX.le (by omega) (by omega)
  have hXn : X[m + 1] ≤ X[X.length - 1] := g.incX.le (by omega) (by omega)
  have hF0 : F[0] ≤ F[k] := g.incF.le (by omega) (by omega)
  have hind : s.indices logxi incl nu = .ok (k + 1, i, m + 1) := by
    unfold Table.indices
    rw [g.logxi, g.incl, g.freq, if_neg (by simp), index q3 g.incX (by omega) x1 x2]
    simp only [bind, Except.bind]
    rw [hi]
    simp only
    rw [if_neg (show ¬ (some F = none) by simp), index q1 g.incF (by omega) f1 f2]
    rfl
  have r0 : ∀ {l : List ℝ} (h : 0 < l.length), read (some l) 0 = .ok l[0] := fun h => read_ok (i := 0) h
  unfold Table.intensity
  rw [hind, g.logxi, g.freq, g.incl, r0 (show 0 < X.length by omega), r0 (show 0 < F.length by omega), r0 hA, ← q1, ← q2, ← q3,
    read_last rfl (by omega), read_last rfl (by omega), read_last rfl (by omega)]
  simp only [bind, Except.bind]
  rw [if_neg (by push Not; constructor <;> linarith), if_neg (by push Not; constructor <;> linarith), if_neg (by omega)]
  split_ifs <;> rfl

/-- **C147.** Between two frequencies, two angles and two ionizations of the table, the reflected intensity is the mean of the eight values
around, in SI. -/
theorem inside_partial {s : Table} {e X A F : List ℝ} (g : Good s e X A F) {logxi incl nu : ℝ} {k j m : ℕ} (hk : k + 1 < F.length)
    (hj : j + 1 < A.length) (hm : m + 1 < X.length) (f1 : F[k] < nu) (f2 : nu ≤ F[k + 1]) (f3 : nu < F[F.length - 1])
    (a1 : A[j] < incl) (a2 : incl ≤ A[j + 1]) (x1 : X[m] < logxi) (x2 : logxi ≤ X[m + 1]) :
    s.intensity logxi incl nu = .ok (trilerp F[k] F[k + 1] A[j] A[j + 1] X[m] X[m + 1]
      (sample s e k j m) (sample s e (k + 1) j m) (sample s e k (j + 1) m) (sample s e (k + 1) (j + 1) m)
      (sample s e k j (m + 1)) (sample s e (k + 1) j (m + 1)) (sample s e k (j + 1) (m + 1)) (sample s e (k + 1) (j + 1) (m + 1))
      nu incl logxi / 1000) := by
  have q1 := g.nnu
  have q2 := g.ni
  have q3 := g.nxi
  have hA0 : A[0] ≤ A[j] := g.incA.le (by omega) (by omega)
  have hAn : A[j + 1] ≤ A[A.length - 1] := g.incA.le (by omega) (by omega)
  have hi : upIndex (some A) s.ni incl = .ok (j + 1) := by
    rw [← q2]
    by_cases c : incl < A[A.length - 1]
    · exact upIndex_mid rfl g.incA hj a1 a2 c
    · rw [upIndex_high rfl (by omega) (not_lt.1 c)]
      have : j + 1 = A.length - 1 := by
        by_contra hne
        have := g.incA (j + 1) (A.length - 1) (by omega) (by omega)
        linarith
      rw [this]
  rw [intensity_eq g hk hm (by omega) f1 f2 f3 x1 x2 hi, if_neg (by push Not; constructor <;> linarith)]
  unfold Table.trilinear
  rw [if_neg (by omega)]
  simp only [Nat.add_sub_cancel]
  rw [cell_ok g (show k < s.nnu by omega) (show j < s.ni by omega) (show m < s.nxi by omega),
    cell_ok g (show k + 1 < s.nnu by omega) (show j < s.ni by omega) (show m < s.nxi by omega),
    cell_ok g (show k + 1 < s.nnu by omega) (show j + 1 < s.ni by omega) (show m < s.nxi by omega),
    cell_ok g (show k < s.nnu by omega) (show j + 1 < s.ni by omega) (show m < s.nxi by omega),
    cell_ok g (show k < s.nnu by omega) (show j < s.ni by omega) (show m + 1 < s.nxi by omega),
    cell_ok g (show k + 1 < s.nnu by omega) (show j < s.ni by omega) (show m + 1 < s.nxi by omega),
    cell_ok g (show k + 1 < s.nnu by omega) (show j + 1 < s.ni by omega) (show m + 1 < s.nxi by omega),
    cell_ok g (show k < s.nnu by omega) (show j + 1 < s.ni by omega) (show m + 1 < s.nxi by omega),
    g.freq, g.incl, g.logxi, quotient_ok g.incF hk, quotient_ok g.incA hj, quotient_ok g.incX hm]
  simp only [bind, Except.bind, pure, Except.pure]
  rw [mix3_eq (g.incF k (k + 1) (by omega) hk).ne (g.incA j (j + 1) (by omega) hj).ne (g.incX m (m + 1) (by omega) hm).ne]
  norm_num

/-- **C147.** Below the first angle and above the last one, the reflected intensity is the mean of the four values around at this first or last
angle. -/
theorem outside_ok {s : Table} {e X A F : List ℝ} (g : Good s e X A F) {logxi incl nu : ℝ} {k m i : ℕ} (hk : k + 1 < F.length)
    (hA : 0 < A.length) (hm : m + 1 < X.length) (f1 : F[k] < nu) (f2 : nu ≤ F[k + 1]) (f3 : nu < F[F.length - 1])
    (a : incl < A[0] ∧ i = 0 ∨ A[A.length - 1] < incl ∧ i = A.length - 1) (x1 : X[m] < logxi) (x2 : logxi ≤ X[m + 1]) :
    s.intensity logxi incl nu = .ok (bilerp F[k] F[k + 1] X[m] X[m + 1]
      (sample s e k i m) (sample s e (k + 1) i m) (sample s e k i (m + 1)) (sample s e (k + 1) i (m + 1)) nu logxi / 1000) := by
  have q1 := g.nnu
  have q2 := g.ni
  have q3 := g.nxi
  have hi : upIndex (some A) s.ni incl = .ok i := by
    rw [← q2]
    rcases a with ⟨h, rfl⟩ | ⟨h, rfl⟩
    · exact upIndex_low rfl hA h.le g.incA
    · exact upIndex_high rfl hA h.le
  have hin : i < s.ni := by
    rcases a with ⟨-, rfl⟩ | ⟨-, rfl⟩ <;> omega
  have ha : incl < A[0] ∨ incl > A[A.length - 1] := by
    rcases a with ⟨h, -⟩ | ⟨h, -⟩
    · exact Or.inl h
    · exact Or.inr h
  rw [intensity_eq g hk hm hA f1 f2 f3 x1 x2 hi, if_pos ha]
  unfold Table.bilinear
  simp only [Nat.add_sub_cancel]
  rw [cell_ok g (show k < s.nnu by omega) hin (show m < s.nxi by omega),
    cell_ok g (show k < s.nnu by omega) hin (show m + 1 < s.nxi by omega),
    cell_ok g (show k + 1 < s.nnu by omega) hin (show m < s.nxi by omega),
    cell_ok g (show k + 1 < s.nnu by omega) hin (show m + 1 < s.nxi by omega),
    g.freq, g.logxi, quotient_ok g.incF hk, quotient_ok g.incX hm]
  simp only [bind, Except.bind, pure, Except.pure]
  rw [mix2_eq (g.incF k (k + 1) (by omega) hk).ne (g.incX m (m + 1) (by omega) hm).ne]
  norm_num

/-- **C147, wrong.** At the first angle of the table an exception, whatever the rest: the angle is not out of bounds, and its index is zero. -/
theorem angle_wrong {s : Table} {e X A F : List ℝ} (g : Good s e X A F) {logxi nu : ℝ} {k m : ℕ} (hk : k + 1 < F.length)
    (hA : 0 < A.length) (hm : m + 1 < X.length) (f1 : F[k] < nu) (f2 : nu ≤ F[k + 1]) (f3 : nu < F[F.length - 1])
    (x1 : X[m] < logxi) (x2 : logxi ≤ X[m + 1]) : s.intensity logxi A[0] nu = .error .error := by
  have q2 := g.ni
  have hi' : upIndex (some A) s.ni A[0] = .ok 0 := by
    rw [← q2]
    exact upIndex_low rfl hA le_rfl g.incA
  have hAn : A[0] ≤ A[A.length - 1] := g.incA.le (by omega) (by omega)
  rw [intensity_eq g hk hm hA f1 f2 f3 x1 x2 hi', if_neg (by push Not; exact ⟨le_rfl, hAn⟩)]
  rfl

/-- **C147.** A frequency out of the table, or an ionization out of it, is an exception and never a value. -/
theorem refused {s : Table} {e X A F : List ℝ} (g : Good s e X A F) (hF : 0 < F.length) (hX : 0 < X.length) {logxi incl nu : ℝ}
    (h : logxi < X[0] ∨ X[X.length - 1] < logxi ∨ nu ≤ F[0] ∨ F[F.length - 1] ≤ nu) : s.intensity logxi incl nu = .error .error := by
  have r0 : ∀ {l : List ℝ} (h : 0 < l.length), read (some l) 0 = .ok l[0] := fun h => read_ok (i := 0) h
  have q1 := g.nnu
  have q3 := g.nxi
  unfold Table.intensity
  rw [g.logxi, g.freq, r0 hX, r0 hF, ← q1, ← q3, read_last rfl hX, read_last rfl hF]
  simp only [bind, Except.bind]
  by_cases c : logxi < X[0] ∨ logxi > X[X.length - 1]
  · rw [if_pos c]
  · rw [if_neg c, if_pos]
    rcases h with h | h | h | h
    · exact absurd (Or.inl h) c
    · exact absurd (Or.inr h) c
    · exact Or.inl h
    · exact Or.inr h

/-- **C147, wrong.** At the first ionization of the table an exception, for every angle and every frequency within the table. -/
theorem ionization_wrong {s : Table} {e X A F : List ℝ} (g : Good s e X A F) (hA : 0 < A.length) (hX : 0 < X.length) (hF : 0 < F.length)
    {incl nu : ℝ} (f1 : F[0] < nu) (f2 : nu < F[F.length - 1]) : s.intensity X[0] incl nu = .error .error := by
  have r0 : ∀ {l : List ℝ} (h : 0 < l.length), read (some l) 0 = .ok l[0] := fun h => read_ok (i := 0) h
  have q1 := g.nnu
  have q2 := g.ni
  have q3 := g.nxi
  have hXn : X[0] ≤ X[X.length - 1] := g.incX.le (by omega) (by omega)
  obtain ⟨i, hi⟩ : ∃ i, upIndex (some A) s.ni incl = .ok i := by
    rw [← q2]
    by_cases c : A[A.length - 1] ≤ incl
    · exact ⟨_, upIndex_high rfl hA c⟩
    · obtain ⟨j, h, -⟩ := searchUp_ok (l := A) (x := incl) (m := A.length - 1) (by omega) (not_le.1 c).le A.length 0 (by omega) (by omega)
      refine ⟨j, ?_⟩
      unfold upIndex
      rw [if_neg (by simp), read_last rfl hA]
      simp only [bind, Except.bind]
      rw [if_neg c, h]
  obtain ⟨k, hk, -⟩ := searchUp_ok (l := F) (x := nu) (m := F.length - 1) (by omega) f2.le F.length 0 (by omega) (by omega)
  obtain ⟨m, hm, -, hml, -, hm2⟩ := searchUp_ok (l := X) (x := X[0]) (m := 0) hX le_rfl X.length 0 le_rfl (by omega)
  have hm0 : m = 0 := by
    by_contra hne
    exact lt_irrefl _ (hm2 0 hX le_rfl (by omega))
  subst hm0
  have hind : s.indices X[0] incl nu = .ok (k, i, 0) := by
    unfold Table.indices
    rw [g.logxi, g.incl, g.freq, if_neg (by simp), ← q3, hm]
    simp only [bind, Except.bind]
    rw [hi]
    simp only
    rw [if_neg (show ¬ (some F = none) by simp), ← q1, hk]
    rfl
  unfold Table.intensity
  rw [hind, g.logxi, g.freq, r0 hX, r0 hF, ← q1, ← q3, read_last rfl hX, read_last rfl hF]
  simp only [bind, Except.bind]
  rw [if_neg (by push Not; exact ⟨le_rfl, hXn⟩), if_neg (by push Not; exact ⟨f1, f2⟩), if_pos (Or.inr trivial)]

/-- Three frequencies, two angles, two ionizations. -/
def small : Table := ⟨some [1, 2, 3, 4, 5, 6, 7, 8, 9, 10, 11, 12], some [0, 1], some [10, 20], some [1, 2, 3], 3, 2, 2⟩

private theorem inc2 {a b : ℝ} (h : a < b) : Increasing [a, b] := by
  intro i j hij hj
  have hj' : j = 1 := by simp at hj; omega
  have hi : i = 0 := by omega
  subst hj' hi
  simpa using h

private theorem inc3 {a b c : ℝ} (h : a < b) (h' : b < c) : Increasing [a, b, c] := by
  intro i j hij hj
  have hj' : j = 1 ∨ j = 2 := by simp at hj; omega
  rcases hj' with rfl | rfl
  · have hi : i = 0 := by omega
    subst hi
    simpa using h
  · have hi : i = 0 ∨ i = 1 := by omega
    rcases hi with rfl | rfl
    · simpa using h.trans h'
    · simpa using h'

private theorem small_good : Good small [1, 2, 3, 4, 5, 6, 7, 8, 9, 10, 11, 12] [0, 1] [10, 20] [1, 2, 3] :=
  ⟨rfl, rfl, rfl, rfl, rfl, rfl, rfl, rfl, inc2 (by norm_num), inc2 (by norm_num), inc3 (by norm_num) (by norm_num)⟩

private theorem small_value : small.intensity 1 20 2 = .ok (8 / 1000) := by
  rw [inside_partial small_good (k := 0) (j := 0) (m := 0) (by norm_num) (by norm_num) (by norm_num) (by norm_num) (by norm_num) (by norm_num)
    (by norm_num) (by norm_num) (by norm_num) (by norm_num)]
  norm_num [trilerp, lerp, bilerp, sample, small]

/-- **C147, wrong.** At a node of the table, the intensity is not the one that the header places there. -/
theorem layout_wrong : ∃ (s : Table) (e X A F : List ℝ) (logxi incl nu I : ℝ), Good s e X A F ∧ F[1]? = some nu ∧ A[1]? = some incl ∧
    X[1]? = some logxi ∧ s.intensity logxi incl nu = .ok I ∧ I ≠ documented s e 1 1 1 / 1000 := by
  refine ⟨small, _, _, _, _, 1, 20, 2, 8 / 1000, small_good, rfl, rfl, rfl, small_value, ?_⟩
  norm_num [documented, small]

/-- The first angle and the first ionization. -/
example : small.intensity 1 10 2 = .error .error ∧ small.intensity 0 15 2 = .error .error :=
  ⟨angle_wrong small_good (k := 0) (m := 0) (by norm_num) (by norm_num) (by norm_num) (by norm_num) (by norm_num) (by norm_num) (by norm_num)
    (by norm_num), ionization_wrong small_good (by norm_num) (by norm_num) (by norm_num) (by norm_num) (by norm_num)⟩

/-- A frequency out of the table. -/
example : small.intensity 1 15 3 = .error .error :=
  refused small_good (by norm_num) (by norm_num) (Or.inr (Or.inr (Or.inr (by norm_num))))

/-- Face-on, under the first angle. -/
example : small.intensity 1 0 2 = .ok (6 / 1000) := by
  rw [outside_ok small_good (k := 0) (i := 0) (m := 0) (by norm_num) (by norm_num) (by norm_num) (by norm_num) (by norm_num) (by norm_num)
    (by norm_num) (by norm_num) (by norm_num)]
  norm_num [bilerp, sample, small]

end Gyoto.XillverRefl
