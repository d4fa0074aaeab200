import Verif.Props.PatternDisk
import Verif.Lemmas.PatternDisk

/-!
# The emission, the opacity and the velocity of a disk read from a grid
-/

namespace Gyoto.PatternDisk

open Gyoto.GridRead Gyoto.PhiTheta Gyoto.GridInterp Real

/-! ## What the grid stands for -/

/-- The radius of the circle number `k`. -/
noncomputable def radiusAt (d : Disk) (k : ℕ) : ℝ :=
  match d.radius with
  | some l => l.getD k 0
  | none => d.rin + (k : ℝ) * ((d.rout - d.rin) / ((d.nr : ℝ) - 1))

/-- The extent in azimuth of one repetition of the pattern. -/
noncomputable def period (d : Disk) : ℝ := (d.phimax - d.phimin) / (d.repeatPhi : ℝ)

/-- The azimuth of the column number `j`: the first one is at `phimin`, the last one a period further. -/
noncomputable def azimuthAt (d : Disk) (j : ℕ) : ℝ := d.phimin + (j : ℝ) * (period d / ((d.nphi : ℝ) - 1))

/-- The element of an array for the column `j` and the circle `k`. -/
def sample (d : Disk) (l : List ℝ) (j k : ℕ) : ℝ := l.getD (j * d.nr + k) 0

/-- The radius is one of the disk, strictly between the first and the last circle for a grid of radii. -/
def InRange (d : Disk) (r : ℝ) : Prop :=
  d.rin ≤ r ∧ r ≤ d.rout ∧
    ((∃ l, d.radius = some l ∧ l.getD 0 0 < r ∧ r < l.getD (d.nr - 1) 0) ∨ (d.radius = none ∧ d.rin < d.rout ∧ StepOk d))

/-- The dimensions fit in a `size_t`. -/
def Sized (d : Disk) : Prop := d.nr < 2 ^ 64 ∧ d.nphi < 2 ^ 64

/-- The frequency has an index. -/
def FreqOk (d : Disk) (nu : ℝ) : Prop := nu ≤ d.nu0 ∨ (0 < d.dnu ∧ (nu - d.nu0) / d.dnu + 0.5 < 2 ^ 64)

theorem getD_eq {l : List ℝ} {k : ℕ} (h : k < l.length) : l.getD k 0 = l[k] := by simp [h]

theorem radial_cell {d : Disk} {r : ℝ} {e : List ℝ} (h : Inv d) (hs : Sized d) (he : d.emission = some e) (hr : InRange d r) :
    ∃ k, radIndex d r = .ok (k + 1) ∧ k + 1 < d.nr ∧ radii d (k + 1) = .ok (radiusAt d k, radiusAt d (k + 1)) ∧
      radiusAt d k ≤ r ∧ r ≤ radiusAt d (k + 1) ∧ radiusAt d k < radiusAt d (k + 1) := by
  obtain ⟨-, -, -, h2, -⟩ := h.emission e he
  obtain ⟨ha, hb, ⟨l, hl, h3, h4⟩ | ⟨hn, hlt, hst⟩⟩ := hr
  · obtain ⟨hlen, -⟩ := h.radius l hl
    rw [getD_eq (by omega)] at h3 h4
    obtain ⟨k, hk, hk1, k2, k3⟩ := radIndex_grid hl hlen h2 h3 h4
    have e1 : radiusAt d k = l[k] := by unfold radiusAt; rw [hl]; exact getD_eq (by omega)
    have e2 : radiusAt d (k + 1) = l[k + 1] := by unfold radiusAt; rw [hl]; exact getD_eq (by omega)
    refine ⟨k, hk, hk1, ?_, by rw [e1]; exact k2.le, by rw [e2]; exact k3, by rw [e1, e2]; linarith⟩
    unfold radii
    rw [hl, if_pos Option.isSome_some, read_ok' (k := k) (by push_cast; ring) (by omega), read_ok' (k := k + 1) rfl (by omega), e1, e2]
    rfl
  · have hdr := hst (by rw [he]; simp) hn
    have hn1 : (0 : ℝ) < (d.nr : ℝ) - 1 := by
      have : (2 : ℝ) ≤ d.nr := by exact_mod_cast h2
      linarith
    have hpos : 0 < d.dr := by rw [hdr]; exact div_pos (by linarith) hn1
    obtain ⟨k, hk, hk1, k2, k3⟩ := radIndex_uniform hn h2 hs.1 hpos ha (by rw [hdr]; field_simp; linarith)
    have e1 : radiusAt d k = d.rin + (k : ℝ) * d.dr := by unfold radiusAt; rw [hn, hdr]
    have e2 : radiusAt d (k + 1) = d.rin + ((k : ℝ) + 1) * d.dr := by unfold radiusAt; rw [hn, hdr]; push_cast; rfl
    refine ⟨k, hk, hk1, ?_, by rw [e1]; exact k2, by rw [e2]; exact k3, by rw [e1, e2]; nlinarith⟩
    unfold radii
    rw [hn, if_neg (by simp), e1, e2]
    push_cast
    rw [add_sub_cancel_right]
    rfl

theorem getIndices_ok {d : Disk} {t r phi nu : ℝ} {i1 i2 : ℕ} (hf : FreqOk d nu) (h1 : phiIndex d t phi = .ok i1)
    (h2 : radIndex d r = .ok i2) : ∃ i0, getIndices d t r phi nu = .ok (i0, i1, i2) := by
  obtain ⟨i0, h0⟩ := freqIndex_ok hf
  refine ⟨i0, ?_⟩
  unfold getIndices
  rw [h0, h1, h2]
  rfl

theorem cell_lt {nphi nr j k : ℕ} (hj : j < nphi) (hk : k < nr) : j * nr + k < nphi * nr := by
  have : (j + 1) * nr ≤ nphi * nr := Nat.mul_le_mul_right _ hj
  rw [Nat.succ_mul] at this
  omega

theorem emission_core {d : Disk} {nu dsem t r phi : ℝ} {e : List ℝ} {i1 il iu k : ℕ} {plo phi' p : ℝ} (h : Inv d)
    (he : d.emission = some e) (hnu : d.nnu = 1) (hrt : d.radtransf = false) (hn : 1 < d.nphi) (hf : FreqOk d nu)
    (h1 : phiIndex d t phi = .ok i1) (h2 : radIndex d r = .ok (k + 1)) (hk : k + 1 < d.nr)
    (hrad : radii d (k + 1) = .ok (radiusAt d k, radiusAt d (k + 1))) (hrin : d.rin ≤ r) (hrout : r ≤ d.rout)
    (ha : radiusAt d k ≤ r) (hb : r ≤ radiusAt d (k + 1)) (hab : radiusAt d k < radiusAt d (k + 1))
    (hc : columns d i1 (fold d phi) = ((il : ℤ), (iu : ℤ), plo, phi', p)) (hil : il < d.nphi) (hiu : iu < d.nphi)
    (hp : plo ≤ p) (hp' : p ≤ phi') (hpp : plo < phi') :
    emission d nu dsem t r phi = .ok (bilerp plo phi' (radiusAt d k) (radiusAt d (k + 1))
      (sample d e il k) (sample d e iu k) (sample d e il (k + 1)) (sample d e iu (k + 1)) p r) := by
  obtain ⟨i0, hi⟩ := getIndices_ok hf h1 h2
  obtain ⟨hlen, -⟩ := h.emission e he
  rw [hnu, one_mul] at hlen
  have b1 : ∀ {j}, j < d.nphi → j * d.nr + (k + 1) < e.length := fun hj => by rw [hlen]; exact cell_lt hj hk
  have b0 : ∀ {j}, j < d.nphi → j * d.nr + k < e.length := fun hj => by rw [hlen]; exact cell_lt hj (by omega)
  have hbil : ∀ cp cr, bilinear (some e) 0 d.nr il iu (k + 1) cp cr = _ := fun cp cr =>
    bilinear_ok (l := e) (cp := cp) (cr := cr) 0 (by rw [zero_add]; exact b1 hil) (by rw [zero_add]; exact b1 hiu)
  unfold emission
  rw [hi]
  simp only [bind, Except.bind]
  rw [if_neg (by rintro (h | h) <;> linarith), if_neg (by omega), if_neg (by omega), hc]
  simp only
  rw [hrad, he]
  simp only
  rw [hbil]
  simp only
  rw [if_neg (by rintro (h | h | h | h) <;> linarith), hbil, hrt]
  simp only [pure, Except.pure, Bool.false_eq_true, not_false_eq_true, if_true, sample, zero_add]
  rw [getD_eq (b0 hil), getD_eq (b0 hiu), getD_eq (b1 hil), getD_eq (b1 hiu), bilerp_eq hpp hab]

/-- C85. With one column, the emission is the interpolation between the two circles on both sides. -/
theorem emission_line_partial {d : Disk} {nu dsem t r phi : ℝ} {e : List ℝ} (h : Inv d) (hs : Sized d) (he : d.emission = some e)
    (hnu : d.nnu = 1) (hn : d.nphi = 1) (hrt : d.radtransf = false) (hf : FreqOk d nu) (hr : InRange d r) :
    ∃ k, k + 1 < d.nr ∧ radiusAt d k ≤ r ∧ r ≤ radiusAt d (k + 1) ∧
      emission d nu dsem t r phi = .ok (lerp (radiusAt d k) (radiusAt d (k + 1)) (sample d e 0 k) (sample d e 0 (k + 1)) r) := by
  obtain ⟨k, hk, hk1, hrad, ha, hb, hab⟩ := radial_cell h hs he hr
  refine ⟨k, hk1, ha, hb, ?_⟩
  have h1 : phiIndex d t phi = .ok 0 := by unfold phiIndex; simp only; rw [if_neg (by omega)]
  obtain ⟨i0, hi⟩ := getIndices_ok hf h1 hk
  obtain ⟨hlen, -⟩ := h.emission e he
  rw [hnu, hn, one_mul, one_mul] at hlen
  have hl : ∀ cr, linear (some e) 0 (k + 1) cr = _ := fun cr => linear_ok (l := e) (i2 := k) (cr := cr) 0 (by omega)
  unfold emission
  rw [hi]
  simp only [bind, Except.bind]
  rw [if_neg (by rintro (h | h) <;> linarith [hr.1, hr.2.1]), if_neg (by omega), if_pos hn, he,
    read_ok' (k := k) (by push_cast; ring) (by omega), read_ok' (k := k + 1) rfl (by omega), hrad]
  simp only
  rw [if_neg (by rintro (h | h) <;> linarith), hl, hrt]
  simp only [pure, Except.pure, Bool.false_eq_true, not_false_eq_true, if_true, sample, zero_add, zero_mul]
  rw [getD_eq (by omega), getD_eq (by omega), lerp_eq hab]

theorem fold_spec {d : Disk} {phi : ℝ} (hm : d.phimin < d.phimax) (h1 : 1 ≤ d.repeatPhi) (ha : d.phimin ≤ phi)
    (hb : d.repeatPhi = 1 → phi < d.phimax) :
    ∃ n : ℕ, fold d phi = phi - n * period d ∧ d.phimin ≤ fold d phi ∧ fold d phi < d.phimin + period d := by
  unfold fold
  by_cases c : d.repeatPhi > 1
  · rw [if_pos c]
    have hrp : (0 : ℝ) < d.repeatPhi := by exact_mod_cast h1
    have hP : 0 < (d.phimax - d.phimin) / (d.repeatPhi : ℝ) := div_pos (by linarith) hrp
    unfold period
    obtain ⟨P, hPe⟩ : ∃ P, P = (d.phimax - d.phimin) / (d.repeatPhi : ℝ) := ⟨_, rfl⟩
    rw [← hPe] at hP ⊢
    have q0 : 0 ≤ (phi - d.phimin) / P := div_nonneg (by linarith) hP.le
    obtain ⟨m, hm⟩ : ∃ m : ℕ, ⌊(phi - d.phimin) / P⌋ = m := Int.eq_ofNat_of_zero_le (Int.floor_nonneg.2 q0)
    have m1 : (m : ℝ) ≤ (phi - d.phimin) / P := by have := Int.floor_le ((phi - d.phimin) / P); rw [hm] at this; exact_mod_cast this
    have m2 : (phi - d.phimin) / P < (m : ℝ) + 1 := by
      have := Int.lt_floor_add_one ((phi - d.phimin) / P); rw [hm] at this; exact_mod_cast this
    rw [le_div_iff₀ hP] at m1
    rw [div_lt_iff₀ hP] at m2
    unfold fmod
    rw [if_pos q0, hm]
    push_cast
    exact ⟨m, by ring, by nlinarith, by nlinarith⟩
  · have h1 : d.repeatPhi = 1 := by omega
    rw [if_neg c]
    refine ⟨0, by simp, ha, ?_⟩
    unfold period
    rw [h1]
    have := hb h1
    simp only [Nat.cast_one, div_one]
    linarith

theorem azimuth_cell {d : Disk} {t phi : ℝ} {e : List ℝ} (h : Inv d) (hs : Sized d) (he : d.emission = some e) (hn : 1 < d.nphi)
    (hO : d.Omega = 0) (h0 : 0 ≤ phi) (hm : d.phimin < d.phimax) (h1 : 1 ≤ d.repeatPhi) (ha : d.phimin ≤ phi)
    (hb : d.repeatPhi = 1 → phi < d.phimax) :
    ∃ n j : ℕ, fold d phi = phi - n * period d ∧ phiIndex d t phi = .ok (j + 1) ∧ j + 1 < d.nphi ∧
      azimuthAt d j ≤ fold d phi ∧ fold d phi < azimuthAt d (j + 1) ∧
      columns d (j + 1) (fold d phi) = (((j : ℕ) : ℤ), ((j + 1 : ℕ) : ℤ), azimuthAt d j, azimuthAt d (j + 1), fold d phi) := by
  obtain ⟨n, hx, hx1, hx2⟩ := fold_spec hm h1 ha hb
  obtain ⟨-, -, -, -, hdp⟩ := h.emission e he
  have hdp := hdp hn (by omega)
  have hn1 : (0 : ℝ) < (d.nphi : ℝ) - 1 := by
    have : (1 : ℝ) < d.nphi := by exact_mod_cast hn
    linarith
  have hrp : (1 : ℝ) ≤ d.repeatPhi := by exact_mod_cast h1
  have hP : 0 < period d := div_pos (by linarith) (by linarith)
  have hdp : d.dphi = period d / ((d.nphi : ℝ) - 1) := by
    rw [hdp]; unfold period; field_simp
  have hPm : period d ≤ d.phimax - d.phimin := div_le_self (by linarith) hrp
  obtain ⟨j, hj, hj1, j2, j3⟩ := phiIndex_inner (t := t) hn hs.2 hO h0 hm rfl (div_pos hP hn1) hdp (by linarith) hx1
    (by rw [mul_div_cancel₀ _ hn1.ne']; exact hx2)
  refine ⟨n, j, hx, hj, hj1, j2, by unfold azimuthAt; push_cast; exact j3, ?_⟩
  unfold columns
  rw [if_neg (by omega), hdp]
  unfold azimuthAt
  push_cast
  rw [add_sub_cancel_right, add_sub_cancel_right]

/-- C85. With several columns and without rotation, the emission is the interpolation in the cell that holds the point, a period being taken
away as often as it takes. -/
theorem emission_inner_partial {d : Disk} {nu dsem t r phi : ℝ} {e : List ℝ} (h : Inv d) (hs : Sized d) (he : d.emission = some e)
    (hnu : d.nnu = 1) (hn : 1 < d.nphi) (hrt : d.radtransf = false) (hf : FreqOk d nu) (hr : InRange d r)
    (hO : d.Omega = 0) (h0 : 0 ≤ phi) (hm : d.phimin < d.phimax) (h1 : 1 ≤ d.repeatPhi) (ha : d.phimin ≤ phi)
    (hb : d.repeatPhi = 1 → phi < d.phimax) :
    ∃ n j k : ℕ, ∃ x, x = phi - n * period d ∧ j + 1 < d.nphi ∧ k + 1 < d.nr ∧
      azimuthAt d j ≤ x ∧ x < azimuthAt d (j + 1) ∧ radiusAt d k ≤ r ∧ r ≤ radiusAt d (k + 1) ∧
      emission d nu dsem t r phi = .ok (bilerp (azimuthAt d j) (azimuthAt d (j + 1)) (radiusAt d k) (radiusAt d (k + 1))
        (sample d e j k) (sample d e (j + 1) k) (sample d e j (k + 1)) (sample d e (j + 1) (k + 1)) x r) := by
  obtain ⟨n, j, hx, hj, hj1, j2, j3, hc⟩ := azimuth_cell (t := t) h hs he hn hO h0 hm h1 ha hb
  obtain ⟨k, hk, hk1, hrad, hra, hrb, hab⟩ := radial_cell h hs he hr
  exact ⟨n, j, k, fold d phi, hx, hj1, hk1, j2, j3, hra, hrb,
    emission_core h he hnu hrt hn hf hj hk hk1 hrad hr.1 hr.2.1 hra hrb hab hc (by omega) hj1 j2 j3.le (by linarith)⟩

/-- C85. When the pattern does not go all the way round, the emission between its last and its first column is interpolated through the
seam. -/
theorem emission_seam_partial {d : Disk} {nu dsem t r phi : ℝ} {e : List ℝ} (h : Inv d) (hs : Sized d) (he : d.emission = some e)
    (hnu : d.nnu = 1) (hn : 1 < d.nphi) (hrt : d.radtransf = false) (hf : FreqOk d nu) (hr : InRange d r)
    (hO : d.Omega = 0) (h0 : 0 ≤ phi) (h2 : phi ≤ 2 * π) (hm : d.phimin < d.phimax) (hm0 : 0 ≤ d.phimin) (hm1 : d.phimax < 2 * π + d.phimin)
    (hm2 : d.phimax ≤ 2 * π) (h1 : d.repeatPhi = 1) (hout : phi < d.phimin ∨ d.phimax < phi) :
    ∃ k : ℕ, ∃ x, (x = phi ∨ x = phi + 2 * π) ∧ k + 1 < d.nr ∧ d.phimax ≤ x ∧ x ≤ d.phimin + 2 * π ∧
      radiusAt d k ≤ r ∧ r ≤ radiusAt d (k + 1) ∧
      emission d nu dsem t r phi = .ok (bilerp d.phimax (d.phimin + 2 * π) (radiusAt d k) (radiusAt d (k + 1))
        (sample d e (d.nphi - 1) k) (sample d e 0 k) (sample d e (d.nphi - 1) (k + 1)) (sample d e 0 (k + 1)) x r) := by
  obtain ⟨k, hk, hk1, hrad, hra, hrb, hab⟩ := radial_cell h hs he hr
  obtain ⟨-, -, -, -, hdp⟩ := h.emission e he
  have hdp := hdp hn (by omega)
  have hn1 : (0 : ℝ) < (d.nphi : ℝ) - 1 := by
    have : (1 : ℝ) < d.nphi := by exact_mod_cast hn
    linarith
  have hfold : fold d phi = phi := by unfold fold; rw [if_neg (by omega)]
  have hw : wrapUp (2 * π) 0 (phi - d.Omega * (t - d.t0)) = phi := by
    rw [hO, zero_mul, sub_zero]
    unfold wrapUp
    rw [dif_neg (by rintro ⟨_, h⟩; linarith)]
  obtain ⟨i1, hi1, hi⟩ : ∃ i1, phiIndex d t phi = .ok i1 ∧ (i1 = 0 ∨ i1 = d.nphi) := by
    unfold phiIndex
    rw [hw]
    simp only
    rw [if_pos hn, if_neg (by omega), hfold]
    rcases hout with ho | ho
    · rw [if_pos ho]; exact ⟨_, rfl, Or.inl rfl⟩
    · rw [if_neg (by linarith), if_pos ho]; exact ⟨_, rfl, Or.inr rfl⟩
  have hc : columns d i1 (fold d phi) = (((d.nphi - 1 : ℕ) : ℤ), ((0 : ℕ) : ℤ), d.phimax, d.phimin + 2 * π,
      if phi < d.phimin then phi + 2 * π else phi) := by
    unfold columns
    rw [if_pos ⟨hi, h1⟩, hfold, hdp, h1]
    have : d.phimin + ((d.nphi : ℝ) - 1) * ((d.phimax - d.phimin) / (((d.nphi : ℝ) - 1) * ((1 : ℕ) : ℝ))) = d.phimax := by
      rw [Nat.cast_one]; field_simp; ring
    rw [this]
    push_cast [hn.le]
    rfl
  refine ⟨k, if phi < d.phimin then phi + 2 * π else phi, ?_, hk1, ?_, ?_, hra, hrb, ?_⟩
  · split_ifs <;> simp
  · split_ifs with c
    · linarith
    · rcases hout with ho | ho
      · exact absurd ho c
      · exact ho.le
  · split_ifs with c <;> linarith
  · refine emission_core h he hnu hrt hn hf hi1 hk hk1 hrad hr.1 hr.2.1 hra hrb hab hc (by omega) (by omega) ?_ ?_ (by linarith)
    · split_ifs with c
      · linarith
      · rcases hout with ho | ho
        · exact absurd ho c
        · exact ho.le
    · split_ifs with c <;> linarith

/-! ## Opacity -/

theorem transmission_core {d : Disk} {nu dsem t r phi : ℝ} {o : List ℝ} {i1 i2 : ℕ} (h : Inv d) (ho : d.opacity = some o)
    (hnu : d.nnu = 1) (hrt : d.radtransf = true) (hf : FreqOk d nu) (h1 : phiIndex d t phi = .ok i1) (h2 : radIndex d r = .ok i2)
    (hi : i1 < d.nphi) (hk : i2 < d.nr) : transmission d nu dsem t r phi = .ok (exp (-(sample d o i1 i2 * dsem))) := by
  obtain ⟨i0, hi0⟩ := getIndices_ok hf h1 h2
  have hlen := h.opacity o ho
  rw [hnu, one_mul] at hlen
  have hlt : i1 * d.nr + i2 < o.length := by rw [hlen]; exact cell_lt hi hk
  unfold transmission
  rw [hrt, if_neg (by simp), if_neg (by rw [ho]; simp), hi0, ho]
  simp only [bind, Except.bind]
  rw [read_ok' (k := i1 * d.nr + i2) (by push_cast; ring) hlt]
  simp only [sample]
  rw [getD_eq hlt]
  by_cases c : o[i1 * d.nr + i2] = 0
  · rw [if_pos c, c, zero_mul, neg_zero, exp_zero]; rfl
  · rw [if_neg c, neg_mul]; rfl

/-- C85. Within the grid, the transmission is the exponential of minus the opacity at the corner further out and further on, times the
length. -/
theorem transmission_inner_partial {d : Disk} {nu dsem t r phi : ℝ} {e o : List ℝ} (h : Inv d) (hs : Sized d) (he : d.emission = some e)
    (ho : d.opacity = some o) (hnu : d.nnu = 1) (hn : 1 < d.nphi) (hrt : d.radtransf = true) (hf : FreqOk d nu) (hr : InRange d r)
    (hO : d.Omega = 0) (h0 : 0 ≤ phi) (hm : d.phimin < d.phimax) (h1 : 1 ≤ d.repeatPhi) (ha : d.phimin ≤ phi)
    (hb : d.repeatPhi = 1 → phi < d.phimax) :
    ∃ n j k : ℕ, ∃ x, x = phi - n * period d ∧ j + 1 < d.nphi ∧ k + 1 < d.nr ∧
      azimuthAt d j ≤ x ∧ x < azimuthAt d (j + 1) ∧ radiusAt d k ≤ r ∧ r ≤ radiusAt d (k + 1) ∧
      transmission d nu dsem t r phi = .ok (exp (-(sample d o (j + 1) (k + 1) * dsem))) := by
  obtain ⟨n, j, hx, hj, hj1, j2, j3, -⟩ := azimuth_cell (t := t) h hs he hn hO h0 hm h1 ha hb
  obtain ⟨k, hk, hk1, -, hra, hrb, -⟩ := radial_cell h hs he hr
  exact ⟨n, j, k, fold d phi, hx, hj1, hk1, j2, j3, hra, hrb, transmission_core h ho hnu hrt hf hj hk hj1 hk1⟩

/-- C85. The same with one column. -/
theorem transmission_line_partial {d : Disk} {nu dsem t r phi : ℝ} {e o : List ℝ} (h : Inv d) (hs : Sized d) (he : d.emission = some e)
    (ho : d.opacity = some o) (hnu : d.nnu = 1) (hn : d.nphi = 1) (hrt : d.radtransf = true) (hf : FreqOk d nu) (hr : InRange d r) :
    ∃ k : ℕ, k + 1 < d.nr ∧ radiusAt d k ≤ r ∧ r ≤ radiusAt d (k + 1) ∧
      transmission d nu dsem t r phi = .ok (exp (-(sample d o 0 (k + 1) * dsem))) := by
  obtain ⟨k, hk, hk1, -, hra, hrb, -⟩ := radial_cell h hs he hr
  have h1 : phiIndex d t phi = .ok 0 := by unfold phiIndex; simp only; rw [if_neg (by omega)]
  exact ⟨k, hk1, hra, hrb, transmission_core h ho hnu hrt hf h1 hk (by omega) hk1⟩

/-- C85. With radiative transfer, what is emitted is the grid's value times one minus the transmission. -/
theorem emission_absorb {d : Disk} {nu dsem t r phi I T : ℝ} (hrt : d.radtransf = true) (ho : d.opacity ≠ none) (hrin : d.rin ≤ r)
    (hrout : r ≤ d.rout) (hI : emission { d with radtransf := false } nu dsem t r phi = .ok I)
    (hT : transmission d nu dsem t r phi = .ok T) : emission d nu dsem t r phi = .ok (I * (1 - T)) := by
  have hg : getIndices { d with radtransf := false } t r phi nu = getIndices d t r phi nu := rfl
  unfold transmission at hT
  rw [hrt, if_neg (by simp), if_neg ho] at hT
  unfold emission at hI ⊢
  rw [hg] at hI
  cases hgi : getIndices d t r phi nu with
  | error e => rw [hgi] at hT; cases hT
  | ok i =>
    obtain ⟨i0, i1, i2⟩ := i
    rw [hgi] at hI hT
    simp only [bind, Except.bind] at hI hT ⊢
    have hr : ¬(r < d.rin ∨ r > d.rout) := by rintro (h | h) <;> linarith
    have hfo : fold { d with radtransf := false } phi = fold d phi := rfl
    rw [if_neg hr] at hI ⊢
    by_cases c1 : d.nnu > 1
    · rw [if_pos c1] at hI; cases hI
    rw [if_neg c1] at hI ⊢
    rw [hfo] at hI
    have hc : ∀ x, columns { d with radtransf := false } i1 x = columns d i1 x := fun _ => rfl
    have hra : radii { d with radtransf := false } i2 = radii d i2 := rfl
    rw [hc, hra] at hI
    split at hI
    · cases hI
    · rename_i v hv
      have hv' : I = v := by
        simp only [Bool.false_eq_true, not_false_eq_true, if_true, pure, Except.pure, Except.ok.injEq] at hI
        exact hI.symm
      split
      · rename_i e' he'
        rw [he'] at hv; cases hv
      · rename_i v' hv2
        rw [hv2] at hv
        obtain rfl : v' = v := Except.ok.inj hv
        rw [hrt, if_neg (by simp), if_neg ho]
        cases hrd : read d.opacity (i1 * d.nr + i2) with
        | error e => rw [hrd] at hT; cases hT
        | ok o =>
          rw [hrd] at hT
          simp only at hT ⊢
          by_cases c : o = 0
          · rw [if_pos c] at hT
            obtain rfl : (1 : ℝ) = T := Except.ok.inj hT
            rw [if_neg (by rw [c]; simp), sub_self, mul_zero]; rfl
          · rw [if_neg c] at hT
            obtain rfl : exp (-o * dsem) = T := Except.ok.inj hT
            by_cases c2 : o * dsem ≠ 0
            · rw [if_pos c2, neg_mul, hv']; rfl
            · rw [if_neg c2, neg_mul, not_not.1 c2]; simp [pure, Except.pure]

/-! ## Velocity -/

/-- C85. The rates of a disk with an array of velocities are interpolated like the emission; the first half of the array holds those of the
radius, the second one those of the azimuth. -/
theorem velocity_inner_partial {d : Disk} {t r phi : ℝ} {e v : List ℝ} (h : Inv d) (hs : Sized d) (he : d.emission = some e)
    (hv : d.velocity = some v) (hdir : d.dir = 1) (hn : 1 < d.nphi) (hf : FreqOk d 0) (hr : InRange d r)
    (hO : d.Omega = 0) (h0 : 0 ≤ phi) (hm : d.phimin < d.phimax) (h1 : 1 ≤ d.repeatPhi) (ha : d.phimin ≤ phi)
    (hb : d.repeatPhi = 1 → phi < d.phimax) :
    ∃ n j k : ℕ, ∃ x, x = phi - n * period d ∧ j + 1 < d.nphi ∧ k + 1 < d.nr ∧
      azimuthAt d j ≤ x ∧ x < azimuthAt d (j + 1) ∧ radiusAt d k ≤ r ∧ r ≤ radiusAt d (k + 1) ∧
      velocityRates d t r phi = .ok (some
        (bilerp (azimuthAt d j) (azimuthAt d (j + 1)) (radiusAt d k) (radiusAt d (k + 1))
          (sample d v (d.nphi + j) k) (sample d v (d.nphi + (j + 1)) k) (sample d v (d.nphi + j) (k + 1))
          (sample d v (d.nphi + (j + 1)) (k + 1)) x r,
        bilerp (azimuthAt d j) (azimuthAt d (j + 1)) (radiusAt d k) (radiusAt d (k + 1))
          (sample d v j k) (sample d v (j + 1) k) (sample d v j (k + 1)) (sample d v (j + 1) (k + 1)) x r)) := by
  obtain ⟨n, j, hx, hj, hj1, j2, j3, hc⟩ := azimuth_cell (t := t) h hs he hn hO h0 hm h1 ha hb
  obtain ⟨k, hk, hk1, hrad, hra, hrb, hab⟩ := radial_cell h hs he hr
  refine ⟨n, j, k, fold d phi, hx, hj1, hk1, j2, j3, hra, hrb, ?_⟩
  obtain ⟨i0, hi⟩ := getIndices_ok hf hj hk
  have hlen := h.velocity v hv
  have hlen : v.length = d.nphi * d.nr + d.nphi * d.nr := by rw [hlen]; ring
  have b1 : ∀ {j}, j < d.nphi → j * d.nr + (k + 1) < d.nphi * d.nr := fun hj => cell_lt hj hk1
  have b0 : ∀ {j}, j < d.nphi → j * d.nr + k < d.nphi * d.nr := fun hj => cell_lt hj (by omega)
  have c1 := b1 (show j < d.nphi by omega)
  have c2 := b1 hj1
  have hb0 : ∀ cp cr, bilinear (some v) 0 d.nr (j : ℕ) (j + 1 : ℕ) (k + 1) cp cr = _ := fun cp cr =>
    bilinear_ok (l := v) (cp := cp) (cr := cr) 0 (by omega) (by omega)
  have hb1 : ∀ cp cr, bilinear (some v) ((d.nphi * d.nr : ℕ) : ℤ) d.nr (j : ℕ) (j + 1 : ℕ) (k + 1) cp cr = _ := fun cp cr =>
    bilinear_ok (l := v) (cp := cp) (cr := cr) (d.nphi * d.nr) (by omega) (by omega)
  have c0 := b0 (show j < d.nphi by omega)
  have c3 := b0 hj1
  have hsam : ∀ i m, sample d v (d.nphi + i) m = v.getD (d.nphi * d.nr + i * d.nr + m) 0 := fun i m => by
    unfold sample; rw [add_mul]
  unfold velocityRates
  rw [if_neg (by simp [hdir]), hi]
  simp only [bind, Except.bind]
  rw [if_neg (by rintro (h | h) <;> linarith [hr.1, hr.2.1]), if_neg (by omega), hc]
  simp only
  rw [hrad, hv]
  have hoff : ((d.nr : ℤ) * d.nphi) = ((d.nphi * d.nr : ℕ) : ℤ) := by push_cast; ring
  simp only
  rw [hoff, hb1, hb0]
  simp only
  rw [if_neg (by rintro (h | h | h | h) <;> linarith), hb0, hb1]
  simp only [pure, Except.pure, hsam]
  simp only [sample, zero_add]
  rw [getD_eq (by omega), getD_eq (by omega), getD_eq (by omega), getD_eq (by omega), getD_eq (by omega), getD_eq (by omega),
    getD_eq (by omega), getD_eq (by omega), bilerp_eq (by linarith) hab, bilerp_eq (by linarith) hab]

/-- C85. With one column the rates are interpolated in the radius alone; again the first half of the array holds those of the radius and the
second one those of the azimuth. -/
theorem velocity_line_partial {d : Disk} {t r phi : ℝ} {e v : List ℝ} (h : Inv d) (hs : Sized d) (he : d.emission = some e)
    (hv : d.velocity = some v) (hdir : d.dir = 1) (hn : d.nphi = 1) (hf : FreqOk d 0) (hr : InRange d r) :
    ∃ k, k + 1 < d.nr ∧ radiusAt d k ≤ r ∧ r ≤ radiusAt d (k + 1) ∧
      velocityRates d t r phi = .ok (some
        (lerp (radiusAt d k) (radiusAt d (k + 1)) (sample d v 1 k) (sample d v 1 (k + 1)) r,
        lerp (radiusAt d k) (radiusAt d (k + 1)) (sample d v 0 k) (sample d v 0 (k + 1)) r)) := by
  obtain ⟨k, hk, hk1, hrad, ha, hb, hab⟩ := radial_cell h hs he hr
  refine ⟨k, hk1, ha, hb, ?_⟩
  have h1 : phiIndex d t phi = .ok 0 := by unfold phiIndex; simp only; rw [if_neg (by omega)]
  obtain ⟨i0, hi⟩ := getIndices_ok hf h1 hk
  have hlen := h.velocity v hv
  have hlen : v.length = d.nr + d.nr := by rw [hlen, hn]; ring
  have hl0 : ∀ cr, linear (some v) 0 (k + 1) cr = _ := fun cr => linear_ok (l := v) (i2 := k) (cr := cr) 0 (by omega)
  have hl1 : ∀ cr, linear (some v) (d.nr : ℕ) (k + 1) cr = _ := fun cr => linear_ok (l := v) (i2 := k) (cr := cr) d.nr (by omega)
  unfold velocityRates
  rw [if_neg (by simp [hdir]), hi]
  simp only [bind, Except.bind]
  rw [if_neg (by rintro (h | h) <;> linarith [hr.1, hr.2.1]), if_pos hn, hv]
  rw [hl0, hl1]
  simp only
  rw [hrad]
  simp only
  rw [if_neg (by rintro (h | h) <;> linarith), hl0, hl1]
  simp only [pure, Except.pure]
  simp only [sample, zero_add, one_mul, zero_mul]
  rw [getD_eq (by omega), getD_eq (by omega), getD_eq (by omega), getD_eq (by omega), lerp_eq hab, lerp_eq hab]

/-! ## Where the look-up fails -/

/-- C85 (negation). At the innermost circle of a grid of radii, or below it when the inner radius of the disk was lowered, an element before
the first one is read. -/
theorem emission_below_grid_wrong {d : Disk} {nu dsem t r phi : ℝ} {e l : List ℝ} {i1 : ℕ} (h : Inv d) (he : d.emission = some e)
    (hl : d.radius = some l) (hnu : d.nnu = 1) (hf : FreqOk d nu) (hp : phiIndex d t phi = .ok i1) (hrin : d.rin ≤ r)
    (hrout : r ≤ d.rout) (hr : r ≤ l.getD 0 0) (hlt : l.getD 0 0 < l.getD (d.nr - 1) 0) :
    emission d nu dsem t r phi = .error .ub := by
  obtain ⟨hlen, h2⟩ := h.radius l hl
  rw [getD_eq (by omega)] at hr hlt
  rw [getD_eq (by omega)] at hlt
  have e1 : read (some l) ((d.nr : ℤ) - 1) = .ok l[d.nr - 1] := read_ok' (k := d.nr - 1) (by omega) (by omega)
  have e2 : searchUp (some l) r (d.nr + 1) 0 = .ok 0 := by
    unfold searchUp
    rw [read_ok (i := 0) (by omega)]
    show (if r > l[0] then _ else _) = _
    rw [if_neg (not_lt.2 hr)]; rfl
  have hk : radIndex d r = .ok 0 := by
    unfold radIndex
    rw [hl, if_pos (Option.isSome_some), e1]
    show (if r ≥ l[d.nr - 1] then _ else _) = _
    rw [if_neg (by linarith)]
    exact e2
  obtain ⟨i0, hi⟩ := getIndices_ok hf hp hk
  unfold emission
  rw [hi]
  simp only [bind, Except.bind]
  rw [if_neg (by rintro (h | h) <;> linarith), if_neg (by omega)]
  by_cases hn : d.nphi = 1
  · rw [if_pos hn, read_neg (by simp)]
  · rw [if_neg hn]
    unfold radii
    rw [hl, if_pos Option.isSome_some, read_neg (by simp)]
    rfl

/-- C85 (negation). At the outermost circle of a grid of radii, or beyond it when the outer radius of the disk was raised, an element after
the last one is read. -/
theorem emission_above_grid_wrong {d : Disk} {nu dsem t r phi : ℝ} {e l : List ℝ} {i1 : ℕ} (h : Inv d) (he : d.emission = some e)
    (hl : d.radius = some l) (hnu : d.nnu = 1) (hf : FreqOk d nu) (hp : phiIndex d t phi = .ok i1) (hrin : d.rin ≤ r)
    (hrout : r ≤ d.rout) (hr : l.getD (d.nr - 1) 0 ≤ r) :
    emission d nu dsem t r phi = .error .ub := by
  obtain ⟨hlen, h2⟩ := h.radius l hl
  obtain ⟨hel, -⟩ := h.emission e he
  rw [getD_eq (by omega)] at hr
  have e1 : read (some l) ((d.nr : ℤ) - 1) = .ok l[d.nr - 1] := read_ok' (k := d.nr - 1) (by omega) (by omega)
  have hk : radIndex d r = .ok d.nr := by
    unfold radIndex
    rw [hl, if_pos (Option.isSome_some), e1]
    show (if r ≥ l[d.nr - 1] then _ else _) = _
    rw [if_pos hr]
  obtain ⟨i0, hi⟩ := getIndices_ok hf hp hk
  unfold emission
  rw [hi]
  simp only [bind, Except.bind]
  rw [if_neg (by rintro (h | h) <;> linarith), if_neg (by omega)]
  by_cases hn : d.nphi = 1
  · rw [hnu, hn, one_mul, one_mul] at hel
    rw [if_pos hn, he, read_ok' (k := d.nr - 1) (by omega) (by omega), read_big (by omega)]
  · rw [if_neg hn]
    unfold radii
    rw [hl, if_pos Option.isSome_some, e1, read_big (by omega)]
    rfl

/-- C85 (negation). Beyond the last column, the opacity is read after the end of its array. -/
theorem transmission_seam_wrong {d : Disk} {nu dsem t r phi : ℝ} {o : List ℝ} {i2 : ℕ} (h : Inv d) (ho : d.opacity = some o)
    (hnu : d.nnu = 1) (hn : 1 < d.nphi) (hrt : d.radtransf = true) (hf : FreqOk d nu) (hk : radIndex d r = .ok i2)
    (hO : d.Omega = 0) (h0 : 0 ≤ phi) (h1 : d.repeatPhi = 1) (hmm : d.phimin ≤ d.phimax) (hp : d.phimax < phi) :
    transmission d nu dsem t r phi = .error .ub := by
  have hw : wrapUp (2 * π) 0 (phi - d.Omega * (t - d.t0)) = phi := by
    rw [hO, zero_mul, sub_zero]
    unfold wrapUp
    rw [dif_neg (by rintro ⟨_, h⟩; linarith)]
  have hfold : fold d phi = phi := by unfold fold; rw [if_neg (by omega)]
  have hi1 : phiIndex d t phi = .ok d.nphi := by
    unfold phiIndex
    rw [hw]
    simp only
    rw [if_pos hn, if_neg (by omega), hfold, if_neg (by linarith), if_pos hp]
  obtain ⟨i0, hi⟩ := getIndices_ok hf hi1 hk
  have hlen := h.opacity o ho
  rw [hnu, one_mul] at hlen
  unfold transmission
  rw [hrt, if_neg (by simp), if_neg (by rw [ho]; simp), hi, ho]
  simp only [bind, Except.bind]
  rw [read_big]
  rw [hlen]; push_cast; omega

/-- C85 (negation). At the azimuth of the last column an exception is thrown. -/
theorem phimax_wrong {d : Disk} {nu dsem t r : ℝ} {e : List ℝ} (h : Inv d) (hs : Sized d) (he : d.emission = some e) (hn : 1 < d.nphi)
    (hf : FreqOk d nu) (hO : d.Omega = 0) (h0 : 0 ≤ d.phimax) (h1 : d.repeatPhi = 1) (hmm : d.phimin < d.phimax) :
    emission d nu dsem t r d.phimax = .error .error := by
  have hw : wrapUp (2 * π) 0 (d.phimax - d.Omega * (t - d.t0)) = d.phimax := by
    rw [hO, zero_mul, sub_zero]
    unfold wrapUp
    rw [dif_neg (by rintro ⟨_, h⟩; linarith)]
  have hfold : fold d d.phimax = d.phimax := by unfold fold; rw [if_neg (by omega)]
  obtain ⟨-, -, -, -, hdp⟩ := h.emission e he
  have hdp := hdp hn (by omega)
  have hn1 : (0 : ℝ) < (d.nphi : ℝ) - 1 := by
    have : (1 : ℝ) < d.nphi := by exact_mod_cast hn
    linarith
  rw [h1, Nat.cast_one, mul_one] at hdp
  have hpos : 0 < d.dphi := by rw [hdp]; exact div_pos (by linarith) hn1
  have hq : (d.phimax - d.phimin) / d.dphi = ((d.nphi - 1 : ℕ) : ℝ) := by
    rw [hdp, Nat.cast_sub hn.le, Nat.cast_one]
    have : d.phimax - d.phimin ≠ 0 := by linarith
    field_simp
  have e1 : toSize (⌊(d.phimax - d.phimin) / d.dphi⌋ + 1) = .ok d.nphi := by
    rw [hq, Int.floor_natCast]
    have := hs.2
    have := toSize_ok (k := (d.nphi : ℤ)) (by omega) (by omega)
    rw [Int.toNat_natCast] at this
    rw [← this]
    congr 1
    rw [Nat.cast_sub hn.le]; push_cast; ring
  have hi1 : phiIndex d t d.phimax = .error .error := by
    unfold phiIndex
    rw [hw]
    simp only
    rw [if_pos hn, if_neg (by omega), hfold, if_neg (by linarith), if_neg (by linarith), if_neg hpos.ne', e1]
    show (if d.nphi = 0 ∨ d.nphi = d.nphi then _ else _) = _
    rw [if_pos (Or.inr rfl)]
  obtain ⟨i0, h0⟩ := freqIndex_ok hf
  unfold emission getIndices
  rw [h0, hi1]
  rfl

/-- C85 (negation). With a repeated pattern, a point before `phimin` reads before the array. -/
theorem repeat_below_wrong {d : Disk} {nu dsem t r phi : ℝ} {e : List ℝ} {k : ℕ} (he : d.emission = some e) (hnu : d.nnu = 1)
    (hn : 1 < d.nphi) (hf : FreqOk d nu) (hO : d.Omega = 0) (h0 : 0 ≤ phi) (h1 : 1 < d.repeatPhi) (hmm : d.phimin < d.phimax)
    (hp : phi < d.phimin) (hne : ∀ n : ℕ, phi ≠ d.phimin - n * period d) (hrin : d.rin ≤ r) (hrout : r ≤ d.rout)
    (hk : radIndex d r = .ok k) (hk' : k < d.nr) (hra : ∃ x, radii d k = .ok x) : emission d nu dsem t r phi = .error .ub := by
  have hw : wrapUp (2 * π) 0 (phi - d.Omega * (t - d.t0)) = phi := by
    rw [hO, zero_mul, sub_zero]
    unfold wrapUp
    rw [dif_neg (by rintro ⟨_, h⟩; linarith)]
  have hrp : (0 : ℝ) < d.repeatPhi := by exact_mod_cast (by omega : 0 < d.repeatPhi)
  have hP : 0 < period d := div_pos (by linarith) hrp
  have hfold : fold d phi < d.phimin := by
    unfold fold
    rw [if_pos h1]
    unfold period at hP hne
    obtain ⟨P, hPe⟩ : ∃ P, P = (d.phimax - d.phimin) / (d.repeatPhi : ℝ) := ⟨_, rfl⟩
    rw [← hPe] at hP hne ⊢
    unfold fmod
    have hq : (phi - d.phimin) / P < 0 := div_neg_of_neg_of_pos (by linarith) hP
    rw [if_neg (not_le.2 hq)]
    have hc := Int.le_ceil ((phi - d.phimin) / P)
    have hc0 : ⌈(phi - d.phimin) / P⌉ ≤ 0 := Int.ceil_le.2 (by push_cast; exact hq.le)
    obtain ⟨m, hm⟩ : ∃ m : ℕ, ⌈(phi - d.phimin) / P⌉ = -(m : ℤ) := ⟨(-⌈(phi - d.phimin) / P⌉).toNat, by omega⟩
    rw [hm] at hc ⊢
    push_cast at hc ⊢
    rw [div_le_iff₀ hP] at hc
    rcases hc.lt_or_eq with hc | hc
    · linarith
    · exact absurd (by linarith) (hne m)
  have hi1 : phiIndex d t phi = .ok 0 := by
    unfold phiIndex
    rw [hw]
    simp only
    rw [if_pos hn, if_neg (by rintro ⟨_, h⟩; linarith), if_pos hfold]
  obtain ⟨i0, hi⟩ := getIndices_ok hf hi1 hk
  obtain ⟨⟨lo, hi'⟩, hra⟩ := hra
  unfold emission
  rw [hi]
  simp only [bind, Except.bind]
  rw [if_neg (by rintro (h | h) <;> linarith), if_neg (by omega), if_neg (by omega)]
  have hc : columns d 0 (fold d phi) = (-1, 0, d.phimin + ((0 : ℕ) - 1 : ℝ) * d.dphi, d.phimin + ((0 : ℕ) : ℝ) * d.dphi, fold d phi) := by
    unfold columns
    rw [if_neg (by omega)]
    rfl
  rw [hc]
  simp only
  rw [hra]
  simp only
  have hb : bilinear d.emission 0 d.nr (-1) 0 k 0 0 = .error .ub := by
    unfold bilinear
    rw [read_neg (by omega)]
    rfl
  rw [hb]

/-- C85 (negation). The indices are computed before the radius is compared with the limits: further in than one step below the inner radius
of a uniform grid, a negative number is converted to an unsigned integer. -/
theorem uniform_below_wrong {d : Disk} {nu dsem t r phi : ℝ} {i1 : ℕ} (hl : d.radius = none) (hf : FreqOk d nu)
    (hp : phiIndex d t phi = .ok i1) (hd : 0 < d.dr) (hr : r < d.rin - d.dr) : emission d nu dsem t r phi = .error .ub := by
  have hq : (r - d.rin) / d.dr < -1 := by rw [div_lt_iff₀ hd]; linarith
  have hfl : ⌊(r - d.rin) / d.dr⌋ ≤ -2 := by
    have : ⌊(r - d.rin) / d.dr⌋ < -1 := Int.floor_lt.2 (by push_cast; exact hq)
    omega
  have hfl' : (⌊(r - d.rin) / d.dr⌋ : ℝ) ≤ -2 := by exact_mod_cast hfl
  have hk : radIndex d r = .error .ub := by
    unfold radIndex
    rw [hl, if_neg (by simp), if_neg hd.ne', toSize_neg (by linarith)]
    rfl
  obtain ⟨i0, h0⟩ := freqIndex_ok hf
  unfold emission getIndices
  rw [h0, hp, hk]
  rfl

/-- C85 (negation). A frequency that is 2⁶⁴ steps or more above the first one, such as that of a gamma ray when the step is left at one
hertz, does not fit in the index, even with a single frequency in the grid. -/
theorem frequency_wrong {d : Disk} {nu dsem t r phi : ℝ} (hd : 0 < d.dnu) (h : d.nu0 + 2 ^ 64 * d.dnu ≤ nu) :
    emission d nu dsem t r phi = .error .ub := by
  have hq : 2 ^ 64 ≤ (nu - d.nu0) / d.dnu := by rw [le_div_iff₀ hd]; linarith
  have hpos : 0 < (2 : ℝ) ^ 64 * d.dnu := by positivity
  have h0 : freqIndex d nu = .error .ub := by
    unfold freqIndex
    rw [if_neg (by linarith), if_neg hd.ne', toSize_big]
    · rfl
    · have : (2 ^ 64 : ℤ) ≤ ⌊(nu - d.nu0) / d.dnu + 0.5⌋ := by
        rw [Int.le_floor]; push_cast; linarith
      exact_mod_cast this
  unfold emission getIndices
  rw [h0]
  rfl

/-- A disk of three columns and two circles. -/
noncomputable def wheel : Disk :=
  { init 100 with
    emission := some [1, 2, 3, 4, 5, 6], nnu := 1, nphi := 3, nr := 2, dphi := π, rin := 1, rout := 3, dr := 2 }

theorem wheel_reachable : Reachable 100 wheel := by
  have e1 : (step (init 100) (.copyIntensity (some [1, 2, 3, 4, 5, 6]) 1 3 2)).1 =
      { init 100 with emission := some [1, 2, 3, 4, 5, 6], nnu := 1, nphi := 3, nr := 2, dphi := π, dr := 100 } := by
    simp [step, copyIntensity, resize, init, memcpy, phiStep]
  have r1 := Reachable.step (.copyIntensity (some [1, 2, 3, 4, 5, 6]) 1 3 2) (Reachable.init (big := 100)) (by simp [Fits])
  rw [e1] at r1
  have r3 := Reachable.step (.outerRadius 3) (Reachable.step (.innerRadius 1) r1 trivial) trivial
  convert r3 using 1
  simp [step, init, wheel]
  norm_num

/-- In the middle of the first cell of the disk the mean of its corners is found. -/
example : emission wheel 0 0 0 2 (π / 2) = .ok (5 / 2) := by
  have hpi := Real.pi_pos
  have hst : StepOk wheel := fun _ _ => by
    show (2 : ℝ) = (3 - 1) / (((2 : ℕ) : ℝ) - 1)
    norm_num
  have hr : InRange wheel 2 :=
    ⟨show (1 : ℝ) ≤ 2 by norm_num, show (2 : ℝ) ≤ 3 by norm_num, Or.inr ⟨rfl, show (1 : ℝ) < 3 by norm_num, hst⟩⟩
  obtain ⟨n, j, k, x, hx, hj, hk, h1, h2, -, -, h⟩ := emission_inner_partial (dsem := 0) (t := 0) (nu := 0) (phi := π / 2)
    (reachable_ok wheel_reachable) ⟨show 2 < 2 ^ 64 by norm_num, show 3 < 2 ^ 64 by norm_num⟩ (show wheel.emission = some [1, 2, 3, 4, 5, 6] from rfl)
    rfl (show 1 < 3 by norm_num) rfl (Or.inl le_rfl) hr rfl (by linarith) (show 0 < 2 * π by linarith) (show 1 ≤ 1 from le_rfl)
    (show 0 ≤ π / 2 by linarith) (fun _ => show π / 2 < 2 * π by linarith)
  have hP : period wheel = 2 * π := by show (2 * π - 0) / ((1 : ℕ) : ℝ) = _; simp
  have hA : ∀ m, azimuthAt wheel m = m * π := fun m => by
    unfold azimuthAt
    rw [hP]
    show 0 + (m : ℝ) * (2 * π / (((3 : ℕ) : ℝ) - 1)) = _
    push_cast; ring
  have hR : ∀ m, radiusAt wheel m = 1 + m * 2 := fun m => by
    show 1 + (m : ℝ) * ((3 - 1) / (((2 : ℕ) : ℝ) - 1)) = _
    push_cast; ring
  rw [hP] at hx
  rw [hA] at h1 h2
  have hj0 : (0 : ℝ) ≤ j * π := by positivity
  have hn : n = 0 := by
    by_contra hn
    have : (1 : ℝ) ≤ n := by exact_mod_cast Nat.one_le_iff_ne_zero.2 hn
    nlinarith
  subst hn
  have hx : x = π / 2 := by rw [hx]; simp
  subst hx
  have hj : j = 0 := by
    by_contra hj
    have : (1 : ℝ) ≤ j := by exact_mod_cast Nat.one_le_iff_ne_zero.2 hj
    nlinarith
  have hk : k + 1 < 2 := hk
  obtain rfl : k = 0 := by omega
  subst hj
  rw [h, hA, hA, hR, hR]
  have s1 : ∀ a b, sample wheel [1, 2, 3, 4, 5, 6] a b = ([1, 2, 3, 4, 5, 6] : List ℝ).getD (a * 2 + b) 0 := fun _ _ => rfl
  simp only [s1, bilerp]
  congr 1
  simp
  field_simp
  norm_num

/-- The hypotheses of `emission_below_grid_wrong` and of `clone_wrong` are met by a disk with the radii 1 and 4. -/
example : ∃ d : Disk, Reachable 100 d ∧ emission d 0 0 0 1 0 = .error .ub ∧ clone d = .error .ub := by
  have e1 : (step (init 100) (.copyIntensity (some [1, 2]) 1 1 2)).1 =
      { init 100 with emission := some [1, 2], nnu := 1, nphi := 1, nr := 2, dr := 100 } := by
    simp [step, copyIntensity, resize, init, memcpy]
  have e2 : (step { init 100 with emission := some [1, 2], nnu := 1, nphi := 1, nr := 2, dr := 100 }
      (.copyGridRadius (some [1, 4]) 2)).1 =
      { init 100 with emission := some [1, 2], nnu := 1, nphi := 1, nr := 2, dr := 3, rin := 1, rout := 4, radius := some [1, 4] } := by
    simp [step, copyGridRadius, init, memcpy, GridRead.read]
    norm_num
  have r1 := Reachable.step (.copyIntensity (some [1, 2]) 1 1 2) (Reachable.init (big := 100)) (by simp [Fits])
  rw [e1] at r1
  have r2 := Reachable.step (.copyGridRadius (some [1, 4]) 2) r1 (by simp [Fits])
  rw [e2] at r2
  refine ⟨_, r2, emission_below_grid_wrong (l := [1, 4]) (e := [1, 2]) (i1 := 0) (reachable_ok r2) rfl rfl rfl (Or.inl le_rfl) ?_ ?_ ?_ ?_ ?_,
    clone_wrong (reachable_ok r2) rfl rfl⟩
  · unfold phiIndex
    simp only
    rw [if_neg (by norm_num)]
  · norm_num
  · norm_num
  · simp
  · simp

/-- The same disk, with a pattern that turns by half a turn per unit of time. -/
noncomputable def turning : Disk := { wheel with Omega := π }

/-- C85 (negation). When the pattern turns, the column is searched for where the pattern is but the interpolation is done where the point
is: an exception results as soon as the two are not in the same cell. -/
theorem rotation_wrong : Reachable 100 turning ∧ emission turning 0 0 1 2 (3 * π / 2) = .error .error := by
  have hpi := Real.pi_pos
  have f1 : turning.nphi = 3 := rfl
  have f2 : turning.repeatPhi = 1 := rfl
  have f3 : turning.phimin = 0 := rfl
  have f4 : turning.phimax = 2 * π := rfl
  have f5 : turning.dphi = π := rfl
  have f6 : turning.rin = 1 := rfl
  have f7 : turning.rout = 3 := rfl
  have f8 : turning.nnu = 1 := rfl
  refine ⟨Reachable.step (.patternVelocity π) wheel_reachable trivial, ?_⟩
  have hI : Inv turning := reachable_ok (Reachable.step (.patternVelocity π) wheel_reachable trivial)
  have hw : wrapUp (2 * π) 0 (3 * π / 2 - turning.Omega * (1 - turning.t0)) = π / 2 := by
    show wrapUp (2 * π) 0 (3 * π / 2 - π * (1 - 0)) = π / 2
    unfold wrapUp
    rw [dif_neg (by rintro ⟨_, h⟩; linarith)]; ring
  have hfo : ∀ x, fold turning x = x := fun x => by
    unfold fold
    rw [f2, if_neg (show ¬1 > 1 by norm_num)]
  have hfl : ⌊(π / 2 - 0) / π⌋ = 0 := by
    rw [Int.floor_eq_iff]
    constructor
    · push_cast; rw [sub_zero]; positivity
    · rw [div_lt_iff₀ hpi]; push_cast; linarith
  have hone : toSize ((0 : ℤ) + 1) = .ok 1 := by
    have := toSize_ok (k := 1) (by norm_num) (by norm_num)
    rw [Int.cast_zero, zero_add]
    exact_mod_cast this
  have hi1 : phiIndex turning 1 (3 * π / 2) = .ok 1 := by
    unfold phiIndex
    rw [hw]
    simp only
    rw [hfo, f1, f2, f3, f4, f5, if_pos (show 3 > 1 by norm_num), if_neg (show ¬(1 > 1 ∧ 2 * π = 0) by norm_num), if_neg (show ¬π / 2 < 0 by linarith),
      if_neg (show ¬π / 2 > 2 * π by linarith), if_neg (show ¬π = 0 from hpi.ne')]
    rw [hfl, hone]
    rfl
  have hst : StepOk turning := fun _ _ => by
    show (2 : ℝ) = (3 - 1) / (((2 : ℕ) : ℝ) - 1)
    norm_num
  have hr : InRange turning 2 :=
    ⟨show (1 : ℝ) ≤ 2 by norm_num, show (2 : ℝ) ≤ 3 by norm_num, Or.inr ⟨rfl, show (1 : ℝ) < 3 by norm_num, hst⟩⟩
  obtain ⟨k, hk, hk1, hrad, -⟩ := radial_cell (e := [1, 2, 3, 4, 5, 6]) hI
    ⟨show 2 < 2 ^ 64 by norm_num, show 3 < 2 ^ 64 by norm_num⟩ rfl hr
  have hk1 : k + 1 < 2 := hk1
  obtain rfl : k = 0 := by omega
  obtain ⟨i0, hi⟩ := getIndices_ok (d := turning) (nu := 0) (Or.inl le_rfl) hi1 hk
  have hc : columns turning 1 (3 * π / 2) = (0, 1, 0 + ((1 : ℕ) - 1) * π, 0 + ((1 : ℕ) : ℝ) * π, 3 * π / 2) := by
    unfold columns
    rw [f1, f2, f3, f5, if_neg (show ¬((1 = 0 ∨ 1 = 3) ∧ 1 = 1) by norm_num)]
    rfl
  have hb := bilinear_ok (l := [1, 2, 3, 4, 5, 6]) (nr := 2) (il := 0) (iu := 1) (i2 := 0) (cp := 0) (cr := 0) 0 (by simp) (by simp)
  unfold emission
  rw [hi]
  simp only [bind, Except.bind]
  rw [f1, f6, f7, f8, if_neg (show ¬((2 : ℝ) < 1 ∨ (2 : ℝ) > 3) by norm_num), if_neg (show ¬1 > 1 by norm_num), if_neg (show ¬3 = 1 by norm_num), hfo, hc]
  simp only
  rw [hrad]
  simp only
  rw [show bilinear turning.emission 0 turning.nr 0 1 (0 + 1) 0 0 = _ from hb]
  simp only
  rw [if_pos]
  right; left
  rw [Nat.cast_one]
  linarith

end Gyoto.PatternDisk
