import Verif.Props.Flared
import Verif.Model.StarTrace
import Verif.Props.InterpGrid
import Verif.Props.Kappa
import Verif.Props.MetricAlg
import Verif.Props.SphAcc
import Verif.Props.Slab
import Verif.Spec.Plunge
import Mathlib.Analysis.Real.Pi.Bounds
import Mathlib.Data.List.GetD

/-! # C130. The gas of the flared disk, its velocity and its light -/

namespace Gyoto.Flared

open Gyoto.MetricAlg
open Gyoto.Interp (Grid dblMax)
open Gyoto.Synch (Kappa boltzmannCGS electronMassCGS c2CGS cCGS chargeCGS Bessel)
open Gyoto.SphAcc (slabs slab inten protonMassCGS)
open Gyoto.USphere (Kind)
open Gyoto.Spacetime (IsObserver)

/-! ## The shape -/

/-- The part of space between two cylinders where the height is less than the given fraction of the distance to the axis; `(x, y, z)` is the place. -/
def InDisk (r0 r1 h : ℝ) (c : ℝ × ℝ × ℝ) : Prop :=
  r0 ≤ √(c.1 ^ 2 + c.2.1 ^ 2) ∧ √(c.1 ^ 2 + c.2.1 ^ 2) ≤ r1 ∧ |c.2.2| < h * √(c.1 ^ 2 + c.2.1 ^ 2)

theorem rho_eq {k : Kind} {p : Vec} (h : k = .spherical → 0 ≤ p 1 ∧ 0 ≤ p 2 ∧ p 2 ≤ Real.pi) :
    rho k p = √((StarTrace.cart k p).1 ^ 2 + (StarTrace.cart k p).2.1 ^ 2) ∧ height k p = (StarTrace.cart k p).2.2 := by
  rcases k with _ | _
  · refine ⟨?_, rfl⟩
    simp only [rho, StarTrace.cart]
    ring_nf
  · obtain ⟨h1, h2, h3⟩ := h rfl
    refine ⟨?_, rfl⟩
    simp only [rho, StarTrace.cart]
    have hs := Real.sin_nonneg_of_nonneg_of_le_pi h2 h3
    rw [show (p 1 * Real.sin (p 2) * Real.cos (p 3)) ^ 2 + (p 1 * Real.sin (p 2) * Real.sin (p 3)) ^ 2 =
      (p 1 * Real.sin (p 2)) ^ 2 by
        have := Real.sin_sq_add_cos_sq (p 3)
        linear_combination (p 1 * Real.sin (p 2)) ^ 2 * this, Real.sqrt_sq (mul_nonneg h1 hs)]

/-- C130. The object is the flared disk, in both kinds of coordinates. -/
theorem shape (s : Disk) {k : Kind} {p : Vec} (h : k = .spherical → 0 ≤ p 1 ∧ 0 ≤ p 2 ∧ p 2 ≤ Real.pi) :
    s.delta k p < 0 ↔ InDisk s.grid.rmin s.grid.rmax s.hoverR (StarTrace.cart k p) := by
  obtain ⟨e1, e2⟩ := rho_eq h
  unfold Disk.delta InDisk
  rw [← e1, ← e2]
  split_ifs with hr
  · constructor
    · intro h
      norm_num at h
    · rintro ⟨h1, h2, -⟩
      rcases hr with hr | hr <;> linarith
  · push Not at hr
    constructor
    · intro h
      exact ⟨hr.1, hr.2, by linarith⟩
    · rintro ⟨-, -, h⟩
      linarith

/-! ## The gas -/

/-- C130. Inside, the gas is polytropic: its temperature is a power of its density. Both are positive; where the table has its maximum, in the
equatorial plane, they are the values given, and they are nowhere more. -/
theorem gas_law {s : Disk} {k : Kind} {p : Vec} {S : ℝ} (hr : 0 < s.grid.rmin) (hp : s.delta k p < 0) (hS : 0 < S) (hg : 0 < s.gamm1) (hn : 0 < s.nMax)
    (hT : 0 < s.TMax) : ∃ n T, (s.zfactor k p).bind (s.gas S) = some (n, T) ∧ 0 < n ∧ 0 < T ∧ T / s.TMax = (n / s.nMax) ^ s.gamm1 ∧
      (S ≤ 1 → n ≤ s.nMax ∧ T ≤ s.TMax) ∧ (S = 1 → height k p = 0 → n = s.nMax ∧ T = s.TMax) := by
  unfold Disk.delta at hp
  split_ifs at hp with h0
  · norm_num at hp
  push Not at h0
  have hrho : 0 < rho k p := by linarith
  obtain ⟨H, hH⟩ : ∃ H, H = s.hoverR * rho k p := ⟨_, rfl⟩
  have habs : |height k p| < H := by rw [hH]; linarith
  have hHpos : 0 < H := lt_of_le_of_lt (abs_nonneg _) habs
  obtain ⟨z, hz⟩ : ∃ z, z = 1 - height k p * height k p / (H * H) := ⟨_, rfl⟩
  have hsq : height k p * height k p < H * H := by
    have := abs_mul_abs_self (height k p)
    have := abs_nonneg (height k p)
    nlinarith
  have hz0 : 0 < z := by
    rw [hz, sub_pos, div_lt_one (by positivity)]
    exact hsq
  have hz1 : z ≤ 1 := by
    rw [hz]
    have : 0 ≤ height k p * height k p / (H * H) := div_nonneg (mul_self_nonneg _) (by positivity)
    linarith
  have e : (s.zfactor k p).bind (s.gas S) = some (S * s.nMax * z ^ (1 / s.gamm1), S ^ s.gamm1 * s.TMax * z) := by
    unfold Disk.zfactor
    simp only [← hH, if_neg hHpos.ne', Option.bind_some, ← hz]
    unfold Disk.gas
    rw [if_neg (by push Not; exact ⟨hS, hz0, hg.ne'⟩)]
  have hzp := Real.rpow_pos_of_pos hz0 (1 / s.gamm1)
  have hSp := Real.rpow_pos_of_pos hS s.gamm1
  refine ⟨_, _, e, by positivity, by positivity, ?_, ?_, ?_⟩
  · rw [show S * s.nMax * z ^ (1 / s.gamm1) / s.nMax = S * z ^ (1 / s.gamm1) by field_simp, Real.mul_rpow hS.le hzp.le, ← Real.rpow_mul hz0.le,
      one_div_mul_cancel hg.ne', Real.rpow_one]
    field_simp
  · intro h1
    have a1 : z ^ (1 / s.gamm1) ≤ 1 := Real.rpow_le_one hz0.le hz1 (by positivity)
    have a2 : S ^ s.gamm1 ≤ 1 := Real.rpow_le_one hS.le h1 hg.le
    constructor
    · calc S * s.nMax * z ^ (1 / s.gamm1) ≤ 1 * s.nMax * 1 := by gcongr
        _ = s.nMax := by ring
    · calc S ^ s.gamm1 * s.TMax * z ≤ 1 * s.TMax * 1 := by gcongr
        _ = s.TMax := by ring
  · intro h1 h2
    have : z = 1 := by rw [hz, h2]; simp
    rw [this, h1]
    simp

/-! ## The velocity -/

theorem getVelocity_eq {s : Disk} {g : Tensor} {p : Vec} {vr vphi : ℝ} (hp : s.inGrid .spherical p)
    (h1 : s.value s.velocity 0 (p 0) (p 3) (rho .spherical p) = .ok vr) (h2 : s.value s.velocity s.cells (p 0) (p 3) (rho .spherical p) = .ok vphi) :
    s.getVelocity .spherical g p = .ok ![sysPrimeToTdot g ![vr, 0, vphi], vr * sysPrimeToTdot g ![vr, 0, vphi], 0, vphi * sysPrimeToTdot g ![vr, 0, vphi]] := by
  unfold Disk.getVelocity
  rw [if_neg (not_not.2 hp), h1, h2]
  rfl

/-- C130. The velocity is that of an observer, with the tabulated `dr/dt` and `dφ/dt`, and none in `θ`. -/
theorem velocity_partial {s : Disk} {g : Tensor} {p : Vec} {vr vphi : ℝ} (hp : s.inGrid .spherical p)
    (h1 : s.value s.velocity 0 (p 0) (p 3) (rho .spherical p) = .ok vr) (h2 : s.value s.velocity s.cells (p 0) (p 3) (rho .spherical p) = .ok vphi)
    (ht : sp g ![1, vr, 0, vphi] ![1, vr, 0, vphi] < 0) :
    ∃ u, s.getVelocity .spherical g p = .ok u ∧ IsObserver g u ∧ u 1 / u 0 = vr ∧ u 2 = 0 ∧ u 3 / u 0 = vphi := by
  have e : (Fin.cons 1 ![vr, 0, vphi] : Vec) = ![1, vr, 0, vphi] := rfl
  obtain ⟨a, b⟩ := sysPrime_unit (g := g) (v := ![vr, 0, vphi]) (by rw [e]; exact ht)
  rw [e] at b
  refine ⟨_, getVelocity_eq hp h1 h2, ⟨a, ?_⟩, ?_, rfl, ?_⟩
  · have : (![sysPrimeToTdot g ![vr, 0, vphi], vr * sysPrimeToTdot g ![vr, 0, vphi], 0, vphi * sysPrimeToTdot g ![vr, 0, vphi]] : Vec) =
        sysPrimeToTdot g ![vr, 0, vphi] • ![1, vr, 0, vphi] := by
      funext i
      fin_cases i <;> simp <;> ring
    rw [this]
    exact b
  · show vr * sysPrimeToTdot g ![vr, 0, vphi] / sysPrimeToTdot g ![vr, 0, vphi] = vr
    field_simp
  · show vphi * sysPrimeToTdot g ![vr, 0, vphi] / sysPrimeToTdot g ![vr, 0, vphi] = vphi
    field_simp

/-- C130 (negation). Where the table is faster than light the velocity returned is zero, and there is no error. -/
theorem velocity_wrong {s : Disk} {g : Tensor} {p : Vec} {vr vphi : ℝ} (hp : s.inGrid .spherical p)
    (h1 : s.value s.velocity 0 (p 0) (p 3) (rho .spherical p) = .ok vr) (h2 : s.value s.velocity s.cells (p 0) (p 3) (rho .spherical p) = .ok vphi)
    (ht : 0 ≤ sp g ![1, vr, 0, vphi] ![1, vr, 0, vphi]) : s.getVelocity .spherical g p = .ok ![0, 0, 0, 0] := by
  have e : (∑ i, ∑ j, g i j * (Fin.cons 1 ![vr, 0, vphi] : Vec) i * (Fin.cons 1 ![vr, 0, vphi] : Vec) j) =
      sp g ![1, vr, 0, vphi] ![1, vr, 0, vphi] := by rw [← scalarProd_eq]; rfl
  have : sysPrimeToTdot g ![vr, 0, vphi] = 0 := by
    simp only [sysPrimeToTdot, e]
    rw [if_pos ht]
  rw [getVelocity_eq hp h1 h2, this]
  simp

/-- C130 (negation). In Cartesian coordinates there is no velocity, and the height is taken for the azimuth: there is no light below the plane. -/
theorem cartesian_wrong (s : Disk) (F : Hyper) (g : Vec → Tensor) (G : Tensor) (L dsem : ℝ) (p l q : Vec) (nus : List ℝ) :
    (∀ u, s.getVelocity .cartesian G p ≠ .ok u) ∧ (p 3 < 0 → s.radiativeQ F g .cartesian L dsem p l q nus = .throws) := by
  constructor
  · intro u
    unfold Disk.getVelocity
    split_ifs with h
    rotate_left
    · exact fun h => by cases h
    · rcases s.value s.velocity 0 (p 0) (p 3) (rho .cartesian p) with e | vr
      · exact fun h => by cases h
      · rcases s.value s.velocity s.cells (p 0) (p 3) (rho .cartesian p) with e | vphi <;> exact fun h => by cases h
  · intro h
    unfold Disk.radiativeQ
    rw [if_pos]
    unfold Disk.inGrid Bad
    tauto

/-! ## What is read from a table -/

/-- C130. If the grid is consistent and the table has its size, there is a value everywhere in it, between the dates. -/
theorem value_exists {s : Disk} {l D : List ℝ} {date : ℕ → ℝ} {n k : ℕ} (hg : s.grid.Ok Real.pi) (hD : s.times = some D) (hd : s.grid.Dates D date)
    (hl : l.length = n * s.cells) (hk : k < n) {t phi r : ℝ} (h0 : s.grid.tmin < t) (h1 : t < s.grid.tmax) (r0 : s.grid.rmin ≤ r) (r1 : r < s.grid.rmax)
    (p0 : s.grid.phimax - 2 * Real.pi ≤ phi) (p1 : phi ≤ s.grid.phimin + 2 * Real.pi) (pne : phi ≠ s.grid.phimax) :
    ∃ x, s.value (some l) (k * s.cells) t phi r = .ok x := by
  have hT : s.grid.Holds (fun it ip ir => (l.drop (k * s.cells)).getD ((it * s.grid.nphi + ip) * s.grid.nr + ir) 0) (l.drop (k * s.cells)) := by
    intro it h0 ip h1 ir h2
    have hlen : (it * s.grid.nphi + ip) * s.grid.nr + ir < (l.drop (k * s.cells)).length := by
      rw [List.length_drop, hl, ← Nat.sub_mul]
      have a1 : 1 ≤ n - k := by omega
      have a2 : s.cells ≤ (n - k) * s.cells := Nat.le_mul_of_pos_left _ a1
      have a3 : it * s.grid.nphi + ip < s.grid.nt * s.grid.nphi := by nlinarith
      have a4 : (it * s.grid.nphi + ip) * s.grid.nr + ir < s.grid.nt * s.grid.nphi * s.grid.nr := by nlinarith
      have : s.cells = s.grid.nt * s.grid.nphi * s.grid.nr := rfl
      omega
    show _ = some ((l.drop (k * s.cells)).getD ((it * s.grid.nphi + ip) * s.grid.nr + ir) 0)
    rw [List.getD_eq_getElem _ _ hlen, List.getElem?_eq_getElem hlen]
  obtain ⟨it, lo, up, k', plo, pup, s', p, q, -, -, -, e⟩ := Interp.grid_dates_partial hg hT hd h0 h1 r0 r1 p0 p1 pne
  have : s.value (some l) (k * s.cells) t phi r = s.grid.interpolate Real.pi t phi r (l.drop (k * s.cells)) (some D) := by
    unfold Disk.value
    rw [hD]
  exact ⟨_, this.trans e⟩

/-! ## The field of the table -/

/-- C130 (negation). The strength of a tabulated field is not its length: for a unit field around the axis, in flat space in spherical coordinates, at
the distance `r`, the strength used is that at the maximum divided by `r`. -/
theorem field_norm_wrong {s : Disk} {M r : ℝ} {p : Vec} (hM : s.BMax = some M) (hr : 0 < r)
    (h0 : s.value s.field 0 (p 0) (p 3) (rho .spherical p) = .ok 0) (h1 : s.value s.field s.cells (p 0) (p 3) (rho .spherical p) = .ok 0)
    (h2 : s.value s.field (2 * s.cells) (p 0) (p 3) (rho .spherical p) = .ok 0)
    (h3 : s.value s.field (3 * s.cells) (p 0) (p 3) (rho .spherical p) = .ok (1 / r)) :
    scalarProd (Matrix.diagonal ![-1, 1, r ^ 2, r ^ 2]) ![0, 0, 0, 1 / r] ![0, 0, 0, 1 / r] = 1 ∧
    s.tableField (Matrix.diagonal ![-1, 1, r ^ 2, r ^ 2]) .spherical p ![1, 1, 0, 0] ![1, 0, 0, 0] = .ok (M / r, Real.pi / 2) := by
  have sp1 : scalarProd (Matrix.diagonal ![-1, 1, r ^ 2, r ^ 2]) ![0, 0, 0, 1 / r] ![0, 0, 0, 1 / r] = 1 := by
    simp [scalarProd, Fin.sum_univ_four, Matrix.diagonal]
    field_simp
  refine ⟨sp1, ?_⟩
  obtain ⟨g, hg⟩ : ∃ g : Tensor, g = Matrix.diagonal ![-1, 1, r ^ 2, r ^ 2] := ⟨_, rfl⟩
  have spu : sp g ![1, 0, 0, 0] ![1, 0, 0, 0] = -1 := by
    rw [← scalarProd_eq, hg]
    simp [scalarProd, Fin.sum_univ_four, Matrix.diagonal]
  have spb : sp g ![1, 0, 0, 0] ![0, 0, 0, 1 / r] = 0 := by
    rw [← scalarProd_eq, hg]
    simp [scalarProd, Fin.sum_univ_four, Matrix.diagonal]
  have hproj : project g ![0, 0, 0, 1 / r] ![1, 0, 0, 0] = some ![0, 0, 0, 1 / r] := by
    rw [project_eq _ (by rw [spu]; norm_num), spb]
    simp
  have hl : scalarProd g ![1, 1, 0, 0] ![1, 0, 0, 0] = -1 := by
    rw [hg]
    simp [scalarProd, Fin.sum_univ_four, Matrix.diagonal]
  have he : (![1, 1, 0, 0] + scalarProd g ![1, 1, 0, 0] ![1, 0, 0, 0] • ![1, 0, 0, 0] : Vec) = ![0, 1, 0, 0] := by
    rw [hl]
    funext i
    fin_cases i <;> simp
  have heb : scalarProd g ![0, 1, 0, 0] ![0, 0, 0, 1 / r] = 0 := by
    rw [hg]
    simp [scalarProd, Fin.sum_univ_four, Matrix.diagonal]
  have hee : scalarProd g ![0, 1, 0, 0] ![0, 1, 0, 0] = 1 := by
    rw [hg]
    simp [scalarProd, Fin.sum_univ_four, Matrix.diagonal]
  have ne : MetricAlg.norm g ![0, 1, 0, 0] = 1 := by
    simp only [MetricAlg.norm, hee]
    norm_num [sgn]
  have nb : MetricAlg.norm g ![0, 0, 0, 1 / r] = 1 := by
    rw [← hg] at sp1
    simp only [MetricAlg.norm, sp1]
    norm_num [sgn]
  rw [← hg]
  unfold Disk.tableField
  rw [h0, h1, h2, h3]
  simp only [bind, Except.bind, hproj, he, heb, ne, nb, hM]
  have hs : √((![0, 0, 0, 1 / r] : Vec) 1 ^ 2 + (![0, 0, 0, 1 / r] : Vec) 2 ^ 2 + (![0, 0, 0, 1 / r] : Vec) 3 ^ 2) = 1 / r := by
    show √((0 : ℝ) ^ 2 + 0 ^ 2 + (1 / r) ^ 2) = 1 / r
    rw [show (0 : ℝ) ^ 2 + 0 ^ 2 + (1 / r) ^ 2 = (1 / r) ^ 2 by ring, Real.sqrt_sq (by positivity)]
  rw [hs]
  norm_num
  ring

/-! ## The light -/

theorem kappa_outs_pos (b : Bessel) {k : Kappa} {nu : ℝ} (h : k.Fair nu) (hv : k.averaged = false → 0 < k.angle ∧ k.angle < Real.pi) (hn : 0 < k.n) :
    0 < k.outs b nu 0 ∧ 0 < k.outs b nu 4 := by
  have pos : ∀ t : Kappa, t.Lit nu → 0 < t.n → 0 < t.jVal nu ∧ 0 < t.aVal nu := by
    intro t ht hn
    obtain ⟨i, q, a, aq, e1, e2, e3, e4, h1, h2, h3, h4⟩ := Synch.kappa_positive ht hn
    rw [ht.j] at e1
    rw [ht.a] at e3
    cases e1
    cases e3
    exact ⟨h1, h3⟩
  unfold Kappa.outs
  by_cases ha : k.averaged = false
  · obtain ⟨h1, h2⟩ := pos k ⟨h, (hv ha).1, (hv ha).2⟩ hn
    rw [if_pos ha, Synch.toSI_j _ (by decide), Synch.toSI_a _ (by decide)]
    exact ⟨mul_pos h1 (by norm_num [Synch.jnuToSI, Synch.inuToSI]), mul_pos h2 (by norm_num [Synch.anuToSI, Synch.inuToSI])⟩
  · rw [if_neg ha, Synch.toSI_j _ (by decide), Synch.toSI_a _ (by decide)]
    refine ⟨mul_pos (SphAcc.mean_pos (by norm_num) fun θ h1 h2 => ?_) (by norm_num [Synch.jnuToSI, Synch.inuToSI]),
      mul_pos (SphAcc.mean_pos (by norm_num) fun θ h1 h2 => ?_) (by norm_num [Synch.anuToSI, Synch.inuToSI])⟩
    · exact (pos _ (h.at h1 h2) hn).1
    · exact (pos _ (h.at h1 h2) hn).2

theorem kappa_light (b : Bessel) {s : Kappa} {nus : List ℝ} (hv : s.averaged = false → 0 < s.angle ∧ s.angle < Real.pi) (hn : ∀ nu ∈ nus, s.Fair nu) :
    ∃ s', s.radiativeQ nus = .ok (s', nus.map fun nu => (s.outs b nu 0, s.outs b nu 4)) ∧ s'.kappa = s.kappa := by
  obtain ⟨t, ht⟩ : ∃ t, t = if s.averaged = false then s else s.at (Real.pi - 0.01) := ⟨_, rfl⟩
  have tt : (if t.averaged = false then t else t.at (Real.pi - 0.01)) = t := by
    by_cases ha : s.averaged = false
    · rw [if_pos ha] at ht; rw [ht, if_pos ha]
    · rw [if_neg ha] at ht; rw [ht, if_neg (show ¬(s.at (Real.pi - 0.01)).averaged = false from ha)]; rfl
  have tv : t.averaged = false → 0 < t.angle ∧ t.angle < Real.pi := by
    by_cases ha : s.averaged = false
    · rw [if_pos ha] at ht; rw [ht]; exact hv
    · rw [if_neg ha] at ht; rw [ht]; exact fun h => absurd h ha
  have tf : ∀ nu, s.Fair nu → t.Fair nu := fun nu h => by
    rw [ht]; split
    · exact h
    · exact ⟨h.kappa, h.theta, h.nu0, h.hyp, h.nu⟩
  have same : t.outs b = s.outs b := by
    by_cases ha : s.averaged = false
    · rw [if_pos ha] at ht; rw [ht]
    · rw [if_neg ha] at ht; rw [ht]
      funext nu
      unfold Kappa.outs
      rw [if_neg ha, if_neg (show ¬(s.at (Real.pi - 0.01)).averaged = false from ha)]
      rfl
  refine ⟨if nus = [] then s else t, ?_, ?_⟩
  · refine Synch.each_fixed (A := fun nu => s.Fair nu) (fun nu h => ?_) (fun nu h => ?_) hn
    · rw [Kappa.pass_eq b h hv, ht]
    · rw [Kappa.pass_eq b (tf nu h) tv, tt, same]
  · rw [ht]
    split_ifs <;> rfl

/-- What is set in the spectrum leaves nothing of what was there but the index. -/
theorem settings_run (k : Kappa) (F : Hyper) (kappa n T B angle : ℝ) (av : Bool) : k.run (settings F kappa n T B angle av) =
    ⟨n, angle, chargeCGS * B / (2 * Real.pi * electronMassCGS * cCGS), max (boltzmannCGS * T / (electronMassCGS * c2CGS)) 0.005, k.kappa,
      F kappa (boltzmannCGS * T / (electronMassCGS * c2CGS)), av⟩ := rfl

theorem shine_ok {s : Disk} {F : Hyper} {L dsem n T B angle : ℝ} {av : Bool} {nus : List ℝ} (hn : 0 < n) (hB : 0 < B)
    (hv : av = false → 0 < angle ∧ angle < Real.pi) (hk : 2 < s.synch.kappa) (hF : ∀ x y, 0 < F x y) (hs : 0 ≤ dsem * L) (hnu : ∀ nu ∈ nus, 0 < nu) :
    ∃ j a : ℝ → ℝ, (∀ nu ∈ nus, 0 < j nu ∧ 0 < a nu) ∧ ((∀ nu ∈ nus, j nu * (dsem * L) < 2 ^ 53) → ∃ k' : Kappa, k'.kappa = s.synch.kappa ∧
      s.shine F L dsem n T B angle av nus = .ok ({ s with synch := k' },
        nus.map fun nu => (inten (j nu) (a nu) (dsem * L), Real.exp (-a nu * (dsem * L))))) := by
  obtain ⟨k, hk'⟩ : ∃ k, k = s.synch.run (settings F s.synch.kappa n T B angle av) := ⟨_, rfl⟩
  have hke := hk'.trans (settings_run _ _ _ _ _ _ _ _)
  have hfair : ∀ nu ∈ nus, k.Fair nu := by
    intro nu h
    rw [hke]
    refine ⟨hk, lt_of_lt_of_le (by norm_num) (le_max_right _ _), ?_, hF _ _, hnu nu h⟩
    have := Real.pi_pos
    show 0 < chargeCGS * B / (2 * Real.pi * electronMassCGS * cCGS)
    unfold chargeCGS electronMassCGS cCGS
    positivity
  have hav : k.averaged = false → 0 < k.angle ∧ k.angle < Real.pi := by
    rw [hke]
    exact hv
  have hkn : 0 < k.n := by rw [hke]; exact hn
  obtain ⟨s', e, es⟩ := kappa_light ⟨fun _ => 1, fun _ => 1, fun _ => 1⟩ hav hfair
  refine ⟨fun nu => k.outs ⟨fun _ => 1, fun _ => 1, fun _ => 1⟩ nu 0, fun nu => k.outs ⟨fun _ => 1, fun _ => 1, fun _ => 1⟩ nu 4, ?_, ?_⟩
  · intro nu h
    exact kappa_outs_pos _ (hfair nu h) hav hkn
  · intro hb
    refine ⟨s', by rw [es, hke], ?_⟩
    unfold Disk.shine
    rw [← hk', e]
    have : slabs (dsem * L) (nus.map fun nu => (k.outs ⟨fun _ => 1, fun _ => 1, fun _ => 1⟩ nu 0, k.outs ⟨fun _ => 1, fun _ => 1, fun _ => 1⟩ nu 4)) =
        .ok (nus.map fun nu => (inten (k.outs ⟨fun _ => 1, fun _ => 1, fun _ => 1⟩ nu 0) (k.outs ⟨fun _ => 1, fun _ => 1, fun _ => 1⟩ nu 4) (dsem * L),
          Real.exp (-k.outs ⟨fun _ => 1, fun _ => 1, fun _ => 1⟩ nu 4 * (dsem * L)))) := by
      refine SphAcc.slabs_map (h := fun nu => _) fun nu h => ?_
      obtain ⟨p1, p2⟩ := kappa_outs_pos ⟨fun _ => 1, fun _ => 1, fun _ => 1⟩ (hfair nu h) hav hkn
      refine SphAcc.slab_ok p1.le hs (lt_of_le_of_lt (SphAcc.inten_le p1.le p2.le) (hb nu h)) ?_
      have : Real.exp (-k.outs ⟨fun _ => 1, fun _ => 1, fun _ => 1⟩ nu 4 * (dsem * L)) ≤ 1 := Real.exp_le_one_iff.2 (by nlinarith)
      linarith
    simp only [Synch.bind_ok, this]

/-- The physical conditions for the light. -/
structure Bright (s : Disk) (F : Hyper) (k : Kind) (p : Vec) (S : ℝ) : Prop where
  rmin : 0 < s.grid.rmin
  inside : s.delta k p < 0
  azimuth : 0 ≤ p 3 ∧ p 3 ≤ 2 * Real.pi
  read : s.value s.density 0 (p 0) (p 3) (rho k p) = .ok S
  some : 0 < S
  index : 0 < s.gamm1
  n : 0 < s.nMax
  T : 0 < s.TMax
  kappa : 2 < s.synch.kappa
  hyper : ∀ x y, 0 < F x y

theorem Bright.inGrid {s : Disk} {F : Hyper} {k : Kind} {p : Vec} {S : ℝ} (h : Bright s F k p S) : s.inGrid k p := by
  refine ⟨?_, ?_⟩
  · have := h.inside
    unfold Disk.delta at this
    split_ifs at this with h0
    · norm_num at this
    · exact h0
  · unfold Bad
    push Not
    exact h.azimuth

/-- C130. Without a table of the field, the field has the given part of the energy at rest of the gas. The light is positive, and part of what comes
from behind is let through; what is given out does not depend on the calls made before. -/
theorem light {s : Disk} {F : Hyper} {k : Kind} {p : Vec} {S : ℝ} (h : Bright s F k p S) (hf : s.flag = false) (hσ : 0 < s.sigma) (g : Vec → Tensor)
    {L dsem : ℝ} (l q : Vec) {nus : List ℝ} (hs : 0 < dsem * L) (hnu : ∀ nu ∈ nus, 0 < nu) :
    ∃ (B n T : ℝ) (j a : ℝ → ℝ), 0 < B ∧ B ^ 2 / (4 * Real.pi) = s.sigma * (n * protonMassCGS * cCGS ^ 2) ∧
      (s.zfactor k p).bind (s.gas S) = some (n, T) ∧ (∀ nu ∈ nus, 0 < j nu ∧ 0 < a nu) ∧
      ((∀ nu ∈ nus, j nu * (dsem * L) < 2 ^ 53) → ∃ k' : Kappa, k'.kappa = s.synch.kappa ∧
        s.radiativeQ F g k L dsem p l q nus = .ok ({ s with synch := k' },
          nus.map fun nu => (inten (j nu) (a nu) (dsem * L), Real.exp (-a nu * (dsem * L)))) ∧
        (∀ nu ∈ nus, 0 < inten (j nu) (a nu) (dsem * L) ∧ 0 < Real.exp (-a nu * (dsem * L)) ∧ Real.exp (-a nu * (dsem * L)) < 1)) := by
  obtain ⟨n, T, e, hn, hT, -⟩ := gas_law h.rmin h.inside h.some h.index h.n h.T
  have hpi := Real.pi_pos
  have hx : 0 < 4 * Real.pi * s.sigma * protonMassCGS * cCGS * cCGS * n := by
    unfold protonMassCGS cCGS
    positivity
  obtain ⟨j, a, hja, hok⟩ := shine_ok (s := s) (F := F) (L := L) (dsem := dsem) (T := T) (angle := 0) (av := true) (nus := nus) hn
    (Real.sqrt_pos.2 hx) (by simp) h.kappa h.hyper hs.le hnu
  refine ⟨√(4 * Real.pi * s.sigma * protonMassCGS * cCGS * cCGS * n), n, T, j, a, Real.sqrt_pos.2 hx, ?_, e, hja, fun hb => ?_⟩
  · rw [Real.sq_sqrt hx.le]
    field_simp
  · obtain ⟨s', ek, es⟩ := hok hb
    refine ⟨s', ek, ?_, ?_⟩
    · unfold Disk.radiativeQ
      rw [if_neg (not_not.2 h.inGrid), h.read]
      simp only [lift, Synch.bind_ok, e]
      rw [if_neg (by simp [hf]), if_neg (not_lt.2 hx.le)]
      exact es
    · intro nu hnu
      obtain ⟨h1, h2⟩ := hja nu hnu
      have hex : Real.exp (-a nu * (dsem * L)) < 1 := Real.exp_lt_one_iff.2 (by nlinarith)
      refine ⟨?_, Real.exp_pos _, hex⟩
      unfold inten
      rw [if_neg h2.ne']
      have : -j nu / a nu * (Real.exp (-a nu * (dsem * L)) - 1) = j nu / a nu * (1 - Real.exp (-a nu * (dsem * L))) := by ring
      rw [this]
      exact mul_pos (div_pos h1 h2) (by linarith)

/-- C130. With a table of the field the same holds, for the strength and the angle obtained from it, if the strength is not zero. -/
theorem light_table {s : Disk} {F : Hyper} {k : Kind} {p : Vec} {S : ℝ} (h : Bright s F k p S) (hf : s.flag = true) (g : Vec → Tensor)
    {L dsem B angle : ℝ} {l q u : Vec} {nus : List ℝ} (hs : 0 < dsem * L) (hnu : ∀ nu ∈ nus, 0 < nu) (hu : s.getVelocity k (g q) q = .ok u)
    (hB : s.tableField (g p) k p l u = .ok (B, angle)) (hpos : 0 < B) :
    ∃ (j a : ℝ → ℝ), (∀ nu ∈ nus, 0 < j nu ∧ 0 < a nu) ∧
      ((∀ nu ∈ nus, j nu * (dsem * L) < 2 ^ 53) → ∃ k' : Kappa, k'.kappa = s.synch.kappa ∧
        s.radiativeQ F g k L dsem p l q nus = .ok ({ s with synch := k' },
          nus.map fun nu => (inten (j nu) (a nu) (dsem * L), Real.exp (-a nu * (dsem * L))))) := by
  obtain ⟨n, T, e, hn, hT, -⟩ := gas_law h.rmin h.inside h.some h.index h.n h.T
  have strict : ∀ {c : ℝ}, ¬ Real.sin (Real.arccos c) = 0 → 0 < Real.arccos c ∧ Real.arccos c < Real.pi := by
    intro c hc
    refine ⟨lt_of_le_of_ne (Real.arccos_nonneg c) fun e => hc ?_, lt_of_le_of_ne (Real.arccos_le_pi c) fun e => hc ?_⟩
    · rw [← e, Real.sin_zero]
    · rw [e, Real.sin_pi]
  have hang : 0 < angle ∧ angle < Real.pi := by
    have hB' := hB
    unfold Disk.tableField at hB'
    simp only [bind, Except.bind] at hB'
    split at hB'
    · cases hB'
    split at hB'
    · cases hB'
    split at hB'
    · cases hB'
    split at hB'
    · cases hB'
    split at hB'
    · split_ifs at hB' with h1 h2
      split at hB'
      · cases hB'
        exact strict h2
      · cases hB'
    · cases hB'
  obtain ⟨j, a, hja, hok⟩ := shine_ok (s := s) (F := F) (L := L) (dsem := dsem) (T := T) (angle := angle) (av := false) (nus := nus) hn
    hpos (fun _ => hang) h.kappa h.hyper hs.le hnu
  refine ⟨j, a, hja, fun hb => ?_⟩
  obtain ⟨k', ek, es⟩ := hok hb
  refine ⟨k', ek, ?_⟩
  unfold Disk.radiativeQ
  rw [if_neg (not_not.2 h.inGrid), h.read]
  simp only [lift, Synch.bind_ok, e, hu, hB]
  rw [if_pos hf]
  exact es

/-- C130. The light does not depend on what was left in the spectrum by the calls made before, but for the index. -/
theorem light_history {s : Disk} {k' : Kappa} (hk : k'.kappa = s.synch.kappa) (F : Hyper) (g : Vec → Tensor) (k : Kind) (L dsem : ℝ) (p l q : Vec)
    (nus : List ℝ) : ({ s with synch := k' } : Disk).radiativeQ F g k L dsem p l q nus = s.radiativeQ F g k L dsem p l q nus := by
  have hsh : ∀ n T B angle av, ({ s with synch := k' } : Disk).shine F L dsem n T B angle av nus = s.shine F L dsem n T B angle av nus := by
    intro n T B angle av
    unfold Disk.shine
    simp only [settings_run, hk]
  unfold Disk.radiativeQ
  simp only [hsh]
  rfl

/-! ## Examples -/

/-- The small disk of C129 with gas in it, and no table of the field. -/
noncomputable def brightDisk : Disk := { smallDisk with
  hoverR := 0.2, nMax := 1e6, TMax := 1e11, gamm1 := 2 / 3, flag := false, synch := { Kappa.new with kappa := 4 } }

noncomputable def brightPlace : Vec := ![5, 7, Real.pi / 2, 1]

theorem bright_rho : rho .spherical brightPlace = 7 := by
  show (7 : ℝ) * Real.sin (Real.pi / 2) = 7
  rw [Real.sin_pi_div_two, mul_one]

theorem bright_value : brightDisk.value brightDisk.density 0 5 1 7 = .ok 1 := by
  have hp := Real.pi_gt_three
  have hT : brightDisk.grid.Holds (fun _ _ _ => 1) (List.replicate 8 1) := by
    intro it h0 ip h1 ir h2
    change it < 2 at h0
    change ip < 2 at h1
    change ir < 2 at h2
    show (List.replicate 8 (1 : ℝ))[(it * 2 + ip) * 2 + ir]? = some 1
    rw [List.getElem?_replicate, if_pos (by omega)]
  obtain ⟨it, lo, up, k', plo, pup, s', p, q, -, -, -, e⟩ := Interp.grid_dates_partial (g := brightDisk.grid) (tt := 5) (phi := 1) (r := 7) smallDisk_ok.1 hT smallDisk_ok.2
    (by show (0 : ℝ) < 5; norm_num) (by show (5 : ℝ) < 10; norm_num) (by show (6 : ℝ) ≤ 7; norm_num) (by show (7 : ℝ) < 8; norm_num)
    (by show (3 : ℝ) - 2 * Real.pi ≤ 1; linarith) (by show (1 : ℝ) ≤ 0 + 2 * Real.pi; linarith) (by show (1 : ℝ) ≠ 3; norm_num)
  have : brightDisk.value brightDisk.density 0 5 1 7 = brightDisk.grid.interpolate Real.pi 5 1 7 (List.replicate 8 1) (some [0, 10]) := rfl
  rw [this, e]
  simp [Interp.mix]

theorem brightDisk_bright : Bright brightDisk (fun _ _ => 1) .spherical brightPlace 1 := by
  have hp := Real.pi_gt_three
  refine ⟨by show (0 : ℝ) < 6; norm_num, ?_, ⟨by show (0 : ℝ) ≤ 1; norm_num, by show (1 : ℝ) ≤ 2 * Real.pi; linarith⟩, ?_, one_pos,
    by show (0 : ℝ) < 2 / 3; norm_num, by show (0 : ℝ) < 1e6; norm_num, by show (0 : ℝ) < 1e11; norm_num, by show (2 : ℝ) < 4; norm_num,
    fun _ _ => one_pos⟩
  · have hh : height .spherical brightPlace = 0 := by
      show (7 : ℝ) * Real.cos (Real.pi / 2) = 0
      rw [Real.cos_pi_div_two, mul_zero]
    unfold Disk.delta
    rw [bright_rho, hh, if_neg]
    · show |(0 : ℝ)| - 7 * 0.2 < 0
      norm_num
    · push Not
      exact ⟨by show (6 : ℝ) ≤ 7; norm_num, by show (7 : ℝ) ≤ 8; norm_num⟩
  · rw [bright_rho]
    exact bright_value

/-- The gas is that at the maximum, and shines. -/
example (g : Vec → Tensor) (l q : Vec) : ∃ (B n T : ℝ) (j a : ℝ → ℝ), 0 < B ∧
    (brightDisk.zfactor .spherical brightPlace).bind (brightDisk.gas 1) = some (n, T) ∧ n = 1e6 ∧ T = 1e11 ∧ 0 < j 2.3e11 ∧ 0 < a 2.3e11 := by
  obtain ⟨B, n, T, j, a, h1, -, h3, h4, -⟩ := light brightDisk_bright rfl (by show (0 : ℝ) < 1; norm_num) g (L := 1) (dsem := 1) l q (nus := [2.3e11])
    (by norm_num) (by simp; norm_num)
  have hb := brightDisk_bright
  obtain ⟨n', T', e, -, -, -, -, hm⟩ := gas_law hb.rmin hb.inside hb.some hb.index hb.n hb.T
  rw [h3] at e
  cases e
  obtain ⟨e1, e2⟩ := hm rfl (by show (7 : ℝ) * Real.cos (Real.pi / 2) = 0; rw [Real.cos_pi_div_two, mul_zero])
  exact ⟨B, n, T, j, a, h1, h3, e1, e2, (h4 _ (by simp)).1, (h4 _ (by simp)).2⟩

end Gyoto.Flared
