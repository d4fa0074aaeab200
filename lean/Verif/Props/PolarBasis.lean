import Verif.Model.PolarBasis
import Verif.Props.MetricAlg

/-!
# C148: the polarization basis of a photon
-/

namespace Gyoto.PolarBasis

open Gyoto.MetricAlg Gyoto.GridRead

/-- The length of a vector, negative for the timelike ones. -/
noncomputable def length (g : Tensor) (u : Vec) : ℝ := if 0 ≤ sp g u u then √(sp g u u) else -√(-sp g u u)

/-- The basis is orthonormal and orthogonal to the photon, within a tolerance. -/
def Near (g : Tensor) (tol : ℝ) (k ephi etheta : Vec) : Prop :=
  |sp g ephi etheta| ≤ tol ∧ |sp g ephi k| ≤ tol ∧ |sp g etheta k| ≤ tol ∧ |length g ephi - 1| ≤ tol ∧ |length g etheta - 1| ≤ tol

private theorem norm_eq (g : Tensor) (u : Vec) : norm g u = length g u := by
  simp only [MetricAlg.norm, length, scalarProd_eq]
  rcases lt_trichotomy (sp g u u) 0 with h | h | h
  · rw [if_neg (not_le.2 h), sgn_neg h, abs_of_neg h]
    ring
  · simp [h, sgn_zero]
  · rw [if_pos h.le, sgn_pos h, abs_of_pos h, one_mul]

private theorem violation_le (g : Tensor) (tol : ℝ) (k ephi etheta : Vec) : violation g k ephi etheta ≤ tol ↔ Near g tol k ephi etheta := by
  simp only [violation, Near, scalarProd_eq, norm_eq, max_le_iff]

private theorem fs (a b c d a' b' c' d' : ℝ) :
    sp flat ![a, b, c, d] ![a', b', c', d'] = -(a * a') + b * b' + c * c' + d * d' := by
  rw [flat_sp]
  simp

private theorem eight_pos (s : State) : posOf s.eight = s.pos := by
  funext i
  fin_cases i <;> rfl

private theorem eight_time (s : State) (t : ℝ) : withTime s.eight t = ![t, s.k 1, s.k 2, s.k 3] := by
  funext i
  fin_cases i <;> rfl

private theorem k_eta (s : State) : ![s.k 0, s.k 1, s.k 2, s.k 3] = s.k := by
  funext i
  fin_cases i <;> rfl

/-- **C148.** The correction of a spacelike photon makes it null with the same space components, by the change of the time component that is
the smallest one; it has a value whenever there is such a change. -/
theorem photon_ok {gmunu : Vec → Tensor} {tol : ℝ} {s : State} (hg : (gmunu s.pos).IsSymm) (h0 : gmunu s.pos 0 0 ≠ 0)
    (hn : tol < length (gmunu s.pos) s.k)
    (hex : ∃ t, sp (gmunu s.pos) ![t, s.k 1, s.k 2, s.k 3] ![t, s.k 1, s.k 2, s.k 3] = 0) :
    ∃ k, fixPhoton gmunu tol s = some k ∧ sp (gmunu s.pos) k k = 0 ∧ (∀ i, i ≠ 0 → k i = s.k i) ∧
      ∀ t, sp (gmunu s.pos) ![t, s.k 1, s.k 2, s.k 3] ![t, s.k 1, s.k 2, s.k 3] = 0 → |s.k 0 - k 0| ≤ |s.k 0 - t| := by
  obtain ⟨c, t2, h, -, -, hr, -⟩ := nullify gmunu s.eight (by rw [eight_pos]; exact hg) (by rw [eight_pos]; exact h0)
    (by rw [eight_pos]; obtain ⟨t, ht⟩ := hex; exact ⟨t, by rw [eight_time]; exact ht⟩)
  simp only [eight_pos, eight_time] at hr
  unfold fixPhoton
  rw [if_pos (by rw [norm_eq]; exact hn), h]
  refine ⟨_, rfl, ?_, ?_, ?_⟩
  · split_ifs
    · exact (hr _).2 (Or.inr rfl)
    · exact (hr _).2 (Or.inl rfl)
  · intro i hi
    fin_cases i
    · exact absurd rfl hi
    · rfl
    · rfl
    · rfl
  · intro t ht
    rcases (hr t).1 ht with rfl | rfl
    · simp only [Matrix.cons_val_zero]
      split_ifs with hc
      · exact hc.le
      · exact le_rfl
    · simp only [Matrix.cons_val_zero]
      split_ifs with hc
      · exact le_rfl
      · exact not_lt.1 hc

/-- **C148.** The position and the basis of the state that is returned are those of the state given, corrected or not. -/
theorem kept {gmunu : Vec → Tensor} {tol : ℝ} {s s' : State} (h : checkBasis gmunu tol s = .ok s') :
    s'.pos = s.pos ∧ s'.ephi = s.ephi ∧ s'.etheta = s.etheta ∧ fixPhoton gmunu tol s = some s'.k := by
  unfold checkBasis at h
  simp only at h
  split at h
  · exact absurd h (by simp)
  · rename_i k hk
    split at h
    · exact absurd h (by simp)
    · split_ifs at h
      have h := Except.ok.inj h
      subst h
      exact ⟨rfl, rfl, rfl, hk⟩

/-- **C148, wrong.** A timelike photon is never corrected, however far from null: only the sign of a spacelike one is tested. -/
theorem timelike_wrong {gmunu : Vec → Tensor} {tol : ℝ} (ht : 0 ≤ tol) {s s' : State} (hk : sp (gmunu s.pos) s.k s.k < 0)
    (h : checkBasis gmunu tol s = .ok s') : sp (gmunu s.pos) s'.k s'.k = sp (gmunu s.pos) s.k s.k ∧ s' = s := by
  have e : fixPhoton gmunu tol s = some s.k := by
    unfold fixPhoton
    rw [if_neg]
    rw [norm_eq, length, if_neg (not_le.2 hk)]
    have := Real.sqrt_nonneg (-sp (gmunu s.pos) s.k s.k)
    linarith
  have q := kept h
  rw [e] at q
  obtain ⟨q1, q2, q3, q4⟩ := q
  have q4 := Option.some.inj q4
  have hs : s' = s := State.ext q1 q4.symm q2 q3
  exact ⟨by rw [hs], hs⟩

/-- **C148.** A basis within the tolerance, with a photon within it, is returned as it is. -/
theorem accepted {gmunu : Vec → Tensor} {tol : ℝ} {s : State} (hn : length (gmunu s.pos) s.k ≤ tol)
    (h : Near (gmunu s.pos) tol s.k s.ephi s.etheta) : checkBasis gmunu tol s = .ok s := by
  have hv := (violation_le _ _ _ _ _).2 h
  unfold checkBasis fixPhoton
  rw [if_neg (by rw [norm_eq]; exact not_lt.2 hn)]
  simp only
  rw [if_neg (not_lt.2 hv)]
  simp only
  rw [if_neg (not_lt.2 hv)]

/-- **C148, wrong.** `checkBasis` returns normally, after its final check, a state with a basis out of the tolerance: the vectors corrected are
local. -/
theorem uncorrected_wrong : ∃ s s' : State, checkBasis (fun _ => flat) 1e-3 s = .ok s' ∧ ¬ Near flat 1e-3 s'.k s'.ephi s'.etheta := by
  have hs0 : ∀ a b c d : ℝ, sp flat ![a, b, c, d] ![a, b, c, d] = -(a * a) + b * b + c * c + d * d := fun a b c d => by
    rw [flat_sp]; simp
  have q4 : √(4 : ℝ) = 2 := by rw [show (4 : ℝ) = 2 ^ 2 by norm_num]; exact Real.sqrt_sq (by norm_num)
  set s : State := ⟨0, ![1, 0, 0, 0], ![0, 0, 0, 2], ![0, 1, 0, 0]⟩ with hs
  have hl : length flat s.ephi = 2 := by
    simp only [length, hs, hs0]
    norm_num [q4]
  have hbad : ¬ Near flat 1e-3 s.k s.ephi s.etheta := by
    rintro ⟨-, -, -, h, -⟩
    rw [hl] at h
    norm_num at h
  have hk : fixPhoton (fun _ => flat) 1e-3 s = some s.k := by
    unfold fixPhoton
    rw [if_neg]
    rw [norm_eq]
    simp only [length, hs, hs0]
    norm_num
  have kk : sp flat s.k s.k = -1 := by simp only [hs, hs0]; norm_num
  have e1 : project flat s.etheta s.k = some s.etheta := by
    rw [project_eq _ (by rw [kk]; norm_num)]
    simp [hs, flat_sp]
  have tt : sp flat s.etheta s.etheta = 1 := by simp only [hs, hs0]; norm_num
  have e2 : unit flat s.etheta = some s.etheta := by
    rw [unit_eq (by rw [tt]; norm_num), tt]
    simp
  have e3 : project flat s.ephi s.k = some s.ephi := by
    rw [project_eq _ (by rw [kk]; norm_num)]
    simp [hs, flat_sp]
  have e4 : project flat s.ephi s.etheta = some s.ephi := by
    rw [project_eq _ (by rw [tt]; norm_num)]
    simp [hs, flat_sp]
  have pp : sp flat s.ephi s.ephi = 4 := by simp only [hs, hs0]; norm_num
  have e5 : unit flat s.ephi = some ![0, 0, 0, 1] := by
    rw [unit_eq (by rw [pp]; norm_num), pp]
    congr 1
    funext i
    fin_cases i <;> simp [hs, q4]
  have eo : orthonormalize flat s.k s.ephi s.etheta = some (![0, 0, 0, 1], s.etheta) := by
    unfold orthonormalize
    simp only [e1, e2, e3, e4, e5, bind, Option.bind, pure]
  have hgood : Near flat 1e-3 s.k ![0, 0, 0, 1] s.etheta := by
    refine ⟨?_, ?_, ?_, ?_, ?_⟩
    · norm_num [hs, fs]
    · norm_num [hs, fs]
    · norm_num [hs, fs]
    · simp only [length, hs0]
      norm_num
    · simp only [length, tt]
      norm_num
  refine ⟨s, s, ?_, hbad⟩
  unfold checkBasis
  rw [hk]
  simp only
  rw [if_pos (not_le.1 fun h => hbad ((violation_le _ _ _ _ _).1 h)), eo]
  simp only
  rw [if_neg (not_lt.2 ((violation_le _ _ _ _ _).2 hgood))]

/-- **C148, wrong.** For a photon exactly null, a basis out of the tolerance is never corrected: the first projection divides by the norm of
the photon, in `checkBasis` and in the integrator. -/
theorem null_wrong {gmunu : Vec → Tensor} {tol : ℝ} (ht : 0 ≤ tol) {s : State} (hk : sp (gmunu s.pos) s.k s.k = 0) :
    (¬ Near (gmunu s.pos) tol s.k s.ephi s.etheta → checkBasis gmunu tol s = .error .ub) ∧ reorthonormalize gmunu s = .error .ub := by
  constructor
  · intro h
    unfold checkBasis fixPhoton
    rw [if_neg (by rw [(norm_zero_iff _ _).2 hk]; exact not_lt.2 ht)]
    simp only
    rw [if_pos (not_le.1 fun h' => h ((violation_le _ _ _ _ _).1 h'))]
    unfold orthonormalize
    simp only [project_none hk, bind, Option.bind]
  · unfold reorthonormalize
    simp only [project_none hk, bind, Option.bind]

private theorem signedUnit_some {g : Tensor} {u w : Vec} (h : signedUnit g u = some w) :
    ∃ c : ℝ, c ≠ 0 ∧ w = c • u ∧ (sp g w w = 1 ∨ sp g w w = -1) := by
  unfold signedUnit inv at h
  by_cases hn : norm g u = 0
  · rw [if_pos hn] at h
    exact absurd h (by simp)
  · rw [if_neg hn] at h
    have hu : sp g u u ≠ 0 := fun h' => hn ((norm_zero_iff g u).2 h')
    have hw : w = (1 / norm g u) • u := by
      have h := Option.some.inj h
      rw [← h]
      funext i
      simp [multiply, mul_comm]
    refine ⟨1 / norm g u, one_div_ne_zero hn, hw, ?_⟩
    have h2 : norm g u * norm g u = |sp g u u| := by
      rw [← abs_mul_abs_self, abs_norm, Real.mul_self_sqrt (abs_nonneg _)]
    rw [hw, sp_smul_left, sp_smul_right]
    have e : 1 / norm g u * (1 / norm g u * sp g u u) = sp g u u / |sp g u u| := by
      rw [← h2]
      field_simp
    rw [e]
    rcases lt_or_gt_of_ne hu with h | h
    · right
      rw [abs_of_neg h, div_neg, div_self h.ne]
    · left
      rw [abs_of_pos h, div_self h.ne']

/-- **C148.** When the integrator corrects a basis, the two vectors written are orthogonal to the photon, to each other, and of norm `1` or
`-1`; the position and the photon stay. -/
theorem corrected_partial {gmunu : Vec → Tensor} {s s' : State} (hg : (gmunu s.pos).IsSymm) (h : reorthonormalize gmunu s = .ok s') :
    s'.pos = s.pos ∧ s'.k = s.k ∧ sp (gmunu s.pos) s'.ephi s.k = 0 ∧ sp (gmunu s.pos) s'.etheta s.k = 0 ∧
      sp (gmunu s.pos) s'.ephi s'.etheta = 0 ∧ |sp (gmunu s.pos) s'.ephi s'.ephi| = 1 ∧ |sp (gmunu s.pos) s'.etheta s'.etheta| = 1 := by
  unfold reorthonormalize at h
  simp only at h
  split at h
  · exact absurd h (by simp)
  · rename_i e f hb
    have h := Except.ok.inj h
    subst h
    simp only [bind, Option.bind_eq_some_iff] at hb
    obtain ⟨a, h1, b, h2, c, h3, d, h4, q, h5, hq⟩ := hb
    have hq : b = e ∧ q = f := by simpa [pure] using hq
    obtain ⟨rfl, rfl⟩ := hq
    obtain ⟨m, q1⟩ := project_some h1
    obtain ⟨x, -, q2, n2⟩ := signedUnit_some h2
    obtain ⟨-, q3⟩ := project_some h3
    obtain ⟨m', q4⟩ := project_some h4
    obtain ⟨y, -, q5, n5⟩ := signedUnit_some h5
    have o : ∀ (u v : Vec), sp (gmunu s.pos) v v ≠ 0 →
        sp (gmunu s.pos) v (u - (sp (gmunu s.pos) v u / sp (gmunu s.pos) v v) • v) = 0 := by
      intro u v hv
      rw [sp_sub_right, sp_smul_right]; field_simp; ring
    have ob : sp (gmunu s.pos) s.k b = 0 := by rw [q2, sp_smul_right, q1, o _ _ m, mul_zero]
    have oc : sp (gmunu s.pos) s.k c = 0 := by rw [q3, o _ _ m]
    have od : sp (gmunu s.pos) s.k d = 0 := by rw [q4, sp_sub_right, sp_smul_right, oc, ob]; ring
    have oq : sp (gmunu s.pos) s.k q = 0 := by rw [q5, sp_smul_right, od, mul_zero]
    have obq : sp (gmunu s.pos) b q = 0 := by rw [q5, sp_smul_right, q4, o _ _ m', mul_zero]
    refine ⟨rfl, rfl, ?_, ?_, obq, ?_, ?_⟩
    · rw [sp_comm hg]; exact ob
    · rw [sp_comm hg]; exact oq
    · rcases n2 with h | h <;> simp [h]
    · rcases n5 with h | h <;> simp [h]

/-- **C148, wrong.** The integrator exchanges the two vectors of the basis: an orthonormal basis orthogonal to a photon that is not exactly null
comes back with `Etheta` in the place of `Ephi`. -/
theorem swap_wrong {gmunu : Vec → Tensor} {s : State} (hg : (gmunu s.pos).IsSymm) (hk : sp (gmunu s.pos) s.k s.k ≠ 0)
    (h1 : sp (gmunu s.pos) s.ephi s.k = 0) (h2 : sp (gmunu s.pos) s.etheta s.k = 0) (h3 : sp (gmunu s.pos) s.ephi s.etheta = 0)
    (h4 : sp (gmunu s.pos) s.ephi s.ephi = 1) (h5 : sp (gmunu s.pos) s.etheta s.etheta = 1) :
    reorthonormalize gmunu s = .ok { s with ephi := s.etheta, etheta := s.ephi } := by
  have p : ∀ {u v : Vec}, sp (gmunu s.pos) v v ≠ 0 → sp (gmunu s.pos) u v = 0 → project (gmunu s.pos) u v = some u := by
    intro u v hv ho
    rw [project_eq _ hv, sp_comm hg, ho]
    simp
  have n : ∀ {u : Vec}, sp (gmunu s.pos) u u = 1 → signedUnit (gmunu s.pos) u = some u := by
    intro u hu
    have hl : norm (gmunu s.pos) u = 1 := by
      rw [norm_eq, length, hu]
      norm_num
    unfold signedUnit inv
    rw [hl, if_neg one_ne_zero]
    simp only [Option.map_some, Option.some.injEq]
    funext i
    simp [multiply]
  unfold reorthonormalize
  simp only [p hk h2, n h5, p hk h1, p (show sp (gmunu s.pos) s.etheta s.etheta ≠ 0 by rw [h5]; exact one_ne_zero) h3, n h4, bind, Option.bind,
    pure]

/-- **C148.** `KerrBL::nullifyCoord` is the generic one for a metric of its shape. -/
theorem kerr_ok {gmunu : Vec → Tensor} {coord : Fin 8 → ℝ} (h01 : gmunu (posOf coord) 0 1 = 0) (h02 : gmunu (posOf coord) 0 2 = 0)
    (hd : ∀ i j : Fin 3, i ≠ j → gmunu (posOf coord) i.succ j.succ = 0) : kerrNullify gmunu coord = nullifyCoord gmunu coord := by
  have hpos : (fun k : Fin 4 => coord ⟨k, by omega⟩) = posOf coord := rfl
  unfold kerrNullify nullifyCoord
  rw [hpos]
  generalize gmunu (posOf coord) = g at h01 h02 hd ⊢
  have hb : ∑ i : Fin 3, g 0 i.succ * coord ⟨4 + i.succ, by simp; omega⟩ = g 0 3 * coord 7 := by
    rw [Fin.sum_univ_three]
    change g 0 1 * _ + g 0 2 * _ + g 0 3 * coord 7 = _
    rw [h01, h02]
    ring
  have hc : ∑ i : Fin 3, ∑ j : Fin 3, g i.succ j.succ * coord ⟨4 + i.succ, by simp; omega⟩ * coord ⟨4 + j.succ, by simp; omega⟩ =
      ∑ i : Fin 3, g i.succ i.succ * coord ⟨4 + i.succ, by simp; omega⟩ * coord ⟨4 + i.succ, by simp; omega⟩ := by
    refine Finset.sum_congr rfl fun i _ => Finset.sum_eq_single i ?_ (by simp)
    intro j _ hj
    rw [hd i j hj.symm]
    ring
  simp only [hb, hc]

/-- A photon almost at rest. -/
example : reorthonormalize (fun _ => flat) ⟨0, ![1, 0, 0, 0], ![0, 0, 0, 1], ![0, 1, 0, 0]⟩ =
    .ok ⟨0, ![1, 0, 0, 0], ![0, 1, 0, 0], ![0, 0, 0, 1]⟩ :=
  swap_wrong flat_symm (by norm_num [fs]) (by norm_num [fs]) (by norm_num [fs]) (by norm_num [fs]) (by norm_num [fs])
    (by norm_num [fs])

/-- A photon along an axis, and a vector too long. -/
example : checkBasis (fun _ => flat) 1e-3 ⟨0, ![1, 1, 0, 0], ![0, 0, 2, 0], ![0, 0, 0, 1]⟩ = .error .ub := by
  refine (null_wrong (by norm_num) (by norm_num [fs])).1 ?_
  rintro ⟨-, -, -, h, -⟩
  have q4 : √(4 : ℝ) = 2 := by rw [show (4 : ℝ) = 2 ^ 2 by norm_num]; exact Real.sqrt_sq (by norm_num)
  have : length flat ![0, 0, 2, 0] = 2 := by
    simp only [length, fs]
    norm_num [q4]
  rw [this] at h
  norm_num at h

end Gyoto.PolarBasis
