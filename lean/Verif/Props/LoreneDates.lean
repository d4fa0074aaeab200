import Verif.Spec.LoreneMotion
import Mathlib.Tactic.FieldSimp
import Mathlib.Tactic.Ring
import Mathlib.Tactic.Linarith
import Mathlib.Tactic.LinearCombination
import Mathlib.Tactic.NormNum
import Mathlib.Topology.Instances.Real.Lemmas
import Mathlib.Topology.Algebra.Order.Field

/-!
# C138: interpolation between the dates of a numerical metric
-/

namespace Gyoto.Lorene

open Gyoto.MetricAlg Gyoto.Three1

/-- What the search finds: the last date that is not later. -/
theorem search_some {times : ℕ → ℝ} {tt : ℝ} {n it : ℕ} (h : search times tt n = some it) : it < n ∧ times it ≤ tt ∧ ∀ j, it < j → j < n → tt < times j := by
  induction n with
  | zero => simp [search] at h
  | succ n ih =>
    simp only [search] at h
    split at h
    · next hlt =>
      obtain ⟨h1, h2, h3⟩ := ih h
      refine ⟨by omega, h2, fun j hj hjn => ?_⟩
      rcases Nat.lt_succ_iff_lt_or_eq.1 hjn with hj' | rfl
      · exact h3 j hj hj'
      · exact hlt
    · next hge =>
      obtain rfl := Option.some.inj h
      exact ⟨by omega, not_lt.1 hge, fun j hj hjn => by omega⟩

theorem search_eq {times : ℕ → ℝ} {tt : ℝ} {n it : ℕ} (hn : it < n) (h1 : times it ≤ tt) (h2 : ∀ j, it < j → j < n → tt < times j) :
    search times tt n = some it := by
  induction n with
  | zero => omega
  | succ n ih =>
    simp only [search]
    rcases Nat.lt_succ_iff_lt_or_eq.1 hn with hj | rfl
    · rw [if_pos (h2 n hj (by omega))]
      exact ih hj fun j a b => h2 j a (by omega)
    · rw [if_neg (not_lt.2 h1)]

/-- **C138 refuted (dates).** Before the first date, every function of the metric reads `times_[-1]`, even though a case for these dates follows. -/
theorem before_first_date_wrong (d : Dates) (hm : ∀ i < d.nb, ∀ j < d.nb, i < j → d.times i < d.times j) (tt : ℝ) (h : d.nb = 0 ∨ tt < d.times 0)
    (f : Slice → ℝ) : d.interp tt f = none := by
  have : search d.times tt d.nb = none := by
    rcases e : search d.times tt d.nb with _ | it
    · rfl
    · obtain ⟨a, b, -⟩ := search_some e
      rcases h with h | h
      · omega
      · rcases Nat.eq_zero_or_pos it with rfl | h0
        · linarith
        · have := hm 0 (by omega) it a h0
          linarith
  simp [Dates.interp, this]

/-- Cubic interpolation reproduces cubics: whatever the four dates, as long as they differ. -/
theorem neville_cubic (a b c e tt t1 t2 t3 t4 : ℝ) (h12 : t1 ≠ t2) (h13 : t1 ≠ t3) (h14 : t1 ≠ t4) (h23 : t2 ≠ t3) (h24 : t2 ≠ t4) (h34 : t3 ≠ t4) :
    let P := fun x : ℝ => a + b * x + c * x ^ 2 + e * x ^ 3
    neville tt t1 t2 t3 t4 (P t1) (P t2) (P t3) (P t4) = P tt := by
  intro P
  simp only [neville, P]
  have a12 := sub_ne_zero.2 h12
  have a13 := sub_ne_zero.2 h13
  have a14 := sub_ne_zero.2 h14
  have a23 := sub_ne_zero.2 h23
  have a24 := sub_ne_zero.2 h24
  have a34 := sub_ne_zero.2 h34
  field_simp
  ring

theorem neville_2 (t1 t2 t3 t4 y1 y2 y3 y4 : ℝ) (h12 : t1 ≠ t2) (h13 : t1 ≠ t3) (h14 : t1 ≠ t4) (h23 : t2 ≠ t3) (h24 : t2 ≠ t4) :
    neville t2 t1 t2 t3 t4 y1 y2 y3 y4 = y2 := by
  simp only [neville]
  have a12 := sub_ne_zero.2 h12
  have a13 := sub_ne_zero.2 h13
  have a14 := sub_ne_zero.2 h14
  have a23 := sub_ne_zero.2 h23
  have a24 := sub_ne_zero.2 h24
  field_simp
  ring

theorem neville_3 (t1 t2 t3 t4 y1 y2 y3 y4 : ℝ) (h13 : t1 ≠ t3) (h14 : t1 ≠ t4) (h23 : t2 ≠ t3) (h24 : t2 ≠ t4) (h34 : t3 ≠ t4) :
    neville t3 t1 t2 t3 t4 y1 y2 y3 y4 = y3 := by
  simp only [neville]
  have a13 := sub_ne_zero.2 h13
  have a14 := sub_ne_zero.2 h14
  have a23 := sub_ne_zero.2 h23
  have a24 := sub_ne_zero.2 h24
  have a34 := sub_ne_zero.2 h34
  field_simp
  ring

/-- The dates increase. -/
def Dates.Ordered (d : Dates) : Prop := 0 < d.nb ∧ ∀ i < d.nb, ∀ j < d.nb, i < j → d.times i < d.times j

theorem search_ordered {d : Dates} (h : d.Ordered) {tt : ℝ} {it : ℕ} (hi : it < d.nb) (h1 : d.times it ≤ tt) (h2 : it + 1 < d.nb → tt < d.times (it + 1)) :
    search d.times tt d.nb = some it := by
  refine search_eq hi h1 fun j hj hjn => ?_
  have a := h2 (by omega)
  rcases Nat.eq_or_lt_of_le (Nat.succ_le_of_lt hj) with e | hlt
  · rw [← e]
    exact a
  · exact a.trans (h.2 _ (by omega) _ hjn hlt)

/-- **C138 (at the dates).** At the date of a slice, the interpolation gives what that slice has. -/
theorem interp_at (d : Dates) (h : d.Ordered) (k : ℕ) (hk : k < d.nb) (f : Slice → ℝ) : d.interp (d.times k) f = some (f (d.slice k)) := by
  have hs := search_ordered h hk le_rfl fun hk' => h.2 k hk (k + 1) hk' (by omega)
  simp only [Dates.interp, hs, Option.map_some, Option.some.injEq]
  split
  · rfl
  next h1 =>
  split
  · simp
  next h2 =>
  push Not at h2
  have o : ∀ i j, i < j → j < d.nb → d.times i ≠ d.times j := fun i j a b => (h.2 i (by omega) j b a).ne
  exact neville_2 _ _ _ _ _ _ _ _ (o _ _ (by omega) (by omega)) (o _ _ (by omega) (by omega)) (o _ _ (by omega) (by omega)) (o _ _ (by omega) (by omega))
    (o _ _ (by omega) (by omega))

/-- **C138 (after the last date).** From the last date on, nothing changes any more. -/
theorem interp_after (d : Dates) (h : d.Ordered) (tt : ℝ) (ht : d.times (d.nb - 1) ≤ tt) (f : Slice → ℝ) : d.interp tt f = some (f (d.slice (d.nb - 1))) := by
  have hp := h.1
  have hs := search_ordered h (it := d.nb - 1) (by omega) ht fun hk' => absurd hk' (by omega)
  simp only [Dates.interp, hs, Option.map_some]
  rw [if_pos (by omega)]

/-- **C138 (order).** What is a cubic function of the date — linear at both ends — is reproduced between the dates. -/
theorem interp_exact (d : Dates) (h : d.Ordered) (tt : ℝ) (k : ℕ) (hk : k + 1 < d.nb) (h1 : d.times k ≤ tt) (h2 : tt < d.times (k + 1)) (f : Slice → ℝ)
    (a b c e : ℝ) (hf : ∀ i, i < d.nb → f (d.slice i) = a + b * d.times i + c * d.times i ^ 2 + e * d.times i ^ 3)
    (hend : k = 0 ∨ k + 2 = d.nb → c = 0 ∧ e = 0) : d.interp tt f = some (a + b * tt + c * tt ^ 2 + e * tt ^ 3) := by
  have hs := search_ordered h (by omega) h1 fun _ => h2
  have o : ∀ i j, i < j → j < d.nb → d.times i ≠ d.times j := fun i j a b => (h.2 i (by omega) j b a).ne
  simp only [Dates.interp, hs, Option.map_some, Option.some.injEq]
  rw [if_neg (by omega)]
  split
  · next hc =>
    obtain ⟨rfl, rfl⟩ := hend (by tauto)
    rw [hf k (by omega), hf (k + 1) hk]
    have := sub_ne_zero.2 (o k (k + 1) (by omega) hk)
    field_simp
    ring
  · next hc =>
    push Not at hc
    rw [hf _ (by omega), hf _ (by omega), hf _ (by omega), hf _ (by omega)]
    exact neville_cubic a b c e tt _ _ _ _ (o _ _ (by omega) (by omega)) (o _ _ (by omega) (by omega)) (o _ _ (by omega) (by omega)) (o _ _ (by omega) (by omega))
      (o _ _ (by omega) (by omega)) (o _ _ (by omega) (by omega))

/-- The formula used from date `k` to date `k+1`. -/
noncomputable def Dates.piece (d : Dates) (f : Slice → ℝ) (k : ℕ) (tt : ℝ) : ℝ :=
  if k + 2 = d.nb ∨ k = 0 then (f (d.slice k) - f (d.slice (k + 1))) / (d.times k - d.times (k + 1)) * (tt - d.times k) + f (d.slice k)
  else neville tt (d.times (k - 1)) (d.times k) (d.times (k + 1)) (d.times (k + 2))
      (f (d.slice (k - 1))) (f (d.slice k)) (f (d.slice (k + 1))) (f (d.slice (k + 2)))

theorem interp_piece {d : Dates} (h : d.Ordered) {k : ℕ} (hk : k + 1 < d.nb) (f : Slice → ℝ) {tt : ℝ} (h1 : d.times k ≤ tt) (h2 : tt ≤ d.times (k + 1)) :
    d.interp tt f = some (d.piece f k tt) := by
  have o : ∀ i j, i < j → j < d.nb → d.times i ≠ d.times j := fun i j a b => (h.2 i (by omega) j b a).ne
  rcases h2.lt_or_eq with h2 | rfl
  · have hs := search_ordered h (by omega) h1 fun _ => h2
    simp only [Dates.interp, hs, Option.map_some, Option.some.injEq]
    rw [if_neg (by omega)]
    rfl
  · rw [interp_at d h _ hk]
    simp only [Dates.piece, Option.some.injEq]
    split
    · have := sub_ne_zero.2 (o k (k + 1) (by omega) hk)
      field_simp
      ring
    · next hc =>
      push Not at hc
      exact (neville_3 _ _ _ _ _ _ _ _ (o _ _ (by omega) (by omega)) (o _ _ (by omega) (by omega)) (o _ _ (by omega) (by omega)) (o _ _ (by omega) (by omega))
        (o _ _ (by omega) (by omega))).symm

theorem piece_continuous (d : Dates) (f : Slice → ℝ) (k : ℕ) : Continuous (d.piece f k) := by
  unfold Dates.piece neville
  split <;> fun_prop

/-- **C138 (continuity).** From the first date on, what is interpolated is a continuous function of the date. -/
theorem interp_continuous (d : Dates) (h : d.Ordered) (f : Slice → ℝ) :
    ∃ F : ℝ → ℝ, ContinuousOn F (Set.Ici (d.times 0)) ∧ ∀ tt, d.times 0 ≤ tt → d.interp tt f = some (F tt) := by
  refine ⟨fun tt => (d.interp tt f).getD 0, ?_, ?_⟩
  · have hp := h.1
    have step : ∀ k, k < d.nb → ContinuousOn (fun tt => (d.interp tt f).getD 0) (Set.Icc (d.times 0) (d.times k)) := by
      intro k
      induction k with
      | zero => exact fun _ => by rw [Set.Icc_self]; exact continuousOn_singleton _ _
      | succ k ih =>
        intro hk
        have e : Set.Icc (d.times 0) (d.times (k + 1)) = Set.Icc (d.times 0) (d.times k) ∪ Set.Icc (d.times k) (d.times (k + 1)) := by
          refine (Set.Icc_union_Icc_eq_Icc ?_ (h.2 k (by omega) (k + 1) hk (by omega)).le).symm
          rcases Nat.eq_zero_or_pos k with rfl | h0
          · exact le_rfl
          · exact (h.2 0 hp k (by omega) h0).le
        rw [e]
        refine (ih (by omega)).union_of_isClosed ?_ isClosed_Icc isClosed_Icc
        refine (piece_continuous d f k).continuousOn.congr fun tt ht => ?_
        simp only [interp_piece h hk f ht.1 ht.2, Option.getD_some]
    have e : Set.Ici (d.times 0) = Set.Icc (d.times 0) (d.times (d.nb - 1)) ∪ Set.Ici (d.times (d.nb - 1)) := by
      refine (Set.Icc_union_Ici_eq_Ici ?_).symm
      rcases Nat.eq_zero_or_pos (d.nb - 1) with h0 | h0
      · rw [h0]
      · exact (h.2 0 hp _ (by omega) h0).le
    rw [e]
    refine (step _ (by omega)).union_of_isClosed ?_ isClosed_Icc isClosed_Ici
    refine (continuousOn_const (c := f (d.slice (d.nb - 1)))).congr fun tt ht => ?_
    simp only [interp_after d h tt ht, Option.getD_some]
  · intro tt ht
    have : ∃ it, search d.times tt d.nb = some it := by
      have hp := h.1
      obtain ⟨n, hn⟩ : ∃ n, d.nb = n + 1 := ⟨d.nb - 1, by omega⟩
      rw [hn]
      clear hn
      induction n with
      | zero => exact ⟨0, by simp [search, not_lt.2 ht]⟩
      | succ n ih =>
        rw [search]
        split
        · exact ih
        · exact ⟨_, rfl⟩
    obtain ⟨it, hit⟩ := this
    simp [Dates.interp, hit]

/-- **C138 refuted (`gmunu_up`, `gmunu_di`).** With a single slice — every stationary metric — they read `times_[1]`, which does not exist, whatever the
date. -/
theorem single_slice_wrong (d : Dates) (h1 : d.nb = 1) (tt : ℝ) (f : Slice → ℝ) : d.interpFall tt f = .ub := by
  rw [Dates.interpFall]
  rcases e : search d.times tt d.nb with _ | it
  · rfl
  · obtain ⟨a, -⟩ := search_some e
    obtain rfl : it = 0 := by omega
    simp [h1]

/-- **C138 refuted (`gmunu_up`, `gmunu_di`).** With several slices they throw in the first interval, in the last two … and after the last date. -/
theorem fall_wrong (d : Dates) (h : d.Ordered) (h2 : 2 ≤ d.nb) (tt : ℝ) (f : Slice → ℝ)
    (ht : d.times 0 ≤ tt ∧ tt < d.times 1 ∨ d.times (d.nb - 2) ≤ tt) : d.interpFall tt f = .throws := by
  have key : ∃ it, search d.times tt d.nb = some it ∧ (it = 0 ∨ d.nb ≤ it + 2) ∧ it < d.nb := by
    rcases ht with ⟨ha, hb⟩ | ha
    · exact ⟨0, search_ordered h (by omega) ha fun _ => hb, Or.inl rfl, by omega⟩
    · rcases lt_or_ge tt (d.times (d.nb - 1)) with hl | hl
      · refine ⟨d.nb - 2, search_ordered h (by omega) ha fun _ => ?_, by omega, by omega⟩
        rw [show d.nb - 2 + 1 = d.nb - 1 by omega]
        exact hl
      · exact ⟨d.nb - 1, search_ordered h (by omega) hl fun hk => absurd hk (by omega), by omega, by omega⟩
  obtain ⟨it, e, hit, hlt⟩ := key
  simp only [Dates.interpFall, e]
  rw [if_neg (by omega)]
  split
  · rfl
  · rw [if_pos (by omega)]

/-- **C138 (`gmunu_up`, `gmunu_di`).** Between the second date and the last but one they give what `interp` gives. -/
theorem fall_partial (d : Dates) (h : d.Ordered) (tt : ℝ) (f : Slice → ℝ) (k : ℕ) (h1 : 1 ≤ k) (h2 : k + 2 < d.nb) (ha : d.times k ≤ tt)
    (hb : tt < d.times (k + 1)) : ∃ x, d.interpFall tt f = .val x ∧ d.interp tt f = some x := by
  have hs := search_ordered h (by omega) ha fun _ => hb
  simp only [Dates.interpFall, Dates.interp, hs, Option.map_some]
  rw [if_neg (by omega), if_neg (by omega), if_neg (by omega), if_neg (by omega), if_neg (by omega)]
  exact ⟨_, rfl, rfl⟩

/-- Flat space at two dates, with another lapse. -/
noncomputable def twoLapses (N0 N1 : ℝ) : Dates where
  nb := 2
  times := fun i => i
  slice := fun i => { lapse := const (if i = 0 then N0 else N1), shift := fun _ => const 0, gcov := fun i j => if i = j then const 1 else const 0,
                      gcon := fun i j => if i = j then const 1 else const 0, kij := fun _ _ => const 0 }

theorem twoLapses_ordered (N0 N1 : ℝ) : (twoLapses N0 N1).Ordered := by
  refine ⟨by norm_num [twoLapses], fun i _ j _ hij => ?_⟩
  show ((i : ℕ) : ℝ) < (j : ℕ)
  exact_mod_cast hij

/-- **C138 refuted (lapse).** Half-way between two dates, the lapse that `computeNBeta` gives is not the lapse of the metric that `gmunu` gives,
unless both slices have the same lapse. -/
theorem lapse_wrong (N0 N1 : ℝ) (hne : N0 ≠ N1) (p : Vec) (hp : p 0 = 1 / 2) :
    ∃ g N, (twoLapses N0 N1).gmunu p 0 0 = some g ∧ (∀ i : Fin 3, (twoLapses N0 N1).gmunu p 0 i.succ = some 0) ∧ (twoLapses N0 N1).lapse p = some N ∧
      g ≠ -N ^ 2 := by
  have hs := search_ordered (twoLapses_ordered N0 N1) (tt := p 0) (it := 0) (by norm_num [twoLapses]) (by norm_num [twoLapses, hp]) fun _ => by norm_num [twoLapses, hp]
  refine ⟨-(N0 ^ 2 + N1 ^ 2) / 2, (N0 + N1) / 2, ?_, fun i => ?_, ?_, ?_⟩
  · simp only [Dates.gmunu, Dates.interp, hs, Option.map_some, Option.some.injEq]
    rw [if_neg (by norm_num [twoLapses]), if_pos (Or.inr trivial)]
    simp [twoLapses, Slice.gmunu, const, hp]
    ring
  · simp only [Dates.gmunu, Dates.interp, hs, Option.map_some, Option.some.injEq]
    rw [if_neg (by norm_num [twoLapses]), if_pos (Or.inr trivial)]
    fin_cases i <;> simp [twoLapses, Slice.gmunu, const]
  · simp only [Dates.lapse, Dates.interp, hs, Option.map_some, Option.some.injEq]
    rw [if_neg (by norm_num [twoLapses]), if_pos (Or.inr trivial)]
    simp [twoLapses, Slice.nBeta, const, hp]
    ring
  · intro he
    apply hne
    have : (N0 - N1) ^ 2 = 0 := by linear_combination -4 * he
    exact sub_eq_zero.1 (pow_eq_zero_iff (by norm_num) |>.1 this)

/-- **C138 refuted (motion).** The rates of change that `diff31` gives are those of the date zero, even where the metric has another lapse: light that
goes outwards has the speed `N0` instead of `N1`. -/
theorem diff31_wrong (N0 N1 : ℝ) (y : State31) (hy : y.v = ![1, 0, 0]) (tt : ℝ) (ht : 1 ≤ tt) :
    (twoLapses N0 N1).diff31 y true 0 = some N0 ∧ (twoLapses N0 N1).diff31 y false 0 = some N0 ∧
      (twoLapses N0 N1).gmunu ![tt, y.x 0, y.x 1, y.x 2] 0 0 = some (-N1 ^ 2) ∧ (twoLapses N0 N1).gmunu ![tt, y.x 0, y.x 1, y.x 2] 1 1 = some 1 ∧
      (twoLapses N0 N1).diffAt tt y true 0 = some N1 := by
  have a0 := interp_at (twoLapses N0 N1) (twoLapses_ordered N0 N1) 0 (by norm_num [twoLapses])
  have a1 := interp_after (twoLapses N0 N1) (twoLapses_ordered N0 N1) tt (by simpa [twoLapses] using ht)
  have t0 : (twoLapses N0 N1).times 0 = 0 := by simp [twoLapses]
  rw [t0] at a0
  refine ⟨?_, ?_, ?_, ?_, ?_⟩
  · simp only [Dates.diff31, Dates.diffAt, a0]
    simp [twoLapses, Slice.diffCirc, const, hy]
  · simp only [Dates.diff31, Dates.diffAt, a0]
    simp [twoLapses, Slice.diffGen, const, hy]
  · simp only [Dates.gmunu, Matrix.cons_val_zero, a1]
    simp [twoLapses, Slice.gmunu, const]
    ring
  · simp only [Dates.gmunu, Matrix.cons_val_zero, a1]
    simp [twoLapses, Slice.gmunu, const]
  · simp only [Dates.diffAt, a1]
    simp [twoLapses, Slice.diffCirc, const, hy]

/-- **C138 (`christoffel`).** With one slice and from its date on, the symbols are those of the slice; with more than one there is an error. -/
theorem christoffel_dates (d : Dates) (p : Vec) (α μ ν : Fin 4) :
    (d.nb = 1 ∧ d.times 0 ≤ p 0 → ∃ x, d.christoffel p α μ ν = .val x ∧ x = (d.slice 0).christoffel p α μ ν) ∧ (1 < d.nb → d.christoffel p α μ ν = .throws) := by
  constructor
  · rintro ⟨h1, h2⟩
    refine ⟨_, ?_, rfl⟩
    have hs : search d.times (p 0) 1 = some 0 := by simp [search, not_lt.2 h2]
    simp [Dates.christoffel, h1, hs]
  · intro h
    simp [Dates.christoffel, h]

example : (twoLapses 1 2).gmunu ![1 / 2, 10, 1, 0] 0 0 = some (-5 / 2) ∧ (twoLapses 1 2).lapse ![1 / 2, 10, 1, 0] = some (3 / 2) := by
  have hs := search_ordered (twoLapses_ordered 1 2) (tt := 1 / 2) (it := 0) (by norm_num [twoLapses]) (by norm_num [twoLapses]) fun _ => by norm_num [twoLapses]
  constructor
  · simp only [Dates.gmunu, Dates.interp, Matrix.cons_val_zero, hs, Option.map_some, Option.some.injEq]
    rw [if_neg (by norm_num [twoLapses]), if_pos (Or.inr trivial)]
    norm_num [twoLapses, Slice.gmunu, const]
  · simp only [Dates.lapse, Dates.interp, Matrix.cons_val_zero, hs, Option.map_some, Option.some.injEq]
    rw [if_neg (by norm_num [twoLapses]), if_pos (Or.inr trivial)]
    norm_num [twoLapses, Slice.nBeta, const]

end Gyoto.Lorene
