import Verif.Lemmas.CoordSet
import Mathlib.Tactic.Linarith

/-! # C06 — iterating over sets of pixels -/

namespace Gyoto.Coords

/-- The values of a range, in order (characterises a single list). -/
structure IsRange (mi ma d : Nat) (l : List Nat) : Prop where
  mem : ∀ x, x ∈ l ↔ mi ≤ x ∧ x ≤ ma ∧ d ∣ x - mi
  sorted : l.Pairwise (· < ·)

/-- **C06, one dimension.** For every non-empty range with positive step (not reaching the limit of
`size_t`), iteration visits the values `mi, mi+d, … ≤ ma`, once each, in increasing order; `size()` is their
number and `index()` their rank. -/
theorem range_visits (mi ma d : Nat) (hd : 0 < d) (hle : mi ≤ ma) (hov : ma + d < w64) :
    ∃ l, Enum1 (range mi ma d) mi l ∧ IsRange mi ma d l ∧ (range mi ma d).size = l.length ∧
      ∀ k x, l[k]? = some x → (range mi ma d).index x = k := by
  have hdm := Nat.div_add_mod (ma - mi) d
  have hml := Nat.mod_lt (ma - mi) hd
  have hc : d * ((ma - mi) / d) = (ma - mi) / d * d := Nat.mul_comm _ _
  refine ⟨_, enum_range ma d hd hov ((ma - mi) / d) mi mi (by omega) (by omega), ⟨?_, ?_⟩, ?_, ?_⟩
  · intro x
    simp only [List.mem_map, List.mem_range]
    constructor
    · rintro ⟨k, hk, rfl⟩
      have : k * d ≤ (ma - mi) / d * d := Nat.mul_le_mul_right d (by omega)
      exact ⟨by omega, by omega, ⟨k, by rw [Nat.mul_comm d k]; omega⟩⟩
    · rintro ⟨h1, h2, k, hk⟩
      refine ⟨k, ?_, by rw [Nat.mul_comm k d]; omega⟩
      have : k ≤ (ma - mi) / d := by
        rw [Nat.le_div_iff_mul_le hd, Nat.mul_comm]; omega
      omega
  · rw [List.pairwise_map]
    refine (List.pairwise_lt_range).imp ?_
    intro a b h
    have : a * d < b * d := Nat.mul_lt_mul_of_pos_right h hd
    omega
  · simp only [range, List.length_map, List.length_range]
    have e : (ma + w64 - mi) % w64 = ma - mi := by
      rw [show ma + w64 - mi = (ma - mi) + w64 by omega, Nat.add_mod_right]
      exact Nat.mod_eq_of_lt (by omega)
    rw [e]
    apply Nat.mod_eq_of_lt
    have := Nat.div_le_self (ma - mi) d
    omega
  · intro k x h
    simp only [List.getElem?_map, Option.map_eq_some_iff] at h
    obtain ⟨k', hk', rfl⟩ := h
    have hk : k' = k ∧ k < (ma - mi) / d + 1 := by
      rw [List.getElem?_eq_some_iff] at hk'
      obtain ⟨h1, h2⟩ := hk'
      simp at h1 h2
      exact ⟨h2.symm, h1⟩
    obtain ⟨rfl, hk⟩ := hk
    have : k' * d ≤ (ma - mi) / d * d := Nat.mul_le_mul_right d (by omega)
    simp only [range]
    rw [show mi + k' * d + w64 - mi = k' * d + w64 by omega, Nat.add_mod_right,
      Nat.mod_eq_of_lt (by omega), Nat.mul_div_cancel _ hd]

example : 0 < 3 ∧ 2 ≤ 12 ∧ 12 + 3 < w64 ∧ Enum1 (range 2 12 3) 2 [2, 5, 8, 11] :=
  ⟨by decide, by decide, by decide, enum_range 12 3 (by decide) (by decide) 3 2 2 (by decide) (by decide)⟩

/-- **C06.** The grid built on two such ranges visits every pixel `(i, j)` with `i` in the first and `j` in
the second range exactly once, row after row (`i` varies fastest); `size()` is the number of pixels. -/
theorem grid_visits (mi ma d mj mb e : Nat) (hd : 0 < d) (he : 0 < e) (hi : mi ≤ ma) (hj : mj ≤ mb)
    (hov : ma + d < w64) (hov' : mb + e < w64)
    (hsz : (range mi ma d).size * (range mj mb e).size < w64) :
    let g := grid (range mi ma d) (range mj mb e)
    ∃ l, Enum2 g g.start l ∧
      (∀ i j, (i, j) ∈ l ↔ (mi ≤ i ∧ i ≤ ma ∧ d ∣ i - mi) ∧ (mj ≤ j ∧ j ≤ mb ∧ e ∣ j - mj)) ∧
      l.Pairwise (fun p q => p.2 < q.2 ∨ (p.2 = q.2 ∧ p.1 < q.1)) ∧
      g.size = l.length := by
  obtain ⟨li, a1, a2, a3, -⟩ := range_visits mi ma d hd hi hov
  obtain ⟨lj, b1, b2, b3, -⟩ := range_visits mj mb e he hj hov'
  have hne : li ≠ [] := by
    have := (a2.mem mi).2 ⟨le_refl _, hi, by simp⟩
    intro h; rw [h] at this; simp at this
  refine ⟨_, enum_grid a1 hne lj _ b1, ?_, ?_, ?_⟩
  · intro i j
    simp only [List.mem_flatMap, List.mem_map, Prod.mk.injEq]
    rw [← a2.mem i, ← b2.mem j]
    constructor
    · rintro ⟨y, hy, x, hx, rfl, rfl⟩; exact ⟨hx, hy⟩
    · rintro ⟨hx, hy⟩; exact ⟨j, hy, i, hx, rfl, rfl⟩
  · rw [List.pairwise_flatMap]
    constructor
    · intro y _
      rw [List.pairwise_map]
      exact a2.sorted.imp fun h => Or.inr ⟨rfl, h⟩
    · refine b2.sorted.imp ?_
      intro y y' h p hp q hq
      simp only [List.mem_map] at hp hq
      obtain ⟨_, _, rfl⟩ := hp
      obtain ⟨_, _, rfl⟩ := hq
      exact Or.inl h
  · simp only [grid]
    rw [Nat.mod_eq_of_lt hsz, a3, b3, List.length_flatMap]
    simp [Nat.mul_comm]

/-- The hypotheses, on a 3 × 2 selection. -/
example : (range 1 6 2).size * (range 4 5 1).size < w64 ∧
    Enum2 (grid (range 1 6 2) (range 4 5 1)) (1, 4)
      [(1, 4), (3, 4), (5, 4), (1, 5), (3, 5), (5, 5)] := by
  refine ⟨by decide, ?_⟩
  have a := enum_range 6 2 (by decide) (by decide) 2 1 1 (by decide) (by decide)
  have b := enum_range 5 1 (by decide) (by decide) 1 4 4 (by decide) (by decide)
  exact enum_grid (a := range 1 6 2) (b := range 4 5 1) a (by decide) _ _ b

/-- **C06, explicit lists.** A grid on two explicit lists of indices, and a bucket of two lists of equal
length, visit the product in row order and the pairs, respectively. -/
theorem lists_visited {V : Type} (u v : List V) :
    Enum2 (grid (indices u) (indices v)) (0, 0) (v.flatMap fun y => u.map fun x => (x, y)) ∧
    (u.length = v.length → ∃ s, bucket (indices u) (indices v) = some s ∧ s.start = (0, 0) ∧
      s.size = (u.zip v).length ∧ Enum2 s (0, 0) (u.zip v)) ∧
    (u.length ≠ v.length → bucket (indices u) (indices v) = none) := by
  refine ⟨?_, ?_, ?_⟩
  · have hu := enum_indices_from u u 0 rfl
    have hv := enum_indices_from v v 0 rfl
    by_cases hne : u = []
    · subst hne
      have := enum_grid_empty (b := indices v) hu 0
      have e : (v.flatMap fun y => List.map (fun x => (x, y)) ([] : List V)) = [] := by simp
      rw [e]; exact this
    · exact enum_grid hu hne v 0 hv
  · intro h
    refine ⟨_, by simp [bucket, indices, h]; rfl, rfl, by simp [h], ?_⟩
    exact enum_bucket (a := indices u) (b := indices v) (by simp [bucket, indices, h]) u v 0 0
      (enum_indices_from u u 0 rfl) (enum_indices_from v v 0 rfl)
  · intro h; simp [bucket, indices, h]

/-- **C06, repeated value.** A repeated value is delivered the announced number of times, and pairing it with
an explicit list of the same length delivers each value of the list with it. -/
theorem repeated_visited {V : Type} (x : V) (v : List V) :
    Enum1 (repeated x v.length) (repeated x v.length).start (List.replicate v.length x) ∧
    (repeated x v.length).size = v.length ∧
    ∃ s, bucket (repeated x v.length) (indices v) = some s ∧ s.size = v.length ∧
      Enum2 s s.start (v.map fun y => (x, y)) := by
  have h := enum_repeated_from x v.length v.length 0 (by omega)
  refine ⟨h, rfl, _, if_neg (by simp [repeated, indices]), rfl, ?_⟩
  have := enum_bucket (a := repeated x v.length) (b := indices v) (if_neg (by simp [repeated, indices]))
    (List.replicate v.length x) v 0 0 h (enum_indices_from v v 0 rfl)
  have e : (List.replicate v.length x).zip v = v.map fun y => (x, y) := by
    clear this h
    induction v with
    | nil => rfl
    | cons a v ih => simp [List.replicate_succ, ih]
  rw [e] at this
  exact this

example : Enum1 (repeated 'a' 3) 0 ['a', 'a', 'a'] := enum_repeated_from 'a' 3 3 0 rfl

/-- **Finding (C06).** The advertised size of an empty range is not 0: the subtraction wraps. -/
theorem empty_range_size : Enum1 (range 2 1 2) 2 [] ∧ (range 2 1 2).size = 2 ^ 63 :=
  ⟨.done rfl, by decide⟩

/-- **Finding (C06).** A range ending within one step of the limit of `size_t` never ends: after the last
value the iterator wraps to a valid one. -/
theorem range_at_limit_wraps : (range 0 (2 ^ 64 - 1) 1).valid ((range 0 (2 ^ 64 - 1) 1).next (2 ^ 64 - 1)) =
    true ∧ (range 0 (2 ^ 64 - 1) 1).next (2 ^ 64 - 1) = 0 := by
  decide

end Gyoto.Coords
