import Verif.Lemmas.Interp
import Mathlib.Tactic.NormNum

/-! # C32: interpolating tabulated data, C33: look-ups stay inside the table -/

namespace Gyoto.Interp

open Finset

/-- A table: along each of `N` dimensions `L d` nodes at increasing coordinates `node d i`, the values `T` being stored row by
row in `array`. -/
structure Table (N : Nat) (L : Nat → Nat) (node : Nat → Nat → ℝ) (T : (Nat → Nat) → ℝ) (array : List ℝ) : Prop where
  dims : 0 < N
  len : ∀ d < N, 1 ≤ L d
  incr : ∀ d < N, ∀ i, i + 1 < L d → node d i < node d (i + 1)
  vals : ∀ idx, (∀ d < N, idx d < L d) → array[flat L idx N]? = some (T idx)

/-- The arguments given to `interpolate`. -/
def axesOf (N : Nat) (L : Nat → Nat) (node : Nat → Nat → ℝ) : List Axis :=
  (List.range N).map fun d => .nodes ((List.range (L d)).map (node d))

/-- The query is inside the table along `d`. -/
def Inside (L : Nat → Nat) (node : Nat → Nat → ℝ) (q : Nat → ℝ) (d : Nat) : Prop :=
  node d 0 ≤ q d ∧ q d ≤ node d (L d - 1)

/-- Where the value is wanted: the nearest point of the table for the condition "Constant". -/
noncomputable def wanted (L : Nat → Nat) (node : Nat → Nat → ℝ) (q : Nat → ℝ) (c : Nat → Cond) (d : Nat) : ℝ :=
  if c d = .constant then max (node d 0) (min (q d) (node d (L d - 1))) else q d

/-- The conditions under which a value can be given, and those under which the code consults the right condition: along a
dimension in which the query is outside, the condition is "Constant" or "Linear", and the dimension at the same rank counted from
the end has the same one of the two. -/
structure Query (N : Nat) (L : Nat → Nat) (node : Nat → Nat → ℝ) (q : Nat → ℝ) (c : Nat → Cond) : Prop where
  one : ∀ d < N, L d = 1 → c d ≠ .linear ∧ c d ≠ .periodic
  out : ∀ d < N, L d ≠ 1 → ¬ Inside L node q d → c d = .constant ∨ c d = .linear
  mirror : ∀ d < N, L d ≠ 1 → ¬ Inside L node q d → (c (N - 1 - d) = .constant ↔ c d = .constant)

theorem Table.mono {N : Nat} {L : Nat → Nat} {node : Nat → Nat → ℝ} {T : (Nat → Nat) → ℝ} {array : List ℝ}
    (h : Table N L node T array) {d : Nat} (hd : d < N) (i : Nat) : ∀ m, i + m < L d → node d i ≤ node d (i + m) := by
  intro m
  induction m with
  | zero => intro _; simp
  | succ m ih =>
    intro hm
    have h1 := ih (by omega)
    have h2 := h.incr d hd (i + m) (by omega)
    exact le_of_lt (lt_of_le_of_lt h1 h2)

theorem usedPos_inside {q x0 x1 : ℝ} (c c' : Cond) (h : x0 < x1) (h0 : x0 ≤ q) (h1 : q ≤ x1) :
    usedPos q x0 x1 c c' = .ok ((q - x0) / (x1 - x0)) := by
  have hp : 0 < x1 - x0 := by linarith
  have h2 : 0 ≤ (q - x0) / (x1 - x0) := div_nonneg (by linarith) hp.le
  have h3 : (q - x0) / (x1 - x0) ≤ 1 := by rw [div_le_one hp]; linarith
  simp only [usedPos, hp.ne', if_false]
  rw [if_neg]
  rintro (h | h) <;> linarith

theorem node_ok {L : Nat} (node : Nat → ℝ) {k : Nat} (h : k < L) :
    (Axis.nodes ((List.range L).map node)).node (k : Int) = .ok (node k) := by
  simp only [Axis.node, geti, Int.toNat_natCast]
  rw [if_neg (by omega), get_range_map _ h]

theorem index_eq {L : Nat} (node : Nat → ℝ) (q : ℝ) (c : Cond) (h : 1 ≤ L) :
    (Axis.nodes ((List.range L).map node)).index q c =
      getIndice q c (node 0) (node (L - 1)) L (some ((List.range L).map node)) := by
  have e : ((L : Int) - 1).toNat = L - 1 := by omega
  simp only [Axis.index, geti, List.length_map, List.length_range, e, bind, Except.bind]
  rw [get_range_map _ (by omega), if_neg (by omega), get_range_map _ (by omega)]

/-- One dimension. -/
theorem dim_ok {N : Nat} {L : Nat → Nat} {node : Nat → Nat → ℝ} {T : (Nat → Nat) → ℝ} {array : List ℝ}
    (hT : Table N L node T array) {q : Nat → ℝ} {c : Nat → Cond} (hQ : Query N L node q c) {d : Nat} (hd : d < N) :
    ∃ k t, (L d = 1 ∧ k = 0 ∧ t = 0 ∨ k + 1 < L d ∧ wanted L node q c d = (1 - t) * node d k + t * node d (k + 1) ∧
        (c d ≠ .linear ∨ Inside L node q d → 0 ≤ t ∧ t ≤ 1)) ∧
      (Axis.nodes ((List.range (L d)).map (node d))).index (q d) (c d) = .ok ((k : Int), q d) ∧
      usedPos (q d) (node d (min (k + 0) (L d - 1))) (node d (min (k + 1) (L d - 1))) (c d) (c (N - 1 - d)) = .ok t := by
  have hL := hT.len d hd
  rw [index_eq _ _ _ hL]
  by_cases h1 : L d = 1
  · obtain ⟨c1, c2⟩ := hQ.one d hd h1
    refine ⟨0, 0, Or.inl ⟨h1, rfl, rfl⟩, ?_, ?_⟩
    · simp [getIndice, h1, c1, c2]
    · simp [h1, usedPos]
  · have hL2 : 2 ≤ L d := by omega
    have m0 : ∀ k, k + 1 < L d → min (k + 0) (L d - 1) = k ∧ min (k + 1) (L d - 1) = k + 1 := fun k hk => by omega
    have hends : node d 0 ≤ node d (L d - 1) := by
      have := hT.mono hd 0 (L d - 1) (by omega)
      simpa using this
    by_cases hin : Inside L node q d
    · have hx : ∀ i < ((List.range (L d)).map (node d)).length, ((List.range (L d)).map (node d))[i]? = some (node d i) := by
        intro i hi
        exact getElem?_range_map _ (by simpa using hi)
      obtain ⟨k, hk, hk1, hk2, hk3⟩ := search_from (xq := q d) (node d) hx (le_of_lt (hT.incr d hd 0 (by omega)))
        (by simpa using hin.2) (L d - 1) 0 (by simp; omega) hin.1 (Or.inl ⟨rfl, by simp; omega⟩)
      simp only [List.length_map, List.length_range] at hk hk1
      have hlt := hT.incr d hd k hk1
      have hp : 0 < node d (k + 1) - node d k := by linarith
      refine ⟨k, (q d - node d k) / (node d (k + 1) - node d k), Or.inr ⟨hk1, ?_, fun _ => ⟨?_, ?_⟩⟩, ?_, ?_⟩
      · have : wanted L node q c d = q d := by
          unfold wanted
          split
          · rw [min_eq_left hin.2, max_eq_right hin.1]
          · rfl
        rw [this]
        field_simp
        ring
      · exact div_nonneg (by linarith) hp.le
      · rw [div_le_one hp]; linarith
      · have hno : ¬ (q d < node d 0 ∨ q d > node d (L d - 1)) := by
          rintro (h | h)
          · exact absurd hin.1 (not_le.2 h)
          · exact absurd hin.2 (not_le.2 h)
        simp only [getIndice, h1, false_and, if_false, hno, hk, Except.map]
      · rw [(m0 k hk1).1, (m0 k hk1).2]
        exact usedPos_inside _ _ hlt hk2 hk3
    · have hc := hQ.out d hd h1 hin
      have hm := hQ.mirror d hd h1 hin
      have hcn : c d ≠ .none := by rcases hc with h | h <;> simp [h]
      by_cases hlo : q d < node d 0
      · have hlt := hT.incr d hd 0 (by omega)
        have hp : 0 < node d (0 + 1) - node d 0 := by linarith
        have hneg : (q d - node d 0) / (node d (0 + 1) - node d 0) < 0 := div_neg_of_neg_of_pos (by linarith) hp
        have hidx : getIndice (q d) (c d) (node d 0) (node d (L d - 1)) (L d) (some ((List.range (L d)).map (node d)))
            = .ok (((0 : Nat) : Int), q d) := by
          rcases hc with h | h <;> simp [getIndice, h1, hlo, h]
        rcases hc with h | h
        · refine ⟨0, 0, Or.inr ⟨by omega, ?_, fun _ => ⟨le_rfl, by norm_num⟩⟩, hidx, ?_⟩
          · rw [wanted, if_pos h, max_eq_left (le_trans (min_le_left _ _) hlo.le)]; ring
          · rw [(m0 0 (by omega)).1, (m0 0 (by omega)).2]
            simp [usedPos, hp.ne', hneg, h, hm.2 h]
        · refine ⟨0, (q d - node d 0) / (node d (0 + 1) - node d 0), Or.inr ⟨by omega, ?_, ?_⟩, hidx, ?_⟩
          · rw [wanted, if_neg (by simp [h])]; field_simp; ring
          · rintro (h' | h')
            · exact absurd h h'
            · exact absurd h' hin
          · have hm' : c (N - 1 - d) ≠ .constant := fun e => by rw [hm.1 e] at h; simp at h
            rw [(m0 0 (by omega)).1, (m0 0 (by omega)).2]
            simp [usedPos, hp.ne', hneg, h, hm']
      · have hhi : q d > node d (L d - 1) := by
          by_contra hcon
          exact hin ⟨not_lt.1 hlo, not_lt.1 hcon⟩
        have hlt := hT.incr d hd (L d - 2) (by omega)
        have el : L d - 2 + 1 = L d - 1 := by omega
        have hp : 0 < node d (L d - 2 + 1) - node d (L d - 2) := by linarith
        have hgt : (q d - node d (L d - 2)) / (node d (L d - 2 + 1) - node d (L d - 2)) > 1 := by
          rw [gt_iff_lt, one_lt_div hp, el]; linarith
        have hnn : ¬ (q d - node d (L d - 2)) / (node d (L d - 2 + 1) - node d (L d - 2)) < 0 := by linarith
        have hidx : getIndice (q d) (c d) (node d 0) (node d (L d - 1)) (L d) (some ((List.range (L d)).map (node d)))
            = .ok (((L d - 2 : Nat) : Int), q d) := by
          have e : ((L d - 2 : Nat) : Int) = (L d : Int) - 2 := by omega
          rcases hc with h | h <;> simp [getIndice, h1, hlo, hhi, h, e]
        rcases hc with h | h
        · refine ⟨L d - 2, 1, Or.inr ⟨by omega, ?_, fun _ => ⟨by norm_num, le_rfl⟩⟩, hidx, ?_⟩
          · rw [wanted, if_pos h, min_eq_right hhi.le, max_eq_right hends, el]; ring
          · rw [(m0 _ (by omega)).1, (m0 _ (by omega)).2]
            simp [usedPos, hp.ne', hgt, hnn, h, hm.2 h]
        · refine ⟨L d - 2, (q d - node d (L d - 2)) / (node d (L d - 2 + 1) - node d (L d - 2)), Or.inr ⟨by omega, ?_, ?_⟩,
            hidx, ?_⟩
          · rw [wanted, if_neg (by simp [h])]; field_simp; ring
          · rintro (h' | h')
            · exact absurd h h'
            · exact absurd h' hin
          · have hm' : c (N - 1 - d) ≠ .constant := fun e => by rw [hm.1 e] at h; simp at h
            rw [(m0 _ (by omega)).1, (m0 _ (by omega)).2]
            simp [usedPos, hp.ne', hgt, h, hm']

/-- **C32 (partial: see `constant_wrong`, `linear_wrong` for the missing part)** For every dimension, table and query, the value is the multilinear combination, in
the cell that contains the wanted point, of the values at its corners; outside the table, the query is first moved to the nearest
point of the table along "Constant" dimensions, and the last cell is extended along "Linear" ones. -/
theorem interpolate_value_partial {N : Nat} {L : Nat → Nat} {node : Nat → Nat → ℝ} {T : (Nat → Nat) → ℝ} {array : List ℝ}
    (hT : Table N L node T array) {q : Nat → ℝ} {c : Nat → Cond} (hQ : Query N L node q c) :
    ∃ (k : Nat → Nat) (t : Nat → ℝ),
      (∀ d < N, L d = 1 ∧ k d = 0 ∧ t d = 0 ∨
        k d + 1 < L d ∧ wanted L node q c d = (1 - t d) * node d (k d) + t d * node d (k d + 1) ∧
        (c d ≠ .linear ∨ Inside L node q d → 0 ≤ t d ∧ t d ≤ 1)) ∧
      interpolate N array ((List.range N).map q) (axesOf N L node) ((List.range N).map c) =
        .ok (multilinear N t (fun S => T fun d => min (k d + bit S d) (L d - 1)), (List.range N).map q) := by
  have hall : ∀ d, ∃ k t, d < N → (L d = 1 ∧ k = 0 ∧ t = 0 ∨ k + 1 < L d ∧
        wanted L node q c d = (1 - t) * node d k + t * node d (k + 1) ∧
        (c d ≠ .linear ∨ Inside L node q d → 0 ≤ t ∧ t ≤ 1)) ∧
      (Axis.nodes ((List.range (L d)).map (node d))).index (q d) (c d) = .ok ((k : Int), q d) ∧
      usedPos (q d) (node d (min (k + 0) (L d - 1))) (node d (min (k + 1) (L d - 1))) (c d) (c (N - 1 - d)) = .ok t := by
    intro d
    by_cases hd : d < N
    · obtain ⟨k, t, h⟩ := dim_ok hT hQ hd
      exact ⟨k, t, fun _ => h⟩
    · exact ⟨0, 0, fun h => absurd h hd⟩
  choose k t hkt using hall
  refine ⟨k, t, fun d hd => (hkt d hd).1, ?_⟩
  have hoff : ∀ d < N, ∀ b ≤ 1, k d + off (.nodes ((List.range (L d)).map (node d))) b = min (k d + b) (L d - 1) ∧
      min (k d + b) (L d - 1) < L d := by
    intro d hd b hb
    have hl : (Axis.nodes ((List.range (L d)).map (node d))).len = L d := by simp [Axis.len]
    have := hT.len d hd
    rw [off, hl]
    rcases (hkt d hd).1 with ⟨h1, h2, _⟩ | ⟨h1, _⟩
    · rw [if_pos h1]; omega
    · rw [if_neg (by omega)]; omega
  refine interpolate_gen hT.dims (k := k) (x := fun d b => node d (min (k d + b) (L d - 1)))
    (fun d hd => (hkt d hd).2.1) ?_ ?_ (fun d hd => (hkt d hd).2.2)
  · intro d hd b hb
    obtain ⟨h1, h2⟩ := hoff d hd b hb
    rw [← Nat.cast_add, h1]
    exact node_ok _ h2
  · intro S hS
    have hb : ∀ d, bit S d ≤ 1 := fun d => by unfold bit; split <;> omega
    have hl : (fun d => (Axis.nodes ((List.range (L d)).map (node d))).len) = L := by funext d; simp [Axis.len]
    rw [hl, flat_congr (idx' := fun d => min (k d + bit S d) (L d - 1)) fun d hd => (hoff d hd _ (hb d)).1]
    exact hT.vals _ fun d hd => (hoff d hd _ (hb d)).2

theorem multilinear_vertex (N : Nat) (t : Nat → ℝ) (V : Finset Nat → ℝ) (ht : ∀ d < N, t d = 0 ∨ t d = 1) :
    multilinear N t V = V ((range N).filter fun d => t d = 1) := by
  induction N generalizing V with
  | zero => simp [multilinear_zero]
  | succ N ih =>
    have ht' : ∀ d < N, t d = 0 ∨ t d = 1 := fun d hd => ht d (by omega)
    rw [multilinear_succ, ih _ ht', ih _ ht', range_add_one, filter_insert]
    rcases ht N (by omega) with h | h
    · rw [h]; simp
    · rw [h]; simp

theorem multilinear_mono {N : Nat} {t : Nat → ℝ} {V W : Finset Nat → ℝ} (ht : ∀ d < N, 0 ≤ t d ∧ t d ≤ 1)
    (h : ∀ S ⊆ range N, V S ≤ W S) : multilinear N t V ≤ multilinear N t W := by
  refine sum_le_sum fun S hS => mul_le_mul_of_nonneg_left (h S (mem_powerset.1 hS)) (prod_nonneg fun d hd => ?_)
  have := ht d (by simpa using hd)
  split <;> linarith

theorem multilinear_const (N : Nat) (t : Nat → ℝ) (v : ℝ) : multilinear N t (fun _ => v) = v := by
  induction N with
  | zero => simp [multilinear_zero]
  | succ N ih => rw [multilinear_succ, ih]; ring

/-- `f` is affine in its variable `d`. -/
def AffineIn (f : (Nat → ℝ) → ℝ) (d : Nat) : Prop :=
  ∀ (z : Nat → ℝ) (a b s : ℝ), f (Function.update z d ((1 - s) * a + s * b)) =
    (1 - s) * f (Function.update z d a) + s * f (Function.update z d b)

theorem multilinear_affine {f : (Nat → ℝ) → ℝ} (t lo hi : Nat → ℝ) :
    ∀ n, (∀ d < n, AffineIn f d) → ∀ y : Nat → ℝ,
      multilinear n t (fun S => f fun d => if d < n then (if d ∈ S then hi d else lo d) else y d) =
        f fun d => if d < n then (1 - t d) * lo d + t d * hi d else y d := by
  intro n
  induction n with
  | zero => intro _ y; simp [multilinear_zero]
  | succ n ih =>
    intro hf y
    have ih' := ih fun d hd => hf d (by omega)
    have h1 : multilinear n t (fun S => f fun d => if d < n + 1 then (if d ∈ S then hi d else lo d) else y d) =
        f (Function.update (fun d => if d < n then (1 - t d) * lo d + t d * hi d else y d) n (lo n)) := by
      have := ih' (Function.update y n (lo n))
      refine ((multilinear_congr (fun _ _ => rfl) fun S hS => ?_).trans this).trans ?_
      · congr 1
        funext d
        have hn : n ∉ S := fun h => by have := hS h; simp at this
        by_cases hd : d = n
        · subst hd; simp [hn]
        · by_cases hd' : d < n
          · simp [hd', show d < n + 1 by omega]
          · simp [hd', show ¬ d < n + 1 by omega, hd]
      · congr 1
        funext d
        by_cases hd : d = n
        · subst hd; simp
        · simp [hd]
    have h2 : multilinear n t (fun S => f fun d => if d < n + 1 then (if d ∈ insert n S then hi d else lo d) else y d) =
        f (Function.update (fun d => if d < n then (1 - t d) * lo d + t d * hi d else y d) n (hi n)) := by
      have := ih' (Function.update y n (hi n))
      refine ((multilinear_congr (fun _ _ => rfl) fun S hS => ?_).trans this).trans ?_
      · congr 1
        funext d
        by_cases hd : d = n
        · subst hd; simp
        · by_cases hd' : d < n
          · simp [hd', show d < n + 1 by omega, hd]
          · simp [hd', show ¬ d < n + 1 by omega, hd]
      · congr 1
        funext d
        by_cases hd : d = n
        · subst hd; simp
        · simp [hd]
    rw [multilinear_succ, h1, h2, ← hf n (by omega)]
    congr 1
    funext d
    by_cases hd : d = n
    · subst hd; simp
    · by_cases hd' : d < n
      · simp [hd', show d < n + 1 by omega, hd]
      · simp [hd', show ¬ d < n + 1 by omega, hd]

theorem Table.congr {N : Nat} {L : Nat → Nat} {node : Nat → Nat → ℝ} {T : (Nat → Nat) → ℝ} {array : List ℝ}
    (hT : Table N L node T array) {i j : Nat → Nat} (h : ∀ d < N, i d = j d) (hi : ∀ d < N, i d < L d) : T i = T j := by
  have h1 := hT.vals i hi
  have h2 := hT.vals j fun d hd => h d hd ▸ hi d hd
  rw [flat_congr h, h2] at h1
  exact (Option.some.inj h1).symm

/-- The query is inside the table along every dimension (of more than one node). -/
theorem Query.inside {N : Nat} {L : Nat → Nat} {node : Nat → Nat → ℝ} {q : Nat → ℝ} {c : Nat → Cond}
    (h1 : ∀ d < N, L d = 1 → c d ≠ .linear ∧ c d ≠ .periodic) (h : ∀ d < N, L d ≠ 1 → Inside L node q d) :
    Query N L node q c :=
  ⟨h1, fun d hd h2 h3 => absurd (h d hd h2) h3, fun d hd h2 h3 => absurd (h d hd h2) h3⟩

/-- **C32** At a node of the table the value returned is the value of the table. -/
theorem interpolate_node {N : Nat} {L : Nat → Nat} {node : Nat → Nat → ℝ} {T : (Nat → Nat) → ℝ} {array : List ℝ}
    (hT : Table N L node T array) {c : Nat → Cond} (hc : ∀ d < N, L d = 1 → c d ≠ .linear ∧ c d ≠ .periodic)
    (j : Nat → Nat) (hj : ∀ d < N, j d < L d) :
    interpolate N array ((List.range N).map fun d => node d (j d)) (axesOf N L node) ((List.range N).map c) =
      .ok (T j, (List.range N).map fun d => node d (j d)) := by
  have hin : ∀ d < N, L d ≠ 1 → Inside L node (fun d => node d (j d)) d := by
    intro d hd _
    have h1 := hT.mono hd 0 (j d) (by simpa using hj d hd)
    have h2 := hT.mono hd (j d) (L d - 1 - j d) (by have := hj d hd; omega)
    rw [show j d + (L d - 1 - j d) = L d - 1 by have := hj d hd; omega] at h2
    exact ⟨by simpa using h1, h2⟩
  obtain ⟨k, t, h1, h2⟩ := interpolate_value_partial hT (Query.inside hc hin)
  rw [h2]
  have strict : ∀ d < N, ∀ a b, a < b → b < L d → node d a < node d b := by
    intro d hd a b hab hb
    have h3 := hT.incr d hd a (by omega)
    have h4 := hT.mono hd (a + 1) (b - (a + 1)) (by omega)
    rw [show a + 1 + (b - (a + 1)) = b by omega] at h4
    exact lt_of_lt_of_le h3 h4
  have hcase : ∀ d < N, (t d = 0 ∧ j d = k d ∨ t d = 1 ∧ j d = k d + 1) := by
    intro d hd
    rcases h1 d hd with ⟨a, b, e⟩ | ⟨a, b, e⟩
    · have := hj d hd
      exact Or.inl ⟨e, by omega⟩
    · have hw : wanted L node (fun d => node d (j d)) c d = node d (j d) := by
        have hi := hin d hd (by omega)
        unfold wanted
        split
        · rw [min_eq_left hi.2, max_eq_right hi.1]
        · rfl
      rw [hw] at b
      obtain ⟨e1, e2⟩ := e (Or.inr (hin d hd (by omega)))
      have hs := strict d hd (k d) (k d + 1) (by omega) a
      rcases lt_trichotomy (j d) (k d) with h | h | h
      · have := strict d hd _ _ h (by omega)
        nlinarith
      · rw [h] at b
        have : t d * (node d (k d + 1) - node d (k d)) = 0 := by linarith
        rcases mul_eq_zero.1 this with h0 | h0
        · exact Or.inl ⟨h0, h⟩
        · linarith
      · rcases Nat.lt_or_ge (k d + 1) (j d) with h' | h'
        · have := strict d hd _ _ h' (hj d hd)
          nlinarith
        · have hj' : j d = k d + 1 := by omega
          rw [hj'] at b
          have : (1 - t d) * (node d (k d + 1) - node d (k d)) = 0 := by linarith
          rcases mul_eq_zero.1 this with h0 | h0
          · exact Or.inr ⟨by linarith, hj'⟩
          · linarith
  rw [multilinear_vertex _ _ _ fun d hd => (hcase d hd).imp (fun h => h.1) fun h => h.1]
  congr 2
  refine (hT.congr (fun d hd => ?_) hj).symm
  have hjd := hj d hd
  rcases hcase d hd with ⟨e1, e2⟩ | ⟨e1, e2⟩
  · have : bit ((range N).filter fun d => t d = 1) d = 0 := by simp [bit, e1]
    rw [this]; omega
  · have : bit ((range N).filter fun d => t d = 1) d = 1 := by simp [bit, e1, hd]
    rw [this]; omega

/-- **C32** Inside the table, the value lies between any bounds of the values at the corners of the cell containing the query. -/
theorem interpolate_bounds {N : Nat} {L : Nat → Nat} {node : Nat → Nat → ℝ} {T : (Nat → Nat) → ℝ} {array : List ℝ}
    (hT : Table N L node T array) {q : Nat → ℝ} {c : Nat → Cond}
    (hc : ∀ d < N, L d = 1 → c d ≠ .linear ∧ c d ≠ .periodic) (hin : ∀ d < N, L d ≠ 1 → Inside L node q d) :
    ∃ (k : Nat → Nat) (v : ℝ),
      interpolate N array ((List.range N).map q) (axesOf N L node) ((List.range N).map c) = .ok (v, (List.range N).map q) ∧
      (∀ d < N, L d ≠ 1 → k d + 1 < L d ∧ node d (k d) ≤ q d ∧ q d ≤ node d (k d + 1)) ∧
      ∀ lo hi, (∀ idx : Nat → Nat, (∀ d < N, idx d < L d ∧ (idx d = k d ∨ idx d = k d + 1)) → lo ≤ T idx ∧ T idx ≤ hi) →
        lo ≤ v ∧ v ≤ hi := by
  obtain ⟨k, t, h1, h2⟩ := interpolate_value_partial hT (Query.inside hc hin)
  have ht : ∀ d < N, 0 ≤ t d ∧ t d ≤ 1 := by
    intro d hd
    rcases h1 d hd with ⟨a, b, e⟩ | ⟨a, b, e⟩
    · rw [e]; norm_num
    · exact e (Or.inr (hin d hd (by omega)))
  refine ⟨k, _, h2, fun d hd hL => ?_, fun lo hi hb => ?_⟩
  · rcases h1 d hd with ⟨a, -, -⟩ | ⟨a, b, e⟩
    · exact absurd a hL
    · obtain ⟨t0, t1⟩ := ht d hd
      have hi := hin d hd hL
      have hw : wanted L node q c d = q d := by
        unfold wanted
        split
        · rw [min_eq_left hi.2, max_eq_right hi.1]
        · rfl
      have hs := hT.incr d hd (k d) a
      rw [hw] at b
      exact ⟨a, by nlinarith, by nlinarith⟩
  · have hS : ∀ S ⊆ range N, lo ≤ T (fun d => min (k d + bit S d) (L d - 1)) ∧ T (fun d => min (k d + bit S d) (L d - 1)) ≤ hi := by
      intro S _
      refine hb _ fun d hd => ?_
      have hl := hT.len d hd
      have hbit : bit S d = 0 ∨ bit S d = 1 := by unfold bit; split <;> simp
      rcases h1 d hd with ⟨a, b, -⟩ | ⟨a, -, -⟩ <;> omega
    constructor
    · have := multilinear_mono (V := fun _ => lo) ht fun S hs => (hS S hs).1
      rwa [multilinear_const] at this
    · have := multilinear_mono (W := fun _ => hi) ht fun S hs => (hS S hs).2
      rwa [multilinear_const] at this

/-- **C32** If the table holds the values of a function which is affine in each variable, the value returned is that of the
function at the query (clamped along "Constant" dimensions, as is along "Linear" ones). -/
theorem interpolate_affine_partial {N : Nat} {L : Nat → Nat} {node : Nat → Nat → ℝ} {T : (Nat → Nat) → ℝ} {array : List ℝ}
    (hT : Table N L node T array) {q : Nat → ℝ} {c : Nat → Cond} (hQ : Query N L node q c)
    (f : (Nat → ℝ) → ℝ) (hf : ∀ d < N, AffineIn f d) (hdep : ∀ y z : Nat → ℝ, (∀ d < N, y d = z d) → f y = f z)
    (hTf : ∀ idx, (∀ d < N, idx d < L d) → T idx = f fun d => node d (idx d)) :
    interpolate N array ((List.range N).map q) (axesOf N L node) ((List.range N).map c) =
      .ok (f fun d => if L d = 1 then node d 0 else wanted L node q c d, (List.range N).map q) := by
  obtain ⟨k, t, h1, h2⟩ := interpolate_value_partial hT hQ
  rw [h2]
  congr 2
  have h3 := multilinear_affine t (fun d => node d (min (k d) (L d - 1))) (fun d => node d (min (k d + 1) (L d - 1))) N hf
    (fun _ => 0)
  refine ((multilinear_congr (fun _ _ => rfl) fun S hS => ?_).trans h3).trans (hdep _ _ fun d hd => ?_)
  · rw [hTf]
    · refine hdep _ _ fun d hd => ?_
      by_cases hm : d ∈ S <;> simp [bit, hm, hd]
    · intro d hd
      have := hT.len d hd
      omega
  · rw [if_pos hd]
    rcases h1 d hd with ⟨a, b, e⟩ | ⟨a, b, -⟩
    · simp [a, b, e]
    · rw [if_neg (by omega), b, min_eq_left (by omega), min_eq_left (by omega)]

/-! ### Conditions that do not give an interpolated value -/

theorem mapM_error {α β : Type} (l : List α) (f : α → Out β) (e : Fail) (h : ∀ x ∈ l, (∃ b, f x = .ok b) ∨ f x = .error e)
    (h' : ∃ x ∈ l, f x = .error e) : l.mapM f = .error e := by
  induction l with
  | nil => simp at h'
  | cons a l ih =>
    rw [List.mapM_cons]
    rcases h a (by simp) with ⟨b, hb⟩ | hb
    · obtain ⟨x, hx, hxe⟩ := h'
      rcases List.mem_cons.1 hx with rfl | hx
      · rw [hb] at hxe; simp at hxe
      · rw [hb, ih (fun y hy => h y (by simp [hy])) ⟨x, hx, hxe⟩]; rfl
    · rw [hb]; rfl

/-- The index found along one dimension of at least two nodes. -/
theorem index_cases {N : Nat} {L : Nat → Nat} {node : Nat → Nat → ℝ} {T : (Nat → Nat) → ℝ} {array : List ℝ}
    (hT : Table N L node T array) {d : Nat} (hd : d < N) (hL : L d ≠ 1) (q : Nat → ℝ) (c : Cond) :
    (Inside L node q d → ∃ k : Nat, k + 1 < L d ∧ node d k ≤ q d ∧ q d ≤ node d (k + 1) ∧
      (Axis.nodes ((List.range (L d)).map (node d))).index (q d) c = .ok ((k : Int), q d)) ∧
    (¬ Inside L node q d →
      (c = .none ∨ c = .other → (Axis.nodes ((List.range (L d)).map (node d))).index (q d) c = .error .thrown) ∧
      (c = .null → (Axis.nodes ((List.range (L d)).map (node d))).index (q d) c = .ok (-1, q d)) ∧
      (c = .constant ∨ c = .linear → (Axis.nodes ((List.range (L d)).map (node d))).index (q d) c =
        .ok (((if q d < node d 0 then 0 else L d - 2 : Nat) : Int), q d))) := by
  have hl := hT.len d hd
  rw [index_eq _ _ _ hl]
  constructor
  · intro hin
    have hx : ∀ i < ((List.range (L d)).map (node d)).length, ((List.range (L d)).map (node d))[i]? = some (node d i) := by
      intro i hi
      exact getElem?_range_map _ (by simpa using hi)
    obtain ⟨k, hk, hk1, hk2, hk3⟩ := search_from (xq := q d) (node d) hx (le_of_lt (hT.incr d hd 0 (by omega)))
      (by simpa using hin.2) (L d - 1) 0 (by simp; omega) hin.1 (Or.inl ⟨rfl, by simp; omega⟩)
    simp only [List.length_map, List.length_range] at hk hk1
    have hno : ¬ (q d < node d 0 ∨ q d > node d (L d - 1)) := by
      rintro (h | h)
      · exact absurd hin.1 (not_le.2 h)
      · exact absurd hin.2 (not_le.2 h)
    refine ⟨k, hk1, hk2, hk3, ?_⟩
    simp only [getIndice, hL, false_and, if_false, hno, hk, Except.map]
  · intro hin
    have hout : q d < node d 0 ∨ q d > node d (L d - 1) := by
      by_contra hcon
      push Not at hcon
      exact hin hcon
    refine ⟨?_, ?_, ?_⟩
    · rintro (h | h) <;> simp [getIndice, hL, hout, h]
    · intro h; simp [getIndice, hL, hout, h]
    · have e : ((L d - 2 : Nat) : Int) = (L d : Int) - 2 := by omega
      intro h
      by_cases hlo : q d < node d 0
      · rcases h with h | h <;> simp [getIndice, hL, h, hlo]
      · have hhi := hout.resolve_left hlo
        rcases h with h | h <;> simp [getIndice, hL, h, hlo, hhi, e]

/-- **C32** If the query is outside the table along a dimension with the condition "None" (or an unknown one), an error is thrown. -/
theorem interpolate_none {N : Nat} {L : Nat → Nat} {node : Nat → Nat → ℝ} {T : (Nat → Nat) → ℝ} {array : List ℝ}
    (hT : Table N L node T array) {q : Nat → ℝ} {c : Nat → Cond} (hp : ∀ d < N, c d ≠ .periodic) {d : Nat} (hd : d < N)
    (hL : L d ≠ 1) (hout : ¬ Inside L node q d) (hc : c d = .none ∨ c d = .other) :
    interpolate N array ((List.range N).map q) (axesOf N L node) ((List.range N).map c) = .error .thrown := by
  have hbody : ∀ i < N, (do
      let xq ← get ((List.range N).map q) i
      let c ← get ((List.range N).map c) i
      let ax ← get (axesOf N L node) i
      ax.index xq c : Out (Int × ℝ)) = (Axis.nodes ((List.range (L i)).map (node i))).index (q i) (c i) := by
    intro i hi
    simp only [axesOf, get_range_map _ hi, bind, Except.bind]
  have h := mapM_error (List.range N) (fun i => do
      let xq ← get ((List.range N).map q) i
      let c ← get ((List.range N).map c) i
      let ax ← get (axesOf N L node) i
      ax.index xq c) .thrown ?_ ?_
  · rw [interpolate, h]; rfl
  · intro i hi
    have hi : i < N := by simpa using hi
    rw [hbody i hi]
    by_cases h1 : L i = 1
    · rw [index_eq _ _ _ (hT.len i hi)]
      by_cases hlin : c i = .linear ∨ c i = .periodic
      · right; simp [getIndice, h1, hlin]
      · left; exact ⟨(0, q i), by simp [getIndice, h1, hlin]⟩
    · obtain ⟨a1, a2⟩ := index_cases hT hi h1 q (c i)
      by_cases hin : Inside L node q i
      · obtain ⟨k, -, -, -, hk⟩ := a1 hin
        exact Or.inl ⟨_, hk⟩
      · obtain ⟨b1, b2, b3⟩ := a2 hin
        cases hci : c i with
        | none => exact Or.inr (by rw [← hci]; exact b1 (Or.inl hci))
        | other => exact Or.inr (by rw [← hci]; exact b1 (Or.inr hci))
        | null => exact Or.inl ⟨_, by rw [← hci]; exact b2 hci⟩
        | constant => exact Or.inl ⟨_, by rw [← hci]; exact b3 (Or.inl hci)⟩
        | linear => exact Or.inl ⟨_, by rw [← hci]; exact b3 (Or.inr hci)⟩
        | periodic => exact absurd hci (hp i hi)
  · refine ⟨d, by simpa using hd, ?_⟩
    rw [hbody d hd]
    exact ((index_cases hT hd hL q (c d)).2 hout).1 hc

/-- **C32** If the query is outside the table along a dimension with the condition "Null", and inside or with one of the
conditions "Constant", "Linear", "Null" along the others, the value is zero. -/
theorem interpolate_null {N : Nat} {L : Nat → Nat} {node : Nat → Nat → ℝ} {T : (Nat → Nat) → ℝ} {array : List ℝ}
    (hT : Table N L node T array) {q : Nat → ℝ} {c : Nat → Cond}
    (hone : ∀ d < N, L d = 1 → c d ≠ .linear ∧ c d ≠ .periodic)
    (hother : ∀ d < N, L d ≠ 1 → ¬ Inside L node q d → c d = .constant ∨ c d = .linear ∨ c d = .null)
    {d : Nat} (hd : d < N) (hL : L d ≠ 1) (hout : ¬ Inside L node q d) (hc : c d = .null) :
    interpolate N array ((List.range N).map q) (axesOf N L node) ((List.range N).map c) = .ok (0, (List.range N).map q) := by
  have hidx : ∀ i, ∃ k : Int, i < N → (Axis.nodes ((List.range (L i)).map (node i))).index (q i) (c i) = .ok (k, q i) ∧
      (k = -1 ∨ 0 ≤ k ∧ k < L i) ∧ (L i ≠ 1 → ¬ Inside L node q i → c i = .null → k = -1) := by
    intro i
    by_cases hi : i < N
    · have hl := hT.len i hi
      by_cases h1 : L i = 1
      · refine ⟨0, fun _ => ⟨?_, by omega, fun h => absurd h1 h⟩⟩
        rw [index_eq _ _ _ (hT.len i hi)]
        obtain ⟨c1, c2⟩ := hone i hi h1
        simp [getIndice, h1, c1, c2]
      · obtain ⟨a1, a2⟩ := index_cases hT hi h1 q (c i)
        by_cases hin : Inside L node q i
        · obtain ⟨k, hk1, -, -, hk⟩ := a1 hin
          exact ⟨k, fun _ => ⟨hk, by omega, fun _ h => absurd hin h⟩⟩
        · obtain ⟨b1, b2, b3⟩ := a2 hin
          rcases hother i hi h1 hin with h | h | h
          · refine ⟨_, fun _ => ⟨b3 (Or.inl h), ?_, fun _ _ h' => by rw [h] at h'; simp at h'⟩⟩
            split <;> omega
          · refine ⟨_, fun _ => ⟨b3 (Or.inr h), ?_, fun _ _ h' => by rw [h] at h'; simp at h'⟩⟩
            split <;> omega
          · exact ⟨-1, fun _ => ⟨b2 h, by omega, fun _ _ _ => rfl⟩⟩
    · exact ⟨0, fun h => absurd h hi⟩
  choose k hk using hidx
  have hfound : ((List.range N).mapM fun ii => do
      let xq ← get ((List.range N).map q) ii
      let c ← get ((List.range N).map c) ii
      let ax ← get (axesOf N L node) ii
      ax.index xq c : Out (List (Int × ℝ))) = .ok ((List.range N).map fun d => (k d, q d)) := by
    refine mapM_ok _ _ _ fun i hi => ?_
    have hi : i < N := by simpa using hi
    simp only [axesOf, get_range_map _ hi, bind, Except.bind, (hk i hi).1]
  have hcorner : ∀ n, n ≤ N → d < n → corner (axesOf N L node) ((List.range N).map k) n 0 = .error .zero := by
    intro n
    induction n with
    | zero => intro _ h; omega
    | succ n ih =>
      intro hn hdn
      have e0 : (0 : Nat) / 2 ^ n = 0 := Nat.zero_div _
      have ez : ¬ ((0 : Nat) ≠ 0 ∧ (0 : Nat) ≠ 1) := by omega
      simp only [corner, e0, ez, if_false, axesOf, get_range_map _ (show n < N by omega), bind, Except.bind]
      by_cases hkn : k n = -1
      · simp [hkn]
      · obtain ⟨-, h2, h3⟩ := hk n (by omega)
        have hdn' : d < n := by
          rcases Nat.lt_or_ge d n with h | h
          · exact h
          · have : d = n := by omega
            subst this
            exact absurd (h3 hL hout hc) hkn
        have hnode : (Axis.nodes ((List.range (L n)).map (node n))).node (k n + ((if (Axis.nodes ((List.range (L n)).map (node n))).len = 1
            then 0 else 0 : Nat) : Int)) = .ok (node n (k n).toNat) := by
          have hz : (k n + ((if (Axis.nodes ((List.range (L n)).map (node n))).len = 1 then 0 else 0 : Nat) : Int)) =
              (((k n).toNat : Nat) : Int) := by
            rcases h2 with h2 | h2
            · exact absurd h2 hkn
            · simp; omega
          rw [hz]
          exact node_ok _ (by omega)
        have := ih (by omega) hdn'
        simp only [axesOf] at this
        simp only [hkn, if_false, hnode, Nat.zero_mul, Nat.sub_zero, this]
  have hall : ((List.range (2 ^ N)).mapM fun ii => do
      let r ← corner (axesOf N L node) ((List.range N).map k) N ii
      let y ← geti array (← indY (axesOf N L node) ((List.range N).map k) r.1 N)
      .ok (r.2, y) : Out (List (List ℝ × ℝ))) = .error .zero := by
    obtain ⟨m, hm⟩ : ∃ m, 2 ^ N = m + 1 := ⟨2 ^ N - 1, by have := Nat.two_pow_pos N; omega⟩
    rw [hm, List.range_succ_eq_map, List.mapM_cons, hcorner N le_rfl hd]
    rfl
  rw [interpolate, hfound]
  simp only [bind, Except.bind, List.map_map, Function.comp_def]
  simp only [bind, Except.bind] at hall
  rw [show ((List.range N).map fun x => k x) = (List.range N).map k from rfl, hall]
  simp

/-! ### The table used in the examples: two dimensions of two nodes at 0 and 1, holding the first coordinate. -/

/-- Values 0, 0 (first coordinate 0), 1, 1 (first coordinate 1). -/
theorem square_table : Table 2 (fun _ => 2) (fun _ i => (i : ℝ)) (fun idx => (idx 0 : ℝ)) [0, 0, 1, 1] where
  dims := by norm_num
  len := by intros; norm_num
  incr := by intros; simp
  vals := by
    intro idx h
    have h0 := h 0 (by omega)
    have h1 := h 1 (by omega)
    simp only [flat]
    rcases (by omega : idx 0 = 0 ∨ idx 0 = 1) with e0 | e0 <;> rcases (by omega : idx 1 = 0 ∨ idx 1 = 1) with e1 | e1 <;>
      simp [e0, e1]

/-- A query given by its two coordinates. -/
noncomputable def pair {α : Type} (a b : α) (d : Nat) : α := if d = 0 then a else b

/-- Three quarters of the way along the first dimension, the value is three quarters (the second one is clamped). -/
example : interpolate 2 [0, 0, 1, 1] ((List.range 2).map (pair (3 / 4) 7)) (axesOf 2 (fun _ => 2) fun _ i => (i : ℝ))
      ((List.range 2).map (pair .constant .constant)) = .ok (3 / 4, (List.range 2).map (pair (3 / 4) 7)) := by
  have hq : Query 2 (fun _ => 2) (fun _ i => (i : ℝ)) (pair (3 / 4) 7) (pair .constant .constant) :=
    ⟨by intros; simp_all, by intro d _ _ _; left; simp [pair], by intro d _ _ _; simp [pair]⟩
  have := interpolate_affine_partial square_table hq (fun z => z 0)
    (by
      intro d hd z a b s
      by_cases h : d = 0
      · subst h; simp
      · simp [Function.update, Ne.symm h]; ring)
    (fun y z h => h 0 (by norm_num)) (fun idx _ => rfl)
  rw [this]
  have hw : wanted (fun _ => 2) (fun _ i => (i : ℝ)) (pair (3 / 4) 7) (pair .constant .constant) 0 = 3 / 4 := by
    simp only [wanted, pair, if_true]
    norm_num
  simp [hw]

/-- Outside the table along the first dimension, with two nodes. -/
theorem square_out {c0 c1 : Cond} {t0 : ℝ} (h0 : c0 = .constant ∨ c0 = .linear)
    (ht : usedPos 2 0 1 c0 c1 = .ok t0) :
    interpolate 2 [0, 0, 1, 1] ((List.range 2).map (pair 2 (1 / 2))) (axesOf 2 (fun _ => 2) fun _ i => (i : ℝ))
      ((List.range 2).map (pair c0 c1)) = .ok (t0, (List.range 2).map (pair 2 (1 / 2))) := by
  have key := interpolate_gen (N := 2) (by norm_num) (array := [0, 0, 1, 1]) (q := pair 2 (1 / 2)) (q' := pair 2 (1 / 2))
    (ax := fun _ => .nodes ((List.range 2).map fun (i : Nat) => (i : ℝ))) (c := pair c0 c1) (k := fun _ => 0) (x := fun _ b => (b : ℝ))
    (t := pair t0 (1 / 2)) (V := fun S => (bit S 0 : ℝ)) ?_ ?_ ?_ ?_
  · rw [axesOf, key]
    simp [multilinear_succ, multilinear_zero, pair, bit]
    ring
  · intro d hd
    rw [index_eq _ _ _ (by norm_num)]
    rcases (by omega : d = 0 ∨ d = 1) with rfl | rfl
    · rcases h0 with h | h <;> simp [pair, getIndice, h]
    · have h1 : ¬ ((1 / 2 : ℝ) < 0 ∨ (1 / 2 : ℝ) > 1) := by norm_num
      have hs : search (1 / 2 : ℝ) [0, 1] 2 0 = .ok 0 := by
        obtain ⟨k, hk, hk1, -, -⟩ := search_from (X := [0, 1]) (xq := (1 / 2 : ℝ)) (fun i => (i : ℝ))
          (by intro i hi; rcases (by simp at hi; omega : i = 0 ∨ i = 1) with h | h <;> simp [h])
          (by norm_num) (by norm_num) 1 0 (by simp) (by norm_num) (Or.inl ⟨rfl, by simp⟩)
        have : k = 0 := by simp at hk1; omega
        subst this
        simpa using hk
      simp only [pair, one_ne_zero, if_false, getIndice]
      norm_num [List.range_succ, hs, Except.map]
  · intro d hd b hb
    rcases (by omega : b = 0 ∨ b = 1) with rfl | rfl <;> simp [Axis.node, geti, off, Axis.len, get, List.range_succ]
  · intro S hS
    have hl : ∀ b, off (.nodes ((List.range 2).map fun (i : Nat) => (i : ℝ))) b = b := by intro b; simp [off, Axis.len]
    simp only [flat, hl, Axis.len]
    by_cases m0 : 0 ∈ S <;> by_cases m1 : 1 ∈ S <;> simp [bit, m0, m1]
  · intro d hd
    rcases (by omega : d = 0 ∨ d = 1) with rfl | rfl
    · simpa [pair] using ht
    · simp only [pair]
      rw [usedPos_inside _ _ (by norm_num) (by norm_num) (by norm_num)]
      norm_num

/-- **Finding (C32)** The condition consulted outside the table is that of another dimension: with the conditions "Constant" then
"Linear", a query beyond the end of the first dimension is extrapolated (value 2) although the table ends with the value 1 … -/
theorem constant_wrong :
    interpolate 2 [0, 0, 1, 1] ((List.range 2).map (pair 2 (1 / 2))) (axesOf 2 (fun _ => 2) fun _ i => (i : ℝ))
      ((List.range 2).map (pair .constant .linear)) = .ok (2, (List.range 2).map (pair 2 (1 / 2))) :=
  square_out (Or.inl rfl) (by simp [usedPos])

/-- … and with the conditions exchanged it is not extrapolated. -/
theorem linear_wrong :
    interpolate 2 [0, 0, 1, 1] ((List.range 2).map (pair 2 (1 / 2))) (axesOf 2 (fun _ => 2) fun _ i => (i : ℝ))
      ((List.range 2).map (pair .linear .constant)) = .ok (1, (List.range 2).map (pair 2 (1 / 2))) :=
  square_out (Or.inr rfl) (by simp [usedPos])

/-- Zero outside a "Null" dimension, an error outside a "None" one. -/
example : interpolate 2 [0, 0, 1, 1] ((List.range 2).map (pair 2 (1 / 2))) (axesOf 2 (fun _ => 2) fun _ i => (i : ℝ))
      ((List.range 2).map (pair .null .none)) = .ok (0, (List.range 2).map (pair 2 (1 / 2))) ∧
    interpolate 2 [0, 0, 1, 1] ((List.range 2).map (pair 2 (1 / 2))) (axesOf 2 (fun _ => 2) fun _ i => (i : ℝ))
      ((List.range 2).map (pair .none .none)) = .error .thrown := by
  have hout : ¬ Inside (fun _ => 2) (fun _ i => (i : ℝ)) (pair 2 (1 / 2)) 0 := by
    intro h; have := h.2; norm_num [pair] at this
  have hin : Inside (fun _ => 2) (fun _ i => (i : ℝ)) (pair 2 (1 / 2)) 1 := by
    constructor <;> norm_num [pair]
  constructor
  · refine interpolate_null square_table (by intros; simp_all) ?_ (d := 0) (by norm_num) (by norm_num) hout rfl
    intro d hd _ h
    rcases (by omega : d = 0 ∨ d = 1) with rfl | rfl
    · simp [pair]
    · exact absurd hin h
  · refine interpolate_none square_table ?_ (d := 0) (by norm_num) (by norm_num) hout (Or.inl rfl)
    intro d _; simp [pair]

/-! ## C33 -/

/-- **C33** Whatever the query and the condition (other than "Periodic"), a search in a list of at least two increasing
coordinates throws, says that the query is outside ("Null"), or returns a cell whose two ends are in the list, without reading
outside of it. -/
theorem nodes_index_in_bounds_partial {X : List ℝ} {x : Nat → ℝ} (hx : ∀ i < X.length, X[i]? = some (x i)) (h2 : 2 ≤ X.length)
    (hincr : ∀ i, i + 1 < X.length → x i < x (i + 1)) (q : ℝ) (c : Cond) (hc : c ≠ .periodic) :
    (Axis.nodes X).index q c = .error .thrown ∨
    (c = .null ∧ (q < x 0 ∨ q > x (X.length - 1)) ∧ (Axis.nodes X).index q c = .ok (-1, q)) ∨
    ∃ k : Nat, k + 1 < X.length ∧ (Axis.nodes X).index q c = .ok ((k : Int), q) := by
  have hX : X = (List.range X.length).map x := by
    apply List.ext_getElem? 
    intro i
    by_cases hi : i < X.length
    · rw [hx i hi, getElem?_range_map x hi]
    · rw [List.getElem?_eq_none (by omega), List.getElem?_eq_none (by simpa using hi)]
  have hm : ∀ m, 0 + m < X.length → x 0 ≤ x (0 + m) := by
    intro m
    induction m with
    | zero => intro _; exact le_rfl
    | succ m ih =>
      intro h
      have h3 := hincr m (by omega)
      have h4 := ih (by omega)
      rw [zero_add] at h4 ⊢
      linarith
  have e : ((X.length : Int) - 1).toNat = X.length - 1 := by omega
  have hidx : (Axis.nodes X).index q c = getIndice q c (x 0) (x (X.length - 1)) X.length (some X) := by
    simp only [Axis.index, geti, e, bind, Except.bind]
    rw [get_ok (hx 0 (by omega)), if_neg (by omega), get_ok (hx (X.length - 1) (by omega))]
  rw [hidx]
  have h1 : ¬ X.length = 1 := by omega
  by_cases hout : q < x 0 ∨ q > x (X.length - 1)
  · cases c with
    | none => left; simp [getIndice, h1, hout]
    | other => left; simp [getIndice, h1, hout]
    | periodic => exact absurd rfl hc
    | null => right; left; exact ⟨rfl, hout, by simp [getIndice, h1, hout]⟩
    | constant =>
      right; right
      refine ⟨if q < x 0 then 0 else X.length - 2, by split <;> omega, ?_⟩
      have e : ((X.length - 2 : Nat) : Int) = (X.length : Int) - 2 := by omega
      by_cases hlo : q < x 0
      · simp [getIndice, h1, hlo]
      · simp [getIndice, h1, hout.resolve_left hlo, hlo, e]
    | linear =>
      right; right
      refine ⟨if q < x 0 then 0 else X.length - 2, by split <;> omega, ?_⟩
      have e : ((X.length - 2 : Nat) : Int) = (X.length : Int) - 2 := by omega
      by_cases hlo : q < x 0
      · simp [getIndice, h1, hlo]
      · simp [getIndice, h1, hout.resolve_left hlo, hlo, e]
  · push Not at hout
    obtain ⟨k, hk, hk1, -, -⟩ := search_from (xq := q) x hx (le_of_lt (hincr 0 (by omega))) hout.2 (X.length - 1) 0 (by omega)
      hout.1 (Or.inl ⟨rfl, h2⟩)
    right; right
    refine ⟨k, hk1, ?_⟩
    have hno : ¬ (q < x 0 ∨ q > x (X.length - 1)) := by push Not; exact hout
    simp only [getIndice, h1, false_and, if_false, hno, hk, Except.map]

/-- The regular look-up inside the table. -/
theorem floor_cell {xmin xmax q : ℝ} {n : Nat} (h2 : 2 ≤ n) (hn : n < 2 ^ 31) (hlt : xmin < xmax) (h0 : xmin ≤ q) (h1 : q < xmax) :
    ∃ k : Nat, k + 1 < n ∧ floorInt (q - xmin) ((xmax - xmin) / ((n : ℝ) - 1)) = .ok (k : Int) ∧
      xmin + k * ((xmax - xmin) / ((n : ℝ) - 1)) ≤ q ∧ q < xmin + (k + 1) * ((xmax - xmin) / ((n : ℝ) - 1)) := by
  have hn1 : (0 : ℝ) < (n : ℝ) - 1 := by
    have : (2 : ℝ) ≤ n := by exact_mod_cast h2
    linarith
  have hdx : 0 < (xmax - xmin) / ((n : ℝ) - 1) := div_pos (by linarith) hn1
  have hpos : 0 ≤ (q - xmin) / ((xmax - xmin) / ((n : ℝ) - 1)) := div_nonneg (by linarith) hdx.le
  have hub : (q - xmin) / ((xmax - xmin) / ((n : ℝ) - 1)) < (n : ℝ) - 1 := by
    rw [div_lt_iff₀ hdx, mul_div_cancel₀ _ hn1.ne']; linarith
  have f0 : 0 ≤ ⌊(q - xmin) / ((xmax - xmin) / ((n : ℝ) - 1))⌋ := Int.floor_nonneg.2 hpos
  have f1 : ⌊(q - xmin) / ((xmax - xmin) / ((n : ℝ) - 1))⌋ < (n : Int) - 1 := by
    rw [Int.floor_lt]; push_cast; exact hub
  have l1 := Int.floor_le ((q - xmin) / ((xmax - xmin) / ((n : ℝ) - 1)))
  have l2 := Int.lt_floor_add_one ((q - xmin) / ((xmax - xmin) / ((n : ℝ) - 1)))
  rw [le_div_iff₀ hdx] at l1
  rw [div_lt_iff₀ hdx] at l2
  generalize hm : ⌊(q - xmin) / ((xmax - xmin) / ((n : ℝ) - 1))⌋ = m at *
  obtain ⟨k, rfl⟩ := Int.eq_ofNat_of_zero_le f0
  refine ⟨k, by omega, ?_, ?_, ?_⟩
  · rw [floorInt, if_neg hdx.ne', hm, if_pos]
    constructor
    · omega
    · have : ((n : Int)) < 2 ^ 31 := by exact_mod_cast hn
      omega
  · push_cast at l1; linarith
  · push_cast at l2; linarith

/-- **C33 (partial: `regular_last_wrong` is the missing query, `periodic_wrong` the missing condition)** In a table of regularly
spaced coordinates, every query but the last coordinate throws, is said to be outside, or gets a cell inside the table, which
contains it if it is inside. -/
theorem regular_index_in_bounds_partial {xmin xmax : ℝ} {n : Nat} (h2 : 2 ≤ n) (hn : n < 2 ^ 31) (hlt : xmin < xmax) (q : ℝ)
    (c : Cond) (hc : c ≠ .periodic) (hq : q ≠ xmax) :
    (Axis.regular xmin xmax n).index q c = .error .thrown ∨
    (c = .null ∧ (q < xmin ∨ q > xmax) ∧ (Axis.regular xmin xmax n).index q c = .ok (-1, q)) ∨
    ∃ k : Nat, k + 1 < n ∧ (Axis.regular xmin xmax n).index q c = .ok ((k : Int), q) ∧
      (xmin ≤ q → q ≤ xmax → xmin + k * ((xmax - xmin) / ((n : ℝ) - 1)) ≤ q ∧
        q < xmin + (k + 1) * ((xmax - xmin) / ((n : ℝ) - 1))) := by
  have h1 : ¬ n = 1 := by omega
  by_cases hout : q < xmin ∨ q > xmax
  · have hcon : ∀ P : Prop, xmin ≤ q → q ≤ xmax → P := by
      intro P a b
      rcases hout with h | h <;> linarith
    cases c with
    | none => left; simp [Axis.index, getIndice, h1, hout]
    | other => left; simp [Axis.index, getIndice, h1, hout]
    | periodic => exact absurd rfl hc
    | null => right; left; exact ⟨rfl, hout, by simp [Axis.index, getIndice, h1, hout]⟩
    | constant =>
      right; right
      refine ⟨if q < xmin then 0 else n - 2, by split <;> omega, ?_, hcon _⟩
      have e : ((n - 2 : Nat) : Int) = (n : Int) - 2 := by omega
      by_cases hlo : q < xmin
      · simp [Axis.index, getIndice, h1, hlo]
      · simp [Axis.index, getIndice, h1, hout.resolve_left hlo, hlo, e]
    | linear =>
      right; right
      refine ⟨if q < xmin then 0 else n - 2, by split <;> omega, ?_, hcon _⟩
      have e : ((n - 2 : Nat) : Int) = (n : Int) - 2 := by omega
      by_cases hlo : q < xmin
      · simp [Axis.index, getIndice, h1, hlo]
      · simp [Axis.index, getIndice, h1, hout.resolve_left hlo, hlo, e]
  · push Not at hout
    obtain ⟨k, hk1, hk, ha, hb⟩ := floor_cell h2 hn hlt hout.1 (lt_of_le_of_ne hout.2 hq)
    right; right
    refine ⟨k, hk1, ?_, fun _ _ => ⟨ha, hb⟩⟩
    have hno : ¬ (q < xmin ∨ q > xmax) := by push Not; exact hout
    simp only [Axis.index, getIndice, h1, false_and, if_false, hno, hk, Except.map]

/-! ### Regularly spaced tables -/

/-- Coordinates of the nodes of a regularly spaced table. -/
noncomputable def regNode (lo hi : Nat → ℝ) (L : Nat → Nat) (d i : Nat) : ℝ := lo d + i * ((hi d - lo d) / ((L d : ℝ) - 1))

theorem regNode_zero (lo hi : Nat → ℝ) (L : Nat → Nat) (d : Nat) : regNode lo hi L d 0 = lo d := by simp [regNode]

theorem regNode_last (lo hi : Nat → ℝ) (L : Nat → Nat) {d : Nat} (h : 2 ≤ L d) : regNode lo hi L d (L d - 1) = hi d := by
  have : (2 : ℝ) ≤ L d := by exact_mod_cast h
  have e : ((L d - 1 : Nat) : ℝ) = (L d : ℝ) - 1 := by rw [Nat.cast_sub (by omega)]; simp
  rw [regNode, e, mul_div_cancel₀ _ (by linarith)]
  ring

/-- One dimension. -/
theorem dim_ok_regular {N : Nat} {L : Nat → Nat} {lo hi : Nat → ℝ} {T : (Nat → Nat) → ℝ} {array : List ℝ}
    (hT : Table N L (regNode lo hi L) T array) {q : Nat → ℝ} {c : Nat → Cond} (hQ : Query N L (regNode lo hi L) q c) {d : Nat}
    (hd : d < N) (h2 : 2 ≤ L d) (h31 : L d < 2 ^ 31) (hq : q d ≠ hi d) :
    ∃ k t, (k + 1 < L d ∧ wanted L (regNode lo hi L) q c d = (1 - t) * regNode lo hi L d k + t * regNode lo hi L d (k + 1) ∧
        (c d ≠ .linear ∨ Inside L (regNode lo hi L) q d → 0 ≤ t ∧ t ≤ 1)) ∧
      (Axis.regular (lo d) (hi d) (L d)).index (q d) (c d) = .ok ((k : Int), q d) ∧
      usedPos (q d) (regNode lo hi L d (min (k + 0) (L d - 1))) (regNode lo hi L d (min (k + 1) (L d - 1))) (c d)
        (c (N - 1 - d)) = .ok t := by
  have e0 := regNode_zero lo hi L d
  have e1 := regNode_last lo hi L h2
  by_cases hin : Inside L (regNode lo hi L) q d
  · have hlt : lo d < hi d := by
      have h0 := hT.incr d hd 0 (by omega)
      have h1 := hT.mono hd 1 (L d - 2) (by omega)
      rw [show 1 + (L d - 2) = L d - 1 by omega, e1] at h1
      rw [e0] at h0
      exact lt_of_lt_of_le h0 h1
    obtain ⟨i0, i1⟩ := hin
    rw [e0] at i0
    rw [e1] at i1
    obtain ⟨k, hk1, hk, ha, hb⟩ := floor_cell h2 h31 hlt i0 (lt_of_le_of_ne i1 hq)
    have ha' : regNode lo hi L d k ≤ q d := ha
    have hb' : q d < regNode lo hi L d (k + 1) := by unfold regNode; push_cast; exact hb
    have hp : 0 < regNode lo hi L d (k + 1) - regNode lo hi L d k := by linarith
    refine ⟨k, (q d - regNode lo hi L d k) / (regNode lo hi L d (k + 1) - regNode lo hi L d k), ⟨hk1, ?_, fun _ => ⟨?_, ?_⟩⟩, ?_, ?_⟩
    · have : wanted L (regNode lo hi L) q c d = q d := by
        unfold wanted
        rw [e0, e1]
        split
        · rw [min_eq_left i1, max_eq_right i0]
        · rfl
      rw [this]
      field_simp
      ring
    · exact div_nonneg (by linarith) hp.le
    · rw [div_le_one hp]; linarith
    · have hno : ¬ (q d < lo d ∨ q d > hi d) := by rintro (h | h) <;> linarith
      have h1 : ¬ L d = 1 := by omega
      simp only [Axis.index, getIndice, h1, false_and, if_false, hno, hk, Except.map]
    · rw [show min (k + 0) (L d - 1) = k by omega, show min (k + 1) (L d - 1) = k + 1 by omega]
      exact usedPos_inside _ _ (by linarith) ha' hb'.le
  · obtain ⟨k, t, h1, h3, h4⟩ := dim_ok hT hQ hd
    refine ⟨k, t, ?_, ?_, h4⟩
    · rcases h1 with h1 | h1
      · omega
      · exact h1
    · rw [index_eq _ _ _ (by omega), e0, e1] at h3
      rw [← h3]
      have hout : q d < lo d ∨ q d > hi d := by
        by_contra hcon
        push Not at hcon
        exact hin ⟨by rw [e0]; exact hcon.1, by rw [e1]; exact hcon.2⟩
      have hc := hQ.out d hd (by omega) hin
      rcases hc with h | h <;> simp only [Axis.index, getIndice, hout, if_true, h]

/-- **C32 (partial: see `regular_last_wrong` for the missing queries, and `constant_wrong`)** The same for the overload that takes
the first and last coordinates and the number of regularly spaced nodes. -/
theorem interpolate_regular_partial {N : Nat} {L : Nat → Nat} {lo hi : Nat → ℝ} {T : (Nat → Nat) → ℝ} {array : List ℝ}
    (hT : Table N L (regNode lo hi L) T array) {q : Nat → ℝ} {c : Nat → Cond} (hQ : Query N L (regNode lo hi L) q c)
    (hL : ∀ d < N, 2 ≤ L d ∧ L d < 2 ^ 31) (hq : ∀ d < N, q d ≠ hi d) :
    ∃ (k : Nat → Nat) (t : Nat → ℝ),
      (∀ d < N, k d + 1 < L d ∧
        wanted L (regNode lo hi L) q c d = (1 - t d) * regNode lo hi L d (k d) + t d * regNode lo hi L d (k d + 1) ∧
        (c d ≠ .linear ∨ Inside L (regNode lo hi L) q d → 0 ≤ t d ∧ t d ≤ 1)) ∧
      interpolate N array ((List.range N).map q) ((List.range N).map fun d => .regular (lo d) (hi d) (L d)) ((List.range N).map c) =
        .ok (multilinear N t (fun S => T fun d => k d + bit S d), (List.range N).map q) := by
  have hall : ∀ d, ∃ k t, d < N → (k + 1 < L d ∧
        wanted L (regNode lo hi L) q c d = (1 - t) * regNode lo hi L d k + t * regNode lo hi L d (k + 1) ∧
        (c d ≠ .linear ∨ Inside L (regNode lo hi L) q d → 0 ≤ t ∧ t ≤ 1)) ∧
      (Axis.regular (lo d) (hi d) (L d)).index (q d) (c d) = .ok ((k : Int), q d) ∧
      usedPos (q d) (regNode lo hi L d (min (k + 0) (L d - 1))) (regNode lo hi L d (min (k + 1) (L d - 1))) (c d)
        (c (N - 1 - d)) = .ok t := by
    intro d
    by_cases hd : d < N
    · obtain ⟨k, t, h⟩ := dim_ok_regular hT hQ hd (hL d hd).1 (hL d hd).2 (hq d hd)
      exact ⟨k, t, fun _ => h⟩
    · exact ⟨0, 0, fun h => absurd h hd⟩
  choose k t hkt using hall
  refine ⟨k, t, fun d hd => (hkt d hd).1, ?_⟩
  have hoff : ∀ d < N, ∀ b ≤ 1, off (.regular (lo d) (hi d) (L d)) b = b ∧ min (k d + b) (L d - 1) = k d + b ∧ k d + b < L d := by
    intro d hd b hb
    have h1 := (hkt d hd).1.1
    have h2 := (hL d hd).1
    refine ⟨?_, by omega, by omega⟩
    rw [off]
    have : ¬ (Axis.regular (lo d) (hi d) (L d)).len = 1 := by simp only [Axis.len]; omega
    rw [if_neg this]
  refine interpolate_gen hT.dims (k := k) (x := fun d b => regNode lo hi L d (min (k d + b) (L d - 1)))
    (fun d hd => (hkt d hd).2.1) ?_ ?_ (fun d hd => (hkt d hd).2.2)
  · intro d hd b hb
    obtain ⟨h1, h2, h3⟩ := hoff d hd b hb
    have h4 := (hL d hd).1
    rw [h1, h2]
    simp only [Axis.node]
    rw [if_neg (by omega)]
    simp [regNode]
  · intro S hS
    have hb : ∀ d, bit S d ≤ 1 := fun d => by unfold bit; split <;> omega
    have hl : (fun d => (Axis.regular (lo d) (hi d) (L d)).len) = L := by funext d; simp [Axis.len]
    rw [hl, flat_congr (idx' := fun d => k d + bit S d) fun d hd => by rw [(hoff d hd _ (hb d)).1]]
    exact hT.vals _ fun d hd => (hoff d hd _ (hb d)).2.2

/-- **Finding (C33)** In a table of regularly spaced coordinates, the last coordinate gets the last node as the beginning of its
cell, whose end is then outside of the table: one-dimensional interpolation at the last coordinate reads past the end, whatever
the table and the condition. -/
theorem regular_last_wrong {xmin xmax : ℝ} {n : Nat} (h2 : 2 ≤ n) (hn : n < 2 ^ 31) (hlt : xmin < xmax) (c : Cond)
    (array : List ℝ) (ha : array.length = n) :
    (Axis.regular xmin xmax n).index xmax c = .ok ((n : Int) - 1, xmax) ∧
    interpolate 1 array [xmax] [.regular xmin xmax n] [c] = .error .ub := by
  have h1 : ¬ n = 1 := by omega
  have hn1 : (0 : ℝ) < (n : ℝ) - 1 := by
    have : (2 : ℝ) ≤ n := by exact_mod_cast h2
    linarith
  have hdx : (xmax - xmin) / ((n : ℝ) - 1) ≠ 0 := (div_pos (by linarith) hn1).ne'
  have hidx : (Axis.regular xmin xmax n).index xmax c = .ok ((n : Int) - 1, xmax) := by
    have hno : ¬ (xmax < xmin ∨ xmax > xmax) := by rintro (h | h) <;> linarith
    have hfl : ⌊(xmax - xmin) / ((xmax - xmin) / ((n : ℝ) - 1))⌋ = (n : Int) - 1 := by
      have : (xmax - xmin) / ((xmax - xmin) / ((n : ℝ) - 1)) = (((n : Int) - 1 : Int) : ℝ) := by
        have hne : xmax - xmin ≠ 0 := by linarith
        push_cast
        field_simp
      rw [this, Int.floor_intCast]
    have hf : floorInt (xmax - xmin) ((xmax - xmin) / ((n : ℝ) - 1)) = .ok ((n : Int) - 1) := by
      rw [floorInt, if_neg hdx, hfl, if_pos]
      have : ((n : Int)) < 2 ^ 31 := by exact_mod_cast hn
      omega
    simp only [Axis.index, getIndice, h1, false_and, if_false, hno, hf, Except.map]
  refine ⟨hidx, ?_⟩
  have hk : ¬ ((n : Int) - 1 = -1) := by omega
  have ha0 : geti array ((n : Int) - 1) = .ok (array[n - 1]'(by omega)) := by
    have e : ((n : Int) - 1).toNat = n - 1 := by omega
    rw [geti, if_neg (by omega), e]
    exact get_ok (List.getElem?_eq_getElem (by omega))
  have ha1 : geti array (n : Int) = .error .ub := by
    rw [geti, if_neg (by omega), Int.toNat_natCast, get, List.getElem?_eq_none (by omega)]
  simp [interpolate, List.range_succ, get, hidx, bind, Except.bind, pure, Except.pure, corner, Axis.len, h1, hk, Axis.node, indY,
    prodLen, ha0, ha1]

end Gyoto.Interp
