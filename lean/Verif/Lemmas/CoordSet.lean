import Verif.Model.CoordSet
import Mathlib.Data.List.Nodup
import Mathlib.Data.Nat.ModEq

namespace Gyoto.Coords
variable {V P S : Type}

/-- Iterating from state `s` while `valid` visits exactly the elements of the list, in order. -/
inductive Enum1 (a : Set1 V) : Nat → List V → Prop where
  | done {s} : a.valid s = false → Enum1 a s []
  | more {s v l} : a.valid s = true → a.deref s = some v → Enum1 a (a.next s) l → Enum1 a s (v :: l)

/-- The same for two-dimensional sets. -/
inductive Enum2 (a : Set2 P S) : S → List P → Prop where
  | done {s} : a.valid s = false → Enum2 a s []
  | more {s v l} : a.valid s = true → a.deref s = some v → Enum2 a (a.next s) l → Enum2 a s (v :: l)

theorem Enum1.valid_iff {a : Set1 V} {s l} (h : Enum1 a s l) : a.valid s = true ↔ l ≠ [] := by
  cases h <;> simp [*]

theorem enum_range (ma d : Nat) (hd : 0 < d) (hov : ma + d < w64) (n : Nat) :
    ∀ (mi cur : Nat), cur + n * d ≤ ma → ma < cur + n * d + d →
      Enum1 (range mi ma d) cur ((List.range (n + 1)).map fun k => cur + k * d) := by
  induction n with
  | zero =>
    intro mi cur h1 h2
    simp only [Nat.zero_mul, Nat.add_zero] at h1 h2
    refine .more (by simp [range, h1]) (by simp [range]) (.done ?_)
    simp only [range, decide_eq_false_iff_not]
    rw [Nat.mod_eq_of_lt (by omega)]
    omega
  | succ n ih =>
    intro mi cur h1 h2
    have e : (n + 1) * d = n * d + d := Nat.succ_mul n d
    rw [List.range_succ_eq_map, List.map_cons]
    have h0 : 0 ≤ n * d := Nat.zero_le _
    refine .more (by simp only [range, decide_eq_true_eq]; omega) (by simp [range]) ?_
    have hn : (range mi ma d).next cur = cur + d := by
      simp only [range]; exact Nat.mod_eq_of_lt (by omega)
    rw [hn]
    have := ih mi (cur + d) (by omega) (by omega)
    convert this using 1
    simp only [List.map_map]
    apply List.map_congr_left
    intro k _
    simp only [Function.comp]
    rw [Nat.succ_mul]; omega

theorem enum_indices_from (buf : List V) : ∀ (l : List V) (i : Nat), buf.drop i = l →
    Enum1 (indices buf) i l := by
  intro l
  induction l with
  | nil =>
    intro i h
    have := List.drop_eq_nil_iff.1 h
    exact .done (by simp [indices]; omega)
  | cons v l ih =>
    intro i h
    have hlt : i < buf.length := by
      by_contra hc
      rw [List.drop_eq_nil_of_le (by omega)] at h
      simp at h
    rw [List.drop_eq_getElem_cons hlt] at h
    simp only [List.cons.injEq] at h
    refine .more (by simp [indices, hlt]) (by simp [indices, hlt, h.1]) (ih (i + 1) h.2)

theorem enum_repeated_from (v : V) (sz : Nat) : ∀ (n i : Nat), i + n = sz →
    Enum1 (repeated v sz) i (List.replicate n v) := by
  intro n
  induction n with
  | zero => intro i h; exact .done (by simp [repeated]; omega)
  | succ n ih =>
    intro i h
    rw [List.replicate_succ]
    exact .more (by simp [repeated]; omega) rfl (ih (i + 1) (by omega))

/-- One row of the grid, then the rest. -/
theorem enum_grid_row {a b : Set1 V} {j : Nat} {vj : V} {rest : List (V × V)}
    (hj : b.valid j = true) (hdj : b.deref j = some vj)
    (hrest : Enum2 (grid a b) (a.start, b.next j) rest) :
    ∀ (l : List V) (i : Nat), l ≠ [] → Enum1 a i l →
      Enum2 (grid a b) (i, j) ((l.map fun v => (v, vj)) ++ rest) := by
  intro l
  induction l with
  | nil => intro i h; exact absurd rfl h
  | cons v l ih =>
    intro i _ h
    cases h with
    | more h1 h2 h3 =>
      refine .more (by simp [grid, h1, hj]) (by simp [grid, h2, hdj]) ?_
      rcases l with _ | ⟨v', l⟩
      · have hv : a.valid (a.next i) = false := by
          cases h3; assumption
        simpa [grid, h1, hj, hv] using hrest
      · have hv : a.valid (a.next i) = true := h3.valid_iff.2 (by simp)
        have := ih (a.next i) (by simp) h3
        simpa [grid, h1, hj, hv] using this

theorem enum_grid {a b : Set1 V} {li : List V} (ha : Enum1 a a.start li) (hne : li ≠ []) :
    ∀ (lj : List V) (j : Nat), Enum1 b j lj →
      Enum2 (grid a b) (a.start, j) (lj.flatMap fun y => li.map fun x => (x, y)) := by
  intro lj
  induction lj with
  | nil =>
    intro j h
    cases h with
    | done h => exact .done (by simp [grid, h])
  | cons y lj ih =>
    intro j h
    cases h with
    | more h1 h2 h3 =>
      rw [List.flatMap_cons]
      exact enum_grid_row h1 h2 (ih _ h3) li a.start hne ha

theorem enum_grid_empty {a b : Set1 V} (ha : Enum1 a a.start []) (j : Nat) :
    Enum2 (grid a b) (a.start, j) [] := by
  cases ha with
  | done h => exact .done (by simp [grid, h])

theorem enum_bucket {a b : Set1 V} {s : Set2 (V × V) (Nat × Nat)} (hs : bucket a b = some s) :
    ∀ (l m : List V) (i j : Nat), Enum1 a i l → Enum1 b j m → Enum2 s (i, j) (l.zip m) := by
  have : s = { start := (a.start, b.start)
               valid := fun s => a.valid s.1 && b.valid s.2
               deref := fun s => (a.deref s.1).bind fun i => (b.deref s.2).map fun j => (i, j)
               next := fun s => (a.next s.1, b.next s.2)
               size := a.size } := by
    unfold bucket at hs
    split at hs
    · simp at hs
    · simp at hs; exact hs.symm
  subst this
  intro l
  induction l with
  | nil =>
    intro m i j h1 h2
    cases h1 with
    | done h => exact .done (by simp [h])
  | cons v l ih =>
    intro m i j h1 h2
    cases h1 with
    | more a1 a2 a3 =>
      cases h2 with
      | done h => exact .done (by simp [h])
      | more b1 b2 b3 =>
        exact .more (by simp [a1, b1]) (by simp [a2, b2]) (ih _ _ _ a3 b3)

theorem Enum2.unique {a : Set2 P S} {s l l'} (h : Enum2 a s l) (h' : Enum2 a s l') : l = l' := by
  induction h generalizing l' with
  | done h => cases h' with
    | done _ => rfl
    | more h1 _ _ => rw [h] at h1; simp at h1
  | more h1 h2 _ ih => cases h' with
    | done h => rw [h] at h1; simp at h1
    | more g1 g2 g3 =>
      rw [h2] at g2
      simp only [Option.some.injEq] at g2
      rw [g2, ih g3]

end Gyoto.Coords
