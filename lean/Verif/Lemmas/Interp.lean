import Verif.Model.Interp
import Mathlib.Algebra.BigOperators.Ring.Finset
import Mathlib.Algebra.Order.BigOperators.Ring.Finset
import Mathlib.Algebra.Order.Field.Basic
import Mathlib.Algebra.BigOperators.Group.Finset.Powerset
import Mathlib.Tactic.Ring
import Mathlib.Tactic.Linarith
import Mathlib.Tactic.Positivity
import Mathlib.Tactic.FieldSimp

/-! Lemmas about interpolation. -/

namespace Gyoto.Interp

open Finset

theorem get_ok {α : Type} {l : List α} {i : Nat} {a : α} (h : l[i]? = some a) : get l i = .ok a := by
  simp [get, h]

theorem get_range_map {α : Type} (f : Nat → α) {n i : Nat} (h : i < n) : get ((List.range n).map f) i = .ok (f i) :=
  get_ok (by simp [h])

theorem mapM_ok {α β : Type} (l : List α) (f : α → Out β) (g : α → β) (h : ∀ x ∈ l, f x = .ok (g x)) :
    l.mapM f = .ok (l.map g) := by
  induction l with
  | nil => rfl
  | cons a l ih =>
    rw [List.mapM_cons, h a (by simp), ih fun x hx => h x (by simp [hx])]
    rfl

/-- The value obtained from corner values `V` (indexed by the set of dimensions in which the corner is the upper one) with
relative positions `t`: the tensor product of one-dimensional linear interpolations. -/
noncomputable def multilinear (N : Nat) (t : Nat → ℝ) (V : Finset Nat → ℝ) : ℝ :=
  ∑ S ∈ (range N).powerset, (∏ d ∈ range N, if d ∈ S then t d else 1 - t d) * V S

/-- The number whose binary digits are given by `S`. -/
def num (S : Finset Nat) : Nat := ∑ i ∈ S, 2 ^ i

theorem num_insert {S : Finset Nat} {d : Nat} (h : d ∉ S) : num (insert d S) = num S + 2 ^ d := by
  rw [num, sum_insert h, add_comm]; rfl

theorem num_lt {S : Finset Nat} {n : Nat} (h : S ⊆ range n) : num S < 2 ^ n := by
  induction n generalizing S with
  | zero => simp at h; simp [h, num]
  | succ n ih =>
    by_cases hn : n ∈ S
    · have h1 : S.erase n ⊆ range n := by
        intro x hx
        have := h (mem_of_mem_erase hx)
        have h2 := ne_of_mem_erase hx
        simp at this ⊢; omega
      rw [← insert_erase hn, num_insert (by simp)]
      have := ih h1
      rw [pow_succ]; omega
    · have h1 : S ⊆ range n := by
        intro x hx
        have := h hx
        have h2 : x ≠ n := fun e => hn (e ▸ hx)
        simp at this ⊢; omega
      have := ih h1
      rw [pow_succ]; omega

theorem multilinear_zero (t : Nat → ℝ) (V : Finset Nat → ℝ) : multilinear 0 t V = V ∅ := by
  simp [multilinear]

theorem multilinear_succ (N : Nat) (t : Nat → ℝ) (V : Finset Nat → ℝ) :
    multilinear (N + 1) t V = (1 - t N) * multilinear N t V + t N * multilinear N t (fun S => V (insert N S)) := by
  simp only [multilinear]
  rw [range_add_one, sum_powerset_insert (by simp), mul_sum, mul_sum]
  congr 1
  · refine sum_congr rfl fun S hS => ?_
    have hN : N ∉ S := fun h => by have := mem_powerset.1 hS h; simp at this
    rw [prod_insert (by simp), if_neg hN]; ring
  · refine sum_congr rfl fun S hS => ?_
    rw [prod_insert (by simp), if_pos (by simp), mul_assoc]
    congr 2
    refine prod_congr rfl fun d hd => ?_
    have : d ≠ N := by simp at hd; omega
    simp [this]

theorem multilinear_congr {N : Nat} {t t' : Nat → ℝ} {V V' : Finset Nat → ℝ} (ht : ∀ d < N, t d = t' d)
    (hV : ∀ S ⊆ range N, V S = V' S) : multilinear N t V = multilinear N t' V' := by
  refine sum_congr rfl fun S hS => ?_
  rw [hV S (mem_powerset.1 hS)]
  congr 1
  refine prod_congr rfl fun d hd => ?_
  rw [ht d (by simpa using hd)]

/-- The values after `d` dimensions have been dealt with. -/
noncomputable def part (t : Nat → ℝ) (Y : Nat → ℝ) (d j : Nat) : ℝ := multilinear d t fun S => Y (num S + 2 ^ d * j)

theorem part_succ (t : Nat → ℝ) (Y : Nat → ℝ) (d j : Nat) :
    part t Y (d + 1) j = interp1d (t d) (part t Y d (2 * j)) (part t Y d (2 * j + 1)) := by
  rw [part, multilinear_succ, interp1d]
  have h1 : multilinear d t (fun S => Y (num S + 2 ^ (d + 1) * j)) = part t Y d (2 * j) := by
    refine multilinear_congr (fun _ _ => rfl) fun S _ => ?_
    congr 1; ring
  have h2 : multilinear d t (fun S => Y (num (insert d S) + 2 ^ (d + 1) * j)) = part t Y d (2 * j + 1) := by
    refine multilinear_congr (fun _ _ => rfl) fun S hS => ?_
    have hd : d ∉ S := fun h => by have := hS h; simp at this
    rw [num_insert hd]; congr 1; ring
  rw [h1, h2]; ring

theorem reduce_eq (t : ℝ) (n : Nat) (Y : Nat → ℝ) :
    reduce t (2 ^ n) ((List.range (2 ^ (n + 1))).map Y) =
      .ok ((List.range (2 ^ n)).map fun i => interp1d t (Y (2 * i)) (Y (2 * i + 1))) := by
  refine mapM_ok _ _ _ fun i hi => ?_
  have hi : i < 2 ^ n := by simpa using hi
  rw [get_range_map _ (by rw [pow_succ]; omega), get_range_map _ (by rw [pow_succ]; omega)]
  rfl

theorem interpLoop_eq {N : Nat} {Xq : List ℝ} {X : List (List ℝ)} {cond : List Cond} {t : Nat → ℝ} (Y : Nat → ℝ)
    (ht : ∀ d < N, cellPos N (N - d) Xq X cond = .ok (t d)) :
    ∀ n d, n + d = N → ∀ res, (n = 0 → res = part t Y N 0) →
      interpLoop N Xq X cond n ((List.range (2 ^ n)).map (part t Y d)) res = .ok (part t Y N 0) := by
  intro n
  induction n with
  | zero => intro d hd res hres; simp [interpLoop, hres rfl]
  | succ n ih =>
    intro d hd res _
    have h1 := ht d (by omega)
    rw [show N - d = n + 1 by omega] at h1
    have h3 : ((List.range (2 ^ n)).map fun i => interp1d (t d) (part t Y d (2 * i)) (part t Y d (2 * i + 1)))
        = (List.range (2 ^ n)).map (part t Y (d + 1)) := by
      refine List.map_congr_left fun i _ => ?_
      rw [part_succ]
    have h2 := reduce_eq (t d) n (part t Y d)
    rw [h3] at h2
    simp only [interpLoop, h1, h2, get_range_map (part t Y (d + 1)) (Nat.two_pow_pos n), bind, Except.bind]
    refine ih (d + 1) (by omega) _ fun h0 => ?_
    rw [show d + 1 = N by omega]

/-- `interpNd` is the tensor product of one-dimensional interpolations at the positions computed for each dimension. -/
theorem interpNd_eq {N : Nat} (hN : 0 < N) {Xq : List ℝ} {X : List (List ℝ)} {cond : List Cond} {t : Nat → ℝ} (Y : Nat → ℝ)
    (ht : ∀ d < N, cellPos N (N - d) Xq X cond = .ok (t d)) :
    interpNd N Xq X ((List.range (2 ^ N)).map Y) cond = .ok (multilinear N t fun S => Y (num S)) := by
  have h := interpLoop_eq Y ht N 0 rfl 0 (by omega)
  have h0 : part t Y 0 = Y := by
    funext j; simp [part, multilinear_zero, num]
  rw [h0] at h
  rw [interpNd, if_neg (by simp), List.take_of_length_le (by simp), h]
  simp [part]

/-- Horner's form of the position of an element in a table stored row by row. -/
def flat (L idx : Nat → Nat) : Nat → Nat
  | 0 => 0
  | n + 1 => flat L idx n * L n + idx n

/-- One if the corner is the upper one along `d`. -/
def bit (S : Finset Nat) (d : Nat) : Nat := if d ∈ S then 1 else 0

/-- The offset used along a dimension. -/
def off (A : Axis) (b : Nat) : Nat := if A.len = 1 then 0 else b

theorem corner_eq {axes : List Axis} {indices : List Int} {ax : Nat → Axis} {k : Nat → Nat} {x : Nat → Nat → ℝ} {N : Nat}
    (hax : ∀ d < N, axes[d]? = some (ax d)) (hk : ∀ d < N, indices[d]? = some (k d : Int))
    (hx : ∀ d < N, ∀ b ≤ 1, (ax d).node (k d + off (ax d) b : Int) = .ok (x d b)) :
    ∀ n ≤ N, ∀ S ⊆ range n, corner axes indices n (num S) =
      .ok ((List.range n).map fun d => off (ax d) (bit S d), (List.range n).map fun d => x d (bit S d)) := by
  intro n
  induction n with
  | zero => intro _ S _; rfl
  | succ n ih =>
    intro hn S hS
    have hsub : S.erase n ⊆ range n := by
      intro y hy
      have h1 := hS (mem_of_mem_erase hy)
      have h2 := ne_of_mem_erase hy
      simp at h1 ⊢; omega
    have hlt := num_lt hsub
    have hnum : num S = num (S.erase n) + bit S n * 2 ^ n := by
      by_cases h : n ∈ S
      · conv_lhs => rw [← insert_erase h]
        rw [num_insert (by simp)]; simp [bit, h]
      · simp [bit, h]
    have hb : num S / 2 ^ n = bit S n := by
      rw [hnum, Nat.add_mul_div_right _ _ (Nat.two_pow_pos n), Nat.div_eq_of_lt hlt, zero_add]
    have hb1 : bit S n ≤ 1 := by unfold bit; split <;> omega
    have hrem : num S - bit S n * 2 ^ n = num (S.erase n) := by omega
    have h1 : ¬ (bit S n ≠ 0 ∧ bit S n ≠ 1) := by omega
    have h2 : ¬ ((k n : Int) = -1) := by omega
    have h3 := hx n (by omega) (bit S n) hb1
    rw [off] at h3
    simp only [corner, hb, h1, if_false, get_ok (hax n (by omega)), get_ok (hk n (by omega)), bind, Except.bind, h2, h3, hrem,
      ih (by omega) _ hsub]
    have hbit : ∀ d ∈ List.range n, bit (S.erase n) d = bit S d := by
      intro d hd
      have : d ≠ n := by simp at hd; omega
      simp [bit, this]
    rw [List.range_succ, List.map_append, List.map_append]
    congr 2
    · congr 1
      exact List.map_congr_left fun d hd => by rw [hbit d hd]
    · congr 1
      exact List.map_congr_left fun d hd => by rw [hbit d hd]

theorem foldlM_ok {α β : Type} (l : List α) (f : β → α → Out β) (g : β → α → β) (h : ∀ b, ∀ x ∈ l, f b x = .ok (g b x)) (b : β) :
    l.foldlM f b = .ok (l.foldl g b) := by
  induction l generalizing b with
  | nil => rfl
  | cons a l ih =>
    rw [List.foldlM_cons, h b a (by simp)]
    exact ih (fun b x hx => h b x (by simp [hx])) _

theorem foldl_sum (g : Nat → Int) (N : Nat) : (List.range N).foldl (fun a n => a + g n) 0 = ∑ n ∈ range N, g n := by
  induction N with
  | zero => rfl
  | succ N ih => rw [List.range_succ, List.foldl_append, ih, sum_range_succ]; rfl

theorem prodLen_last {axes : List Axis} {N : Nat} : prodLen axes (N + 1) N = 1 := by
  rw [prodLen, List.drop_eq_nil_of_le (by simp)]; rfl

theorem prodLen_succ {axes : List Axis} {N n : Nat} {A : Axis} (hA : axes[N]? = some A) (hn : n < N) :
    prodLen axes (N + 1) n = prodLen axes N n * A.len := by
  have hl := (List.getElem?_eq_some_iff.1 hA).1
  rw [prodLen, List.take_add_one, hA, Option.toList_some, List.drop_append_of_le_length (by simp; omega), List.foldl_append]
  rfl

theorem indY_eq {axes : List Axis} {indices : List Int} {tab : List Nat} {ax : Nat → Axis} {k o : Nat → Nat} {N : Nat}
    (hax : ∀ d < N, axes[d]? = some (ax d)) (hk : ∀ d < N, indices[d]? = some (k d : Int))
    (ho : ∀ d < N, tab[d]? = some (o d)) :
    indY axes indices tab N = .ok (flat (fun d => (ax d).len) (fun d => k d + o d) N : Int) := by
  rw [indY, foldlM_ok _ _ (fun ind n => ind + ((k n : Int) + o n) * (prodLen axes N n : Int)), foldl_sum]
  · congr 1
    clear hk ho
    induction N with
    | zero => rfl
    | succ N ih =>
      rw [sum_range_succ, prodLen_last, flat]
      push_cast
      rw [← ih fun d hd => hax d (by omega), sum_mul, mul_one]
      congr 1
      refine sum_congr rfl fun n hn => ?_
      rw [prodLen_succ (hax N (by omega)) (by simpa using hn)]
      push_cast; ring
  · intro b n hn
    have hn : n < N := by simpa using hn
    simp [get_ok (hk n hn), get_ok (ho n hn), bind, Except.bind]

theorem flat_lt (L idx : Nat → Nat) (N : Nat) (h : ∀ d < N, idx d < L d) : flat L idx N < ∏ d ∈ range N, L d := by
  induction N with
  | zero => simp [flat]
  | succ N ih =>
    rw [prod_range_succ, flat]
    have h1 := ih fun d hd => h d (by omega)
    have h2 := h N (by omega)
    calc flat L idx N * L N + idx N < flat L idx N * L N + L N := by omega
      _ = (flat L idx N + 1) * L N := by ring
      _ ≤ _ := Nat.mul_le_mul_right _ h1

theorem flat_congr {L idx idx' : Nat → Nat} {N : Nat} (h : ∀ d < N, idx d = idx' d) : flat L idx N = flat L idx' N := by
  induction N with
  | zero => rfl
  | succ N ih => rw [flat, flat, ih fun d hd => h d (by omega), h N (by omega)]

/-- The position in the cell, in terms of the coordinates of the lower and upper nodes. -/
theorem cellPos_eq {N d : Nat} {Xq : List ℝ} {cond : List Cond} {x : Nat → Nat → ℝ} {q : ℝ} {c c' : Cond} (hd : d < N)
    (hq : Xq[d]? = some q) (hc : cond[d]? = some c) (hc' : cond[N - 1 - d]? = some c')
    (row : Nat → List ℝ) (hrow : ∀ S ⊆ range N, (row (num S))[d]? = some (x d (bit S d))) :
    cellPos N (N - d) Xq ((List.range (2 ^ N)).map row) cond =
      let t := if x d 1 - x d 0 = 0 then 0 else (q - x d 0) / (x d 1 - x d 0)
      if t < 0 ∨ t > 1 then
        if c = .none then .error .thrown else if c' = .constant then if t < 0 then .ok 0 else .ok 1 else .ok t
      else .ok t := by
  have e : N - (N - d) = d := by omega
  have e' : N - d - 1 = N - 1 - d := by omega
  have h0 := hrow ∅ (by simp)
  have hz : num ∅ = 0 := rfl
  rw [hz] at h0
  have hindx : ∃ S ⊆ range N, num S = (if d = 0 then 1 else 2 ^ d + 1) ∧ d ∈ S := by
    by_cases h : d = 0
    · exact ⟨{0}, by simp; omega, by simp [num, h], by simp [h]⟩
    · refine ⟨{0, d}, ?_, ?_, by simp⟩
      · intro y hy; simp at hy ⊢; omega
      · rw [if_neg h, num, sum_pair (fun e => h e.symm)]; ring
  obtain ⟨S, hS, hnum, hdS⟩ := hindx
  have h1 := hrow S hS
  have hlt := num_lt hS
  rw [hnum] at h1 hlt
  have b1 : bit S d = 1 := by simp [bit, hdS]
  have b0 : bit ∅ d = 0 := by simp [bit]
  rw [b1] at h1
  rw [b0] at h0
  simp only [cellPos, e, e', get_ok hq, bind, Except.bind, get_range_map row (Nat.two_pow_pos N), get_range_map row hlt,
    get_ok h0, get_ok h1, get_ok hc, get_ok hc']

/-- The position used along a dimension whose nodes are at `x0` and `x1`; `c` is its own condition, `c'` the one consulted. -/
noncomputable def usedPos (q x0 x1 : ℝ) (c c' : Cond) : Out ℝ :=
  let t := if x1 - x0 = 0 then 0 else (q - x0) / (x1 - x0)
  if t < 0 ∨ t > 1 then
    if c = .none then .error .thrown else if c' = .constant then if t < 0 then .ok 0 else .ok 1 else .ok t
  else .ok t

theorem getElem?_range_map {α : Type} (f : Nat → α) {n i : Nat} (h : i < n) : ((List.range n).map f)[i]? = some (f i) := by
  simp [h]

theorem exists_num (N ii : Nat) (h : ii < 2 ^ N) : ∃ S ⊆ range N, num S = ii := by
  induction N generalizing ii with
  | zero => exact ⟨∅, by simp, by simp [num]; omega⟩
  | succ N ih =>
    by_cases h1 : ii < 2 ^ N
    · obtain ⟨S, hS, h2⟩ := ih ii h1
      exact ⟨S, hS.trans (by simp), h2⟩
    · obtain ⟨S, hS, h2⟩ := ih (ii - 2 ^ N) (by rw [pow_succ] at h; omega)
      have hN : N ∉ S := fun e => by have := hS e; simp at this
      refine ⟨insert N S, ?_, ?_⟩
      · intro y hy
        rcases mem_insert.1 hy with rfl | hy
        · simp
        · have := hS hy; simp at this ⊢; omega
      · rw [num_insert hN, h2]; omega

theorem num_inj (n : Nat) : ∀ S ⊆ range n, ∀ S' ⊆ range n, num S = num S' → S = S' := by
  induction n with
  | zero => intro S hS S' hS' _; simp at hS hS'; rw [hS, hS']
  | succ n ih =>
    intro S hS S' hS' h
    have key : ∀ S ⊆ range (n + 1), S.erase n ⊆ range n ∧ num S = num (S.erase n) + bit S n * 2 ^ n := by
      intro S hS
      refine ⟨fun y hy => ?_, ?_⟩
      · have h1 := hS (mem_of_mem_erase hy)
        have h2 := ne_of_mem_erase hy
        simp at h1 ⊢; omega
      · by_cases h : n ∈ S
        · conv_lhs => rw [← insert_erase h]
          rw [num_insert (by simp)]; simp [bit, h]
        · simp [bit, h]
    obtain ⟨a1, a2⟩ := key S hS
    obtain ⟨b1, b2⟩ := key S' hS'
    have l1 := num_lt a1
    have l2 := num_lt b1
    have e2 : bit S n = bit S' n := by
      have f1 : num S / 2 ^ n = bit S n := by
        rw [a2, Nat.add_mul_div_right _ _ (Nat.two_pow_pos n), Nat.div_eq_of_lt l1, zero_add]
      have f2 : num S' / 2 ^ n = bit S' n := by
        rw [b2, Nat.add_mul_div_right _ _ (Nat.two_pow_pos n), Nat.div_eq_of_lt l2, zero_add]
      rw [← f1, ← f2, h]
    have e1 := ih _ a1 _ b1 (by rw [e2] at a2; omega)
    ext y
    by_cases hy : y = n
    · subst hy
      simp only [bit] at e2
      constructor <;> intro hm <;> by_contra hm' <;> simp [hm, hm'] at e2
    · have := Finset.ext_iff.1 e1 y
      simpa [hy] using this

/-- Value of an interpolation whose indices, nodes and table reads all succeed. -/
theorem interpolate_gen {N : Nat} (hN : 0 < N) {array : List ℝ} {q q' : Nat → ℝ} {ax : Nat → Axis} {c : Nat → Cond}
    {k : Nat → Nat} {x : Nat → Nat → ℝ} {t : Nat → ℝ} {V : Finset Nat → ℝ}
    (hi : ∀ d < N, (ax d).index (q d) (c d) = .ok ((k d : Int), q' d))
    (hx : ∀ d < N, ∀ b ≤ 1, (ax d).node (k d + off (ax d) b : Int) = .ok (x d b))
    (hV : ∀ S ⊆ range N, array[flat (fun d => (ax d).len) (fun d => k d + off (ax d) (bit S d)) N]? = some (V S))
    (ht : ∀ d < N, usedPos (q' d) (x d 0) (x d 1) (c d) (c (N - 1 - d)) = .ok (t d)) :
    interpolate N array ((List.range N).map q) ((List.range N).map ax) ((List.range N).map c) =
      .ok (multilinear N t V, (List.range N).map q') := by
  have hfound : ((List.range N).mapM fun ii => do
      let xq ← get ((List.range N).map q) ii
      let c ← get ((List.range N).map c) ii
      let ax ← get ((List.range N).map ax) ii
      ax.index xq c : Out (List (Int × ℝ))) = .ok ((List.range N).map fun d => ((k d : Int), q' d)) := by
    refine mapM_ok _ _ _ fun d hd => ?_
    have hd : d < N := by simpa using hd
    simp only [get_range_map _ hd, bind, Except.bind, hi d hd]
  have hax : ∀ d < N, ((List.range N).map ax)[d]? = some (ax d) := fun d hd => getElem?_range_map _ hd
  have hk : ∀ d < N, ((List.range N).map fun d => (k d : Int))[d]? = some (k d : Int) := fun d hd =>
    getElem?_range_map (fun d => (k d : Int)) hd
  have hS : ∀ ii, ∃ S, ii < 2 ^ N → S ⊆ range N ∧ num S = ii := by
    intro ii
    by_cases h : ii < 2 ^ N
    · obtain ⟨S, h1, h2⟩ := exists_num N ii h
      exact ⟨S, fun _ => ⟨h1, h2⟩⟩
    · exact ⟨∅, fun h' => absurd h' h⟩
  choose set hset using hS
  have hcorner : ((List.range (2 ^ N)).mapM fun ii => do
      let r ← corner ((List.range N).map ax) ((List.range N).map fun d => (k d : Int)) N ii
      let y ← geti array (← indY ((List.range N).map ax) ((List.range N).map fun d => (k d : Int)) r.1 N)
      .ok (r.2, y) : Out (List (List ℝ × ℝ))) =
      .ok ((List.range (2 ^ N)).map fun ii => ((List.range N).map fun d => x d (bit (set ii) d), V (set ii))) := by
    refine mapM_ok _ _ _ fun ii hii => ?_
    have hii : ii < 2 ^ N := by simpa using hii
    obtain ⟨h1, h2⟩ := hset ii hii
    have h3 := corner_eq hax hk hx N le_rfl (set ii) h1
    rw [h2] at h3
    have h4 := indY_eq (axes := (List.range N).map ax) (indices := (List.range N).map fun d => (k d : Int))
      (tab := (List.range N).map fun d => off (ax d) (bit (set ii) d)) hax hk
      (fun d hd => getElem?_range_map (fun d => off (ax d) (bit (set ii) d)) hd)
    simp only [h3, bind, Except.bind, h4, geti, Int.toNat_natCast, get_ok (hV _ h1)]
    rw [if_neg (by omega)]
  rw [interpolate, hfound]
  simp only [bind, Except.bind, List.map_map, Function.comp_def]
  simp only [bind, Except.bind] at hcorner
  rw [hcorner]
  simp only [List.map_map, Function.comp_def]
  rw [show ((List.range N).map fun d => q' d) ++ ((List.range N).map q).drop N = (List.range N).map q' by simp]
  rw [interpNd_eq hN (t := t) (fun ii => V (set ii))]
  · simp only
    congr 2
    refine multilinear_congr (fun _ _ => rfl) fun S hS => ?_
    obtain ⟨h1, h2⟩ := hset (num S) (num_lt hS)
    rw [num_inj N _ h1 _ hS h2]
  · intro d hd
    rw [cellPos_eq (x := x) hd (getElem?_range_map q' hd) (getElem?_range_map c hd)
      (getElem?_range_map c (show N - 1 - d < N by omega)), ← ht d hd]
    · rfl
    · intro S hS
      obtain ⟨h1, h2⟩ := hset (num S) (num_lt hS)
      rw [num_inj N _ h1 _ hS h2, getElem?_range_map (fun d => x d (bit S d)) hd]

/-- The search returns the cell containing the query. -/
theorem search_from {X : List ℝ} {xq : ℝ} (x : Nat → ℝ) (hx : ∀ i < X.length, X[i]? = some (x i))
    (h01 : x 0 ≤ x 1) (h1 : xq ≤ x (X.length - 1)) :
    ∀ m i, m + i + 1 = X.length → x i ≤ xq → (i = 0 ∧ 2 ≤ X.length ∨ x i < xq) →
      ∃ j, search xq X X.length i = .ok j ∧ j + 1 < X.length ∧ x j ≤ xq ∧ xq ≤ x (j + 1) := by
  intro m
  induction m with
  | zero =>
    intro i hm hi h0
    have hlast : X.length - 1 = i := by omega
    rw [hlast] at h1
    rcases h0 with ⟨h0, h2⟩ | h0
    · omega
    · linarith
  | succ m ih =>
    intro i hm hi h0
    rw [search, hx i (by omega)]
    simp only
    by_cases hgt : xq > x i
    · rw [if_pos hgt, hx (i + 1) (by omega)]
      simp only
      by_cases hgt' : xq > x (i + 1)
      · rw [if_pos ⟨hgt', by omega⟩]
        exact ih (i + 1) (by omega) (le_of_lt hgt') (Or.inr hgt')
      · rw [if_neg (fun h => hgt' h.1)]
        exact ⟨i, rfl, by omega, hi, by linarith⟩
    · rw [if_neg hgt]
      rcases h0 with ⟨h0, h2⟩ | h0
      · subst h0
        exact ⟨0, rfl, by omega, hi, by linarith⟩
      · linarith

end Gyoto.Interp
