import Verif.Lemmas.Shift
import Verif.Props.GenericMotion
import Mathlib.Analysis.Calculus.Deriv.Add
import Mathlib.Analysis.Calculus.Deriv.Pow
import Mathlib.Data.List.OfFn

/-!
# C96: shifted metrics and sums of metrics
-/

namespace Gyoto.Derived

open Gyoto.MetricAlg Gyoto.Spacetime Gyoto.GenericMotion

/-! ## `Shift` -/

/-- The tensors of a `Shift` at a point are those of its sub-metric at the point moved back. -/
theorem shift_value (off : Vec) (m : Met) (p : Vec) :
    (shift off m).g (fun i => p i + off i) = m.g p ∧ (shift off m).gup (fun i => p i + off i) = m.gup p ∧
      (shift off m).jac (fun i => p i + off i) = m.jac p := by
  have : spos off (fun i => p i + off i) = p := by
    funext i
    simp [spos]
  simp [shift, this]

/-- The stop condition is asked at the point moved back, with the same velocity. -/
theorem shift_stop (off : Vec) (m : Met) (c c' : Fin 8 → ℝ) (hp : ∀ i : Fin 4, c' (Fin.castLE (by omega) i) = c (Fin.castLE (by omega) i) + off i)
    (hv : ∀ i : Fin 4, c' (Fin.natAdd 4 i) = c (Fin.natAdd 4 i)) : (shift off m).stop c' = m.stop c := by
  have : scoord off c' = c := by
    have p0 := hp 0
    have p1 := hp 1
    have p2 := hp 2
    have p3 := hp 3
    have v0 := hv 0
    have v1 := hv 1
    have v2 := hv 2
    have v3 := hv 3
    simp only [show (Fin.castLE (by omega) (0 : Fin 4) : Fin 8) = 0 from rfl, show (Fin.castLE (by omega) (1 : Fin 4) : Fin 8) = 1 from rfl,
      show (Fin.castLE (by omega) (2 : Fin 4) : Fin 8) = 2 from rfl, show (Fin.castLE (by omega) (3 : Fin 4) : Fin 8) = 3 from rfl] at p0 p1 p2 p3
    simp only [show (Fin.natAdd 4 (0 : Fin 4) : Fin 8) = 4 from rfl, show (Fin.natAdd 4 (1 : Fin 4) : Fin 8) = 5 from rfl,
      show (Fin.natAdd 4 (2 : Fin 4) : Fin 8) = 6 from rfl, show (Fin.natAdd 4 (3 : Fin 4) : Fin 8) = 7 from rfl] at v0 v1 v2 v3
    funext i
    fin_cases i
    · show c' 0 - off 0 = c 0
      rw [p0, add_sub_cancel_right]
    · show c' 1 - off 1 = c 1
      rw [p1, add_sub_cancel_right]
    · show c' 2 - off 2 = c 2
      rw [p2, add_sub_cancel_right]
    · show c' 3 - off 3 = c 3
      rw [p3, add_sub_cancel_right]
    · exact v0
    · exact v1
    · exact v2
    · exact v3
  show m.stop (scoord off c') = m.stop c
  rw [this]

/-- Two shifts, one of the other, are one shift by the sum. -/
theorem shift_shift (a b : Vec) (m : Met) : shift a (shift b m) = shift (fun i => a i + b i) m := by
  have hs : ∀ p, spos b (spos a p) = spos (fun i => a i + b i) p := fun p => by
    funext i
    simp only [spos]
    ring
  have hc : ∀ c, scoord b (scoord a c) = scoord (fun i => a i + b i) c := fun c => by
    funext i
    fin_cases i
    · show c 0 - a 0 - b 0 = c 0 - (a 0 + b 0)
      ring
    · show c 1 - a 1 - b 1 = c 1 - (a 1 + b 1)
      ring
    · show c 2 - a 2 - b 2 = c 2 - (a 2 + b 2)
      ring
    · show c 3 - a 3 - b 3 = c 3 - (a 3 + b 3)
      ring
    all_goals rfl
  simp only [shift, hs, hc]

/-- A shift by nothing changes nothing. -/
theorem shift_zero (m : Met) : shift (fun _ => 0) m = m := by
  have hs : ∀ p, spos (fun _ => 0) p = p := fun p => by
    funext i
    simp [spos]
  have hc : ∀ c, scoord (fun _ => 0) c = c := fun c => by
    funext i
    fin_cases i
    · exact sub_zero (c 0)
    · exact sub_zero (c 1)
    · exact sub_zero (c 2)
    · exact sub_zero (c 3)
    all_goals rfl
  simp only [shift, hs, hc]

/-- `jacobian` of a `Shift` is the derivative of `gmunu` of the `Shift`, when this is so of the sub-metric at the point moved back. -/
theorem shift_derivative {off pos : Vec} {m : Met} (hjac : IsPartial m.g (fun i => pos i - off i) (m.jac fun i => pos i - off i)) :
    IsPartial (shift off m).g pos ((shift off m).jac pos) := by
  intro μ α β
  have h := hjac μ α β
  have e : (fun x => (shift off m).g (Function.update pos μ x) α β) =
      fun x => m.g (Function.update (fun i => pos i - off i) μ (x - off μ)) α β := by
    funext x
    show m.g (spos off (Function.update pos μ x)) α β = _
    congr 1
    funext i
    by_cases hi : i = μ
    · subst hi
      simp [spos]
    · simp [spos, hi]
  rw [e]
  exact HasDerivAt.comp_sub_const (pos μ) (off μ) h

/-- The Christoffel symbols computed by a `Shift` are those of the metric that it describes. -/
theorem shift_connection {off pos : Vec} {m : Met} (hsym : ∀ p, (m.g p).IsSymm)
    (hinv : (m.gup fun i => pos i - off i) * (m.g fun i => pos i - off i) = 1)
    (hjac : IsPartial m.g (fun i => pos i - off i) (m.jac fun i => pos i - off i)) :
    IsChristoffel (shift off m).g pos (connection ((shift off m).gup pos) ((shift off m).jac pos)) :=
  connection_ok (fun _ => hsym _) hinv (shift_derivative hjac)

/-- Motion in a `Shift` is the motion in its sub-metric, moved. -/
theorem shift_motion {off : Vec} {m : Met} {Γ : Vec → Fin 4 → Tensor} {n : ℕ} {x : ℝ → ℕ → ℝ} {t : ℝ} (hn : 8 ≤ n) (hsym : ∀ p, (m.g p).IsSymm)
    (hinv : (m.gup fun i => block (x t) 0 i - off i) * (m.g fun i => block (x t) 0 i - off i) = 1)
    (hjac : IsPartial m.g (fun i => block (x t) 0 i - off i) (m.jac fun i => block (x t) 0 i - off i))
    (hΓ : IsChristoffel m.g (fun i => block (x t) 0 i - off i) (Γ fun i => block (x t) 0 i - off i)) :
    Follows (fun x => (0, connection ((shift off m).gup (block x 0)) ((shift off m).jac (block x 0)))) n x t ↔
      Follows (fun x => (0, Γ (block x 0))) n (fun τ k => if k < 4 then x τ k - off (Fin.ofNat 4 k) else x τ k) t := by
  have hb0 : block (fun k => if k < 4 then x t k - off (Fin.ofNat 4 k) else x t k) 0 = fun i => block (x t) 0 i - off i := by
    funext i
    have hi : 4 * 0 + (i : ℕ) < 4 := by omega
    simp only [block, if_pos hi]
    congr 2
    apply Fin.ext
    simp [Fin.ofNat]
  have hb : ∀ v, 1 ≤ v → block (fun k => if k < 4 then x t k - off (Fin.ofNat 4 k) else x t k) v = block (x t) v := by
    intro v hv
    funext i
    have hi : ¬ 4 * v + (i : ℕ) < 4 := by omega
    simp only [block, if_neg hi]
  have huniq : connection ((shift off m).gup (block (x t) 0)) ((shift off m).jac (block (x t) 0)) = Γ fun i => block (x t) 0 i - off i := by
    refine IsChristoffel.unique (h := m.gup fun i => block (x t) 0 i - off i) ?_ (connection_ok hsym hinv hjac) hΓ
    intro γ β
    have := congrFun (congrFun hinv γ) β
    rw [Matrix.mul_apply, Matrix.one_apply] at this
    exact this
  rw [transport_equation hn, transport_equation hn]
  simp only [huniq, hb0]
  have hder : ∀ k d, HasDerivAt (fun τ => if k < 4 then x τ k - off (Fin.ofNat 4 k) else x τ k) d t ↔ HasDerivAt (fun τ => x τ k) d t := by
    intro k d
    by_cases hk : k < 4
    · simp only [if_pos hk]
      exact hasDerivAt_sub_const_iff _
    · simp only [if_neg hk]
  have h4 : ∀ k, (if k + 4 < 4 then x t (k + 4) - off (Fin.ofNat 4 (k + 4)) else x t (k + 4)) = x t (k + 4) := fun k => if_neg (by omega)
  simp only [hder, h4, hb 1 le_rfl]
  refine and_congr Iff.rfl (and_congr Iff.rfl (and_congr Iff.rfl (and_congr ?_ Iff.rfl)))
  refine forall_congr' fun k => forall_congr' fun hk => forall_congr' fun hv => ?_
  rw [hb _ hv]

/-- The offset is accepted when it has four values, and these are then the offset. -/
theorem offset_iff (v : List ℝ) (o : Vec) : setOffset v = some o ↔ v = List.ofFn o := by
  unfold setOffset
  by_cases h : v.length = 4
  · rw [if_neg (not_not.mpr h)]
    obtain ⟨a, b, c, d, rfl⟩ : ∃ a b c d, v = [a, b, c, d] := by
      match v, h with
      | [a, b, c, d], _ => exact ⟨a, b, c, d, rfl⟩
    constructor
    · intro e
      obtain rfl := Option.some.inj e
      simp [List.ofFn_succ]
    · intro e
      congr 1
      simp only [List.ofFn_succ, List.ofFn_zero, List.cons.injEq, and_true] at e
      obtain ⟨e0, e1, e2, e3⟩ := e
      funext i
      fin_cases i
      · exact e0
      · exact e1
      · exact e2
      · exact e3
  · rw [if_pos h]
    refine ⟨fun e => (by cases e), fun e => absurd ?_ h⟩
    rw [e, List.length_ofFn]

/-! ## `Complex` -/

/-- `gmunu` of a `Complex` is the sum. -/
theorem complex_sum (l : List Met) (x : Vec) (μ ν : Fin 4) : complexG l x μ ν = (l.map fun m => m.g x μ ν).sum := by
  have key : ∀ g0 : Tensor, l.foldl (fun g m => .of fun mu nu => g mu nu + m.g x mu nu) g0 μ ν =
      g0 μ ν + (l.map fun m => m.g x μ ν).sum := by
    induction l with
    | nil => simp
    | cons m l ih =>
      intro g0
      rw [List.foldl_cons, ih]
      simp [add_assoc]
  rw [complexG, key, Matrix.of_apply, zero_add]

theorem complexJac_sum (l : List Met) (x : Vec) (a μ ν : Fin 4) : complexJac l x a μ ν = (l.map fun m => m.jac x a μ ν).sum := by
  have key : ∀ g0 : Fin 4 → Tensor, l.foldl (fun j m => fun a => .of fun mu nu => j a mu nu + m.jac x a mu nu) g0 a μ ν =
      g0 a μ ν + (l.map fun m => m.jac x a μ ν).sum := by
    induction l with
    | nil => simp
    | cons m l ih =>
      intro g0
      rw [List.foldl_cons, ih]
      simp [add_assoc]
  rw [complexJac, key, Matrix.of_apply, zero_add]

/-- `jacobian` of a `Complex` is the derivative of its `gmunu`, when this is so of each element. -/
theorem complex_derivative {l : List Met} {x : Vec} (h : ∀ m ∈ l, IsPartial m.g x (m.jac x)) : IsPartial (complexG l) x (complexJac l x) := by
  intro μ α β
  simp only [complex_sum, complexJac_sum]
  induction l with
  | nil => simpa using hasDerivAt_const (x μ) (0 : ℝ)
  | cons m l ih =>
    simp only [List.map_cons, List.sum_cons]
    exact (h m (by simp) μ α β).add (ih fun m' hm' => h m' (by simp [hm']))

/-- The Christoffel symbols computed by a `Complex` (from any inverse of its `gmunu`) are those of the sum of the metrics. -/
theorem complex_connection {l : List Met} {x : Vec} {gup : Tensor} (hsym : ∀ m ∈ l, ∀ p, (m.g p).IsSymm)
    (h : ∀ m ∈ l, IsPartial m.g x (m.jac x)) (hinv : gup * complexG l x = 1) :
    IsChristoffel (complexG l) x (connection gup (complexJac l x)) := by
  refine connection_ok (fun p => ?_) hinv (complex_derivative h)
  ext i j
  rw [Matrix.transpose_apply, complex_sum, complex_sum]
  congr 1
  exact List.map_congr_left fun m hm => (hsym m hm p).apply i j

/-- A `Complex` stops where one of its elements does, and its code is 1 then. -/
theorem complex_stop (l : List Met) (c : Fin 8 → ℝ) :
    (complexStop l c = 1 ↔ ∃ m ∈ l, m.stop c ≠ 0) ∧ (complexStop l c = 0 ↔ ∀ m ∈ l, m.stop c = 0) := by
  induction l with
  | nil => simp [complexStop]
  | cons m l ih =>
    unfold complexStop
    by_cases h : m.stop c = 0
    · simp [h, ih.1, ih.2]
    · simp [h]

/-! ### The list of elements -/

theorem removeLoop_eq {α : Type} (i k : ℕ) (orig dest : List α) :
    removeLoop i k orig dest = dest ++ if i < k then orig else orig.eraseIdx (i - k) := by
  induction orig generalizing k dest with
  | nil => simp [removeLoop]
  | cons x orig ih =>
    rw [removeLoop, ih]
    by_cases h : k = i
    · subst h
      simp
    · by_cases h' : i < k
      · rw [if_pos h, if_pos (by omega), if_pos h']
        simp
      · obtain ⟨d, hd⟩ : ∃ d, i - k = d + 1 := ⟨i - k - 1, by omega⟩
        rw [if_pos h, if_neg (by omega), if_neg h', hd, List.eraseIdx_cons_succ, show i - (k + 1) = d by omega]
        simp

/-- `remove(i)` throws when there is no such element; otherwise this one leaves and the others stay, in their order. -/
theorem remove_ok {α : Type} (c : Complex α) (i : ℕ) :
    (c.elements.length ≤ i → c.remove i = .throw c) ∧
      (i < c.elements.length → ∃ k, c.remove i = .ok ⟨c.elements.eraseIdx i, k⟩ ∧ (c.elements.length = 1 → k = .unspecified) ∧
        (c.elements.length ≠ 1 → k = c.kind)) := by
  have e : removeLoop i 0 c.elements [] = c.elements.eraseIdx i := by simp [removeLoop_eq]
  refine ⟨fun h => if_pos h, fun h => ?_⟩
  unfold Complex.remove
  rw [if_neg (by omega), e]
  by_cases h1 : c.elements.length - 1 = 0
  · exact ⟨.unspecified, if_pos h1, fun _ => rfl, fun h2 => absurd (by omega) h2⟩
  · exact ⟨c.kind, if_neg h1, fun h2 => absurd (by omega) h1, fun _ => rfl⟩

/-- `append` of a metric adds it at the end, unless there are elements already and its kind of coordinates is not theirs: then nothing changes. -/
theorem append_ok {α : Type} (coordKind : α → Kind) (c : Complex α) (x : α) :
    (c.elements = [] ∨ coordKind x = c.kind → c.append coordKind (some x) = .ok ⟨c.elements ++ [some x], coordKind x⟩) ∧
      (c.elements ≠ [] → coordKind x ≠ c.kind → c.append coordKind (some x) = .throw c) := by
  unfold Complex.append
  rcases h : c.elements with _ | ⟨y, l⟩
  · simp
  · simp only [reduceCtorEq, false_or, ne_eq, not_false_eq_true, forall_const]
    exact ⟨fun e => if_neg (not_not.mpr e), fun e => if_pos e⟩

/-- Whatever is appended (but the null pointer) and removed, all elements have the coordinates of the `Complex`, and an empty one has none. -/
theorem complex_kinds {α : Type} (coordKind : α → Kind) (calls : List (CCall α)) (hn : CCall.append none ∉ calls) :
    (∀ e ∈ (calls.foldl (Complex.call coordKind) .new).elements, ∃ x, e = some x ∧ coordKind x = (calls.foldl (Complex.call coordKind) .new).kind) ∧
      ((calls.foldl (Complex.call coordKind) .new).elements = [] → (calls.foldl (Complex.call coordKind) .new).kind = .unspecified) := by
  have key : ∀ (calls : List (CCall α)) (c : Complex α), CCall.append none ∉ calls → (∀ e ∈ c.elements, ∃ x, e = some x ∧ coordKind x = c.kind) →
      (c.elements = [] → c.kind = .unspecified) →
      (∀ e ∈ (calls.foldl (Complex.call coordKind) c).elements, ∃ x, e = some x ∧ coordKind x = (calls.foldl (Complex.call coordKind) c).kind) ∧
      ((calls.foldl (Complex.call coordKind) c).elements = [] → (calls.foldl (Complex.call coordKind) c).kind = .unspecified) := by
    intro calls
    induction calls with
    | nil => exact fun c _ h1 h2 => ⟨h1, h2⟩
    | cons a calls ih =>
      intro c hn h1 h2
      rw [List.foldl_cons]
      have hn' : CCall.append none ∉ calls := fun h => hn (by simp [h])
      cases a with
      | append e =>
        rcases e with _ | x
        · exact absurd (by simp) hn
        · obtain ⟨a1, a2⟩ := append_ok coordKind c x
          by_cases hx : c.elements = [] ∨ coordKind x = c.kind
          · have e : c.call coordKind (.append (some x)) = ⟨c.elements ++ [some x], coordKind x⟩ := by
              simp only [Complex.call, a1 hx]
            rw [e]
            refine ih _ hn' (fun y hy => ?_) (fun h => absurd h (by simp))
            rcases List.mem_append.mp hy with hy | hy
            · rcases hx with hx | hx
              · rw [hx] at hy
                cases hy
              · obtain ⟨z, e1, e2⟩ := h1 y hy
                exact ⟨z, e1, e2.trans hx.symm⟩
            · exact ⟨x, by simpa using hy, rfl⟩
          · push Not at hx
            have e : c.call coordKind (.append (some x)) = c := by simp only [Complex.call, a2 hx.1 hx.2]
            rw [e]
            exact ih _ hn' h1 h2
      | remove i =>
        obtain ⟨r1, r2⟩ := remove_ok c i
        by_cases hi : i < c.elements.length
        · obtain ⟨k, e, k1, k2⟩ := r2 hi
          have e' : c.call coordKind (.remove i) = ⟨c.elements.eraseIdx i, k⟩ := by simp only [Complex.call, e]
          rw [e']
          have hlen : (c.elements.eraseIdx i).length = c.elements.length - 1 := List.length_eraseIdx_of_lt hi
          refine ih _ hn' (fun y hy => ?_) (fun h => ?_)
          · have hne : c.elements.length ≠ 1 := fun h => by
              have := List.length_pos_of_mem hy
              simp only at this
              omega
            obtain ⟨z, e1, e2⟩ := h1 y (List.mem_of_mem_eraseIdx hy)
            exact ⟨z, e1, e2.trans (k2 hne).symm⟩
          · refine k1 ?_
            have : (c.elements.eraseIdx i).length = 0 := by simpa using h
            omega
        · have e' : c.call coordKind (.remove i) = c := by simp only [Complex.call, r1 (by omega)]
          rw [e']
          exact ih _ hn' h1 h2
  exact key calls .new hn (by simp [Complex.new]) (fun _ => rfl)

/-- Appending the null pointer to an empty `Complex` throws, but leaves it with a null element: the next `append` of any metric is then refused,
and it says that it has elements. -/
theorem append_null_wrong {α : Type} (coordKind : α → Kind) (x : α) (hx : coordKind x ≠ .unspecified) :
    Complex.append coordKind .new none = .throw ⟨[none], .unspecified⟩ ∧
      Complex.append coordKind ⟨[none], .unspecified⟩ (some x) = .throw ⟨[none], .unspecified⟩ := by
  refine ⟨rfl, ?_⟩
  unfold Complex.append
  exact if_pos hx

/-! ## The mass of a `Shift` -/

/-- Metrics with these masses, and no `Shift`. -/
def start (mass : ℕ → ℝ) : World := ⟨mass, fun _ => [], fun _ => none, 0⟩

theorem start_inv (mass : ℕ → ℝ) : Inv (start mass) ∧ Hooked (start mass) := by
  refine ⟨⟨?_, ?_⟩, ?_⟩
  · intro s sh h
    simp [start] at h
  · intro k l h
    simp [start] at h
  · intro s sh k h
    simp [start] at h

/-- Whatever is done, clones included, a metric never tells its mass to a `Shift` that is destroyed. -/
theorem shift_safe (mass : ℕ → ℝ) (os : List Op) : ∃ w, run (start mass) os = some w := by
  obtain ⟨w, e, -⟩ := run_inv (start_inv mass).1 os
  exact ⟨w, e⟩

/-- Whatever is done, a `Shift` that listens to a metric has this metric as its sub-metric, and its mass. -/
theorem shift_hooked {mass : ℕ → ℝ} {os : List Op} {w : World} (h : run (start mass) os = some w) (k l : ℕ) (hl : l ∈ w.listeners k) :
    ∃ sh, w.shifts l = some sh ∧ sh.sub = some k ∧ sh.mass = w.mass k := by
  obtain ⟨w', e, hi, -⟩ := run_inv (start_inv mass).1 os
  rw [h] at e
  obtain rfl := Option.some.inj e
  exact hi.heard k l hl

/-- When nothing is cloned, the mass of a `Shift` is always that of its sub-metric.  What is missing is the clones: see `clone_mass_wrong`. -/
theorem shift_mass_partial {mass : ℕ → ℝ} {os : List Op} {w : World} (h : run (start mass) os = some w) (hc : ∀ s, Op.clone s ∉ os) {s k : ℕ}
    {sh : ShiftObj} (e : w.shifts s = some sh) (es : sh.sub = some k) : sh.mass = w.mass k := by
  obtain ⟨w', e', hi, hh⟩ := run_inv (start_inv mass).1 os
  rw [h] at e'
  obtain rfl := Option.some.inj e'
  obtain ⟨sh', e1, -, e2⟩ := hi.heard k s (hh hc (start_inv mass).2 s sh k e es)
  rw [e] at e1
  obtain rfl := Option.some.inj e1
  exact e2

/-- When nothing is cloned, `mass(m)` of a `Shift` sets its mass and that of its sub-metric. -/
theorem shift_set_partial {mass : ℕ → ℝ} {os : List Op} {w w' : World} (h : run (start mass) os = some w) (hc : ∀ s, Op.clone s ∉ os) {s : ℕ}
    {sh : ShiftObj} (e : w.shifts s = some sh) {m : ℝ} (h' : step w (.shiftMass s m) = some w') :
    (∃ sh', w'.shifts s = some sh' ∧ sh'.mass = m ∧ sh'.sub = sh.sub) ∧ ∀ k, sh.sub = some k → w'.mass k = m := by
  obtain ⟨w0, e', hi, hh⟩ := run_inv (start_inv mass).1 os
  rw [h] at e'
  obtain rfl := Option.some.inj e'
  simp only [step, e] at h'
  rcases es : sh.sub with _ | k
  · rw [es] at h'
    obtain rfl := Option.some.inj h'
    exact ⟨⟨{ mass := m, sub := none }, by simp, rfl, rfl⟩, fun k hk => (by cases hk)⟩
  · rw [es] at h'
    simp only at h'
    rw [(inv_subMass hi k m).1] at h'
    obtain rfl := Option.some.inj h'
    have hs : s ∈ w.listeners k := hh hc (start_inv mass).2 s sh k e es
    refine ⟨⟨{ sh with mass := m }, by simp [afterMass, hs, e], rfl, es⟩, fun j hj => ?_⟩
    obtain rfl := Option.some.inj hj
    simp [afterMass]

/-- A clone has the sub-metric of the original, but does not listen to it.  So `mass(5)` of the clone leaves the mass of the clone as it was, and
sets that of the original. -/
theorem clone_mass_wrong :
    ∃ w a b, run (start fun _ => 1) [.new, .subMetric 0 (some 0), .clone 0, .shiftMass 1 5] = some w ∧ w.shifts 0 = some a ∧ w.shifts 1 = some b ∧
      a.sub = b.sub ∧ a.mass = 5 ∧ b.mass = 1 := by
  refine ⟨_, ⟨5, some 0⟩, ⟨1, some 0⟩, rfl, ?_, ?_, rfl, rfl, rfl⟩ <;> simp [start, unhook, hook]

/-! ## Examples -/

/-- A metric with a depth along the first axis. -/
noncomputable def well : Met where
  g p := Matrix.diagonal ![-(1 + p 1 ^ 2), 1, 1, 1]
  gup p := Matrix.diagonal ![-(1 + p 1 ^ 2)⁻¹, 1, 1, 1]
  jac p := fun μ => if μ = 1 then Matrix.diagonal ![-(2 * p 1), 0, 0, 0] else 0
  stop c := if c 1 > 10 then 1 else 0

theorem well_derivative (p : Vec) : IsPartial well.g p (well.jac p) := by
  intro μ α β
  by_cases hμ : μ = 1
  · subst hμ
    simp only [well, if_true, Function.update_self]
    by_cases hab : α = β
    · subst hab
      simp only [Matrix.diagonal_apply_eq]
      fin_cases α
      · show HasDerivAt (fun x : ℝ => -(1 + x ^ 2)) (-(2 * p 1)) (p 1)
        have := ((hasDerivAt_pow 2 (p 1)).const_add 1).neg
        exact this.congr_deriv (by norm_num)
      all_goals exact hasDerivAt_const _ _
    · simp only [Matrix.diagonal_apply_ne _ hab]
      exact hasDerivAt_const _ _
  · have : ∀ x, Function.update p μ x 1 = p 1 := fun x => Function.update_of_ne (Ne.symm hμ) x p
    simp only [well, this, if_neg hμ]
    exact hasDerivAt_const _ _

theorem well_inv (p : Vec) : well.gup p * well.g p = 1 := by
  have h : 1 + p 1 ^ 2 ≠ 0 := by positivity
  simp only [well, Matrix.diagonal_mul_diagonal]
  rw [← Matrix.diagonal_one]
  congr 1
  funext i
  fin_cases i
  · show -(1 + p 1 ^ 2)⁻¹ * -(1 + p 1 ^ 2) = 1
    rw [neg_mul_neg, inv_mul_cancel₀ h]
  all_goals exact mul_one _

theorem well_symm (p : Vec) : (well.g p).IsSymm := Matrix.isSymm_diagonal _

/-- A well moved by 3: its bottom is at 3, its depth at 5 is that of the well at 2, and it stops beyond 13. -/
example : (shift ![0, 3, 0, 0] well).g ![0, 3, 7, 7] 0 0 = -1 ∧ (shift ![0, 3, 0, 0] well).g ![0, 5, 7, 7] 0 0 = -5 ∧
    (shift ![0, 3, 0, 0] well).stop ![0, 12, 0, 0, 1, 0, 0, 0] = 0 ∧ (shift ![0, 3, 0, 0] well).stop ![0, 14, 0, 0, 1, 0, 0, 0] = 1 := by
  refine ⟨?_, ?_, ?_, ?_⟩ <;> simp [shift, well, spos, scoord] <;> norm_num

/-- Its Christoffel symbols are right everywhere. -/
example (pos : Vec) : IsChristoffel (shift ![0, 3, 0, 0] well).g pos
    (connection ((shift ![0, 3, 0, 0] well).gup pos) ((shift ![0, 3, 0, 0] well).jac pos)) :=
  shift_connection well_symm (well_inv _) (well_derivative _)

/-- Motion in the well moved by 3, in a state of 8 values or more. -/
example {n : ℕ} (hn : 8 ≤ n) (x : ℝ → ℕ → ℝ) (t : ℝ) :
    Follows (fun x => (0, connection ((shift ![0, 3, 0, 0] well).gup (block x 0)) ((shift ![0, 3, 0, 0] well).jac (block x 0)))) n x t ↔
      Follows (fun x => (0, connection (well.gup (block x 0)) (well.jac (block x 0)))) n
        (fun τ k => if k < 4 then x τ k - (![0, 3, 0, 0] : Vec) (Fin.ofNat 4 k) else x τ k) t :=
  shift_motion (Γ := fun p => connection (well.gup p) (well.jac p)) hn well_symm (well_inv _) (well_derivative _)
    (connection_ok well_symm (well_inv _) (well_derivative _))

example : setOffset [1, 2, 3] = none ∧ setOffset [1, 2, 3, 4] = some ![1, 2, 3, 4] := by
  refine ⟨by simp [setOffset], (offset_iff _ _).mpr ?_⟩
  simp [List.ofFn_succ]

/-- The well and the well moved. -/
example : complexG [well, shift ![0, 3, 0, 0] well] ![0, 1, 0, 0] 0 0 = -7 ∧
    IsPartial (complexG [well, shift ![0, 3, 0, 0] well]) ![0, 1, 0, 0] (complexJac [well, shift ![0, 3, 0, 0] well] ![0, 1, 0, 0]) := by
  refine ⟨?_, complex_derivative fun m hm => ?_⟩
  · simp [complex_sum, shift, well, spos]
    norm_num
  · rcases List.mem_cons.mp hm with rfl | hm
    · exact well_derivative _
    · rw [List.mem_singleton.mp hm]
      exact shift_derivative (well_derivative _)

example : complexStop [well, shift ![0, 3, 0, 0] well] ![0, 11, 0, 0, 1, 0, 0, 0] = 1 :=
  (complex_stop _ _).1.mpr ⟨well, by simp, by simp [well]; norm_num⟩

/-- Two appended, the first removed, a third of another kind refused. -/
example : ([CCall.append (some 1), .append (some 2), .remove 0, .append (some 3), .remove 5].foldl
    (Complex.call fun n => if n = 3 then Kind.spherical else .cartesian) .new) = ⟨[some 2], .cartesian⟩ := rfl

/-- A `Shift` follows the mass of its sub-metric, also after a change of sub-metric; destroyed, it is not told any more. -/
example : ∃ w, run (start fun k => k) [.new, .subMetric 0 (some 2), .subMetric 0 (some 3), .subMass 2 7, .subMass 3 8] = some w ∧
    (w.shifts 0).map ShiftObj.mass = some 8 := by
  refine ⟨_, rfl, ?_⟩
  simp [start, unhook, hook]

end Gyoto.Derived
