import Verif.Model.DynDisk
import Mathlib.Tactic.Ring
import Mathlib.Tactic.Linarith
import Mathlib.Tactic.FinCases
import Mathlib.Data.Fintype.Fin
import Mathlib.Data.List.Forall2

/-! # Lemmas on the disks read from a series of files -/

namespace Gyoto.DynDisk

variable {α β γ : Type}

theorem bind_ok {m : Run α β} {f : β → Run α γ} {d d' : Disk α} {b : β} (h : m d = .ok d' b) : (m >>= f) d = f b d' := by
  show Run.bind m f d = _
  rw [Run.bind, h]

theorem bind_throw {m : Run α β} {f : β → Run α γ} {d d' : Disk α} (h : m d = .throw d') : (m >>= f) d = .throw d' := by
  show Run.bind m f d = _
  rw [Run.bind, h]

theorem bind_ub {m : Run α β} {f : β → Run α γ} {d : Disk α} (h : m d = .ub) : (m >>= f) d = .ub := by
  show Run.bind m f d = _
  rw [Run.bind, h]

theorem pure_apply (b : β) (d : Disk α) : (pure b : Run α β) d = .ok d b := rfl

/-- The element `i` of the series of arrays `q` is the pointer `p`. -/
def Has (d : Disk α) (q : Fin 3) (i p : ℕ) : Prop := ∃ l, d.arr q = some l ∧ l[i]? = some (some p)

theorem Has.unique {d : Disk α} {q : Fin 3} {i p p' : ℕ} (h : Has d q i p) (h' : Has d q i p') : p = p' := by
  obtain ⟨l, h1, h2⟩ := h
  obtain ⟨l', h1', h2'⟩ := h'
  rw [h1] at h1'
  cases h1'
  rw [h2] at h2'
  cases h2'
  rfl

theorem Has.congr {d d' : Disk α} (e : d'.arr = d.arr) {q : Fin 3} {i p : ℕ} : Has d' q i p ↔ Has d q i p := by
  unfold Has; rw [e]

/-- The elements `F` of the series, which hold `v`, and the arrays of the base are separate blocks of the heap. -/
structure Own (F : Fin 3 → ℕ → Prop) (v : ℕ → Fin 3 → α) (d : Disk α) : Prop where
  slot : ∀ q i, F q i → ∃ p, Has d q i p ∧ d.heap p = some (v i q) ∧ p < d.next
  inj : ∀ q i q' i' p, F q i → F q' i' → Has d q i p → Has d q' i' p → q = q' ∧ i = i'
  cur : ∀ q p, d.cur q = some p → (∃ c, d.heap p = some c) ∧ p < d.next
  curInj : ∀ q q' p, d.cur q = some p → d.cur q' = some p → q = q'
  sep : ∀ q q' i p, d.cur q = some p → F q' i → ¬ Has d q' i p

theorem Own.mono {F G : Fin 3 → ℕ → Prop} {v : ℕ → Fin 3 → α} {d : Disk α} (h : Own F v d) (hG : ∀ q i, G q i → F q i) :
    Own G v d where
  slot q i hq := h.slot q i (hG q i hq)
  inj q i q' i' p h1 h2 := h.inj q i q' i' p (hG _ _ h1) (hG _ _ h2)
  cur := h.cur
  curInj := h.curInj
  sep q q' i p h1 h2 := h.sep q q' i p h1 (hG _ _ h2)

/-- Every block is an element `F` of the series or an array of the base. -/
def Exact (F : Fin 3 → ℕ → Prop) (d : Disk α) : Prop :=
  ∀ p c, d.heap p = some c → (∃ q, d.cur q = some p) ∨ ∃ q i, F q i ∧ Has d q i p

/-! ## The elementary steps -/

theorem freeCur_own {F : Fin 3 → ℕ → Prop} {v : ℕ → Fin 3 → α} {d : Disk α} (h : Own F v d) (q : Fin 3) :
    ∃ d', freeCur q d = .ok d' () ∧ Own F v d' ∧ d'.arr = d.arr ∧ d'.nb = d.nb ∧ d'.tinit = d.tinit ∧ d'.dt = d.dt ∧
      d'.cur = (fun k => if k = q then none else d.cur k) ∧ (∀ p, d.cur q ≠ some p → d'.heap p = d.heap p) ∧
      (Exact F d → Exact F d') := by
  cases hc : d.cur q with
  | none =>
    refine ⟨d, by rw [freeCur, hc], h, rfl, rfl, rfl, rfl, ?_, fun _ _ => rfl, fun x => x⟩
    funext k
    split_ifs with hk
    · rw [hk, hc]
    · rfl
  | some p =>
    obtain ⟨⟨c, hp⟩, -⟩ := h.cur q p hc
    refine ⟨{ d with heap := fun i => if i = p then none else d.heap i, cur := fun k => if k = q then none else d.cur k }, ?_,
      ?_, rfl, rfl, rfl, rfl, rfl, ?_, ?_⟩
    · rw [freeCur, hc]
      show Run.bind (release p) _ d = _
      rw [Run.bind, release, hp]
      rfl
    · constructor
      · intro q' i hF
        obtain ⟨p', h1, h2, h3⟩ := h.slot q' i hF
        refine ⟨p', h1, ?_, h3⟩
        have : p' ≠ p := fun e => h.sep q q' i p hc hF (e ▸ h1)
        show (if p' = p then none else d.heap p') = _
        rw [if_neg this, h2]
      · exact h.inj
      · intro k p' hk
        change (if k = q then none else d.cur k) = some p' at hk
        split_ifs at hk with e
        have : p' ≠ p := fun e' => e (h.curInj k q p (e' ▸ hk) hc)
        show (∃ c, (if p' = p then none else d.heap p') = some c) ∧ _
        rw [if_neg this]
        exact h.cur k p' hk
      · intro k k' p' hk hk'
        change (if k = q then none else d.cur k) = some p' at hk
        change (if k' = q then none else d.cur k') = some p' at hk'
        split_ifs at hk hk'
        exact h.curInj k k' p' hk hk'
      · intro k q' i p' hk
        change (if k = q then none else d.cur k) = some p' at hk
        split_ifs at hk
        exact h.sep k q' i p' hk
    · intro p' hp'
      have : p' ≠ p := fun e => hp' (by rw [e])
      show (if p' = p then none else d.heap p') = _
      rw [if_neg this]
    · intro hE p' c' hc'
      change (if p' = p then none else d.heap p') = some c' at hc'
      split_ifs at hc' with e
      rcases hE p' c' hc' with ⟨k, hk⟩ | hk
      · refine .inl ⟨k, ?_⟩
        show (if k = q then none else d.cur k) = _
        rw [if_neg, hk]
        intro e'
        rw [e', hc] at hk
        cases hk
        exact e rfl
      · exact .inr hk

theorem newCur_own {F : Fin 3 → ℕ → Prop} {v : ℕ → Fin 3 → α} {d : Disk α} (h : Own F v d) {q : Fin 3} (hq : d.cur q = none) (c : α) :
    ∃ d', (do let p ← alloc c; setCur q (some p) : Run α Unit) d = .ok d' () ∧ Own F v d' ∧ d'.arr = d.arr ∧ d'.nb = d.nb ∧
      d'.tinit = d.tinit ∧ d'.dt = d.dt ∧ d'.cur = (fun k => if k = q then some d.next else d.cur k) ∧
      d'.heap = (fun i => if i = d.next then some c else d.heap i) ∧ (Exact F d → Exact F d') := by
  refine ⟨{ d with heap := fun i => if i = d.next then some c else d.heap i, next := d.next + 1,
                   cur := fun k => if k = q then some d.next else d.cur k }, rfl, ?_, rfl, rfl, rfl, rfl, rfl, rfl, ?_⟩
  · constructor
    · intro q' i hF
      obtain ⟨p', h1, h2, h3⟩ := h.slot q' i hF
      refine ⟨p', h1, ?_, Nat.lt_succ_of_lt h3⟩
      show (if p' = d.next then _ else d.heap p') = _
      rw [if_neg (Nat.ne_of_lt h3), h2]
    · exact h.inj
    · intro k p' hk
      change (if k = q then some d.next else d.cur k) = some p' at hk
      show (∃ c', (if p' = d.next then some c else d.heap p') = some c') ∧ p' < d.next + 1
      split_ifs at hk with e
      · cases hk
        exact ⟨⟨c, if_pos rfl⟩, Nat.lt_succ_self _⟩
      · obtain ⟨h1, h2⟩ := h.cur k p' hk
        rw [if_neg (Nat.ne_of_lt h2)]
        exact ⟨h1, Nat.lt_succ_of_lt h2⟩
    · intro k k' p' hk hk'
      change (if k = q then some d.next else d.cur k) = some p' at hk
      change (if k' = q then some d.next else d.cur k') = some p' at hk'
      split_ifs at hk hk' with e e' e'
      · exact e.trans e'.symm
      · cases hk
        exact absurd (h.cur k' _ hk').2 (lt_irrefl _)
      · cases hk'
        exact absurd (h.cur k _ hk).2 (lt_irrefl _)
      · exact h.curInj k k' p' hk hk'
    · intro k q' i p' hk hF
      change (if k = q then some d.next else d.cur k) = some p' at hk
      split_ifs at hk with e
      · cases hk
        intro hH
        obtain ⟨p'', h1, h2, h3⟩ := h.slot q' i hF
        have : d.next = p'' := Has.unique hH h1
        omega
      · exact h.sep k q' i p' hk hF
  · intro hE p' c' hc'
    change (if p' = d.next then some c else d.heap p') = some c' at hc'
    split_ifs at hc' with e
    · exact .inl ⟨q, by rw [e]; exact if_pos rfl⟩
    · rcases hE p' c' hc' with ⟨k, hk⟩ | hk
      · refine .inl ⟨k, ?_⟩
        show (if k = q then some d.next else d.cur k) = _
        rw [if_neg, hk]
        intro e'
        rw [e', hq] at hk
        cases hk
      · exact .inr hk

/-- The array `q` of the base holds `c`. -/
def CurIs (d : Disk α) (q : Fin 3) (c : α) : Prop := ∃ p, d.cur q = some p ∧ d.heap p = some c

theorem fitsArray_present {F : Fin 3 → ℕ → Prop} {v : ℕ → Fin 3 → α} {d : Disk α} (h : Own F v d) (q : Fin 3) (c : α) :
    ∃ d', fitsArray q (.present c) d = .ok d' () ∧ Own F v d' ∧ d'.arr = d.arr ∧ d'.nb = d.nb ∧ d'.tinit = d.tinit ∧ d'.dt = d.dt ∧
      CurIs d' q c ∧ (∀ k c', k ≠ q → CurIs d k c' → CurIs d' k c') ∧ (Exact F d → Exact F d') := by
  obtain ⟨d1, e1, o1, a1, n1, t1, s1, c1, k1, x1⟩ := freeCur_own h q
  have hq : d1.cur q = none := by rw [c1]; exact if_pos rfl
  obtain ⟨d2, e2, o2, a2, n2, t2, s2, c2, k2, x2⟩ := newCur_own o1 hq c
  refine ⟨d2, ?_, o2, a2.trans a1, n2.trans n1, t2.trans t1, s2.trans s1, ⟨d1.next, ?_, ?_⟩, ?_, x2 ∘ x1⟩
  · show (freeCur q >>= fun _ => _) d = _
    rw [bind_ok e1]
    exact e2
  · rw [c2]; exact if_pos rfl
  · rw [k2]; exact if_pos rfl
  · rintro k c' hk ⟨p, h1, h2⟩
    have hp1 : d1.cur k = some p := by rw [c1]; simp only [if_neg hk]; exact h1
    obtain ⟨⟨c'', hc''⟩, hlt⟩ := o1.cur k p hp1
    refine ⟨p, ?_, ?_⟩
    · rw [c2]; simp only [if_neg hk]; exact hp1
    · rw [k2]; simp only [if_neg (Nat.ne_of_lt hlt)]
      rw [k1 p (fun e => hk (h.curInj k q p h1 e)), h2]

/-- What a file holds when everything is there. -/
def Whole (f : File α) (c : Fin 3 → α) : Prop := (∀ q, f.found q = .present (c q)) ∧ f.closed = true ∧ f.sameDims = true

theorem fitsRead_whole {F : Fin 3 → ℕ → Prop} {v : ℕ → Fin 3 → α} {d : Disk α} (h : Own F v d) {f : File α} {c : Fin 3 → α}
    (hf : Whole f c) :
    ∃ d', fitsRead f d = .ok d' () ∧ Own F v d' ∧ d'.arr = d.arr ∧ d'.nb = d.nb ∧ d'.tinit = d.tinit ∧ d'.dt = d.dt ∧
      (∀ q, CurIs d' q (c q)) ∧ (Exact F d → Exact F d') := by
  obtain ⟨hf, hcl, -⟩ := hf
  obtain ⟨d1, e1, o1, a1, n1, t1, s1, c1, k1, x1⟩ := fitsArray_present h 0 (c 0)
  obtain ⟨d2, e2, o2, a2, n2, t2, s2, c2, k2, x2⟩ := fitsArray_present o1 1 (c 1)
  obtain ⟨d3, e3, o3, a3, n3, t3, s3, c3, k3, x3⟩ := fitsArray_present o2 2 (c 2)
  refine ⟨d3, ?_, o3, a3.trans (a2.trans a1), n3.trans (n2.trans n1), t3.trans (t2.trans t1), s3.trans (s2.trans s1), ?_,
    x3 ∘ x2 ∘ x1⟩
  · rw [fitsRead, hf 0, hf 1, hf 2, hcl]
    rw [bind_ok (m := fitsEmission (.present (c 0))) e1, bind_ok e2, bind_ok e3, if_pos rfl]
    rfl
  · intro q
    fin_cases q
    · exact k3 0 _ (by decide) (k2 0 _ (by decide) c1)
    · exact k3 1 _ (by decide) c2
    · exact c3

/-! ## Filling the series -/

/-- The element `i` of the series `q` is added. -/
def plus (F : Fin 3 → ℕ → Prop) (q : Fin 3) (i : ℕ) : Fin 3 → ℕ → Prop := fun q' i' => F q' i' ∨ (q' = q ∧ i' = i)

/-- The arrays of pointers exist and have `n` elements. -/
def Len (d : Disk α) (n : ℕ) : Prop := ∀ q, ∃ l, d.arr q = some l ∧ l.length = n

theorem saveArray_own {F : Fin 3 → ℕ → Prop} {v : ℕ → Fin 3 → α} {d : Disk α} (h : Own F v d) {n : ℕ} (hL : Len d n) (q : Fin 3)
    {i : ℕ} (hi : i < n) (hF : ¬ F q i) (hc : CurIs d q (v i q)) :
    ∃ d', saveArray q i d = .ok d' () ∧ Own (plus F q i) v d' ∧ Len d' n ∧ d'.nb = d.nb ∧ d'.tinit = d.tinit ∧ d'.dt = d.dt ∧
      (∀ k c, CurIs d k c → CurIs d' k c) ∧ (Exact F d → Exact (plus F q i) d') := by
  obtain ⟨p, hp, hh⟩ := hc
  have hplt := (h.cur q p hp).2
  obtain ⟨l, hl, hn⟩ := hL q
  refine ⟨{ d with heap := fun j => if j = d.next then some (v i q) else d.heap j, next := d.next + 1,
                   arr := fun k => if k = q then (d.arr k).map (fun (l : List (Option ℕ)) => l.set i (some d.next)) else d.arr k },
    ?_, ?_, ?_, rfl, rfl, rfl, ?_, ?_⟩
  · rw [saveArray, hp]
    have e1 : load p d = .ok d (v i q) := by rw [load, hh]
    simp only []
    rw [bind_ok e1]
    rfl
  all_goals
    obtain ⟨D, hD⟩ : ∃ D : Disk α, D = { d with
        heap := fun j => if j = d.next then some (v i q) else d.heap j, next := d.next + 1,
        arr := fun k => if k = q then (d.arr k).map (fun (l : List (Option ℕ)) => l.set i (some d.next)) else d.arr k } := ⟨_, rfl⟩
    have hDh : ∀ j, D.heap j = if j = d.next then some (v i q) else d.heap j := by rw [hD]; intro j; rfl
    have hDn : D.next = d.next + 1 := by rw [hD]
    have hDc : D.cur = d.cur := by rw [hD]
    have hDq : D.arr q = some (l.set i (some d.next)) := by
      rw [hD]; show (if q = q then _ else _) = _; rw [if_pos rfl, hl]; rfl
    have hDk : ∀ k, k ≠ q → D.arr k = d.arr k := by rw [hD]; intro k hk; exact if_neg hk
    have hnew : ∀ p', Has D q i p' ↔ p' = d.next := by
      intro p'
      constructor
      · rintro ⟨l', h1, h2⟩
        rw [hDq] at h1
        cases h1
        rw [List.getElem?_set_self (by omega)] at h2
        cases h2; rfl
      · rintro rfl
        exact ⟨_, hDq, List.getElem?_set_self (by omega)⟩
    have hold : ∀ q' i' p', ¬ (q' = q ∧ i' = i) → (Has D q' i' p' ↔ Has d q' i' p') := by
      intro q' i' p' hne
      by_cases e : q' = q
      · subst e
        have hi' : i ≠ i' := fun e' => hne ⟨rfl, e'.symm⟩
        constructor
        · rintro ⟨l', h1, h2⟩
          rw [hDq] at h1
          cases h1
          rw [List.getElem?_set_ne hi'] at h2
          exact ⟨l, hl, h2⟩
        · rintro ⟨l', h1, h2⟩
          rw [hl] at h1
          cases h1
          exact ⟨_, hDq, by rw [List.getElem?_set_ne hi']; exact h2⟩
      · unfold Has
        rw [hDk q' e]
    rw [← hD]
  · have hFne : ∀ q' i', F q' i' → ¬ (q' = q ∧ i' = i) := by
      rintro q' i' h1 ⟨rfl, rfl⟩
      exact hF h1
    have hlt : ∀ q' i' p', F q' i' → Has d q' i' p' → p' < d.next := by
      intro q' i' p' h1 h2
      obtain ⟨p'', h3, -, h4⟩ := h.slot q' i' h1
      rw [Has.unique h2 h3]
      exact h4
    constructor
    · rintro q' i' (h1 | ⟨rfl, rfl⟩)
      · obtain ⟨p', h2, h3, h4⟩ := h.slot q' i' h1
        refine ⟨p', (hold q' i' p' (hFne _ _ h1)).mpr h2, ?_, by omega⟩
        rw [hDh, if_neg (Nat.ne_of_lt h4), h3]
      · exact ⟨d.next, (hnew _).mpr rfl, by rw [hDh, if_pos rfl], by omega⟩
    · rintro q1 i1 q2 i2 p' (h1 | ⟨rfl, rfl⟩) (h2 | ⟨rfl, rfl⟩) H1 H2
      · exact h.inj q1 i1 q2 i2 p' h1 h2 ((hold _ _ _ (hFne _ _ h1)).mp H1) ((hold _ _ _ (hFne _ _ h2)).mp H2)
      · have a := hlt _ _ _ h1 ((hold _ _ _ (hFne _ _ h1)).mp H1)
        have b := (hnew _).mp H2
        omega
      · have a := hlt _ _ _ h2 ((hold _ _ _ (hFne _ _ h2)).mp H2)
        have b := (hnew _).mp H1
        omega
      · exact ⟨rfl, rfl⟩
    · intro k p' hk
      rw [hDc] at hk
      obtain ⟨h1, h2⟩ := h.cur k p' hk
      rw [hDh, if_neg (Nat.ne_of_lt h2)]
      exact ⟨h1, by omega⟩
    · rw [hDc]; exact h.curInj
    · rintro k q' i' p' hk (h1 | ⟨rfl, rfl⟩) H
      · rw [hDc] at hk
        exact h.sep k q' i' p' hk h1 ((hold _ _ _ (hFne _ _ h1)).mp H)
      · rw [hDc] at hk
        have a := (h.cur k p' hk).2
        have b := (hnew _).mp H
        omega
  · intro k
    by_cases e : k = q
    · subst e
      exact ⟨_, hDq, by rw [List.length_set]; exact hn⟩
    · rw [hDk k e]; exact hL k
  · rintro k c ⟨p', h1, h2⟩
    refine ⟨p', by rw [hDc]; exact h1, ?_⟩
    rw [hDh, if_neg (Nat.ne_of_lt (h.cur k p' h1).2), h2]
  · intro hE p' c' hc'
    rw [hDh] at hc'
    split_ifs at hc' with e
    · exact .inr ⟨q, i, .inr ⟨rfl, rfl⟩, (hnew _).mpr e⟩
    · rcases hE p' c' hc' with ⟨k, hk⟩ | ⟨q', i', h1, h2⟩
      · exact .inl ⟨k, by rw [hDc]; exact hk⟩
      · refine .inr ⟨q', i', .inl h1, (hold _ _ _ ?_).mpr h2⟩
        rintro ⟨rfl, rfl⟩
        exact hF h1

/-- The first `k` elements. -/
def below (k : ℕ) : Fin 3 → ℕ → Prop := fun _ i => i < k

theorem readOne_own {v : ℕ → Fin 3 → α} {d : Disk α} {n i : ℕ} (h : Own (below i) v d) (hL : Len d n) (hi : i < n) {f : File α}
    (hf : Whole f (v i)) :
    ∃ d', readOne i f d = .ok d' () ∧ Own (below (i + 1)) v d' ∧ Len d' n ∧ d'.nb = d.nb ∧ d'.tinit = d.tinit ∧ d'.dt = d.dt ∧
      (∀ q, CurIs d' q (v i q)) ∧ (Exact (below i) d → Exact (below (i + 1)) d') := by
  obtain ⟨d0, e0, o0, a0, n0, t0, s0, c0, x0⟩ := fitsRead_whole h hf
  have hL0 : Len d0 n := by unfold Len; rw [a0]; exact hL
  obtain ⟨d1, e1, o1, L1, n1, t1, s1, c1, x1⟩ := saveArray_own o0 hL0 0 hi (by simp [below]) (c0 0)
  obtain ⟨d2, e2, o2, L2, n2, t2, s2, c2, x2⟩ := saveArray_own o1 L1 1 hi (by simp [below, plus]) (c1 _ _ (c0 1))
  obtain ⟨d3, e3, o3, L3, n3, t3, s3, c3, x3⟩ := saveArray_own o2 L2 2 hi (by simp [below, plus]) (c2 _ _ (c1 _ _ (c0 2)))
  have hset : ∀ q j, below (i + 1) q j ↔ plus (plus (plus (below i) 0 i) 1 i) 2 i q j := by
    intro q j
    unfold below plus
    have hq : q = 0 ∨ q = 1 ∨ q = 2 := by fin_cases q <;> simp
    constructor
    · intro hj
      by_cases e : j = i
      · rcases hq with rfl | rfl | rfl <;> simp [e]
      · exact .inl (.inl (.inl (by omega)))
    · rintro (((hj | ⟨-, hj⟩) | ⟨-, hj⟩) | ⟨-, hj⟩) <;> omega
  refine ⟨d3, ?_, o3.mono (fun q j hj => (hset q j).mp hj), L3, n3.trans (n2.trans (n1.trans n0)), t3.trans (t2.trans (t1.trans t0)),
    s3.trans (s2.trans (s1.trans s0)), fun q => c3 _ _ (c2 _ _ (c1 _ _ (c0 q))), ?_⟩
  · rw [readOne, bind_ok e0, hf.2.2, if_pos rfl]
    show (saveArray 0 i >>= fun _ => _) d0 = _
    rw [bind_ok e1, bind_ok e2]
    exact e3
  · intro hE p c hc
    rcases x3 (x2 (x1 (x0 hE))) p c hc with hk | ⟨q, j, h1, h2⟩
    · exact .inl hk
    · exact .inr ⟨q, j, (hset q j).mpr h1, h2⟩

theorem readAll_own {v : ℕ → Fin 3 → α} {n : ℕ} (fs : List (File α)) : ∀ {d : Disk α} {i : ℕ}, Own (below i) v d → Len d n →
    i + fs.length = n → (∀ j (hj : j < fs.length), Whole fs[j] (v (i + j))) →
    ∃ d', readAll i fs d = .ok d' () ∧ Own (below n) v d' ∧ Len d' n ∧ d'.nb = d.nb ∧ d'.tinit = d.tinit ∧ d'.dt = d.dt ∧
      (fs ≠ [] → ∀ q, CurIs d' q (v (n - 1) q)) ∧ (Exact (below i) d → Exact (below n) d') := by
  induction fs with
  | nil =>
    intro d i h hL hn _
    have : i = n := by simpa using hn
    subst this
    exact ⟨d, rfl, h, hL, rfl, rfl, rfl, fun hne => absurd rfl hne, fun x => x⟩
  | cons f fs ih =>
    intro d i h hL hn hf
    have hn' : i + (fs.length + 1) = n := by simpa using hn
    obtain ⟨d1, e1, o1, L1, n1, t1, s1, c1, x1⟩ := readOne_own h hL (by omega) (f := f) (hf 0 (by simp))
    obtain ⟨d2, e2, o2, L2, n2, t2, s2, c2, x2⟩ := ih o1 L1 (by omega) (by
      intro j hj
      have := hf (j + 1) (by simpa using hj)
      rw [show i + 1 + j = i + (j + 1) by omega]
      simpa using this)
    refine ⟨d2, ?_, o2, L2, n2.trans n1, t2.trans t1, s2.trans s1, fun _ => ?_, x2 ∘ x1⟩
    · rw [readAll, bind_ok e1]
      exact e2
    · by_cases hfs : fs = []
      · subst hfs
        have e3 : d2 = d1 := by
          have : readAll (i + 1) ([] : List (File α)) d1 = .ok d1 () := rfl
          rw [this] at e2
          cases e2; rfl
        have : n - 1 = i := by simp at hn'; omega
        rw [e3, this]
        exact c1
      · exact c2 hfs

/-! ## Freeing the series -/

theorem freeSlot_own {F : Fin 3 → ℕ → Prop} {v : ℕ → Fin 3 → α} {d : Disk α} (h : Own F v d) {q : Fin 3} {i : ℕ} (hF : F q i) :
    ∃ d', freeSlot q i d = .ok d' () ∧ Own (fun q' i' => F q' i' ∧ ¬ (q' = q ∧ i' = i)) v d' ∧ d'.arr = d.arr ∧ d'.nb = d.nb ∧
      d'.tinit = d.tinit ∧ d'.dt = d.dt ∧ d'.cur = d.cur ∧ (∀ p, ¬ Has d q i p → d'.heap p = d.heap p) ∧
      (∀ p, d.heap p = none → d'.heap p = none) ∧ (∀ p, Has d q i p → d'.heap p = none) ∧
      (Exact F d → Exact (fun q' i' => F q' i' ∧ ¬ (q' = q ∧ i' = i)) d') := by
  obtain ⟨p, ⟨l, hl, hp⟩, hh, hlt⟩ := h.slot q i hF
  have hH : Has d q i p := ⟨l, hl, hp⟩
  refine ⟨{ d with heap := fun j => if j = p then none else d.heap j }, ?_, ?_, rfl, rfl, rfl, rfl, rfl, ?_, ?_, ?_, ?_⟩
  · rw [freeSlot, hl]
    simp only [hp]
    rw [release, hh]
  · constructor
    · rintro q' i' ⟨h1, h2⟩
      obtain ⟨p', h3, h4, h5⟩ := h.slot q' i' h1
      refine ⟨p', h3, ?_, h5⟩
      have : p' ≠ p := by
        rintro rfl
        exact h2 (h.inj q' i' q i p' h1 hF h3 hH)
      show (if p' = p then none else d.heap p') = _
      rw [if_neg this, h4]
    · intro q1 i1 q2 i2 p' h1 h2
      exact h.inj q1 i1 q2 i2 p' h1.1 h2.1
    · intro k p' hk
      obtain ⟨h1, h2⟩ := h.cur k p' hk
      have : p' ≠ p := by
        rintro rfl
        exact h.sep k q i p' hk hF hH
      show (∃ c, (if p' = p then none else d.heap p') = some c) ∧ _
      rw [if_neg this]
      exact ⟨h1, h2⟩
    · exact h.curInj
    · intro k q' i' p' hk h1
      exact h.sep k q' i' p' hk h1.1
  · intro p' hp'
    have : p' ≠ p := by
      rintro rfl
      exact hp' hH
    exact if_neg this
  · intro p' hp'
    show (if p' = p then none else d.heap p') = none
    rw [hp', ite_self]
  · intro p' hp'
    exact if_pos (Has.unique hp' hH)
  · intro hE p' c' hc'
    change (if p' = p then none else d.heap p') = some c' at hc'
    split_ifs at hc' with e
    rcases hE p' c' hc' with hk | ⟨q', i', h1, h2⟩
    · exact .inl hk
    · refine .inr ⟨q', i', ⟨h1, ?_⟩, h2⟩
      rintro ⟨rfl, rfl⟩
      exact e (Has.unique h2 hH)

theorem freeSlots_own {v : ℕ → Fin 3 → α} : ∀ (m k : ℕ) {d : Disk α}, Own (fun _ i => k ≤ i ∧ i < k + m) v d →
    ∃ d', freeSlots m k d = .ok d' () ∧ Own (fun _ _ => False) v d' ∧ d'.arr = d.arr ∧ d'.nb = d.nb ∧
      d'.tinit = d.tinit ∧ d'.dt = d.dt ∧ d'.cur = d.cur ∧ (∀ p, (∀ q i, k ≤ i → i < k + m → ¬ Has d q i p) → d'.heap p = d.heap p) ∧
      (∀ p, d.heap p = none → d'.heap p = none) ∧ (∀ q i p, k ≤ i → i < k + m → Has d q i p → d'.heap p = none) ∧
      (Exact (fun _ i => k ≤ i ∧ i < k + m) d → Exact (fun _ _ => False) d') := by
  intro m
  induction m with
  | zero =>
    intro k d h
    refine ⟨d, rfl, h.mono (fun _ _ hf => hf.elim), rfl, rfl, rfl, rfl, rfl, fun _ _ => rfl, fun _ hp => hp, fun _ _ _ h1 h2 => by omega, ?_⟩
    intro hE p c hc
    rcases hE p c hc with hk | ⟨q, i, h1, -⟩
    · exact .inl hk
    · omega
  | succ m ih =>
    intro k d h
    obtain ⟨d1, e1, o1, a1, n1, t1, s1, c1, k1, z1, y1, x1⟩ := freeSlot_own h (q := 0) (i := k) (by omega)
    obtain ⟨d2, e2, o2, a2, n2, t2, s2, c2, k2, z2, y2, x2⟩ := freeSlot_own o1 (q := 1) (i := k) ⟨by omega, by simp⟩
    obtain ⟨d3, e3, o3, a3, n3, t3, s3, c3, k3, z3, y3, x3⟩ := freeSlot_own o2 (q := 2) (i := k) ⟨⟨by omega, by simp⟩, by simp⟩
    have hset : ∀ (q : Fin 3) (i : ℕ), (((((k ≤ i ∧ i < k + (m + 1)) ∧ ¬ (q = 0 ∧ i = k)) ∧ ¬ (q = 1 ∧ i = k)) ∧ ¬ (q = 2 ∧ i = k)) ↔
        (k + 1 ≤ i ∧ i < k + 1 + m)) := by
      intro q i
      have hq : q = 0 ∨ q = 1 ∨ q = 2 := by fin_cases q <;> simp
      constructor
      · rintro ⟨⟨⟨⟨h1, h2⟩, h3⟩, h4⟩, h5⟩
        have : i ≠ k := by
          rintro rfl
          rcases hq with hq | hq | hq
          · exact h3 ⟨hq, rfl⟩
          · exact h4 ⟨hq, rfl⟩
          · exact h5 ⟨hq, rfl⟩
        omega
      · rintro ⟨h1, h2⟩
        refine ⟨⟨⟨⟨by omega, by omega⟩, ?_⟩, ?_⟩, ?_⟩ <;> rintro ⟨-, e⟩ <;> omega
    have ha : d3.arr = d.arr := a3.trans (a2.trans a1)
    obtain ⟨d4, e4, o4, a4, n4, t4, s4, c4, k4, z4, y4, x4⟩ := ih (k + 1) (o3.mono (fun q i hi => (hset q i).mpr hi))
    refine ⟨d4, ?_, o4, a4.trans ha, n4.trans (n3.trans (n2.trans n1)), t4.trans (t3.trans (t2.trans t1)),
      s4.trans (s3.trans (s2.trans s1)), c4.trans (c3.trans (c2.trans c1)), ?_, fun p hp => z4 p (z3 p (z2 p (z1 p hp))), ?_, ?_⟩
    · rw [freeSlots, bind_ok e1, bind_ok e2, bind_ok e3]
      exact e4
    · intro p hp
      rw [k4 p (fun q i h1 h2 => by rw [Has.congr ha]; exact hp q i (by omega) (by omega)),
        k3 p (by rw [Has.congr (a2.trans a1)]; exact hp 2 k (by omega) (by omega)),
        k2 p (by rw [Has.congr a1]; exact hp 1 k (by omega) (by omega)),
        k1 p (hp 0 k (by omega) (by omega))]
    · intro q i p h1 h2 H
      by_cases e : i = k
      · subst e
        have hq : q = 0 ∨ q = 1 ∨ q = 2 := by fin_cases q <;> simp
        rcases hq with rfl | rfl | rfl
        · exact z4 p (z3 p (z2 p (y1 p H)))
        · exact z4 p (z3 p (y2 p ((Has.congr a1).mpr H)))
        · exact z4 p (y3 p ((Has.congr (a2.trans a1)).mpr H))
      · exact y4 q i p (by omega) (by omega) ((Has.congr ha).mpr H)
    · intro hE
      refine x4 ?_
      intro p c hc
      rcases x3 (x2 (x1 hE)) p c hc with hk | ⟨q, i, h1, h2⟩
      · exact .inl hk
      · exact .inr ⟨q, i, (hset q i).mp h1, h2⟩

/-! ## The states between calls -/

/-- The state between calls: `d.nb` files are held, and their contents are `v`. -/
structure Good (v : ℕ → Fin 3 → α) (d : Disk α) : Prop where
  own : Own (below d.nb) v d
  empty : d.nb = 0 → ∀ q, d.arr q = none
  len : d.nb ≠ 0 → Len d d.nb

theorem good_init (v : ℕ → Fin 3 → α) : Good v (init : Disk α) where
  own := by
    constructor
    · intro q i hi; exact absurd hi (Nat.not_lt_zero _)
    · intro q i q' i' p hi; exact absurd hi (Nat.not_lt_zero _)
    · intro q p hp; cases hp
    · intro q q' p hp; cases hp
    · intro q q' i p hp; cases hp
  empty _ _ := rfl
  len h := absurd rfl h

/-- Without the series, only the arrays of the base matter. -/
theorem Own.rebase {v w : ℕ → Fin 3 → α} {d d' : Disk α} (h : Own (fun _ _ => False) v d) (hh : d'.heap = d.heap)
    (hn : d'.next = d.next) (hc : d'.cur = d.cur) : Own (below 0) w d' := by
  constructor
  · intro q i hi; exact absurd hi (Nat.not_lt_zero _)
  · intro q i q' i' p hi; exact absurd hi (Nat.not_lt_zero _)
  · rw [hh, hn, hc]; exact h.cur
  · rw [hc]; exact h.curInj
  · intro q q' i p _ hi; exact absurd hi (Nat.not_lt_zero _)

theorem Exact.rebase {F : Fin 3 → ℕ → Prop} {d d' : Disk α} (h : Exact (fun _ _ => False) d) (hh : d'.heap = d.heap)
    (hc : d'.cur = d.cur) : Exact F d' := by
  intro p c hp
  rw [hh] at hp
  rcases h p c hp with hk | ⟨_, _, hf, _⟩
  · exact .inl (by rw [hc]; exact hk)
  · exact hf.elim

theorem freeSeries_good {v : ℕ → Fin 3 → α} {d : Disk α} (h : Good v d) :
    ∃ d', freeSeries d = .ok d' () ∧ Own (fun _ _ => False) v d' ∧ d'.nb = 0 ∧ (∀ q, d'.arr q = none) ∧ d'.tinit = d.tinit ∧
      d'.dt = d.dt ∧ d'.cur = d.cur ∧ (∀ p, (∀ q i, i < d.nb → ¬ Has d q i p) → d'.heap p = d.heap p) ∧
      (∀ q i p, i < d.nb → Has d q i p → d'.heap p = none) ∧ (Exact (below d.nb) d → Exact (fun _ _ => False) d') := by
  obtain ⟨d1, e1, o1, a1, n1, t1, s1, c1, k1, z1, y1, x1⟩ :=
    freeSlots_own d.nb 0 (h.own.mono (G := fun _ i => 0 ≤ i ∧ i < 0 + d.nb) (fun _ i hi => by
      show i < d.nb
      omega))
  refine ⟨{ d1 with arr := fun _ => none, nb := 0 }, ?_, ?_, rfl, fun _ => rfl, t1, s1, c1, ?_, ?_, ?_⟩
  · show Run.bind (freeSlots d.nb 0) _ d = _
    unfold Run.bind
    rw [e1]
  · exact (o1.rebase (w := v) (d' := { d1 with arr := fun _ => none, nb := 0 }) rfl rfl rfl).mono (fun _ _ hf => hf.elim)
  · exact fun p hp => k1 p (fun q i _ hi => hp q i (by omega))
  · exact fun q i p hi => y1 q i p (Nat.zero_le _) (by omega)
  · intro hE
    refine Exact.rebase (x1 ?_) rfl rfl
    intro p c hc
    rcases hE p c hc with hk | ⟨q, i, h1, h2⟩
    · exact .inl hk
    · exact .inr ⟨q, i, ⟨Nat.zero_le _, by show i < 0 + d.nb; have : i < d.nb := h1; omega⟩, h2⟩

/-- What `file` does first. -/
theorem prelude_good {v : ℕ → Fin 3 → α} {d : Disk α} (h : Good v d) :
    ∃ d', freeOld d = .ok d' () ∧ Own (fun _ _ => False) v d' ∧ d'.nb = 0 ∧
      (∀ q, d'.arr q = none) ∧ d'.tinit = d.tinit ∧ d'.dt = d.dt ∧ d'.cur = d.cur ∧
      (∀ q i p, i < d.nb → Has d q i p → d'.heap p = none) ∧ (Exact (below d.nb) d → Exact (fun _ _ => False) d') := by
  by_cases hn : d.nb = 0
  · rw [freeOld, if_neg (by simpa using hn)]
    refine ⟨d, rfl, h.own.mono (fun _ _ hf => hf.elim), hn, h.empty hn, rfl, rfl, rfl, fun _ _ _ hi => by omega, ?_⟩
    intro hE p c hc
    rcases hE p c hc with hk | ⟨q, i, h1, h2⟩
    · exact .inl hk
    · rw [hn] at h1
      exact absurd h1 (Nat.not_lt_zero _)
  · rw [freeOld, if_pos hn]
    obtain ⟨d1, e1, o1, n1, a1, t1, s1, c1, -, y1, x1⟩ := freeSeries_good h
    exact ⟨d1, e1, o1, n1, a1, t1, s1, c1, y1, x1⟩

theorem file_good {v w : ℕ → Fin 3 → α} {d : Disk α} (h : Good v d) {fs : List (File α)} (hne : fs ≠ [])
    (hf : ∀ j (hj : j < fs.length), Whole fs[j] (w j)) :
    ∃ d', file (some fs) d = .ok d' () ∧ Good w d' ∧ d'.nb = fs.length ∧ d'.tinit = d.tinit ∧ d'.dt = d.dt ∧
      (∀ q, ∃ p, d'.cur q = some p) ∧ (Exact (below d.nb) d → Exact (below d'.nb) d') := by
  obtain ⟨d1, e1, o1, n1, a1, t1, s1, c1, -, x1⟩ := prelude_good h
  have hlen : 0 < fs.length := List.length_pos_iff.mpr hne
  obtain ⟨d2, e2, o2, L2, n2, t2, s2, c2, x2⟩ := readAll_own (v := w) (n := fs.length) fs
    (d := { d1 with nb := fs.length, arr := fun _ => some (List.replicate fs.length none) }) (i := 0)
    (o1.rebase rfl rfl rfl) (fun q => ⟨_, rfl, List.length_replicate⟩) (Nat.zero_add _) (by
      intro j hj
      rw [Nat.zero_add]
      exact hf j hj)
  refine ⟨d2, ?_, ⟨by rw [n2]; exact o2, fun h0 => ?_, fun _ => by rw [n2]; exact L2⟩, n2, t2.trans t1, s2.trans s1, ?_, ?_⟩
  · refine (bind_ok e1).trans ?_
    show (if fs.length < 1 then _ else _) = _
    rw [if_neg (by omega)]
    exact e2
  · rw [n2] at h0
    change fs.length = 0 at h0
    omega
  · intro q
    obtain ⟨p, hp, -⟩ := c2 hne q
    exact ⟨p, hp⟩
  · intro hE
    rw [n2]
    exact x2 (Exact.rebase (x1 hE) rfl rfl)

theorem destroy_good {v : ℕ → Fin 3 → α} {d : Disk α} (h : Good v d) :
    ∃ d', destroy d = .ok d' () ∧
      (∀ p, (∀ q i, i < d.nb → ¬ Has d q i p) → (∀ q, d.cur q ≠ some p) → d'.heap p = d.heap p) ∧
      (Exact (below d.nb) d → ∀ p, d'.heap p = none) := by
  obtain ⟨d0, e0, o0, n0, a0, t0, s0, c0, k0, y0, x0⟩ := freeSeries_good h
  obtain ⟨d1, e1, o1, a1, n1, t1, s1, c1, k1, x1⟩ := freeCur_own o0 0
  obtain ⟨d2, e2, o2, a2, n2, t2, s2, c2, k2, x2⟩ := freeCur_own o1 1
  obtain ⟨d3, e3, o3, a3, n3, t3, s3, c3, k3, x3⟩ := freeCur_own o2 2
  refine ⟨d3, ?_, ?_, ?_⟩
  · rw [destroy, bind_ok e0, bind_ok e1, bind_ok e2]
    exact e3
  · intro p h1 h2
    have h2' : ∀ q, d0.cur q ≠ some p := by rw [c0]; exact h2
    have h3 : ∀ q, d1.cur q ≠ some p := by
      intro q
      rw [c1]
      show (if q = 0 then none else d0.cur q) ≠ _
      split_ifs
      · exact nofun
      · exact h2' q
    have h4 : ∀ q, d2.cur q ≠ some p := by
      intro q
      rw [c2]
      show (if q = 1 then none else d1.cur q) ≠ _
      split_ifs
      · exact nofun
      · exact h3 q
    rw [k3 p (h4 2), k2 p (h3 1), k1 p (h2' 0), k0 p h1]
  · intro hE p
    cases hp : d3.heap p with
    | none => rfl
    | some c =>
      exfalso
      rcases x3 (x2 (x1 (x0 hE))) p c hp with ⟨q, hq⟩ | ⟨_, _, hf, _⟩
      · rw [c3] at hq
        change (if q = 2 then none else d2.cur q) = _ at hq
        split_ifs at hq with e3
        rw [c2] at hq
        change (if q = 1 then none else d1.cur q) = _ at hq
        split_ifs at hq with e2
        rw [c1] at hq
        change (if q = 0 then none else d0.cur q) = _ at hq
        split_ifs at hq with e1
        have : q = 0 ∨ q = 1 ∨ q = 2 := by fin_cases q <;> simp
        tauto
      · exact hf

/-! ## Using the series -/

/-- The state while the arrays of the base are those at `ps`. -/
def pointed (d : Disk α) (ps : Fin 3 → ℕ) : Disk α := { d with cur := fun q => some (ps q) }

/-- The state without arrays of the base. -/
def unpointed (d : Disk α) : Disk α := { d with cur := fun _ => none }

/-- The pointers of the file `i`. -/
def PtrsOf (v : ℕ → Fin 3 → α) (d : Disk α) (i : ℕ) (ps : Fin 3 → ℕ) : Prop :=
  ∀ q, Has d q i (ps q) ∧ d.heap (ps q) = some (v i q)

theorem exists_ptrs {v : ℕ → Fin 3 → α} {d : Disk α} (h : Good v d) {i : ℕ} (hi : i < d.nb) : ∃ ps, PtrsOf v d i ps := by
  choose ps hps using fun q => h.own.slot q i hi
  exact ⟨ps, fun q => ⟨(hps q).1, (hps q).2.1⟩⟩

theorem useSlot_has {d : Disk α} {q : Fin 3} {i p : ℕ} (h : Has d q i p) : useSlot q i d = setCur q (some p) d := by
  obtain ⟨l, h1, h2⟩ := h
  rw [useSlot, h1]
  simp only [h2]

theorem copyQuantities_ptrs {d d' : Disk α} {iq : ℕ} (h1 : 1 ≤ iq) (h2 : iq ≤ d.nb) {ps : Fin 3 → ℕ}
    (hps : ∀ q, Has d q (iq - 1) (ps q)) (ha : d'.arr = d.arr) (hn : d'.nb = d.nb) :
    copyQuantities iq d' = .ok (pointed d' ps) () := by
  have e0 : useSlot 0 (iq - 1) d' = .ok { d' with cur := fun k => if k = 0 then some (ps 0) else d'.cur k } () :=
    useSlot_has ((Has.congr ha).mpr (hps 0))
  obtain ⟨d1, hd1⟩ : ∃ d1 : Disk α, d1 = { d' with cur := fun k => if k = 0 then some (ps 0) else d'.cur k } := ⟨_, rfl⟩
  rw [← hd1] at e0
  have e1 : useSlot 1 (iq - 1) d1 = .ok { d1 with cur := fun k => if k = 1 then some (ps 1) else d1.cur k } () :=
    useSlot_has ((Has.congr (by rw [hd1]; exact ha)).mpr (hps 1))
  obtain ⟨d2, hd2⟩ : ∃ d2 : Disk α, d2 = { d1 with cur := fun k => if k = 1 then some (ps 1) else d1.cur k } := ⟨_, rfl⟩
  rw [← hd2] at e1
  have e2 : useSlot 2 (iq - 1) d2 = .ok { d2 with cur := fun k => if k = 2 then some (ps 2) else d2.cur k } () :=
    useSlot_has ((Has.congr (by rw [hd2, hd1]; exact ha)).mpr (hps 2))
  have e3 : ({ d2 with cur := fun k => if k = 2 then some (ps 2) else d2.cur k } : Disk α) = pointed d' ps := by
    rw [hd2, hd1, pointed]
    congr 1
    funext q
    have hq : q = 0 ∨ q = 1 ∨ q = 2 := by fin_cases q <;> simp
    rcases hq with rfl | rfl | rfl <;> simp
  rw [copyQuantities, if_neg (by omega)]
  show (useSlot 0 (iq - 1) >>= fun _ => _) d' = _
  rw [bind_ok e0, bind_ok e1, e2, e3]

theorem view_pointed {d : Disk α} {ps : Fin 3 → ℕ} {q : Fin 3} {c : α} (h : d.heap (ps q) = some c) :
    view q (pointed d ps) = .ok (pointed d ps) (some c) := by
  have hc : (pointed d ps).cur q = some (ps q) := rfl
  have hl : load (ps q) (pointed d ps) = .ok (pointed d ps) c := by
    have : (pointed d ps).heap (ps q) = some c := h
    rw [load, this]
  rw [view, hc]
  simp only []
  rw [Run.bind, hl]
  rfl

theorem base_pointed {v : ℕ → Fin 3 → α} {d : Disk α} {i : ℕ} {ps : Fin 3 → ℕ} (h : ∀ q, d.heap (ps q) = some (v i q))
    (eval : (Fin 3 → Option α) → Option ℝ) :
    base eval (pointed d ps) = match eval (fun q => some (v i q)) with
      | none => .throw (pointed d ps)
      | some x => .ok (pointed d ps) x := by
  have e : (![some (v i 0), some (v i 1), some (v i 2)] : Fin 3 → Option α) = fun q => some (v i q) := by
    funext q
    have hq : q = 0 ∨ q = 1 ∨ q = 2 := by fin_cases q <;> simp
    rcases hq with rfl | rfl | rfl <;> rfl
  rw [base, bind_ok (view_pointed (h 0)), bind_ok (view_pointed (h 1)), bind_ok (view_pointed (h 2)), e]
  cases eval (fun q => some (v i q)) <;> rfl

theorem nullify_pointed (d : Disk α) : nullify d = .ok (unpointed d) () := by
  have : nullify d = .ok ({ d with cur := fun k => if k = 2 then none else if k = 1 then none else if k = 0 then none else d.cur k }) () :=
    rfl
  rw [this, unpointed]
  congr 2
  funext q
  have hq : q = 0 ∨ q = 1 ∨ q = 2 := by fin_cases q <;> simp
  rcases hq with rfl | rfl | rfl <;> simp

theorem unpointed_good {v : ℕ → Fin 3 → α} {d : Disk α} (h : Good v d) : Good v (unpointed d) where
  own := by
    constructor
    · exact h.own.slot
    · exact h.own.inj
    · intro q p hp; cases hp
    · intro q q' p hp; cases hp
    · intro q q' i p hp; cases hp
  empty := h.empty
  len := h.len

theorem search_spec (time dt : ℝ) : ∀ (n : ℕ) (t : ℝ) (i : ℕ), i ≤ search time dt n t i ∧ search time dt n t i ≤ i + n ∧
    (i < search time dt n t i → t + (((search time dt n t i : ℕ) : ℝ) - i - 1) * dt < time) ∧
    (search time dt n t i < i + n → time ≤ t + (((search time dt n t i : ℕ) : ℝ) - i) * dt) := by
  intro n
  induction n with
  | zero =>
    intro t i
    rw [search]
    exact ⟨le_refl _, le_refl _, fun h => absurd h (lt_irrefl _), fun h => absurd h (lt_irrefl _)⟩
  | succ n ih =>
    intro t i
    rw [search]
    split_ifs with h
    · obtain ⟨h1, h2, h3, h4⟩ := ih (t + dt) (i + 1)
      generalize search time dt n (t + dt) (i + 1) = j at *
      refine ⟨by omega, by omega, fun _ => ?_, fun hj => ?_⟩
      · by_cases e : j = i + 1
        · subst e; push_cast
          have : t + ((i : ℝ) + 1 - i - 1) * dt = t := by ring
          rw [this]; exact h
        · have := h3 (by omega)
          push_cast at this
          linarith
      · have := h4 (by omega)
        push_cast at this
        linarith
    · refine ⟨le_refl _, by omega, fun h' => absurd h' (lt_irrefl _), fun _ => ?_⟩
      have : t + ((i : ℝ) - i) * dt = t := by ring
      rw [this]; exact not_lt.mp h

/-- The file found by the search, from 1. -/
noncomputable def found (d : Disk α) (time : ℝ) : ℕ := search time d.dt (d.nb - 1) d.tinit 1

theorem found_bounds (d : Disk α) (time : ℝ) (hn : d.nb ≠ 0) : 1 ≤ found d time ∧ found d time ≤ d.nb := by
  obtain ⟨h1, h2, -, -⟩ := search_spec time d.dt (d.nb - 1) d.tinit 1
  unfold found
  exact ⟨h1, by omega⟩

theorem emission_single {v : ℕ → Fin 3 → α} {d : Disk α} (h : Good v d) (hn : d.nb ≠ 0) (eval : (Fin 3 → Option α) → Option ℝ)
    {time : ℝ} (hs : found d time = 1 ∨ found d time = d.nb) :
    ∃ ps, PtrsOf v d (found d time - 1) ps ∧
      emission eval time d = match eval (fun q => some (v (found d time - 1) q)) with
        | none => .throw (pointed d ps)
        | some x => .ok (unpointed d) x := by
  obtain ⟨b1, b2⟩ := found_bounds d time hn
  obtain ⟨ps, hps⟩ := exists_ptrs h (i := found d time - 1) (by omega)
  refine ⟨ps, hps, ?_⟩
  have e1 := copyQuantities_ptrs (d' := d) b1 b2 (fun q => (hps q).1) rfl rfl
  have e2 := base_pointed (fun q => (hps q).2) eval
  unfold emission
  change (if found d time = 1 ∨ found d time = d.nb then _ else _ : Run α ℝ) d = _
  rw [if_pos hs]
  show (copyQuantities (found d time) >>= fun _ => _) d = _
  rw [bind_ok e1]
  cases hev : eval (fun q => some (v (found d time - 1) q)) with
  | none =>
    rw [hev] at e2
    exact bind_throw e2
  | some x =>
    rw [hev] at e2
    rw [bind_ok e2, bind_ok (nullify_pointed _)]
    rfl

theorem emission_double {v : ℕ → Fin 3 → α} {d : Disk α} (h : Good v d) (hn : d.nb ≠ 0) (eval : (Fin 3 → Option α) → Option ℝ)
    {time : ℝ} (h1 : found d time ≠ 1) (h2 : found d time ≠ d.nb) :
    ∃ ps ps', PtrsOf v d (found d time - 2) ps ∧ PtrsOf v d (found d time - 1) ps' ∧
      emission eval time d = match eval (fun q => some (v (found d time - 2) q)), eval (fun q => some (v (found d time - 1) q)) with
        | none, _ => .throw (pointed d ps)
        | some _, none => .throw (pointed d ps')
        | some x1, some x2 =>
          .ok (unpointed d) (x1 + (x2 - x1) / d.dt * (time - (d.tinit + ((found d time : ℝ) - 2) * d.dt))) := by
  obtain ⟨b1, b2⟩ := found_bounds d time hn
  obtain ⟨ps, hps⟩ := exists_ptrs h (i := found d time - 2) (by omega)
  obtain ⟨ps', hps'⟩ := exists_ptrs h (i := found d time - 1) (by omega)
  refine ⟨ps, ps', hps, hps', ?_⟩
  have e1 := copyQuantities_ptrs (d := d) (d' := d) (iq := found d time - 1) (by omega) (by omega) (ps := ps)
    (fun q => by rw [show found d time - 1 - 1 = found d time - 2 by omega]; exact (hps q).1) rfl rfl
  have e2 := base_pointed (d := d) (fun q => (hps q).2) eval
  have e3 := copyQuantities_ptrs (d := d) (d' := pointed d ps) b1 b2 (fun q => (hps' q).1) rfl rfl
  have e4 := base_pointed (d := d) (fun q => (hps' q).2) eval
  have e5 : pointed (pointed d ps) ps' = pointed d ps' := rfl
  rw [e5] at e3
  unfold emission
  change (if found d time = 1 ∨ found d time = d.nb then _ else _ : Run α ℝ) d = _
  rw [if_neg (by rintro (h | h) <;> contradiction)]
  show (copyQuantities (found d time - 1) >>= fun _ => _) d = _
  rw [bind_ok e1]
  cases hev : eval (fun q => some (v (found d time - 2) q)) with
  | none =>
    rw [hev] at e2
    exact bind_throw e2
  | some x1 =>
    rw [hev] at e2
    rw [bind_ok e2]
    show (copyQuantities (found d time) >>= fun _ => _) (pointed d ps) = _
    rw [bind_ok e3]
    cases hev' : eval (fun q => some (v (found d time - 1) q)) with
    | none =>
      rw [hev'] at e4
      exact bind_throw e4
    | some x2 =>
      rw [hev'] at e4
      rw [bind_ok e4, bind_ok (nullify_pointed _)]
      rfl

theorem freeSlot_cur {q : Fin 3} {i : ℕ} {d d' : Disk α} (h : freeSlot q i d = .ok d' ()) (c : Fin 3 → Option ℕ) :
    freeSlot q i { d with cur := c } = .ok { d' with cur := c } () := by
  unfold freeSlot at h ⊢
  change (match d.arr q with | none => _ | some l => _) = _ at h
  show (match d.arr q with | none => _ | some l => _) = _
  cases hl : d.arr q with
  | none =>
    rw [hl] at h
    cases h
    rfl
  | some l =>
    rw [hl] at h
    simp only [] at h ⊢
    cases hi : l[i]? with
    | none => rw [hi] at h; cases h
    | some o =>
      cases o with
      | none => rw [hi] at h; cases h
      | some p =>
        rw [hi] at h
        simp only [] at h ⊢
        unfold release at h ⊢
        show (match d.heap p with | none => _ | some l => _) = _
        cases hp : d.heap p with
        | none => rw [hp] at h; cases h
        | some x =>
          rw [hp] at h
          cases h
          rfl

theorem freeSlot_throw {q : Fin 3} {i : ℕ} {d d' : Disk α} : freeSlot q i d ≠ .throw d' := by
  unfold freeSlot
  cases d.arr q with
  | none => exact nofun
  | some l =>
    simp only []
    cases l[i]? with
    | none => exact nofun
    | some o =>
      cases o with
      | none => exact nofun
      | some p =>
        simp only [release]
        cases d.heap p <;> exact nofun

theorem bind_eq_ok {m : Run α β} {f : β → Run α γ} {d d' : Disk α} {c : γ} (h : (m >>= f) d = .ok d' c) :
    ∃ d1 b, m d = .ok d1 b ∧ f b d1 = .ok d' c := by
  change Run.bind m f d = _ at h
  unfold Run.bind at h
  cases hm : m d with
  | ub => rw [hm] at h; cases h
  | throw d1 => rw [hm] at h; cases h
  | ok d1 b => rw [hm] at h; exact ⟨d1, b, rfl, h⟩

theorem bind_eq_throw {m : Run α β} {f : β → Run α γ} {d d' : Disk α} (h : (m >>= f) d = .throw d') :
    m d = .throw d' ∨ ∃ d1 b, m d = .ok d1 b ∧ f b d1 = .throw d' := by
  change Run.bind m f d = _ at h
  unfold Run.bind at h
  cases hm : m d with
  | ub => rw [hm] at h; cases h
  | throw d1 => rw [hm] at h; cases h; exact .inl rfl
  | ok d1 b => rw [hm] at h; exact .inr ⟨d1, b, rfl, h⟩

theorem freeSlots_cur : ∀ (m k : ℕ) {d d' : Disk α}, freeSlots m k d = .ok d' () → ∀ c : Fin 3 → Option ℕ,
    freeSlots m k { d with cur := c } = .ok { d' with cur := c } () := by
  intro m
  induction m with
  | zero =>
    intro k d d' h c
    cases h
    rfl
  | succ m ih =>
    intro k d d' h c
    rw [freeSlots] at h ⊢
    obtain ⟨d1, _, e1, h⟩ := bind_eq_ok h
    obtain ⟨d2, _, e2, h⟩ := bind_eq_ok h
    obtain ⟨d3, _, e3, h⟩ := bind_eq_ok h
    rw [bind_ok (freeSlot_cur e1 c), bind_ok (freeSlot_cur e2 c), bind_ok (freeSlot_cur e3 c)]
    exact ih (k + 1) h c

theorem freeSeries_cur {d d' : Disk α} (h : freeSeries d = .ok d' ()) (c : Fin 3 → Option ℕ) :
    freeSeries { d with cur := c } = .ok { d' with cur := c } () := by
  change Run.bind (freeSlots d.nb 0) _ d = _ at h
  show Run.bind (freeSlots d.nb 0) _ { d with cur := c } = _
  unfold Run.bind at h ⊢
  cases hm : freeSlots d.nb 0 d with
  | ub => rw [hm] at h; cases h
  | throw d1 => rw [hm] at h; cases h
  | ok d1 b =>
    rw [hm] at h
    rw [freeSlots_cur _ _ hm c]
    cases h
    rfl

theorem destroy_pointed {v : ℕ → Fin 3 → α} {d : Disk α} (h : Good v d) {i : ℕ} (hi : i < d.nb) {ps : Fin 3 → ℕ}
    (hps : PtrsOf v d i ps) : destroy (pointed d ps) = .ub := by
  obtain ⟨d1, e1, o1, n1, a1, t1, s1, c1, k1, y1, x1⟩ := freeSeries_good (unpointed_good h)
  have key : freeSeries (pointed d ps) = .ok { d1 with cur := fun q => some (ps q) } () := freeSeries_cur e1 _
  rw [destroy, bind_ok key]
  apply bind_ub
  have : d1.heap (ps 0) = none := y1 0 i (ps 0) hi (hps 0).1
  have e2 : release (ps 0) ({ d1 with cur := fun q => some (ps q) } : Disk α) = .ub := by
    unfold release
    simp only [this]
  show Run.bind (release (ps 0)) _ _ = _
  unfold Run.bind
  rw [e2]

/-! ## A series that is read in part -/

/-- The code leaves the series of radii and the number of files alone. -/
def Keeps (m : Run α β) : Prop :=
  (∀ d d' b, m d = .ok d' b → d'.arr 2 = d.arr 2 ∧ d'.nb = d.nb) ∧ (∀ d d', m d = .throw d' → d'.arr 2 = d.arr 2 ∧ d'.nb = d.nb)

theorem Keeps.bind {m : Run α β} {f : β → Run α γ} (hm : Keeps m) (hf : ∀ b, Keeps (f b)) : Keeps (m >>= f) := by
  constructor
  · intro d d' c h
    obtain ⟨d1, b, h1, h2⟩ := bind_eq_ok h
    obtain ⟨a1, n1⟩ := hm.1 _ _ _ h1
    obtain ⟨a2, n2⟩ := (hf b).1 _ _ _ h2
    exact ⟨a2.trans a1, n2.trans n1⟩
  · intro d d' h
    rcases bind_eq_throw h with h1 | ⟨d1, b, h1, h2⟩
    · exact hm.2 _ _ h1
    · obtain ⟨a1, n1⟩ := hm.1 _ _ _ h1
      obtain ⟨a2, n2⟩ := (hf b).2 _ _ h2
      exact ⟨a2.trans a1, n2.trans n1⟩

theorem keeps_pure (b : β) : Keeps (pure b : Run α β) := by
  constructor
  · intro d d' c h; cases h; exact ⟨rfl, rfl⟩
  · intro d d' h; cases h

theorem keeps_raise : Keeps (raise : Run α β) := by
  constructor
  · intro d d' c h; cases h
  · intro d d' h; cases h; exact ⟨rfl, rfl⟩

theorem keeps_alloc (c : α) : Keeps (alloc c) := by
  constructor
  · intro d d' b h; cases h; exact ⟨rfl, rfl⟩
  · intro d d' h; cases h

theorem keeps_setCur (q : Fin 3) (p : Option ℕ) : Keeps (setCur q p : Run α Unit) := by
  constructor
  · intro d d' b h; cases h; exact ⟨rfl, rfl⟩
  · intro d d' h; cases h

theorem keeps_release (p : ℕ) : Keeps (release p : Run α Unit) := by
  constructor
  · intro d d' b h
    unfold release at h
    cases hp : d.heap p with
    | none => rw [hp] at h; cases h
    | some c => rw [hp] at h; cases h; exact ⟨rfl, rfl⟩
  · intro d d' h
    unfold release at h
    cases hp : d.heap p with
    | none => rw [hp] at h; cases h
    | some c => rw [hp] at h; cases h

theorem keeps_load (p : ℕ) : Keeps (load p : Run α α) := by
  constructor
  · intro d d' b h
    unfold load at h
    cases hp : d.heap p with
    | none => rw [hp] at h; cases h
    | some c => rw [hp] at h; cases h; exact ⟨rfl, rfl⟩
  · intro d d' h
    unfold load at h
    cases hp : d.heap p with
    | none => rw [hp] at h; cases h
    | some c => rw [hp] at h; cases h

theorem keeps_freeCur (q : Fin 3) : Keeps (freeCur q : Run α Unit) := by
  have key : ∀ p : ℕ, Keeps (release p >>= fun _ => setCur q none : Run α Unit) :=
    fun p => (keeps_release p).bind (fun _ => keeps_setCur q none)
  constructor
  · intro d d' b h
    unfold freeCur at h
    cases hp : d.cur q with
    | none => rw [hp] at h; cases h; exact ⟨rfl, rfl⟩
    | some p => rw [hp] at h; exact (key p).1 _ _ _ h
  · intro d d' h
    unfold freeCur at h
    cases hp : d.cur q with
    | none => rw [hp] at h; cases h
    | some p => rw [hp] at h; exact (key p).2 _ _ h

theorem keeps_fitsArray (q : Fin 3) (x : Found α) : Keeps (fitsArray q x) := by
  cases x with
  | present c => exact (keeps_freeCur q).bind (fun _ => (keeps_alloc c).bind (fun p => keeps_setCur q (some p)))
  | absent => exact keeps_freeCur q
  | unreadable => exact (keeps_freeCur q).bind (fun _ => keeps_raise)
  | early => exact keeps_raise

theorem keeps_fitsRead (f : File α) : Keeps (fitsRead f) := by
  unfold fitsRead
  refine Keeps.bind ?_ (fun _ => (keeps_fitsArray 1 _).bind (fun _ => (keeps_fitsArray 2 _).bind (fun _ => ?_)))
  · cases f.found 0 with
    | absent => exact keeps_raise
    | present c => exact keeps_fitsArray 0 (.present c)
    | unreadable => exact keeps_fitsArray 0 .unreadable
    | early => exact keeps_fitsArray 0 .early
  · split_ifs
    · exact keeps_pure _
    · exact keeps_raise

theorem keeps_saveArray {q : Fin 3} (hq : q ≠ 2) (i : ℕ) : Keeps (saveArray q i : Run α Unit) := by
  constructor
  · intro d d' b h
    unfold saveArray at h
    cases hp : d.cur q with
    | none => rw [hp] at h; cases h
    | some p =>
      rw [hp] at h
      obtain ⟨d1, c, h1, h⟩ := bind_eq_ok h
      obtain ⟨d2, p', h2, h⟩ := bind_eq_ok h
      obtain ⟨a1, n1⟩ := (keeps_load p).1 _ _ _ h1
      obtain ⟨a2, n2⟩ := (keeps_alloc c).1 _ _ _ h2
      cases h
      refine ⟨?_, n2.trans n1⟩
      show (if (2 : Fin 3) = q then _ else d2.arr 2) = _
      rw [if_neg (Ne.symm hq)]
      exact a2.trans a1
  · intro d d' h
    unfold saveArray at h
    cases hp : d.cur q with
    | none => rw [hp] at h; cases h; exact ⟨rfl, rfl⟩
    | some p =>
      rw [hp] at h
      rcases bind_eq_throw h with h | ⟨d1, c, h1, h⟩
      · exact (keeps_load p).2 _ _ h
      · rcases bind_eq_throw h with h | ⟨d2, p', h2, h⟩
        · exact absurd h nofun
        · cases h

theorem saveRadius_throw {i : ℕ} {d d' : Disk α} (h : saveArray 2 i d = .throw d') : d' = d := by
  unfold saveArray at h
  cases hp : d.cur 2 with
  | none => rw [hp] at h; cases h; rfl
  | some p =>
    rw [hp] at h
    rcases bind_eq_throw h with h | ⟨d1, c, h1, h⟩
    · unfold load at h
      cases hp' : d.heap p with
      | none => rw [hp'] at h; cases h
      | some c => rw [hp'] at h; cases h
    · rcases bind_eq_throw h with h | ⟨d2, p', h2, h⟩
      · exact absurd h nofun
      · cases h

theorem saveRadius_ok {i : ℕ} {d d' : Disk α} (h : saveArray 2 i d = .ok d' ()) :
    ∃ p', d'.arr 2 = (d.arr 2).map (fun (l : List (Option ℕ)) => l.set i (some p')) ∧ d'.nb = d.nb := by
  unfold saveArray at h
  cases hp : d.cur 2 with
  | none => rw [hp] at h; cases h
  | some p =>
    rw [hp] at h
    obtain ⟨d1, c, h1, h⟩ := bind_eq_ok h
    obtain ⟨d2, p', h2, h⟩ := bind_eq_ok h
    obtain ⟨a1, n1⟩ := (keeps_load p).1 _ _ _ h1
    obtain ⟨a2, n2⟩ := (keeps_alloc c).1 _ _ _ h2
    cases h
    refine ⟨p', ?_, n2.trans n1⟩
    rw [← a1, ← a2]
    rfl

/-- The turn of the loop before the radii are copied. -/
def beforeRadius (i : ℕ) (f : File α) : Run α Unit := do
  fitsRead f
  if f.sameDims then pure () else raise
  saveArray 0 i
  saveArray 1 i

theorem keeps_beforeRadius (i : ℕ) (f : File α) : Keeps (beforeRadius i f) := by
  unfold beforeRadius
  refine (keeps_fitsRead f).bind (fun _ => ?_)
  split_ifs
  · exact (keeps_pure ()).bind (fun _ => (keeps_saveArray (by decide) i).bind (fun _ => keeps_saveArray (by decide) i))
  · exact keeps_raise.bind (fun _ => (keeps_saveArray (by decide) i).bind (fun _ => keeps_saveArray (by decide) i))

theorem bind_assoc' (m : Run α β) (f : β → Run α γ) {δ : Type} (g : γ → Run α δ) (d : Disk α) :
    ((m >>= f) >>= g) d = (m >>= fun b => f b >>= g) d := by
  show Run.bind (Run.bind m f) g d = Run.bind m (fun b => Run.bind (f b) g) d
  unfold Run.bind
  cases m d <;> rfl

theorem readOne_split (i : ℕ) (f : File α) (d : Disk α) : readOne i f d = (beforeRadius i f >>= fun _ => saveArray 2 i) d := by
  unfold readOne beforeRadius
  rw [bind_assoc']
  show Run.bind (fitsRead f) _ d = Run.bind (fitsRead f) _ d
  unfold Run.bind
  cases fitsRead f d with
  | ub => rfl
  | throw d1 => rfl
  | ok d1 b =>
    simp only []
    split_ifs
    · show (saveArray 0 i >>= fun _ => saveArray 1 i >>= fun _ => saveArray 2 i) d1 =
        ((saveArray 0 i >>= fun _ => saveArray 1 i) >>= fun _ => saveArray 2 i) d1
      rw [bind_assoc']
    · rfl

theorem readAll_throw {n : ℕ} : ∀ (fs : List (File α)) {i : ℕ} {d d' : Disk α} {l : List (Option ℕ)}, d.arr 2 = some l →
    l.length = n → i + fs.length = n → (∀ j, i ≤ j → j < n → l[j]? = some none) → readAll i fs d = .throw d' →
    d'.nb = d.nb ∧ ∃ l' j, j < n ∧ d'.arr 2 = some l' ∧ l'[j]? = some none := by
  intro fs
  induction fs with
  | nil =>
    intro i d d' l _ _ _ _ h
    cases h
  | cons f fs ih =>
    intro i d d' l hl hn hi hnone h
    have hi' : i + (fs.length + 1) = n := by simpa using hi
    unfold readAll at h
    rcases bind_eq_throw h with h | ⟨d1, b, h1, h⟩
    · rw [readOne_split] at h
      rcases bind_eq_throw h with h | ⟨d1, b, h1, h⟩
      · obtain ⟨a1, n1⟩ := (keeps_beforeRadius i f).2 _ _ h
        exact ⟨n1, l, i, by omega, a1.trans hl, hnone i (le_refl _) (by omega)⟩
      · obtain ⟨a1, n1⟩ := (keeps_beforeRadius i f).1 _ _ _ h1
        rw [saveRadius_throw h]
        exact ⟨n1, l, i, by omega, a1.trans hl, hnone i (le_refl _) (by omega)⟩
    · rw [readOne_split] at h1
      obtain ⟨d0, b0, h0, h1⟩ := bind_eq_ok h1
      obtain ⟨a0, n0⟩ := (keeps_beforeRadius i f).1 _ _ _ h0
      obtain ⟨p', a1, n1⟩ := saveRadius_ok h1
      rw [a0, hl] at a1
      obtain ⟨n2, h2⟩ := ih a1 (by rw [List.length_set]; exact hn) (by omega) (by
        intro j h3 h4
        rw [List.getElem?_set_ne (by omega)]
        exact hnone j (by omega) h4) h
      exact ⟨n2.trans (n1.trans n0), h2⟩

theorem freeSlots_ub : ∀ (m k : ℕ) {d : Disk α} {l : List (Option ℕ)} {j : ℕ}, d.arr 2 = some l → k ≤ j → j < k + m →
    l[j]? = some none → freeSlots m k d = .ub := by
  intro m
  induction m with
  | zero => intro k d l j _ h1 h2; omega
  | succ m ih =>
    intro k d l j hl h1 h2 hj
    have keep : ∀ {q : Fin 3} {i : ℕ} {d d' : Disk α}, freeSlot q i d = .ok d' () → d'.arr 2 = d.arr 2 := by
      intro q i d d' h
      unfold freeSlot at h
      cases hq : d.arr q with
      | none => rw [hq] at h; cases h; rfl
      | some l =>
        rw [hq] at h
        simp only [] at h
        cases hi : l[i]? with
        | none => rw [hi] at h; cases h
        | some o =>
          cases o with
          | none => rw [hi] at h; cases h
          | some p => rw [hi] at h; exact ((keeps_release p).1 _ _ _ h).1
    unfold freeSlots
    cases e0 : freeSlot 0 k d with
    | ub => exact bind_ub e0
    | throw d' => exact absurd e0 freeSlot_throw
    | ok d0 _ =>
      rw [bind_ok e0]
      have a0 := keep e0
      cases e1 : freeSlot 1 k d0 with
      | ub => exact bind_ub e1
      | throw d' => exact absurd e1 freeSlot_throw
      | ok d1 _ =>
        rw [bind_ok e1]
        have a1 := (keep e1).trans a0
        by_cases e : j = k
        · subst e
          refine bind_ub ?_
          unfold freeSlot
          rw [a1, hl]
          simp only [hj]
        · cases e2 : freeSlot 2 k d1 with
          | ub => exact bind_ub e2
          | throw d' => exact absurd e2 freeSlot_throw
          | ok d2 _ =>
            rw [bind_ok e2]
            exact ih (k + 1) (((keep e2).trans a1).trans hl) (by omega) (by omega) hj

theorem freeSeries_ub {d : Disk α} {l : List (Option ℕ)} {j : ℕ} (hl : d.arr 2 = some l) (hj : j < d.nb) (hj' : l[j]? = some none) :
    freeSeries d = .ub := by
  have := freeSlots_ub d.nb 0 hl (Nat.zero_le j) (by omega) hj'
  unfold freeSeries Run.bind
  rw [this]

/-! ## Files that lack something -/

theorem saveArray_any {F : Fin 3 → ℕ → Prop} {v : ℕ → Fin 3 → α} {d : Disk α} (h : Own F v d) {n : ℕ} (hL : Len d n) (q : Fin 3)
    {i p : ℕ} (hi : i < n) (hF : ¬ F q i) (hc : d.cur q = some p) :
    ∃ d' v', saveArray q i d = .ok d' () ∧ Own (plus F q i) v' d' ∧ Len d' n ∧ d'.cur = d.cur := by
  obtain ⟨⟨c, hp⟩, -⟩ := h.cur q p hc
  have h' : Own F (fun i' q' => if q' = q ∧ i' = i then c else v i' q') d :=
    ⟨fun q' i' hq => by
      obtain ⟨p', h1, h2, h3⟩ := h.slot q' i' hq
      refine ⟨p', h1, ?_, h3⟩
      rw [h2]
      symm
      refine congrArg some (if_neg ?_)
      rintro ⟨rfl, rfl⟩
      exact hF hq, h.inj, h.cur, h.curInj, h.sep⟩
  obtain ⟨d', e, o, L, -⟩ := saveArray_own h' hL q hi hF ⟨p, hc, hp.trans (congrArg some (if_pos ⟨rfl, rfl⟩).symm)⟩
  refine ⟨d', _, e, o, L, ?_⟩
  have e1 : load p d = .ok d c := by rw [load, hp]
  unfold saveArray at e
  rw [hc] at e
  simp only [] at e
  rw [bind_ok e1] at e
  cases e
  rfl

/-- One array, when no exception is thrown: it is there, or there is none any more. -/
theorem fitsArray_total {F : Fin 3 → ℕ → Prop} {v : ℕ → Fin 3 → α} {d : Disk α} (h : Own F v d) (q : Fin 3) (x : Found α) :
    (∃ d', fitsArray q x d = .throw d') ∨
    ∃ d', fitsArray q x d = .ok d' () ∧ Own F v d' ∧ d'.arr = d.arr ∧
      (((∃ c, x = .present c) ∧ ∃ p, d'.cur q = some p) ∨ d'.cur q = none) ∧
      (∀ k, k ≠ q → (d'.cur k = none ↔ d.cur k = none)) := by
  obtain ⟨d1, e1, o1, a1, n1, t1, s1, c1, k1, x1⟩ := freeCur_own h q
  have hq : d1.cur q = none := by rw [c1]; exact if_pos rfl
  have hk : ∀ k, k ≠ q → (d1.cur k = none ↔ d.cur k = none) := by
    intro k hk
    rw [c1]
    simp only [if_neg hk]
  cases x with
  | present c =>
    obtain ⟨d2, e2, o2, a2, n2, t2, s2, c2, k2, x2⟩ := newCur_own o1 hq c
    refine .inr ⟨d2, ?_, o2, a2.trans a1, .inl ⟨⟨c, rfl⟩, d1.next, ?_⟩, ?_⟩
    · show (freeCur q >>= fun _ => _) d = _
      rw [bind_ok e1]
      exact e2
    · rw [c2]; exact if_pos rfl
    · intro k hk'
      rw [c2]
      simp only [if_neg hk']
      exact hk k hk'
  | absent => exact .inr ⟨d1, e1, o1, a1, .inr hq, hk⟩
  | unreadable =>
    refine .inl ⟨d1, ?_⟩
    show (freeCur q >>= fun _ => _) d = _
    rw [bind_ok e1]
    rfl
  | early => exact .inl ⟨d, rfl⟩

/-- A file that lacks something is refused. -/
theorem readOne_total {v : ℕ → Fin 3 → α} {d : Disk α} {n i : ℕ} (h : Own (below i) v d) (hL : Len d n) (hi : i < n) (f : File α) :
    (∃ c, Whole f c) ∨ ∃ d', readOne i f d = .throw d' := by
  rcases fitsArray_total h 0 (f.found 0) with ⟨d1, e1⟩ | ⟨d1, e1, o1, a1, c1, k1⟩
  · refine .inr ?_
    cases hx : f.found 0 with
    | absent => exact ⟨d, bind_throw (bind_throw (by rw [hx]; rfl))⟩
    | present c => exact ⟨d1, bind_throw (bind_throw (by rw [← e1, hx]; rfl))⟩
    | unreadable => exact ⟨d1, bind_throw (bind_throw (by rw [← e1, hx]; rfl))⟩
    | early => exact ⟨d1, bind_throw (bind_throw (by rw [← e1, hx]; rfl))⟩
  by_cases hx : f.found 0 = .absent
  · exact .inr ⟨d, bind_throw (bind_throw (by rw [hx]; rfl))⟩
  have e1' : fitsEmission (f.found 0) d = .ok d1 () := by
    rw [← e1]
    cases hx' : f.found 0 with
    | absent => exact absurd hx' hx
    | present c => rfl
    | unreadable => rfl
    | early => rfl
  rcases fitsArray_total o1 1 (f.found 1) with ⟨d2, e2⟩ | ⟨d2, e2, o2, a2, c2, k2⟩
  · exact .inr ⟨d2, bind_throw (by rw [fitsRead, bind_ok e1']; exact bind_throw e2)⟩
  rcases fitsArray_total o2 2 (f.found 2) with ⟨d3, e3⟩ | ⟨d3, e3, o3, a3, c3, k3⟩
  · exact .inr ⟨d3, bind_throw (by rw [fitsRead, bind_ok e1', bind_ok e2]; exact bind_throw e3)⟩
  by_cases hcl : f.closed = true
  swap
  · refine .inr ⟨d3, bind_throw ?_⟩
    rw [fitsRead, bind_ok e1', bind_ok e2, bind_ok e3, if_neg hcl]
    rfl
  have e4 : fitsRead f d = .ok d3 () := by
    rw [fitsRead, bind_ok e1', bind_ok e2, bind_ok e3, if_pos hcl]
    rfl
  by_cases hsd : f.sameDims = true
  swap
  · refine .inr ⟨d3, ?_⟩
    rw [readOne, bind_ok e4, if_neg hsd]
    rfl
  have e5 : readOne i f d = (saveArray 0 i >>= fun _ => saveArray 1 i >>= fun _ => saveArray 2 i) d3 := by
    rw [readOne, bind_ok e4, if_pos hsd]
  rw [e5]
  have none_throw : ∀ (q : Fin 3) (D : Disk α), D.cur q = none → saveArray q i D = .throw D := by
    intro q D hD
    rw [saveArray, hD]
  have hL3 : Len d3 n := by unfold Len; rw [a3, a2, a1]; exact hL
  cases h0 : d3.cur 0 with
  | none => exact .inr ⟨d3, bind_throw (none_throw 0 d3 h0)⟩
  | some p0 =>
    obtain ⟨d4, v4, e4, o4, L4, k4⟩ := saveArray_any o3 hL3 0 hi (by simp [below]) h0
    rw [bind_ok e4]
    cases h1 : d4.cur 1 with
    | none => exact .inr ⟨d4, bind_throw (none_throw 1 d4 h1)⟩
    | some p1 =>
      obtain ⟨d5, v5, e5, o5, L5, k5⟩ := saveArray_any o4 L4 1 hi (by simp [below, plus]) h1
      rw [bind_ok e5]
      cases h2 : d5.cur 2 with
      | none => exact .inr ⟨d5, none_throw 2 d5 h2⟩
      | some p2 =>
        left
        rw [k5, k4] at h2
        rw [k4] at h1
        rcases c3 with ⟨⟨b2, hb2⟩, -⟩ | c3
        swap
        · rw [c3] at h2; cases h2
        rcases c2 with ⟨⟨b1, hb1⟩, -⟩ | c2
        swap
        · rw [(k3 1 (by decide)).mpr c2] at h1; cases h1
        rcases c1 with ⟨⟨b0, hb0⟩, -⟩ | c1
        swap
        · rw [(k3 0 (by decide)).mpr ((k2 0 (by decide)).mpr c1)] at h0; cases h0
        refine ⟨![b0, b1, b2], fun q => ?_, hcl, hsd⟩
        have hq : q = 0 ∨ q = 1 ∨ q = 2 := by fin_cases q <;> simp
        rcases hq with rfl | rfl | rfl
        · exact hb0
        · exact hb1
        · exact hb2

theorem readAll_total {n : ℕ} (fs : List (File α)) : ∀ {v : ℕ → Fin 3 → α} {d : Disk α} {i : ℕ}, Own (below i) v d → Len d n →
    i + fs.length = n → (∃ c, List.Forall₂ Whole fs c) ∨ ∃ d', readAll i fs d = .throw d' := by
  induction fs with
  | nil => intro v d i _ _ _; exact .inl ⟨[], .nil⟩
  | cons f fs ih =>
    intro v d i h hL hn
    have hn' : i + (fs.length + 1) = n := by simpa using hn
    rcases readOne_total h hL (by omega) f with ⟨c, hc⟩ | ⟨d', e⟩
    · have h' : Own (below i) (fun i' q' => if i' = i then c q' else v i' q') d :=
        ⟨fun q' i' hq => by
          obtain ⟨p', h1, h2, h3⟩ := h.slot q' i' hq
          refine ⟨p', h1, ?_, h3⟩
          exact h2.trans (congrArg some (if_neg (Nat.ne_of_lt hq)).symm), h.inj, h.cur, h.curInj, h.sep⟩
      obtain ⟨d1, e1, o1, L1, -⟩ := readOne_own h' hL (by omega) (f := f) (by simpa using hc)
      rcases ih o1 L1 (by omega) with ⟨cs, hcs⟩ | ⟨d', e'⟩
      · exact .inl ⟨c :: cs, .cons hc hcs⟩
      · refine .inr ⟨d', ?_⟩
        rw [readAll, bind_ok e1]
        exact e'
    · exact .inr ⟨d', bind_throw e⟩

theorem file_total {v : ℕ → Fin 3 → α} {d : Disk α} (h : Good v d) (fs : List (File α)) :
    (∃ c, List.Forall₂ Whole fs c) ∨ ∃ d', file (some fs) d = .throw d' := by
  by_cases hne : fs = []
  · subst hne
    exact .inl ⟨[], .nil⟩
  obtain ⟨d1, e1, o1, -⟩ := prelude_good h
  have hl : 0 < fs.length := List.length_pos_iff.mpr hne
  rcases readAll_total (n := fs.length) fs (d := { d1 with nb := fs.length, arr := fun _ => some (List.replicate fs.length none) })
    (i := 0) (v := v) (o1.rebase rfl rfl rfl) (fun q => ⟨_, rfl, List.length_replicate⟩) (Nat.zero_add _) with hc | ⟨d', e⟩
  · exact .inl hc
  · refine .inr ⟨d', (bind_ok e1).trans ?_⟩
    show (if fs.length < 1 then _ else _) = _
    rw [if_neg (by omega)]
    exact e

end Gyoto.DynDisk
