import Verif.Lemmas.DynDisk
import Verif.Spec.DynDisk
import Mathlib.Tactic.FieldSimp
import Mathlib.Tactic.NormNum
import Mathlib.Tactic.LinearCombination

/-! # What the disks read from a series of files answer, and what becomes of their memory -/

namespace Gyoto.DynDisk

open Gyoto.Spec.DynDisk

variable {α : Type}

/-! ## Executions -/

/-- A call. -/
inductive Op (α : Type) where
  | file (fs : List (File α))
  /-- `emission`, or a component of `getVelocity(pos, vel)` -/
  | emission (eval : (Fin 3 → Option α) → Option ℝ) (time : ℝ)
  | tinit (t : ℝ)
  | dt (t : ℝ)

/-- One call, with what it returns. -/
noncomputable def call : Op α → Run α (List ℝ)
  | .file fs => do
    file (some fs)
    pure []
  | .emission eval time => do
    let x ← emission eval time
    pure [x]
  | .tinit t => fun d => .ok { d with tinit := t } []
  | .dt t => fun d => .ok { d with dt := t } []

/-- The calls one after the other, with all that they return. -/
noncomputable def calls : List (Op α) → Run α (List ℝ)
  | [] => pure []
  | o :: os => do
    let xs ← call o
    let ys ← calls os
    pure (xs ++ ys)

/-- What the user has set: the contents of the files, the date of the first and the time from one to the next. -/
structure Known (α : Type) where
  series : List (Fin 3 → α)
  tinit : ℝ
  dt : ℝ

/-- At the beginning. -/
def Known.start : Known α := ⟨[], 0, 1⟩

/-- The files are not empty and whole, and the disk is only used when it has some, with a method of the base that does not throw. -/
def Proper : Known α → List (Op α) → Prop
  | _, [] => True
  | s, .file fs :: os => ∃ c, c ≠ [] ∧ List.Forall₂ Whole fs c ∧ Proper { s with series := c } os
  | s, .emission eval _ :: os => s.series ≠ [] ∧ (∀ c ∈ s.series, (eval (fun q => some (c q))).isSome) ∧ Proper s os
  | s, .tinit t :: os => Proper { s with tinit := t } os
  | s, .dt t :: os => Proper { s with dt := t } os

/-- The value of the method for the file number `k`. -/
def Known.val (s : Known α) (eval : (Fin 3 → Option α) → Option ℝ) (k : ℕ) : ℝ :=
  match s.series[k]? with
  | none => 0
  | some c => (eval (fun q => some (c q))).getD 0

/-- What the answer should be, except between the last two dates. -/
def Known.Answer (s : Known α) (eval : (Fin 3 → Option α) → Option ℝ) (t x : ℝ) : Prop :=
  0 < s.dt → (t ≤ s.tinit + ((s.series.length : ℝ) - 2) * s.dt ∨ s.tinit + ((s.series.length : ℝ) - 1) * s.dt ≤ t) →
    InTime s.series.length s.tinit s.dt (s.val eval) t x

/-- What all the answers should be. -/
def Answers : Known α → List (Op α) → List ℝ → Prop
  | _, [], xs => xs = []
  | s, .file fs :: os, xs => ∀ c, List.Forall₂ Whole fs c → Answers { s with series := c } os xs
  | s, .emission eval t :: os, xs => ∃ x ys, xs = x :: ys ∧ s.Answer eval t x ∧ Answers s os ys
  | s, .tinit t :: os, xs => Answers { s with tinit := t } os xs
  | s, .dt t :: os, xs => Answers { s with dt := t } os xs

/-- The state after some calls. -/
def After : Known α → List (Op α) → Known α → Prop
  | s, [], s' => s' = s
  | s, .file fs :: os, s' => ∃ c, List.Forall₂ Whole fs c ∧ After { s with series := c } os s'
  | s, .emission _ _ :: os, s' => After s os s'
  | s, .tinit t :: os, s' => After { s with tinit := t } os s'
  | s, .dt t :: os, s' => After { s with dt := t } os s'

/-- The disk holds what the user has set. -/
def Holds (s : Known α) (d : Disk α) : Prop :=
  d.nb = s.series.length ∧ d.tinit = s.tinit ∧ d.dt = s.dt ∧ ∃ v, Good v d ∧ ∀ i (h : i < s.series.length), v i = s.series[i]

theorem whole_unique {f : File α} {c c' : Fin 3 → α} (h : Whole f c) (h' : Whole f c') : c = c' := by
  funext q
  exact Found.present.inj ((h.1 q).symm.trans (h'.1 q))

theorem forall₂_unique {fs : List (File α)} {c c' : List (Fin 3 → α)} (h : List.Forall₂ Whole fs c) (h' : List.Forall₂ Whole fs c') :
    c = c' := by
  induction h generalizing c' with
  | nil => cases h'; rfl
  | cons h1 _ ih =>
    cases h' with
    | cons h1' h2' => rw [whole_unique h1 h1', ih h2']

theorem forall₂_get {fs : List (File α)} {c : List (Fin 3 → α)} (h : List.Forall₂ Whole fs c) :
    fs.length = c.length ∧ ∀ j (hj : j < fs.length) (hj' : j < c.length), Whole fs[j] c[j] := by
  induction h with
  | nil => exact ⟨rfl, fun j hj => absurd hj (Nat.not_lt_zero _)⟩
  | cons h1 _ ih =>
    refine ⟨by simpa using ih.1, ?_⟩
    intro j hj hj'
    cases j with
    | zero => exact h1
    | succ j => exact ih.2 j (by simpa using hj) (by simpa using hj')

theorem holds_init [Nonempty α] : Holds Known.start (init : Disk α) :=
  ⟨rfl, rfl, rfl, fun _ _ => Classical.arbitrary α, good_init _, fun _ h => absurd h (Nat.not_lt_zero _)⟩

theorem file_holds {s : Known α} {d : Disk α} (h : Holds s d) {fs : List (File α)} {c : List (Fin 3 → α)} (hne : c ≠ [])
    (hf : List.Forall₂ Whole fs c) :
    ∃ d', file (some fs) d = .ok d' () ∧ Holds { s with series := c } d' ∧ (∀ q, ∃ p, d'.cur q = some p) ∧
      (Exact (below d.nb) d → Exact (below d'.nb) d') := by
  obtain ⟨hn, ht, hs, v, hv, -⟩ := h
  obtain ⟨hlen, hw⟩ := forall₂_get hf
  have hc0 : 0 < c.length := List.length_pos_iff.mpr hne
  obtain ⟨d', e, g, n, t, s', hcur, hx⟩ := file_good (w := fun i => if h : i < c.length then c[i] else c[0]) hv (fs := fs)
    (by rintro rfl; simp at hlen; omega) (by
      intro j hj
      simp only [dif_pos (show j < c.length by omega)]
      exact hw j hj (by omega))
  exact ⟨d', e, ⟨n.trans hlen, t.trans ht, s'.trans hs, _, g, fun i hi => dif_pos hi⟩, hcur, hx⟩

/-- The value returned by a call that does not throw, and the state after it. -/
theorem emission_holds {s : Known α} {d : Disk α} (h : Holds s d) (hne : s.series ≠ []) (eval : (Fin 3 → Option α) → Option ℝ)
    (hev : ∀ c ∈ s.series, (eval (fun q => some (c q))).isSome) (time : ℝ) :
    ∃ x, emission eval time d = .ok (unpointed d) x ∧ Holds s (unpointed d) ∧
      ((found d time = 1 ∨ found d time = s.series.length) → x = s.val eval (found d time - 1)) ∧
      (found d time ≠ 1 → found d time ≠ s.series.length → x = s.val eval (found d time - 2) +
        (s.val eval (found d time - 1) - s.val eval (found d time - 2)) / s.dt * (time - (s.tinit + ((found d time : ℝ) - 2) * s.dt))) := by
  obtain ⟨hn, ht, hs, v, hv, hc⟩ := h
  have hl : 0 < s.series.length := List.length_pos_iff.mpr hne
  have hn0 : d.nb ≠ 0 := by omega
  have hval : ∀ i, i < d.nb → eval (fun q => some (v i q)) = some (s.val eval i) := by
    intro i hi
    have hi' : i < s.series.length := by omega
    have := hev s.series[i] (List.getElem_mem hi')
    rw [hc i hi']
    unfold Known.val
    rw [List.getElem?_eq_getElem hi']
    simp only []
    cases h : eval (fun q => some (s.series[i] q)) with
    | none => rw [h] at this; cases this
    | some x => rfl
  have hold : Holds s (unpointed d) := ⟨hn, ht, hs, v, unpointed_good hv, hc⟩
  obtain ⟨b1, b2⟩ := found_bounds d time hn0
  by_cases hf : found d time = 1 ∨ found d time = d.nb
  · obtain ⟨ps, -, e⟩ := emission_single hv hn0 eval hf
    rw [hval _ (by omega)] at e
    refine ⟨_, e, hold, fun _ => rfl, fun h1 h2 => ?_⟩
    rw [hn] at hf
    exact absurd hf (by tauto)
  · have h1 : found d time ≠ 1 := fun h => hf (.inl h)
    have h2 : found d time ≠ d.nb := fun h => hf (.inr h)
    obtain ⟨ps, ps', -, -, e⟩ := emission_double hv hn0 eval h1 h2
    rw [hval _ (by omega), hval _ (by omega), ht, hs] at e
    refine ⟨_, e, hold, fun h => ?_, fun _ _ => rfl⟩
    rw [← hn] at h
    exact absurd h hf

/-! ## What is answered -/

/-- Outside the last interval the value is that of the interpolation in time. -/
theorem emission_inTime_partial {s : Known α} {d : Disk α} (h : Holds s d) (hne : s.series ≠ []) (eval : (Fin 3 → Option α) → Option ℝ)
    (hev : ∀ c ∈ s.series, (eval (fun q => some (c q))).isSome) (hdt : 0 < s.dt) (time : ℝ)
    (ht : time ≤ s.tinit + ((s.series.length : ℝ) - 2) * s.dt ∨ s.tinit + ((s.series.length : ℝ) - 1) * s.dt ≤ time) :
    ∃ x, emission eval time d = .ok (unpointed d) x ∧ InTime s.series.length s.tinit s.dt (s.val eval) time x := by
  obtain ⟨x, e, -, h1, h2⟩ := emission_holds h hne eval hev time
  refine ⟨x, e, ?_⟩
  have hl : 0 < s.series.length := List.length_pos_iff.mpr hne
  obtain ⟨hn, hti, hst, -⟩ := h
  obtain ⟨b1, b2, b3, b4⟩ := search_spec time d.dt (d.nb - 1) d.tinit 1
  change 1 ≤ found d time at b1
  change found d time ≤ _ at b2
  change 1 < found d time → d.tinit + ((found d time : ℝ) - (1 : ℕ) - 1) * d.dt < time at b3
  change found d time < _ → time ≤ d.tinit + ((found d time : ℝ) - (1 : ℕ)) * d.dt at b4
  rw [hn, hti, hst] at *
  clear e
  generalize found d time = j at *
  generalize s.series.length = n at *
  obtain ⟨m, rfl⟩ : ∃ m, n = m + 1 := ⟨n - 1, by omega⟩
  generalize s.val eval = val at *
  generalize s.tinit = t₀ at *
  generalize s.dt = δ at *
  push_cast at *
  -- comparing an index with the date
  have cmp : ∀ a b : ℝ, t₀ + a * δ < t₀ + b * δ → a < b := fun a b hab => by
    by_contra hc
    have := mul_le_mul_of_nonneg_right (not_lt.mp hc) hdt.le
    linarith
  have cmp' : ∀ a b : ℝ, t₀ + a * δ ≤ t₀ + b * δ → a ≤ b := fun a b hab => by
    by_contra hc
    have := mul_lt_mul_of_pos_right (not_le.mp hc) hdt
    linarith
  refine ⟨fun h0 => ?_, fun h0 => ?_, fun k hk hk1 hk2 => ?_⟩
  · have : j = 1 := by
      by_contra hj
      have h3 := b3 (by omega)
      have h4 : (2 : ℝ) ≤ j := by exact_mod_cast (show 2 ≤ j by omega)
      have := mul_nonneg (show (0 : ℝ) ≤ (j : ℝ) - 1 - 1 by linarith) hdt.le
      linarith
    rw [h1 (.inl this), this]
  · by_cases hj : j = m + 1
    · rw [h1 (.inr hj), hj]
    · have h3 := b4 (by omega)
      have h4 := cmp' _ _ (h0.trans h3)
      push_cast at h4
      have h5 : (j : ℝ) ≤ m := by exact_mod_cast (show j ≤ m by omega)
      linarith
  · -- the interval
    have hkR : (k : ℝ) + 1 ≤ m := by exact_mod_cast (show k + 1 ≤ m by omega)
    by_cases hj : j = 1
    · -- the first date, from the right only
      by_cases hm : 1 < 1 + (m + 1 - 1)
      · have h3 := b4 (by omega)
        rw [hj] at h3
        push_cast at h3
        have hk0 : k = 0 := by
          by_contra hk0
          have : (1 : ℝ) ≤ k := by exact_mod_cast Nat.one_le_iff_ne_zero.mpr hk0
          have := mul_le_mul_of_nonneg_right this hdt.le
          linarith
        subst hk0
        rw [h1 (.inl hj), hj]
        push_cast at *
        have : time = t₀ := by linarith
        rw [this]
        ring
      · omega
    · have h3 := b3 (by omega)
      by_cases hj' : j = m + 1
      · -- beyond the last date
        rw [hj'] at h3
        push_cast at h3
        rcases ht with ht | ht
        · have := cmp _ _ (h3.trans_le (ht.trans (by linarith : t₀ + ((m : ℝ) + 1 - 2) * δ ≤ t₀ + ((m : ℝ) + 1 - 2) * δ)))
          linarith
        · have h6 := cmp' _ _ (ht.trans hk2)
          have h7 : (k : ℝ) + 1 = m := by linarith
          have h8 : k + 1 = m := by exact_mod_cast h7
          have ht' : time = t₀ + ((k : ℝ) + 1) * δ := by
            have : t₀ + ((m : ℝ) + 1 - 1) * δ = t₀ + ((k : ℝ) + 1) * δ := by rw [h7]; ring
            linarith
          rw [h1 (.inr hj'), hj', ht', ← h8]
          simp only [Nat.add_sub_cancel]
          ring
      · have h4 := b4 (by omega)
        have h5 : (j : ℝ) - 1 - 1 < k + 1 := cmp _ _ (h3.trans_le hk2)
        have h6 : (k : ℝ) ≤ j - 1 := cmp' _ _ (hk1.trans h4)
        have h7 : j < k + 3 := by
          have : (j : ℝ) < ((k + 3 : ℕ) : ℝ) := by push_cast; linarith
          exact_mod_cast this
        have h8 : k + 1 ≤ j := by
          have : ((k + 1 : ℕ) : ℝ) ≤ (j : ℝ) := by push_cast; linarith
          exact_mod_cast this
        rw [h2 hj hj']
        by_cases e : j = k + 2
        · rw [e]
          simp only [Nat.add_sub_cancel, show k + 2 - 1 = k + 1 from rfl]
          push_cast
          field_simp
          ring
        · -- on a date: the interval before it
          have e' : j = k + 1 := by omega
          obtain ⟨k', rfl⟩ : ∃ k', k = k' + 1 := ⟨k - 1, by omega⟩
          rw [e'] at h4
          push_cast at h4 hk1
          have ht' : time = t₀ + ((k' : ℝ) + 1) * δ := by linarith
          rw [e', ht']
          simp only [show k' + 1 + 1 - 2 = k' from by omega, show k' + 1 + 1 - 1 = k' + 1 from rfl]
          push_cast
          field_simp
          ring

/-- Between the last two dates the value is that of the last file, whatever the date. -/
theorem emission_last_wrong {s : Known α} {d : Disk α} (h : Holds s d) (eval : (Fin 3 → Option α) → Option ℝ)
    (hev : ∀ c ∈ s.series, (eval (fun q => some (c q))).isSome) (hdt : 0 < s.dt) (hn : 2 ≤ s.series.length) (time : ℝ)
    (h1 : s.tinit + ((s.series.length : ℝ) - 2) * s.dt < time) (h2 : time < s.tinit + ((s.series.length : ℝ) - 1) * s.dt) :
    ∃ x, emission eval time d = .ok (unpointed d) x ∧ x = s.val eval (s.series.length - 1) ∧
      (s.val eval (s.series.length - 2) ≠ s.val eval (s.series.length - 1) →
        ¬ InTime s.series.length s.tinit s.dt (s.val eval) time x) := by
  have hne : s.series ≠ [] := by rintro hc; rw [hc] at hn; simp at hn
  obtain ⟨x, e, -, hx1, hx2⟩ := emission_holds h hne eval hev time
  obtain ⟨hnb, hti, hst, -⟩ := h
  obtain ⟨b1, b2, b3, b4⟩ := search_spec time d.dt (d.nb - 1) d.tinit 1
  change found d time ≤ _ at b2
  change found d time < _ → time ≤ d.tinit + ((found d time : ℝ) - (1 : ℕ)) * d.dt at b4
  rw [hnb, hti, hst] at *
  have hj : found d time = s.series.length := by
    by_contra hj
    have h3 := b4 (by omega)
    have h4 : (found d time : ℝ) - 1 ≤ (s.series.length : ℝ) - 2 := by
      have : ((found d time + 1 : ℕ) : ℝ) ≤ (s.series.length : ℝ) := by exact_mod_cast (show found d time + 1 ≤ s.series.length by omega)
      push_cast at this
      linarith
    have := mul_le_mul_of_nonneg_right h4 hdt.le
    push_cast at h3
    linarith
  have hx : x = s.val eval (s.series.length - 1) := by rw [hx1 (.inr hj), hj]
  refine ⟨x, e, hx, fun hdiff hin => ?_⟩
  obtain ⟨k, hk⟩ : ∃ k, s.series.length = k + 2 := ⟨s.series.length - 2, by omega⟩
  rw [hk] at hx hin hdiff h1 h2
  simp only [Nat.add_sub_cancel, show k + 2 - 1 = k + 1 from rfl] at hx hdiff
  push_cast at h1 h2
  have := hin.2.2 k (by omega) (by linarith) (by linarith)
  rw [hx] at this
  have h5 : (s.tinit + ((k : ℝ) + 1) * s.dt - time) * (s.val eval k - s.val eval (k + 1)) = 0 := by linear_combination -this
  rcases mul_eq_zero.mp h5 with h6 | h6
  · linarith
  · exact hdiff (by linarith)

/-! ## Memory -/

/-- Whatever the proper calls, nothing is undefined, every value is the right one except in the last interval, and the disk holds what was
set last. -/
theorem calls_proper {s : Known α} {d : Disk α} (os : List (Op α)) (h : Holds s d) (hp : Proper s os) :
    ∃ d' xs s', calls os d = .ok d' xs ∧ Answers s os xs ∧ After s os s' ∧ Holds s' d' := by
  induction os generalizing s d with
  | nil => exact ⟨d, [], s, rfl, rfl, rfl, h⟩
  | cons o os ih =>
    cases o with
    | file fs =>
      obtain ⟨c, hne, hf, hp⟩ := hp
      obtain ⟨d1, e1, h1, -, -⟩ := file_holds h hne hf
      obtain ⟨d2, xs, s', e2, h2, h3, h4⟩ := ih h1 hp
      refine ⟨d2, xs, s', ?_, fun c' hc' => ?_, ⟨c, hf, h3⟩, h4⟩
      · have e1' : call (.file fs) d = .ok d1 [] := bind_ok e1
        show (call (.file fs) >>= fun xs => _) d = _
        rw [bind_ok e1', bind_ok e2]
        rfl
      · rw [← forall₂_unique hf hc']
        exact h2
    | emission eval time =>
      obtain ⟨hne, hev, hp⟩ := hp
      obtain ⟨x, e1, h1, -, -⟩ := emission_holds h hne eval hev time
      obtain ⟨d2, xs, s', e2, h2, h3, h4⟩ := ih h1 hp
      refine ⟨d2, x :: xs, s', ?_, ⟨x, xs, rfl, fun hdt ht => ?_, h2⟩, h3, h4⟩
      · have e1' : call (.emission eval time) d = .ok (unpointed d) [x] := bind_ok e1
        show (call (.emission eval time) >>= fun xs => _) d = _
        rw [bind_ok e1', bind_ok e2]
        rfl
      · obtain ⟨x', e', hx'⟩ := emission_inTime_partial h hne eval hev hdt time ht
        rw [e1] at e'
        cases e'
        exact hx'
    | tinit t =>
      obtain ⟨h1, h2, h3, v, hv, h4⟩ := h
      have hv' : Good v { d with tinit := t } := ⟨⟨hv.own.slot, hv.own.inj, hv.own.cur, hv.own.curInj, hv.own.sep⟩, hv.empty, hv.len⟩
      obtain ⟨d2, xs, s', e2, h5, h6, h7⟩ := ih (s := { s with tinit := t }) (d := { d with tinit := t }) ⟨h1, rfl, h3, v, hv', h4⟩ hp
      refine ⟨d2, xs, s', ?_, h5, h6, h7⟩
      show (call (.tinit t) >>= fun xs => _) d = _
      rw [bind_ok (m := call (.tinit t)) (d' := { d with tinit := t }) rfl, bind_ok e2]
      rfl
    | dt t =>
      obtain ⟨h1, h2, h3, v, hv, h4⟩ := h
      have hv' : Good v { d with dt := t } := ⟨⟨hv.own.slot, hv.own.inj, hv.own.cur, hv.own.curInj, hv.own.sep⟩, hv.empty, hv.len⟩
      obtain ⟨d2, xs, s', e2, h5, h6, h7⟩ := ih (s := { s with dt := t }) (d := { d with dt := t }) ⟨h1, h2, rfl, v, hv', h4⟩ hp
      refine ⟨d2, xs, s', ?_, h5, h6, h7⟩
      show (call (.dt t) >>= fun xs => _) d = _
      rw [bind_ok (m := call (.dt t)) (d' := { d with dt := t }) rfl, bind_ok e2]
      rfl

/-- From the constructor to the destructor. -/
theorem life_partial [Nonempty α] (os : List (Op α)) (hp : Proper Known.start os) :
    ∃ d xs d', calls os init = .ok d xs ∧ Answers Known.start os xs ∧ destroy d = .ok d' () := by
  obtain ⟨d, xs, s', e, h1, -, -, -, -, v, hv, -⟩ := calls_proper os holds_init hp
  obtain ⟨d', e', -⟩ := destroy_good hv
  exact ⟨d, xs, d', e, h1, e'⟩

/-- No use is made of the disk. -/
def Unused : List (Op α) → Prop
  | [] => True
  | .emission _ _ :: _ => False
  | _ :: os => Unused os

/-- A disk that is read any number of times, and not used, gives back all its memory. -/
theorem unused_no_leak [Nonempty α] (os : List (Op α)) (hp : Proper Known.start os) (hu : Unused os) :
    ∃ d xs d', calls os init = .ok d xs ∧ destroy d = .ok d' () ∧ ∀ p, d'.heap p = none := by
  suffices H : ∀ (os : List (Op α)) (s : Known α) (d : Disk α), Holds s d → Exact (below d.nb) d → Proper s os → Unused os →
      ∃ d' xs v, calls os d = .ok d' xs ∧ Good v d' ∧ Exact (below d'.nb) d' by
    obtain ⟨d, xs, v, e, hv, hE⟩ := H os Known.start init holds_init (by intro p c hc; cases hc) hp hu
    obtain ⟨d', e', -, hno⟩ := destroy_good hv
    exact ⟨d, xs, d', e, e', hno hE⟩
  intro os
  induction os with
  | nil =>
    intro s d h hE _ _
    obtain ⟨-, -, -, v, hv, -⟩ := h
    exact ⟨d, [], v, rfl, hv, hE⟩
  | cons o os ih =>
    intro s d h hE hp hu
    cases o with
    | file fs =>
      obtain ⟨c, hne, hf, hp⟩ := hp
      obtain ⟨d1, e1, h1, -, hx⟩ := file_holds h hne hf
      obtain ⟨d2, xs, v, e2, hv, hE'⟩ := ih _ d1 h1 (hx hE) hp hu
      refine ⟨d2, xs, v, ?_, hv, hE'⟩
      have e1' : call (.file fs) d = .ok d1 [] := bind_ok e1
      show (call (.file fs) >>= fun xs => _) d = _
      rw [bind_ok e1', bind_ok e2]
      rfl
    | emission eval time => exact hu.elim
    | tinit t =>
      obtain ⟨h1, h2, h3, v, hv, h4⟩ := h
      have hv' : Good v { d with tinit := t } := ⟨⟨hv.own.slot, hv.own.inj, hv.own.cur, hv.own.curInj, hv.own.sep⟩, hv.empty, hv.len⟩
      obtain ⟨d2, xs, w, e2, hw, hE'⟩ := ih { s with tinit := t } { d with tinit := t } ⟨h1, rfl, h3, v, hv', h4⟩ hE hp hu
      refine ⟨d2, xs, w, ?_, hw, hE'⟩
      show (call (.tinit t) >>= fun xs => _) d = _
      rw [bind_ok (m := call (.tinit t)) (d' := { d with tinit := t }) rfl, bind_ok e2]
      rfl
    | dt t =>
      obtain ⟨h1, h2, h3, v, hv, h4⟩ := h
      have hv' : Good v { d with dt := t } := ⟨⟨hv.own.slot, hv.own.inj, hv.own.cur, hv.own.curInj, hv.own.sep⟩, hv.empty, hv.len⟩
      obtain ⟨d2, xs, w, e2, hw, hE'⟩ := ih { s with dt := t } { d with dt := t } ⟨h1, h2, rfl, v, hv', h4⟩ hE hp hu
      refine ⟨d2, xs, w, ?_, hw, hE'⟩
      show (call (.dt t) >>= fun xs => _) d = _
      rw [bind_ok (m := call (.dt t)) (d' := { d with dt := t }) rfl, bind_ok e2]
      rfl

/-- A disk that is read, then used, keeps three arrays for ever: those of the last file that `fitsRead` had put in the base. -/
theorem used_leak_wrong {s : Known α} {d : Disk α} (h : Holds s d) {fs : List (File α)} {c : List (Fin 3 → α)} (hne : c ≠ [])
    (hf : List.Forall₂ Whole fs c) (eval : (Fin 3 → Option α) → Option ℝ) (hev : ∀ a ∈ c, (eval (fun q => some (a q))).isSome)
    (time : ℝ) :
    ∃ d1 d2 x d3, file (some fs) d = .ok d1 () ∧ emission eval time d1 = .ok d2 x ∧ destroy d2 = .ok d3 () ∧
      ∃ ps : Fin 3 → ℕ, Function.Injective ps ∧ ∀ q, (d3.heap (ps q)).isSome := by
  obtain ⟨d1, e1, h1, hcur, -⟩ := file_holds h hne hf
  obtain ⟨x, e2, h2, -, -⟩ := emission_holds h1 hne eval hev time
  obtain ⟨-, -, -, v, hv, -⟩ := h1
  obtain ⟨d3, e3, hkeep, -⟩ := destroy_good (unpointed_good hv)
  choose ps hps using hcur
  refine ⟨d1, _, x, d3, e1, e2, e3, ps, fun q q' hq => ?_, fun q => ?_⟩
  · exact hv.own.curInj q q' (ps q) (hps q) (by rw [hq]; exact hps q')
  · obtain ⟨⟨a, ha⟩, -⟩ := hv.own.cur q _ (hps q)
    have : d3.heap (ps q) = d1.heap (ps q) :=
      hkeep (ps q) (fun q' i hi hH => hv.own.sep q q' i _ (hps q) hi hH) (fun _ hc => by cases hc)
    rw [this, ha]
    rfl

/-- After an exception in the method of the base, for instance because the disk is optically thin, the destructor frees the same arrays
twice. -/
theorem emission_throw_wrong {s : Known α} {d : Disk α} (h : Holds s d) (hne : s.series ≠ []) (eval : (Fin 3 → Option α) → Option ℝ)
    (time : ℝ) {d' : Disk α} (ht : emission eval time d = .throw d') : destroy d' = .ub := by
  obtain ⟨hn, -, -, v, hv, -⟩ := h
  have hn0 : d.nb ≠ 0 := by
    rw [hn]
    exact fun h => hne (List.length_eq_zero_iff.mp h)
  obtain ⟨b1, b2⟩ := found_bounds d time hn0
  by_cases hf : found d time = 1 ∨ found d time = d.nb
  · obtain ⟨ps, hps, e⟩ := emission_single hv hn0 eval hf
    rw [e] at ht
    cases hev : eval (fun q => some (v (found d time - 1) q)) with
    | some x => rw [hev] at ht; cases ht
    | none =>
      rw [hev] at ht
      cases ht
      exact destroy_pointed hv (by omega) hps
  · obtain ⟨ps, ps', hps, hps', e⟩ := emission_double hv hn0 eval (fun h => hf (.inl h)) (fun h => hf (.inr h))
    rw [e] at ht
    cases hev : eval (fun q => some (v (found d time - 2) q)) with
    | none =>
      rw [hev] at ht
      cases ht
      exact destroy_pointed hv (by omega) hps
    | some x =>
      rw [hev] at ht
      cases hev' : eval (fun q => some (v (found d time - 1) q)) with
      | some x => rw [hev'] at ht; cases ht
      | none =>
        rw [hev'] at ht
        cases ht
        exact destroy_pointed hv (by omega) hps'

/-- After an exception in the reading of the files, the destructor, and another reading, free pointers that were never written. -/
theorem file_throw_wrong {s : Known α} {d : Disk α} (h : Holds s d) {fs : List (File α)} (hne : fs ≠ []) {d' : Disk α}
    (ht : file (some fs) d = .throw d') : destroy d' = .ub ∧ ∀ dir, file dir d' = .ub := by
  obtain ⟨-, -, -, v, hv, -⟩ := h
  obtain ⟨d1, e1, -⟩ := prelude_good hv
  have hl : 0 < fs.length := List.length_pos_iff.mpr hne
  have ht' : readAll 0 fs { d1 with nb := fs.length, arr := fun _ => some (List.replicate fs.length none) } = .throw d' := by
    rw [← ht]
    symm
    refine (bind_ok e1).trans ?_
    exact if_neg (by omega)
  obtain ⟨hn, l, j, hj, hl', hj'⟩ := readAll_throw (n := fs.length) fs rfl List.length_replicate (Nat.zero_add _) (by
    intro j _ hj
    rw [List.getElem?_replicate, if_pos hj]) ht'
  have hn' : d'.nb = fs.length := hn
  have hub := freeSeries_ub hl' (by rw [hn']; exact hj) hj'
  refine ⟨bind_ub hub, fun dir => bind_ub ?_⟩
  unfold freeOld
  rw [if_pos (by omega), hub]

/-- A series in which a file lacks something is refused, and then the disk cannot even be destroyed. -/
theorem file_incomplete_wrong {s : Known α} {d : Disk α} (h : Holds s d) {fs : List (File α)} {f : File α} (hf : f ∈ fs)
    (hw : ∀ c, ¬ Whole f c) : ∃ d', file (some fs) d = .throw d' ∧ destroy d' = .ub := by
  obtain ⟨-, -, -, v, hv, -⟩ := id h
  rcases file_total hv fs with ⟨c, hc⟩ | ⟨d', e⟩
  · obtain ⟨hl, hget⟩ := forall₂_get hc
    obtain ⟨j, hj, rfl⟩ := List.getElem_of_mem hf
    exact absurd (hget j hj (by omega)) (hw _)
  · exact ⟨d', e, (file_throw_wrong h (by rintro rfl; simp at hf) e).1⟩

/-- A directory that cannot be opened, or is empty, is refused without harm. -/
theorem file_refused {s : Known α} {d : Disk α} (h : Holds s d) (dir : Option (List (File α))) (hdir : dir = none ∨ dir = some []) :
    ∃ d' d'', file dir d = .throw d' ∧ Holds { s with series := [] } d' ∧ destroy d' = .ok d'' () := by
  obtain ⟨-, ht, hs, v, hv, -⟩ := h
  obtain ⟨d1, e1, o1, n1, a1, t1, s1, -⟩ := prelude_good hv
  have hg : ∀ d2 : Disk α, d2 = d1 → Good v d2 := by
    rintro d2 rfl
    exact ⟨by rw [n1]; exact o1.rebase rfl rfl rfl, fun _ => a1, fun hc => absurd n1 hc⟩
  have e : file dir d = .throw d1 := by
    refine (bind_ok e1).trans ?_
    rcases hdir with rfl | rfl
    · rfl
    · show Out.throw { d1 with nb := 0 } = _
      rw [← n1]
  obtain ⟨d'', e'', -⟩ := destroy_good (hg d1 rfl)
  exact ⟨d1, d'', e, ⟨n1, t1.trans ht, s1.trans hs, v, hg d1 rfl, fun i hi => absurd hi (Nat.not_lt_zero _)⟩, e''⟩

/-- A clone has no data: whatever the original holds, its methods throw. -/
theorem clone_wrong {d d' c : Disk α} (h : clone d = .ok d' c) (eval : (Fin 3 → Option α) → Option ℝ) (time : ℝ) :
    emission eval time c = .throw c := by
  have hn : c.nb = 0 := by
    unfold clone at h
    obtain ⟨d1, a, -, h⟩ := bind_eq_ok h
    obtain ⟨d2, b, -, h⟩ := bind_eq_ok h
    obtain ⟨d3, e, -, h⟩ := bind_eq_ok h
    cases h
    rfl
  have hs : search time c.dt (c.nb - 1) c.tinit 1 = 1 := by rw [hn]; rfl
  unfold emission
  simp only [hs]
  rw [if_pos (Or.inl trivial)]
  have : copyQuantities 1 c = .throw c := by
    unfold copyQuantities
    rw [if_pos (by omega)]
    rfl
  exact bind_throw this

/-- `copyQuantities` accepts the indices 1 to the number of files: for any other it throws and changes nothing. -/
theorem index_rejected (d : Disk α) (iq : ℕ) (h : iq = 0 ∨ d.nb < iq) : copyQuantities iq d = .throw d := by
  unfold copyQuantities
  rw [if_pos (by omega)]
  rfl

example : copyQuantities 0 (init : Disk ℝ) = .throw init := index_rejected _ _ (Or.inl rfl)

/-- To clone a disk that has just been read is undefined. -/
theorem clone_fresh_wrong {s : Known α} {d : Disk α} (h : Holds s d) {fs : List (File α)} {c : List (Fin 3 → α)} (hne : c ≠ [])
    (hf : List.Forall₂ Whole fs c) : ∃ d1, file (some fs) d = .ok d1 () ∧ clone d1 = .ub := by
  obtain ⟨d1, e1, h1, hcur, -⟩ := file_holds h hne hf
  obtain ⟨-, -, -, v, hv, -⟩ := h1
  refine ⟨d1, e1, ?_⟩
  have key : ∀ q (d1 : Disk α) p c, d1.cur q = some p → d1.heap p = some c →
      ∃ d2 o, cloneCur q d1 = .ok d2 o ∧ d2.cur = d1.cur ∧ ∀ i, i ≠ d1.next → d2.heap i = d1.heap i := by
    intro q d1 p c h1 h2
    refine ⟨{ d1 with heap := fun i => if i = d1.next then some c else d1.heap i, next := d1.next + 1 }, some d1.next, ?_, rfl,
      fun i hi => if_neg hi⟩
    unfold cloneCur
    rw [h1]
    have e1 : load p d1 = .ok d1 c := by rw [load, h2]
    simp only []
    rw [bind_ok e1]
    rfl
  choose ps hps using hcur
  obtain ⟨⟨c0, hc0⟩, -⟩ := hv.own.cur 0 _ (hps 0)
  obtain ⟨⟨c1, hc1⟩, hlt⟩ := hv.own.cur 1 _ (hps 1)
  obtain ⟨d2, o2, e2, k2, m2⟩ := key 0 d1 _ _ (hps 0) hc0
  obtain ⟨d3, o3, e3, k3, -⟩ := key 1 d2 (ps 1) c1 (by rw [k2]; exact hps 1) (by rw [m2 _ (Nat.ne_of_lt hlt)]; exact hc1)
  unfold clone
  rw [bind_ok e2, bind_ok e3]
  refine bind_ub ?_
  unfold cloneRadius
  rw [k3, k2, hps 2]

/-! ## Examples -/

/-- A file with the same value in the three arrays. -/
def flat (c : ℝ) : File ℝ := ⟨fun _ => .present c, true, true⟩

theorem flat_whole (c : ℝ) : Whole (flat c) (fun _ => c) := ⟨fun _ => rfl, rfl, rfl⟩

/-- Three files. -/
def three : Known ℝ := ⟨[fun _ => 1, fun _ => 3, fun _ => 7], 10, 2⟩

/-- The value of the emission. -/
def first (c : Fin 3 → Option ℝ) : Option ℝ := c 0

/-- Three files are read and used, and all is defined. -/
example : ∃ d xs d', calls [.file [flat 1, flat 3, flat 7], .tinit 10, .dt 2, .emission first 11, .emission first 20] init = .ok d xs ∧
    Answers Known.start [.file [flat 1, flat 3, flat 7], .tinit 10, .dt 2, .emission first 11, .emission first 20] xs ∧
    destroy d = .ok d' () :=
  life_partial _ ⟨[fun _ => 1, fun _ => 3, fun _ => 7], by simp,
    .cons (flat_whole 1) (.cons (flat_whole 3) (.cons (flat_whole 7) .nil)), by simp, by intro c _; rfl, by simp, by intro c _; rfl, trivial⟩

/-- At the date 11, half way from the first file to the second, the value is 2. -/
example (x : ℝ) (h : InTime 3 10 2 (three.val first) 11 x) : x = 2 := by
  have := h.2.2 0 (by norm_num) (by norm_num) (by norm_num)
  have h0 : three.val first 0 = 1 := rfl
  have h1 : three.val first 1 = 3 := rfl
  norm_num [h0, h1] at this
  linarith

/-- At the date 13, half way from the second file to the third, the value should be 5 and is 7. -/
example (d : Disk ℝ) (h : Holds three d) : ∃ x, emission first 13 d = .ok (unpointed d) x ∧ x = 7 := by
  obtain ⟨x, e, hx, -⟩ := emission_last_wrong h first (by intro c _; rfl) (by norm_num [three]) (by simp [three]) 13
    (by norm_num [three]) (by norm_num [three])
  exact ⟨x, e, hx⟩

/-- A method that throws. -/
example (d d' : Disk ℝ) (h : Holds three d) (ht : emission (fun _ => none) 13 d = .throw d') : destroy d' = .ub :=
  emission_throw_wrong h (by simp [three]) _ _ ht

/-- The second file has no velocity. -/
def poor : File ℝ := ⟨![.present 1, .absent, .present 1], true, true⟩

example : ∃ d, file (some [flat 1, poor]) init = .throw d ∧ destroy d = .ub :=
  file_incomplete_wrong holds_init (f := poor) (by simp) (fun _ h => by cases h.1 1)

/-- Two files, read and used: three arrays are lost. -/
example : ∃ d1 d2 x d3, file (some [flat 1, flat 3]) init = .ok d1 () ∧ emission first 0 d1 = .ok d2 x ∧ destroy d2 = .ok d3 () ∧
    ∃ ps : Fin 3 → ℕ, Function.Injective ps ∧ ∀ q, (d3.heap (ps q)).isSome :=
  used_leak_wrong holds_init (c := [fun _ => 1, fun _ => 3]) (by simp) (.cons (flat_whole 1) (.cons (flat_whole 3) .nil)) first
    (by intro c _; rfl) 0

end Gyoto.DynDisk
