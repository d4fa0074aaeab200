import Verif.Lemmas.Transfer
import Verif.Props.Emission
import Mathlib.Algebra.BigOperators.Group.List.Basic

/-!
# C39, C28, C46: transmission along a ray

* C39: the recorded transmission of each channel is the product of the transmitted fractions; light emitted at a step is
  multiplied by the ordered product of the matrices of the steps in front; copies.
* C28: an unpolarised object seen with polarisation: its opacity is wrong.
* C46: the matrix of one step is the exponential of the absorption matrix, except when it is degenerate.
-/

namespace Gyoto.Transfer

open Gyoto.Emission (Mueller)

/-! ### C39: products -/

/-- A ray with `n` channels, the arrays of which have been allocated. -/
structure Ready (r : Ray) (n : Nat) : Prop where
  spectro : r.spectro = some n
  small : n < noIndex
  trans : ∃ l, r.trans = some l ∧ l.length = n
  mats : ∃ l, r.mats = some l ∧ l.length = n

/-- A sequence of calls to `transmit`. -/
def runTransmit (r : Ray) : List (Nat × ℝ) → Out Ray
  | [] => .ok r
  | (i, t) :: rest =>
    match transmit r i t with
    | .ok r => runTransmit r rest
    | .throws => .throws
    | .ub => .ub

/-- Product of the fractions of the steps that concern channel `i`. -/
noncomputable def fractions (i : Nat) (steps : List (Nat × ℝ)) : ℝ :=
  ((steps.filter fun p => p.1 = i).map (·.2)).prod

theorem transmit_one {r : Ray} {n i : Nat} (h : Ready r n) (hi : i = noIndex ∨ i < n) (t : ℝ) :
    ∃ r', transmit r i t = .ok r' ∧ Ready r' n ∧ ∀ j v, getTransmission r j = .ok v →
      getTransmission r' j = .ok (if i = j then v * t else v) := by
  obtain ⟨l, hl, hn⟩ := h.trans
  by_cases hx : i = noIndex
  · refine ⟨{ r with freqobs := r.freqobs * t }, by simp [transmit, hx], ⟨h.spectro, h.small, h.trans, h.mats⟩, ?_⟩
    intro j v hv
    by_cases hj : j = noIndex
    · simp only [getTransmission, hj, if_true] at hv ⊢
      cases hv
      simp [hx]
    · have : ¬ i = j := fun e => hj (e ▸ hx)
      simpa [getTransmission, hj, this] using hv
  · have hi' : i < n := hi.resolve_left hx
    have hg : l[i]? = some (l[i]'(by omega)) := List.getElem?_eq_getElem (by omega)
    refine ⟨{ r with trans := some (l.set i (l[i]'(by omega) * t)) },
      by simp [transmit, hx, h.spectro, Nat.not_le.2 hi', hl, hg],
      ⟨h.spectro, h.small, ⟨_, rfl, by simp [hn]⟩, h.mats⟩, ?_⟩
    intro j v hv
    by_cases hj : j = noIndex
    · have : ¬ i = j := fun e => hx (e.trans hj)
      simpa [getTransmission, hj, this, hx] using hv
    · simp only [getTransmission, hj, if_false, h.spectro, hl] at hv ⊢
      split at hv
      · cases hv
      · rename_i hnj
        simp only [hnj, if_false]
        have hlt : j < l.length := by omega
        rw [List.getElem?_eq_getElem hlt] at hv
        cases hv
        rw [List.getElem?_set]
        by_cases e : i = j
        · subst e
          simp [hlt]
        · simp [e, List.getElem?_eq_getElem hlt]

theorem get_ready {r : Ray} {n i : Nat} (h : Ready r n) (hi : i = noIndex ∨ i < n) : ∃ v, getTransmission r i = .ok v := by
  obtain ⟨l, hl, hn⟩ := h.trans
  by_cases hx : i = noIndex
  · exact ⟨_, by simp [getTransmission, hx]; rfl⟩
  · have hi' : i < n := hi.resolve_left hx
    exact ⟨l[i]'(by omega), by simp [getTransmission, hx, h.spectro, Nat.not_le.2 hi', hl, List.getElem?_eq_getElem (by omega : i < l.length)]⟩

/-- **C39.** After any sequence of absorbing steps the transmission of each channel (and that at the observer's frequency,
`noIndex`) is the initial one times the product of the transmitted fractions of the steps that concern it. -/
theorem transmission_product {r : Ray} {n : Nat} (h : Ready r n) (steps : List (Nat × ℝ))
    (hs : ∀ p ∈ steps, p.1 = noIndex ∨ p.1 < n) :
    ∃ r', runTransmit r steps = .ok r' ∧ Ready r' n ∧ ∀ i v, getTransmission r i = .ok v →
      getTransmission r' i = .ok (v * fractions i steps) := by
  induction steps generalizing r with
  | nil => exact ⟨r, rfl, h, fun i v hv => by simpa [fractions] using hv⟩
  | cons p rest ih =>
    obtain ⟨r1, h1, rd1, g1⟩ := transmit_one h (hs p (by simp)) p.2
    obtain ⟨r2, h2, rd2, g2⟩ := ih rd1 (fun q hq => hs q (by simp [hq]))
    refine ⟨r2, by simp [runTransmit, h1, h2], rd2, fun i v hv => ?_⟩
    rw [g2 i _ (g1 i v hv)]
    by_cases e : p.1 = i
    · simp [fractions, e, mul_assoc]
    · simp [fractions, e]

/-- **C39.** When the fractions of the steps are between 0 and 1, transmissions stay between 0 and 1 and never increase. -/
theorem transmission_range {r : Ray} {n : Nat} (h : Ready r n) (steps : List (Nat × ℝ))
    (hs : ∀ p ∈ steps, (p.1 = noIndex ∨ p.1 < n) ∧ 0 ≤ p.2 ∧ p.2 ≤ 1) {i : Nat} {v : ℝ}
    (hv : getTransmission r i = .ok v) (h0 : 0 ≤ v) (h1 : v ≤ 1) :
    ∃ r' w, runTransmit r steps = .ok r' ∧ getTransmission r' i = .ok w ∧ 0 ≤ w ∧ w ≤ v ∧ w ≤ 1 := by
  obtain ⟨r', e, -, g⟩ := transmission_product h steps (fun p hp => (hs p hp).1)
  have hf : 0 ≤ fractions i steps ∧ fractions i steps ≤ 1 := by
    have gen : ∀ l : List (Nat × ℝ), (∀ p ∈ l, 0 ≤ p.2 ∧ p.2 ≤ 1) → 0 ≤ fractions i l ∧ fractions i l ≤ 1 := by
      intro l
      induction l with
      | nil => intro _; simp [fractions]
      | cons p l ih =>
        intro hl
        have hp := hl p (by simp)
        have hr := ih (fun q hq => hl q (by simp [hq]))
        by_cases e : p.1 = i
        · have : fractions i (p :: l) = p.2 * fractions i l := by simp [fractions, e]
          rw [this]
          exact ⟨mul_nonneg hp.1 hr.1, mul_le_one₀ hp.2 hr.1 hr.2⟩
        · have : fractions i (p :: l) = fractions i l := by simp [fractions, e]
          rw [this]
          exact hr
    exact gen steps (fun p hp => (hs p hp).2)
  have hw : v * fractions i steps ≤ v := mul_le_of_le_one_right h0 hf.2
  exact ⟨r', _, e, g i v hv, mul_nonneg h0 hf.1, hw, hw.trans h1⟩

/-- A new ray: arrays allocated, everything at 1. -/
theorem allocate_ready (r : Ray) (n : Nat) (hr : r.spectro = some n) (hn : 0 < n) (hb : n < noIndex)
    (freshT : Nat → List ℝ) (freshM : Nat → List Mueller) (hT : ∀ k, (freshT k).length = k)
    (hM : ∀ k, (freshM k).length = k) :
    let r' := allocateTransmissionMatrix freshM (allocateTransmission freshT r)
    Ready r' n ∧ (∀ i, i = noIndex ∨ i < n → getTransmission r' i = .ok 1) ∧
      r'.mats = some (List.replicate n 1) ∧ r'.matFreqobs = 1 := by
  have hn' : n ≠ 0 := by omega
  have e1 : allocateTransmission freshT r =
      { r with freqobs := 1, trans := some (List.replicate n 1) } := by
    simp [allocateTransmission, hr, hn', resetTransmission, hT n]
  have e2 : allocateTransmissionMatrix freshM (allocateTransmission freshT r) =
      { r with freqobs := 1, trans := some (List.replicate n 1), matFreqobs := 1, mats := some (List.replicate n 1) } := by
    rw [e1]
    simp [allocateTransmissionMatrix, hr, hn', resetTransmissionMatrix, hM n]
  simp only [e2]
  refine ⟨⟨hr, hb, ⟨_, rfl, by simp⟩, ⟨_, rfl, by simp⟩⟩, ?_, trivial, trivial⟩
  intro i hi
  by_cases hx : i = noIndex
  · simp [getTransmission, hx]
  · have hi' : i < n := hi.resolve_left hx
    simp [getTransmission, hx, hr, Nat.not_le.2 hi', hi']

/-- **C39.** An index that is neither `size_t(-1)` nor a channel throws. -/
theorem transmit_bad_index {r : Ray} {n i : Nat} (h : Ready r n) (hi : n ≤ i) (hx : i ≠ noIndex) (t : ℝ) :
    transmit r i t = .throws ∧ getTransmission r i = .throws := by
  simp [transmit, getTransmission, hx, h.spectro, hi]

theorem maxLoop_spec (l : List ℝ) (acc : ℝ) :
    (∀ v ∈ l, v ≤ maxLoop l acc) ∧ acc ≤ maxLoop l acc ∧ (maxLoop l acc = acc ∨ maxLoop l acc ∈ l) := by
  induction l generalizing acc with
  | nil => simp [maxLoop]
  | cons v vs ih =>
    obtain ⟨h1, h2, h3⟩ := ih (if v > acc then v else acc)
    simp only [maxLoop]
    have hv : v ≤ (if v > acc then v else acc) := by split <;> linarith
    have ha : acc ≤ (if v > acc then v else acc) := by split <;> linarith
    refine ⟨?_, ha.trans h2, ?_⟩
    · intro w hw
      rcases List.mem_cons.1 hw with e | hw
      · rw [e]; exact hv.trans h2
      · exact h1 w hw
    · rcases h3 with h3 | h3
      · rw [h3]
        split
        · exact Or.inr (by simp)
        · exact Or.inl rfl
      · exact Or.inr (by simp [h3])

/-- **C39.** The value that decides when to stop a ray is the greatest transmission among the channels (polarised: the greatest
upper-left coefficient); at the observer's frequency when there are no channels. -/
theorem transmissionMax_greatest {r : Ray} {n : Nat} (h : Ready r n) (hn : 0 < n) (hpos : ∀ i v, i < n → getTransmission r i = .ok v → 0 ≤ v) :
    (∀ i v, i < n → getTransmission r i = .ok v → v ≤ getTransmissionMax r false) ∧
      ∃ i, i < n ∧ getTransmission r i = .ok (getTransmissionMax r false) := by
  obtain ⟨l, hl, hlen⟩ := h.trans
  have hsm := h.small
  have e : getTransmissionMax r false = maxLoop l 0 := by simp [getTransmissionMax, h.spectro, hl]
  have g : ∀ i (hi : i < n), getTransmission r i = .ok (l[i]'(by omega)) := by
    intro i hi
    have hx : i ≠ noIndex := by omega
    simp [getTransmission, hx, h.spectro, Nat.not_le.2 hi, hl, List.getElem?_eq_getElem (by omega : i < l.length)]
  obtain ⟨h1, h2, h3⟩ := maxLoop_spec l 0
  rw [e]
  refine ⟨fun i v hi hv => ?_, ?_⟩
  · rw [g i hi] at hv
    cases hv
    exact h1 _ (List.getElem_mem _)
  · rcases h3 with h3 | h3
    · have p0 := hpos 0 _ hn (g 0 hn)
      have q0 := h1 _ (List.getElem_mem (by omega : 0 < l.length))
      refine ⟨0, hn, ?_⟩
      rw [g 0 hn, h3]
      congr 1
      rw [h3] at q0
      exact le_antisymm q0 p0
    · obtain ⟨i, hi, hv⟩ := List.getElem_of_mem h3
      exact ⟨i, by omega, by rw [g i (by omega), hv]⟩

example : getTransmissionMax ⟨1, 1, some 3, some [1/4, 1/2, 1/8], none⟩ false = 1/2 := by
  norm_num [getTransmissionMax, maxLoop]

/-! ### C39: polarised transfer -/

/-- One step for all channels: light emitted there (`S`) and matrix of the step (`O`). -/
abbrev Step := List (Stokes × Mueller)

/-- The steps met by a ray, from the observer outward; what reaches the observer from each. -/
noncomputable def runTransfer (r : Ray) : List Step → Out (List (List Stokes) × Ray)
  | [] => .ok ([], r)
  | s :: rest =>
    match transferFrom r 0 s with
    | .ok (out, r) =>
      match runTransfer r rest with
      | .ok (outs, r) => .ok (out :: outs, r)
      | .throws => .throws
      | .ub => .ub
    | .throws => .throws
    | .ub => .ub

theorem transferFrom_spec {n : Nat} (hsm : n < noIndex) (s : Step) :
    ∀ (i : Nat) (r : Ray) (l : List Mueller), r.spectro = some n → r.mats = some l → l.length = n → i + s.length = n →
      ∃ out r' l', transferFrom r i s = .ok (out, r') ∧ r'.spectro = some n ∧ r'.mats = some l' ∧ l'.length = n ∧
        out.length = s.length ∧
        (∀ k, k < i → l'[k]? = l[k]?) ∧
        (∀ k p t, s[k]? = some p → l[i + k]? = some t → out[k]? = some (t.mulVec p.1) ∧ l'[i + k]? = some (t * p.2)) := by
  induction s with
  | nil =>
    intro i r l h1 h2 h3 h4
    exact ⟨[], r, l, rfl, h1, h2, h3, rfl, fun _ _ => rfl, by simp⟩
  | cons p s ih =>
    intro i r l h1 h2 h3 h4
    simp only [List.length_cons] at h4
    have hi : i < l.length := by omega
    have hx : i ≠ noIndex := by omega
    have hle : ¬ n ≤ i := by omega
    obtain ⟨out, r', l', e, e1, e2, e3, e4, e5, e6⟩ := ih (i + 1) { r with mats := some (l.set i (l[i] * p.2)) }
      (l.set i (l[i] * p.2)) h1 rfl (by simp [h3]) (by omega)
    refine ⟨l[i].mulVec p.1 :: out, r', l', ?_, e1, e2, e3, by simp [e4], ?_, ?_⟩
    · simp [h1] at e
      simp [transferFrom, h2, List.getElem?_eq_getElem hi, transmitMatrix, hx, h1, hle, e]
    · intro k hk
      rw [e5 k (by omega), List.getElem?_set_ne (by omega)]
    · intro k q t hq ht
      cases k with
      | zero =>
        simp only [List.getElem?_cons_zero, Option.some.injEq] at hq
        subst hq
        simp only [Nat.add_zero] at ht ⊢
        rw [List.getElem?_eq_getElem hi, Option.some.injEq] at ht
        subst ht
        refine ⟨by simp, ?_⟩
        rw [e5 i (by omega), List.getElem?_set_self hi]
      | succ k =>
        simp only [List.getElem?_cons_succ] at hq ⊢
        have := e6 k q t hq (by rw [List.getElem?_set_ne (by omega), show i + 1 + k = i + (k + 1) by omega]; exact ht)
        rwa [show i + 1 + k = i + (k + 1) by omega] at this

/-- Matrices of channel `c` in the first steps. -/
def matricesOf (c : Nat) (steps : List Step) : List Mueller := (steps.filterMap (·[c]?)).map (·.2)

/-- **C39.** Light emitted at step `k` in channel `c` reaches the observer multiplied by the ordered product of the matrices of
the steps in front of it, the nearest to the observer on the left. -/
theorem transfer_ordered {r : Ray} {n : Nat} (h : Ready r n) (h1 : r.mats = some (List.replicate n 1))
    (steps : List Step) (hs : ∀ s ∈ steps, s.length = n) :
    ∃ outs r', runTransfer r steps = .ok (outs, r') ∧ outs.length = steps.length ∧
      (∀ k c s p, steps[k]? = some s → s[c]? = some p →
        ∃ out, outs[k]? = some out ∧ out[c]? = some ((matricesOf c (steps.take k)).prod.mulVec p.1)) ∧
      ∃ l, r'.mats = some l ∧ ∀ c, c < n → l[c]? = some (matricesOf c steps).prod := by
  have gen : ∀ (steps : List Step) (r : Ray) (l : List Mueller), (∀ s ∈ steps, s.length = n) → r.spectro = some n →
      r.mats = some l → l.length = n →
      ∃ outs r', runTransfer r steps = .ok (outs, r') ∧ outs.length = steps.length ∧
        (∀ k c s p t, steps[k]? = some s → s[c]? = some p → l[c]? = some t →
          ∃ out, outs[k]? = some out ∧ out[c]? = some ((t * (matricesOf c (steps.take k)).prod).mulVec p.1)) ∧
        ∃ l', r'.mats = some l' ∧ ∀ c t, l[c]? = some t → l'[c]? = some (t * (matricesOf c steps).prod) := by
    intro steps
    induction steps with
    | nil =>
      intro r l _ _ h2 _
      exact ⟨[], r, rfl, rfl, by simp, l, h2, by simp [matricesOf]⟩
    | cons s rest ih =>
      intro r l hs hsp hm hlen
      have hsl := hs s (by simp)
      obtain ⟨out, r1, l1, e, e1, e2, e3, e4, -, e6⟩ := transferFrom_spec h.small s 0 r l hsp hm hlen (by omega)
      obtain ⟨outs, r2, f, f1, f2, l2, f3, f4⟩ := ih r1 l1 (fun q hq => hs q (by simp [hq])) e1 e2 e3
      simp only [Nat.zero_add] at e6
      have next : ∀ (c : Nat) (t : Mueller), l[c]? = some t → ∃ p : Stokes × Mueller, s[c]? = some p ∧ l1[c]? = some (t * p.2) := by
        intro c t ht
        have hc : c < l.length := (List.getElem?_eq_some_iff.1 ht).1
        have hc' : c < s.length := by omega
        exact ⟨s[c], List.getElem?_eq_getElem hc', (e6 c s[c] t (List.getElem?_eq_getElem hc') ht).2⟩
      refine ⟨out :: outs, r2, by simp [runTransfer, e, f], by simp [f1], ?_, l2, f3, ?_⟩
      · intro k c q p t hk hc ht
        cases k with
        | zero =>
          simp only [List.getElem?_cons_zero, Option.some.injEq] at hk
          subst hk
          exact ⟨out, by simp, by simpa [matricesOf] using (e6 c p t hc ht).1⟩
        | succ k =>
          simp only [List.getElem?_cons_succ] at hk
          obtain ⟨p1, hp1, ht1⟩ := next c t ht
          obtain ⟨o, ho, hoc⟩ := f2 k c q p _ hk hc ht1
          refine ⟨o, by simpa using ho, ?_⟩
          rw [hoc]
          simp [matricesOf, hp1, mul_assoc]
      · intro c t ht
        obtain ⟨p1, hp1, ht1⟩ := next c t ht
        rw [f4 c _ ht1]
        simp [matricesOf, hp1, mul_assoc]
  obtain ⟨outs, r', e, e1, e2, l, e3, e4⟩ := gen steps r _ hs h.spectro h1 (by simp)
  refine ⟨outs, r', e, e1, ?_, l, e3, ?_⟩
  · intro k c s p hk hc
    have hlt : c < n := by
      rw [← hs s (List.mem_of_getElem? hk)]
      exact (List.getElem?_eq_some_iff.1 hc).1
    obtain ⟨o, ho, hoc⟩ := e2 k c s p 1 hk hc (by simp [hlt])
    exact ⟨o, ho, by rw [hoc, one_mul]⟩
  · intro c hc
    rw [e4 c 1 (by simp [hc]), one_mul]

/-- One channel, two steps: light of the second is attenuated by the matrix of the first. -/
example : ∃ r', runTransfer ⟨1, 1, some 1, none, some [1]⟩
      [[(![2, 0, 0, 0], (1 / 2 : ℝ) • (1 : Mueller))], [(![8, 2, 0, 0], 1)]] =
    .ok ([[![2, 0, 0, 0]], [![4, 1, 0, 0]]], r') := by
  have e : ((1 / 2 : ℝ) • (1 : Mueller)).mulVec ![8, 2, 0, 0] = ![4, 1, 0, 0] := by
    funext i
    fin_cases i <;> norm_num [Matrix.smul_mulVec]
  refine ⟨⟨1, 1, some 1, none, some [(1 / 2 : ℝ) • (1 : Mueller)]⟩, ?_⟩
  simp only [runTransfer, transferFrom, transmitMatrix, noIndex, List.getElem?_cons_zero, one_mul, mul_one, List.set_cons_zero,
    Matrix.one_mulVec]
  simpa using e

/-! ### C39: copies -/

/-- **C39 (partial).** The copy of a ray has the same transmission in every channel. (The statement wanted: also at the observer's
frequency and for the matrices; see `copy_freqobs_wrong`, `copy_matrix_wrong`.) -/
theorem copy_channels_partial {r : Ray} {n : Nat} (h : Ready r n) (hn : 0 < n)
    (freshT : Nat → List ℝ) (freshM : Nat → List Mueller) (hM : ∀ k, (freshM k).length = k) :
    ∃ r', copy freshT freshM r = .ok r' ∧ Ready r' n ∧ ∀ i, i < n → getTransmission r' i = getTransmission r i := by
  obtain ⟨l, hl, hlen⟩ := h.trans
  obtain ⟨ms, hms, hmlen⟩ := h.mats
  have hn' : n ≠ 0 := by omega
  cases ms with
  | nil => simp at hmlen; omega
  | cons m0 ms =>
    refine ⟨⟨1, 1, some n, some (l.take n), some ((List.replicate n 1).set 0 m0)⟩, ?_,
      ⟨rfl, h.small, ⟨_, rfl, by simp [hlen]⟩, ⟨_, rfl, by simp⟩⟩, ?_⟩
    · simp [copy, h.spectro, hn', allocateTransmission, allocateTransmissionMatrix, resetTransmission,
        resetTransmissionMatrix, hl, hms, hlen, List.drop_of_length_le, hM n]
    · intro i hi
      have := h.small
      have hx : i ≠ noIndex := by omega
      simp [getTransmission, hx, h.spectro, hl, hlen, List.take_of_length_le]

/-- What a copied ray really holds at the observer's frequency. -/
theorem copy_freqobs {r : Ray} {n : Nat} (h : Ready r n) (hn : 0 < n)
    (freshT : Nat → List ℝ) (freshM : Nat → List Mueller) (hM : ∀ k, (freshM k).length = k) :
    ∃ r', copy freshT freshM r = .ok r' ∧ r'.freqobs = 1 ∧ r'.matFreqobs = 1 ∧
      ∀ i, 0 < i → i < n → ∃ ms, r'.mats = some ms ∧ ms[i]? = some 1 := by
  obtain ⟨l, hl, hlen⟩ := h.trans
  obtain ⟨ms, hms, hmlen⟩ := h.mats
  have hn' : n ≠ 0 := by omega
  cases ms with
  | nil => simp at hmlen; omega
  | cons m0 ms =>
    refine ⟨⟨1, 1, some n, some (l.take n), some ((List.replicate n 1).set 0 m0)⟩, ?_, rfl, rfl, ?_⟩
    · simp [copy, h.spectro, hn', allocateTransmission, allocateTransmissionMatrix, resetTransmission,
        resetTransmissionMatrix, hl, hms, hlen, List.drop_of_length_le, hM n]
    · intro i h0 hi
      refine ⟨_, rfl, ?_⟩
      rw [List.getElem?_set_ne (by omega)]
      simp [hi]

/-- **Finding (C39).** A ray with one channel, half absorbed at the observer's frequency: its copy is transparent there. -/
theorem copy_freqobs_wrong : ∃ r : Ray, Ready r 1 ∧ getTransmission r noIndex = .ok (1 / 2) ∧
    ∀ freshT freshM, (∀ k, (freshT k).length = k) → (∀ k, (freshM k).length = k) →
      ∃ r', copy freshT freshM r = .ok r' ∧ getTransmission r' noIndex = .ok 1 := by
  have rd : Ready ⟨1 / 2, 1, some 1, some [1], some [1]⟩ 1 :=
    ⟨rfl, by decide, ⟨_, rfl, rfl⟩, ⟨_, rfl, rfl⟩⟩
  refine ⟨_, rd, by simp [getTransmission], fun fT fM _ hM => ?_⟩
  obtain ⟨r', e, e1, -⟩ := copy_freqobs rd (by decide) fT fM hM
  exact ⟨r', e, by simp [getTransmission, e1]⟩

/-- **Finding (C39).** A ray with two channels, both opaque in polarised mode: the second is transparent in the copy. -/
theorem copy_matrix_wrong : ∃ r : Ray, Ready r 2 ∧ r.mats = some [0, 0] ∧
    ∀ freshT freshM, (∀ k, (freshT k).length = k) → (∀ k, (freshM k).length = k) →
      ∃ r' ms, copy freshT freshM r = .ok r' ∧ r'.mats = some ms ∧ ms[1]? = some 1 := by
  have rd : Ready ⟨1, 1, some 2, some [1, 1], some [0, 0]⟩ 2 :=
    ⟨rfl, by decide, ⟨_, rfl, rfl⟩, ⟨_, rfl, rfl⟩⟩
  refine ⟨_, rd, rfl, fun fT fM _ hM => ?_⟩
  obtain ⟨r', e, -, -, e1⟩ := copy_freqobs rd (by decide) fT fM hM
  obtain ⟨ms, h1, h2⟩ := e1 1 (by decide) (by decide)
  exact ⟨r', ms, e, h1, h2⟩

/-! ### C28: unpolarised objects -/

section C28
open Gyoto.Emission
variable {Site : Type} (m : Impl Site) (ds : ℝ) (s : Site)

/-- What the observer receives from intensity `I` emitted behind the object in a channel of frequency `nu`, without
polarisation: `I` times the transmitted fraction (`lib/Astrobj.C:403-412`). -/
def behindPlain (nu I : ℝ) : ℝ := I * (1 * (wantRadQ m ds s (fun _ : Fin 1 => nu)).2 0)

/-- With polarisation: `transfer` with the matrix given by the object; intensity of what is emitted behind. -/
noncomputable def behindPolar (nu I : ℝ) : Option ℝ :=
  match runTransfer ⟨1, 1, some 1, some [1], some [1]⟩
      [[(![(wantPolar m ds s (fun _ : Fin 1 => nu)).I 0, 0, 0, 0], (wantPolar m ds s (fun _ : Fin 1 => nu)).O 0)],
       [(![I, 0, 0, 0], 1)]] with
  | .ok ([_, [st]], _) => some (st 0)
  | _ => none

theorem behindPolar_eq (hp : m.radiativeQPolar = none) (nu I : ℝ) :
    behindPolar m ds s nu I =
      some (alphaOf m.unitLength ds ((wantRadQ m ds s (fun _ : Fin 1 => nu)).2 0) * I) := by
  simp [behindPolar, runTransfer, transferFrom, transmitMatrix, noIndex, wantPolar, hp, Matrix.smul_mulVec]

/-- **C28 (partial).** The light of the object itself is the same with and without polarisation, and is unpolarised. (The
statement wanted: light emitted behind it too.) -/
theorem unpolarised_emission_partial (hp : m.radiativeQPolar = none) {n : Nat} (nu : Fin n → ℝ) :
    (wantPolar m ds s nu).I = (wantRadQ m ds s nu).1 ∧ (∀ c, (wantPolar m ds s nu).Q c = 0) ∧
      (∀ c, (wantPolar m ds s nu).U c = 0) ∧ (∀ c, (wantPolar m ds s nu).V c = 0) := by
  simp [wantPolar, hp]

/-- **C28** The matrix given for each channel is the absorption coefficient times the identity: the coefficient whose effect over
the length of the step is the transmitted fraction (above 10⁻⁶). -/
theorem unpolarised_coefficient (hp : m.radiativeQPolar = none) {n : Nat} (nu : Fin n → ℝ) (c : Fin n)
    (hd : ds * m.unitLength ≠ 0) (ht : 1e-6 ≤ (wantRadQ m ds s nu).2 c) :
    ∃ a : ℝ, (wantPolar m ds s nu).O c = a • (1 : Mueller) ∧
      Real.exp (-(a * (ds * m.unitLength))) = (wantRadQ m ds s nu).2 c := by
  refine ⟨alphaOf m.unitLength ds ((wantRadQ m ds s nu).2 c), by simp [wantPolar, hp], ?_⟩
  have hpos : 0 < (wantRadQ m ds s nu).2 c := lt_of_lt_of_le (by norm_num) ht
  rw [alphaOf, if_neg (not_lt.2 ht), div_mul_cancel₀ _ hd, neg_neg, Real.exp_log hpos]

/-- **Finding (C28), exactly when.** Light behind the object is attenuated alike if and only if the absorption coefficient happens
to equal the transmitted fraction: the matrix holds the coefficient where the fraction is expected. -/
theorem unpolarised_opacity_iff (hp : m.radiativeQPolar = none) (nu : ℝ) :
    (∀ I, behindPolar m ds s nu I = some (behindPlain m ds s nu I)) ↔
      alphaOf m.unitLength ds ((wantRadQ m ds s (fun _ : Fin 1 => nu)).2 0) =
        (wantRadQ m ds s (fun _ : Fin 1 => nu)).2 0 := by
  constructor
  · intro h
    have := h 1
    rw [behindPolar_eq m ds s hp] at this
    simpa [behindPlain] using this
  · intro h I
    rw [behindPolar_eq m ds s hp, h, behindPlain, one_mul, mul_comm]

/-- **Finding (C28).** With polarisation, a perfectly transparent object hides everything behind it, and an opaque one multiplies
it by 10³⁰⁰. -/
theorem unpolarised_opacity_wrong (hp : m.radiativeQPolar = none) (nu : ℝ) :
    ((wantRadQ m ds s (fun _ : Fin 1 => nu)).2 0 = 1 →
      ∀ I, behindPlain m ds s nu I = I ∧ behindPolar m ds s nu I = some 0) ∧
    ((wantRadQ m ds s (fun _ : Fin 1 => nu)).2 0 = 0 →
      ∀ I, behindPlain m ds s nu I = 0 ∧ behindPolar m ds s nu I = some (1e300 * I)) := by
  refine ⟨fun h I => ?_, fun h I => ?_⟩ <;> rw [behindPolar_eq m ds s hp, behindPlain, h]
  · refine ⟨by ring, ?_⟩
    have : ¬ ((1 : ℝ) < 1e-6) := by norm_num
    simp [alphaOf, this]
  · refine ⟨by ring, ?_⟩
    have : ((0 : ℝ) < 1e-6) := by norm_num
    rw [alphaOf, if_pos this]

/-- The default optically thin object is perfectly transparent. -/
example : (wantRadQ bare 1 () (fun _ : Fin 1 => 3)).2 0 = 1 ∧ bare.radiativeQPolar = none := by
  simp [wantRadQ, bare, sample, baseTransmission]

end C28

/-! ### C46: the matrix of one step -/

/-- **C46 (partial).** Whenever `Omatrix` reaches its general formula and returns, it returns the exponential of minus the absorption
matrix (in the rotated basis of polarisation) times the length: the exact solution of `dS/ds = -K S`. (The statement wanted has
no condition on `Theta`; see `omatrix_identity_wrong`.) -/
theorem omatrix_exp_partial (c : Coefs) (hc : c.sin2Chi ^ 2 + c.cos2Chi ^ 2 = 1) (L : ℝ) (O : Mueller)
    (hT : (rotate c).Theta ≠ 0) (h : Omatrix c L = .ok O) :
    O = NormedSpace.exp (-L • (turn c.sin2Chi c.cos2Chi *
      absorption c.alphaI c.alphaQ c.alphaU c.alphaV c.rQ c.rU c.rV * turn (-c.sin2Chi) c.cos2Chi)) := by
  rw [← rotate_absorption c hc, ← omatrix_bracket _ hT]
  simp only [Omatrix, hT, if_false] at h
  split at h
  · cases h
  · cases h
    rfl

/-- `Theta` vanishes exactly when the polarised coefficients are balanced: same length and orthogonal, in particular all zero. -/
theorem theta_zero_iff (a : Rotated) : a.Theta = 0 ↔ a.alpha2 = a.r2 ∧ a.dot = 0 := by
  have h1 := lambda1_sq a
  have h2 := lambda2_sq a
  have e : a.Theta = 2 * √((a.alpha2 - a.r2) ^ 2 / 4 + a.dot ^ 2) := by rw [Rotated.Theta, h1, h2]; ring
  rw [e]
  constructor
  · intro h
    have h0 : √((a.alpha2 - a.r2) ^ 2 / 4 + a.dot ^ 2) = 0 := by linarith
    rw [Real.sqrt_eq_zero (radicand_nonneg a)] at h0
    have q1 := sq_nonneg (a.alpha2 - a.r2)
    have q2 := sq_nonneg a.dot
    exact ⟨by nlinarith [pow_eq_zero_iff (n := 2) (two_ne_zero) |>.1 (by nlinarith : (a.alpha2 - a.r2) ^ 2 = 0)],
      pow_eq_zero_iff (n := 2) (two_ne_zero) |>.1 (by nlinarith)⟩
  · rintro ⟨h, h'⟩
    simp [h, h']

/-- **Finding (C46).** An isotropic absorber (no polarised coefficient) gets the identity: no absorption at all, whereas the exact
solution is `exp(-alphaI L)`. -/
theorem omatrix_identity_wrong (aI L s c : ℝ) (h : aI * L ≠ 0) :
    Omatrix ⟨aI, 0, 0, 0, 0, 0, 0, s, c⟩ L = .ok 1 ∧
      NormedSpace.exp (-L • absorption aI 0 0 0 0 0 0) = Real.exp (-(aI * L)) • (1 : Mueller) ∧
      Real.exp (-(aI * L)) • (1 : Mueller) ≠ 1 := by
  refine ⟨?_, ?_, ?_⟩
  · have : (rotate ⟨aI, 0, 0, 0, 0, 0, 0, s, c⟩).Theta = 0 := by
      rw [theta_zero_iff]
      simp [rotate, Rotated.alpha2, Rotated.r2, Rotated.dot]
    simp only [Omatrix, this, if_true]
  · have : absorption aI 0 0 0 0 0 0 = aI • (1 : Mueller) := by
      ext i j
      fin_cases i <;> fin_cases j <;> simp [absorption]
    rw [this, smul_smul, exp_scalar]
    congr 2
    ring
  · intro e
    have := congrFun (congrFun e 0) 0
    simp only [Matrix.smul_apply, Matrix.one_apply_eq, smul_eq_mul, mul_one] at this
    rw [Real.exp_eq_one_iff] at this
    exact h (by linarith)

/-- A case with polarised absorption and Faraday rotation. -/
example : (rotate ⟨3, 1, 0, 0, 0, 0, 2, 0, 1⟩).Theta ≠ 0 := by
  rw [Ne, theta_zero_iff]
  norm_num [rotate, Rotated.alpha2, Rotated.r2, Rotated.dot]

open scoped Matrix.Norms.Operator in
/-- **C46.** In the intermediate regime `Pmatrix` applied to a constant emission coefficient `j` gives the exact solution of
`dS/dL = -K S + j`, `S(0) = 0`: as a function of the length, `P(L) = K⁻¹ (1 - exp(-L K))` vanishes at 0 and has this derivative. -/
theorem pmatrix_solves (c : Coefs) (hc : c.sin2Chi ^ 2 + c.cos2Chi ^ 2 = 1) (L : ℝ)
    (hdet : IsUnit (Kmat (rotate c)).det) :
    let P : ℝ → Mueller := fun l => (Kmat (rotate c))⁻¹ * (1 - NormedSpace.exp (-l • Kmat (rotate c)))
    P 0 = 0 ∧ HasDerivAt P (1 - turn c.sin2Chi c.cos2Chi *
      absorption c.alphaI c.alphaQ c.alphaU c.alphaV c.rQ c.rU c.rV * turn (-c.sin2Chi) c.cos2Chi * P L) L := by
  have hK : Kmat (rotate c) = turn c.sin2Chi c.cos2Chi *
      absorption c.alphaI c.alphaQ c.alphaU c.alphaV c.rQ c.rU c.rV * turn (-c.sin2Chi) c.cos2Chi :=
    rotate_absorption c hc
  intro P
  refine ⟨by simp [P], ?_⟩
  rw [← hK]
  have d := hasDerivAt_exp_smul_const (𝕂 := ℝ) (-Kmat (rotate c)) L
  have d2 := (d.const_sub (1 : Mueller)).const_mul (Kmat (rotate c))⁻¹
  have e : P = fun l => (Kmat (rotate c))⁻¹ * (1 - NormedSpace.exp (l • -Kmat (rotate c))) := by
    funext l
    simp [P]
  rw [e]
  refine d2.congr_deriv ?_
  have cm : Commute (NormedSpace.exp (L • -Kmat (rotate c))) (Kmat (rotate c)) :=
    ((Commute.refl (Kmat (rotate c))).neg_left.smul_left L).exp_left
  have e1 : ∀ X : Mueller, (Kmat (rotate c))⁻¹ * (Kmat (rotate c) * X) = X := fun X => by
    rw [← mul_assoc, Matrix.nonsing_inv_mul _ hdet, one_mul]
  have e2 : ∀ X : Mueller, Kmat (rotate c) * ((Kmat (rotate c))⁻¹ * X) = X := fun X => by
    rw [← mul_assoc, Matrix.mul_nonsing_inv _ hdet, one_mul]
  have key : (Kmat (rotate c))⁻¹ * -(NormedSpace.exp (L • -Kmat (rotate c)) * -Kmat (rotate c)) =
      1 - Kmat (rotate c) * ((Kmat (rotate c))⁻¹ * (1 - NormedSpace.exp (L • -Kmat (rotate c)))) := by
    have cm' := cm.eq
    rw [e2]
    generalize NormedSpace.exp (L • -Kmat (rotate c)) = E at cm' ⊢
    rw [mul_neg E, neg_neg, cm', e1]
    abel
  exact key

/-- **C46.** …and `Pmatrix` returns this matrix in the intermediate regime (or zero if its upper-left coefficient is negative). -/
theorem pmatrix_regime (c : Coefs) (L : ℝ) (P : Mueller) (h : Pmatrix c L = some P) (hthick : (rotate c).aI * L ≤ 100)
    (hthin : (1e-3 : ℝ) ≤ √(∑ i, ∑ j, (L • Kmat (rotate c)) i j ^ 2)) :
    P = (Kmat (rotate c))⁻¹ * (1 - NormedSpace.exp (-L • Kmat (rotate c))) ∨ P = 0 := by
  simp only [Pmatrix, not_lt.2 hthick, not_lt.2 hthin, if_false] at h
  by_cases hd : IsUnit (Kmat (rotate c)).det
  · simp only [hd, if_true] at h
    split at h
    · cases h; exact Or.inr rfl
    · cases h; exact Or.inl rfl
  · simp only [hd, if_false] at h
    cases h

/-- Isotropic absorption: the matrix is regular. -/
example : IsUnit (Kmat (rotate ⟨3, 0, 0, 0, 0, 0, 0, 0, 1⟩)).det := by
  have : Kmat (rotate ⟨3, 0, 0, 0, 0, 0, 0, 0, 1⟩) = (3 : ℝ) • (1 : Mueller) := by
    ext i j
    fin_cases i <;> fin_cases j <;> simp [Kmat, rotate]
  rw [this]
  simp

end Gyoto.Transfer
