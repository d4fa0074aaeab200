import Verif.Model.Quantities
import Mathlib.Data.Nat.Bitwise
import Mathlib.Tactic.Ring

namespace Gyoto.Quant

theorem has_eq (w : Nat) (q : Q) : has w q = w.testBit (bit q) := by
  unfold has
  rw [Nat.testBit, Nat.and_comm, Nat.one_shiftLeft]
  by_cases h : w.testBit (bit q)
  · have : 2 ^ bit q &&& w = 2 ^ bit q := by
      rw [Nat.and_comm, Nat.and_two_pow, h]; simp
    rw [this]
    simp only [Nat.testBit] at h
    rw [h]
    simp
  · have : 2 ^ bit q &&& w = 0 := by
      rw [Nat.and_comm, Nat.and_two_pow]
      simp only [Bool.not_eq_true] at h
      rw [h]; simp
    rw [this]
    simp only [Nat.testBit, Bool.not_eq_true] at h
    rw [h]; rfl

theorem bit_inj {q q' : Q} (h : bit q = bit q') : q = q' := by
  cases q <;> cases q' <;> first | rfl | (simp [bit] at h)

theorem tokens_append_name (n : List Char) (hn : ∀ c ∈ n, isDelim c = false) :
    ∀ (acc rest : List Char), acc ≠ [] ∨ n ≠ [] →
      tokens acc (n ++ ' ' :: rest) = (acc.reverse ++ n) :: tokens [] rest := by
  induction n with
  | nil =>
    intro acc rest h
    have : acc.isEmpty = false := by
      cases acc with
      | nil => simp at h
      | cons => rfl
    simp [tokens, isDelim, this]
  | cons c n ih =>
    intro acc rest _
    have hc := hn c (by simp)
    simp only [List.cons_append, tokens, hc, Bool.false_eq_true, if_false]
    rw [ih (fun x hx => hn x (by simp [hx])) (c :: acc) rest (Or.inl (by simp))]
    simp

/-- The names contain no delimiter and no bracket, are not empty, and are recognised. -/
theorem names_ok : ∀ x ∈ names, (∀ c ∈ x.2.toList, isDelim c = false) ∧ x.2.toList ≠ [] ∧
    quantOf x.2.toList = x.2.toList ∧ bitsOf x.2.toList = some (1 <<< bit x.1) := by
  decide

theorem tokens_print (w : Nat) : ∀ (l : List (Q × String)), (∀ x ∈ l, x ∈ names) →
    tokens [] (l.flatMap fun (q, n) => if has w q then n.toList ++ [' '] else []) =
      (l.filter fun x => has w x.1).map fun x => x.2.toList := by
  intro l
  induction l with
  | nil => intro _; rfl
  | cons x l ih =>
    obtain ⟨q, n⟩ := x
    intro h
    have hx := names_ok (q, n) (h _ (by simp))
    have := ih (fun y hy => h y (by simp [hy]))
    rw [List.flatMap_cons]
    by_cases hq : has w q
    · simp only [hq, if_true, List.append_assoc, List.singleton_append]
      rw [tokens_append_name _ hx.1 [] _ (Or.inr hx.2.1), this]
      simp [hq]
    · simp only [hq, Bool.false_eq_true, if_false, List.nil_append]
      rw [this]
      simp [hq]

theorem parseLoop_names : ∀ (l : List (Q × String)), (∀ x ∈ l, x ∈ names) → ∀ w,
    parseLoop w (l.map fun x => x.2.toList) = (l.foldl (fun w x => w ||| 1 <<< bit x.1) w, false) := by
  intro l
  induction l with
  | nil => intro _ w; rfl
  | cons x l ih =>
    intro h w
    have hx := names_ok x (h _ (by simp))
    simp only [List.map_cons, parseLoop, hx.2.2.1, hx.2.2.2, List.foldl_cons]
    exact ih (fun y hy => h y (by simp [hy])) _

theorem testBit_foldl (l : List Q) : ∀ (w i : Nat),
    (l.foldl (fun w q => w ||| 1 <<< bit q) w).testBit i = (w.testBit i || l.any fun q => bit q == i) := by
  induction l with
  | nil => intro w i; simp
  | cons q l ih =>
    intro w i
    rw [List.foldl_cons, ih]
    simp only [Nat.testBit_or, List.any_cons, Nat.one_shiftLeft, Nat.testBit_two_pow, Bool.or_assoc]
    rfl

end Gyoto.Quant

namespace Gyoto.Quant

theorem findIdx_bracket (n rest : List Char) (hn : ∀ c ∈ n, c ≠ '[') :
    (n ++ '[' :: rest).findIdx? (· == '[') = some n.length := by
  induction n with
  | nil => rfl
  | cons c n ih =>
    have hc : (c == '[') = false := by simpa using hn c (by simp)
    simp only [List.cons_append, List.findIdx?_cons, hc, Bool.false_eq_true, if_false]
    rw [ih (fun x hx => hn x (by simp [hx]))]
    simp

theorem parseLoop_mono (ts : List (List Char)) : ∀ (w i : Nat), w.testBit i →
    (parseLoop w ts).1.testBit i := by
  induction ts with
  | nil => intro w i h; exact h
  | cons t ts ih =>
    intro w i h
    rw [parseLoop]
    split
    · exact ih _ _ (by simp [h])
    · exact h

theorem fillMem_eq (a s v) : ∀ (n : Nat) (m : Nat → Int) (x : Nat),
    fillMem m a s n v x = if ∃ i, i < n ∧ x = a + i * s then v else m x := by
  intro n
  induction n with
  | zero => intro m x; simp [fillMem]
  | succ n ih =>
    intro m x
    have e : fillMem m a s (n + 1) v x = if x = a + n * s then v else fillMem m a s n v x := by
      simp [fillMem, List.range_succ, List.foldl_append]
    rw [e, ih]
    by_cases h : x = a + n * s
    · rw [if_pos h, if_pos ⟨n, by omega, h⟩]
    · rw [if_neg h]
      congr 1
      apply propext
      constructor
      · rintro ⟨i, hi, rfl⟩; exact ⟨i, by omega, rfl⟩
      · rintro ⟨i, hi, rfl⟩
        refine ⟨i, ?_, rfl⟩
        rcases Nat.lt_succ_iff_lt_or_eq.mp hi with h' | h'
        · exact h'
        · subst h'; exact absurd rfl h

end Gyoto.Quant

namespace Gyoto.Quant

/-- The part of the message before the spectra. -/
def front : List Q := [.intensity, .time, .distance, .firstDmin, .redshift, .nbcross,
  .impactcoords, .user1, .user2, .user3, .user4, .user5]

/-- Total advance over a list. -/
def sumAdv (w : Nat) : List Q → Nat
  | [] => 0
  | q :: qs => (if has w q then advance q else 0) + sumAdv w qs

theorem layoutFrom_append (w : Nat) (a b : List Q) : ∀ cur,
    layoutFrom w cur (a ++ b) = layoutFrom w cur a ++ layoutFrom w (cur + sumAdv w a) b := by
  induction a with
  | nil => intro cur; rfl
  | cons q a ih =>
    intro cur
    simp only [List.cons_append, layoutFrom, sumAdv]
    split
    · rw [ih, List.cons_append, Nat.add_assoc]
    · rw [ih, Nat.zero_add]

theorem layoutFrom_mem (w : Nat) (l : List Q) : ∀ cur q p, (q, p) ∈ layoutFrom w cur l → q ∈ l ∧ has w q = true := by
  induction l with
  | nil => intro cur q p h; simp [layoutFrom] at h
  | cons r l ih =>
    intro cur q p h
    rw [layoutFrom] at h
    split at h
    · rcases List.mem_cons.mp h with h | h
      · cases h; exact ⟨by simp, ‹_›⟩
      · exact ⟨by simp [(ih _ q p h).1], (ih _ q p h).2⟩
    · exact ⟨by simp [(ih _ q p h).1], (ih _ q p h).2⟩

theorem layoutFrom_bound (w : Nat) (l : List Q) : ∀ cur q p, (q, p) ∈ layoutFrom w cur l →
    cur ≤ p ∧ p + advance q ≤ cur + sumAdv w l := by
  induction l with
  | nil => intro cur q p h; simp [layoutFrom] at h
  | cons r l ih =>
    intro cur q p h
    rw [layoutFrom] at h
    rw [sumAdv]
    split at h
    · rw [if_pos ‹_›]
      rcases List.mem_cons.mp h with h | h
      · cases h; omega
      · have := ih _ q p h; omega
    · rw [if_neg ‹_›]
      have := ih _ q p h; omega

theorem layoutFrom_exists (w : Nat) (l : List Q) (q : Q) (hq : q ∈ l) (h : has w q = true) :
    ∀ cur, ∃ p, (q, p) ∈ layoutFrom w cur l := by
  induction l with
  | nil => simp at hq
  | cons r l ih =>
    intro cur
    rw [layoutFrom]
    rcases List.mem_cons.mp hq with rfl | hq
    · rw [if_pos h]; exact ⟨cur, by simp⟩
    · split
      · obtain ⟨p, hp⟩ := ih hq (cur + advance r); exact ⟨p, by simp [hp]⟩
      · exact ih hq cur

theorem layoutFrom_unique (w : Nat) (l : List Q) (hl : l.Nodup) : ∀ cur q p p', (q, p) ∈ layoutFrom w cur l →
    (q, p') ∈ layoutFrom w cur l → p = p' := by
  induction l with
  | nil => intro cur q p p' h; simp [layoutFrom] at h
  | cons r l ih =>
    intro cur q p p' h h'
    rw [List.nodup_cons] at hl
    rw [layoutFrom] at h h'
    split at h
    · rw [if_pos ‹_›] at h'
      rcases List.mem_cons.mp h with h | h <;> rcases List.mem_cons.mp h' with h' | h'
      · cases h; cases h'; rfl
      · cases h; exact absurd (layoutFrom_mem w l _ _ _ h').1 hl.1
      · cases h'; exact absurd (layoutFrom_mem w l _ _ _ h).1 hl.1
      · exact ih hl.2 _ _ _ _ h h'
    · rw [if_neg ‹_›] at h'
      exact ih hl.2 _ _ _ _ h h'

theorem sumAdv_front (w : Nat) : sumAdv w front = scalarCount w + (if has w .impactcoords then 16 else 0) := by
  unfold scalarCount scalars front
  simp only [sumAdv, advance, ← List.countP_eq_length_filter, List.countP_cons, List.countP_nil]
  generalize (if has w .impactcoords = true then 16 else 0) = a
  omega

theorem sumAdv_spectral (w : Nat) : sumAdv w spectrals = spectralCount w := by
  unfold spectralCount spectrals
  simp only [sumAdv, advance, ← List.countP_eq_length_filter, List.countP_cons, List.countP_nil]
  omega

theorem width_front (nb : Nat) (q : Q) (h : q ∈ front) : width nb q = advance q := by
  cases q <;> first | rfl | (simp [front] at h)

theorem width_spectral (nb : Nat) (q : Q) (h : q ∈ spectrals) : width nb q = nb := by
  cases q <;> first | rfl | (simp [spectrals] at h)

theorem advance_spectral (q : Q) (h : q ∈ spectrals) : advance q = 1 := by
  cases q <;> first | rfl | (simp [spectrals] at h)

theorem layoutFrom_spectrals (w : Nat) (cur : Nat) (l : List Q) (hl : ∀ q ∈ l, q ∈ spectrals) :
    layoutFrom w cur l = (l.filter (has w)).zipIdx cur := by
  induction l generalizing cur with
  | nil => rfl
  | cons q l ih =>
    have := advance_spectral q (hl q (by simp))
    rw [layoutFrom, this]
    by_cases h : has w q
    · rw [if_pos h, List.filter_cons_of_pos h, List.zipIdx_cons, ih _ (fun x hx => hl x (by simp [hx]))]
    · rw [if_neg h, List.filter_cons_of_neg h, ih _ (fun x hx => hl x (by simp [hx]))]

/-- Order of two blocks. -/
theorem layoutFrom_order (w : Nat) (l : List Q) : ∀ cur q q' p p', (q, p) ∈ layoutFrom w cur l →
    (q', p') ∈ layoutFrom w cur l → q ≠ q' →
    (p + advance q ≤ p' ∧ [q, q'].Sublist l) ∨ (p' + advance q' ≤ p ∧ [q', q].Sublist l) := by
  induction l with
  | nil => intro cur q q' p p' h; simp [layoutFrom] at h
  | cons r l ih =>
    intro cur q q' p p' h h' hne
    rw [layoutFrom] at h h'
    split at h
    · rw [if_pos ‹_›] at h'
      rcases List.mem_cons.mp h with h | h <;> rcases List.mem_cons.mp h' with h' | h'
      · cases h; cases h'; exact absurd rfl hne
      · cases h
        left
        exact ⟨(layoutFrom_bound w l _ _ _ h').1,
          List.Sublist.cons_cons _ (List.singleton_sublist.mpr (layoutFrom_mem w l _ _ _ h').1)⟩
      · cases h'
        right
        exact ⟨(layoutFrom_bound w l _ _ _ h).1,
          List.Sublist.cons_cons _ (List.singleton_sublist.mpr (layoutFrom_mem w l _ _ _ h).1)⟩
      · rcases ih _ _ _ _ _ h h' hne with h | h
        · exact Or.inl ⟨h.1, h.2.cons _⟩
        · exact Or.inr ⟨h.1, h.2.cons _⟩
    · rw [if_neg ‹_›] at h'
      rcases ih _ _ _ _ _ h h' hne with h | h
      · exact Or.inl ⟨h.1, h.2.cons _⟩
      · exact Or.inr ⟨h.1, h.2.cons _⟩

theorem layout_order (w : Nat) (q q' : Q) (p p' : Nat) (h : (q, p) ∈ layout w) (h' : (q', p') ∈ layout w)
    (hne : q ≠ q') : (p + advance q ≤ p' ∧ [q, q'].Sublist layoutOrder) ∨
      (p' + advance q' ≤ p ∧ [q', q].Sublist layoutOrder) :=
  layoutFrom_order w _ _ _ _ _ _ h h' hne

theorem disjoint_aux (w nb : Nat) (h : nb ≤ 1 ∨ spectralCount w ≤ 1) (q q' : Q) (p p' s : Nat)
    (hp : (q, p) ∈ layout w) (hp' : (q', p') ∈ layout w) (hne : q ≠ q') (ho : p + advance q ≤ p')
    (hsub : [q, q'].Sublist layoutOrder) (h2 : s < p + width nb q) (h1' : p' ≤ s) : False := by
  have hm := layoutFrom_mem w _ _ _ _ hp
  have hm' := layoutFrom_mem w _ _ _ _ hp'
  by_cases hq : q ∈ spectrals
  · rw [width_spectral nb q hq] at h2
    rw [advance_spectral q hq] at ho
    rcases h with h | h
    · omega
    · have hq' : q' ∈ spectrals := by
        revert hsub hq
        cases q <;> cases q' <;> decide
      have : [q, q'].Sublist (spectrals.filter (has w)) := by
        have hs : [q, q'].Sublist spectrals := by
          revert hsub hq hne
          cases q <;> cases q' <;> decide
        have := hs.filter (has w)
        rwa [List.filter_cons_of_pos hm.2, List.filter_cons_of_pos hm'.2, List.filter_nil] at this
      have := this.length_le
      unfold spectralCount at h
      simp at this
      omega
  · have : q ∈ front := by
      revert hq; cases q <;> decide
    rw [width_front nb q this] at h2
    omega

/-! ### Initialisation -/

/-- Order of the statements of `Properties::init`. -/
def allQ : List Q := [Q.intensity, .time, .distance, .firstDmin, .redshift, .nbcross, .spectrum, .stokesQ,
   .stokesU, .stokesV, .binspectrum, .impactcoords, .user1, .user2, .user3, .user4, .user5]

/-- First address, stride and count of the cells written for each quantity. -/
def strideOf (p : Props) : Q → Nat
  | .spectrum | .stokesQ | .stokesU | .stokesV | .binspectrum => p.offset
  | _ => 1
def countOf (nb : Nat) : Q → Nat
  | .spectrum | .stokesQ | .stokesU | .stokesV | .binspectrum => nb
  | .impactcoords => 16
  | _ => 1

def initStep (p : Props) (nb : Nat) (m : Nat → Int) (q : Q) : Nat → Int :=
  match p.ptr q with
  | none => m
  | some a => fillMem m a (strideOf p q) (countOf nb q) (initVal q)

theorem init_eq (p : Props) (nb : Nat) (m : Nat → Int) : p.init nb m = allQ.foldl (initStep p nb) m := by
  unfold Props.init allQ
  congr 1
  funext m q
  unfold initStep
  cases p.ptr q with
  | none => rfl
  | some a => cases q <;> rfl

/-- Addresses written for a quantity. -/
def InCellB (p : Props) (nb : Nat) (q : Q) (x : Nat) : Prop :=
  ∃ a, p.ptr q = some a ∧ ∃ i, i < countOf nb q ∧ x = a + i * strideOf p q

open Classical in
theorem initStep_eq (p : Props) (nb : Nat) (m : Nat → Int) (q : Q) (x : Nat) :
    initStep p nb m q x = if InCellB p nb q x then initVal q else m x := by
  unfold initStep InCellB
  cases h : p.ptr q with
  | none => simp
  | some a => simp [fillMem_eq]

theorem initFold_out (p : Props) (nb : Nat) (l : List Q) : ∀ (m : Nat → Int) (x : Nat),
    (∀ q ∈ l, ¬ InCellB p nb q x) → l.foldl (initStep p nb) m x = m x := by
  induction l with
  | nil => intro m x _; rfl
  | cons q l ih =>
    intro m x h
    rw [List.foldl_cons, ih _ _ (fun q hq => h q (by simp [hq])), initStep_eq, if_neg (h q (by simp))]

theorem initFold_in (p : Props) (nb : Nat)
    (hd : ∀ q q' x, InCellB p nb q x → InCellB p nb q' x → q = q') (l : List Q) (hl : l.Nodup) :
    ∀ (m : Nat → Int) (q : Q) (x : Nat), q ∈ l → InCellB p nb q x →
      l.foldl (initStep p nb) m x = initVal q := by
  induction l with
  | nil => intro m q x h; simp at h
  | cons r l ih =>
    intro m q x hq hx
    rw [List.nodup_cons] at hl
    rw [List.foldl_cons]
    rcases List.mem_cons.mp hq with rfl | hq
    · rw [initFold_out _ _ _ _ _ (fun q' hq' hx' => hl.1 (by rw [hd q q' x hx hx']; exact hq')),
        initStep_eq, if_pos hx]
    · exact ih hl.2 _ _ _ hq hx

end Gyoto.Quant
