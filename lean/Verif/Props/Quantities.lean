import Verif.Lemmas.Quantities
import Mathlib.Tactic.Linarith
import Mathlib.Data.List.TakeWhile

/-!
# Requested quantities (C09, C10, C11)
-/

namespace Gyoto.Quant

/-! ## C10: names -/

/-- Documented name of each quantity (`include/GyotoDefs.h`, `Scenery` documentation). -/
def docName : Q → String
  | .intensity => "Intensity" | .time => "EmissionTime" | .distance => "MinDistance"
  | .firstDmin => "FirstDistMin" | .redshift => "Redshift" | .impactcoords => "ImpactCoords"
  | .spectrum => "Spectrum" | .stokesQ => "SpectrumStokesQ" | .stokesU => "SpectrumStokesU"
  | .stokesV => "SpectrumStokesV" | .binspectrum => "BinSpectrum" | .nbcross => "NbCrossEqPlane"
  | .user1 => "User1" | .user2 => "User2" | .user3 => "User3" | .user4 => "User4" | .user5 => "User5"

/-- A name asks for a quantity: it is its name, or the collective name of the four Stokes spectra. -/
def Asks (name : List Char) (q : Q) : Prop :=
  name = (docName q).toList ∨
    (name = "SpectrumStokes".toList ∧ (q = .spectrum ∨ q = .stokesQ ∨ q = .stokesU ∨ q = .stokesV))

/-- Words with known quantities only. -/
def Known (w : Nat) : Prop := ∀ i, w.testBit i → ∃ q, i = bit q

theorem names_complete (q : Q) : ∃ n, (q, n) ∈ names := by
  cases q <;> simp [names]

/-- **C10, round trip.** For every set of known quantities, printing it and parsing the printed text gives
the same set, without error; parallel transport is switched on exactly when polarisation is asked for. -/
theorem quantities_round_trip (pt : Bool) (w : Nat) (hw : Known w) :
    parse pt (print w) = ⟨w, false, pt || (has w .stokesQ || has w .stokesU || has w .stokesV)⟩ := by
  have h1 : parseLoop 0 (tokens [] (print w)) = (w, false) := by
    unfold print
    rw [tokens_print w names (fun _ h => h),
      parseLoop_names _ (fun x hx => (List.mem_filter.mp hx).1)]
    congr 1
    apply Nat.eq_of_testBit_eq
    intro i
    have := testBit_foldl ((names.filter fun x => has w x.1).map (·.1)) 0 i
    rw [List.foldl_map] at this
    rw [this]
    rw [Bool.eq_iff_iff]
    simp only [Nat.zero_testBit, Bool.false_or, List.any_eq_true, List.mem_map, List.mem_filter,
      beq_iff_eq]
    constructor
    · rintro ⟨q, ⟨x, ⟨_, hx⟩, rfl⟩, rfl⟩
      rw [has_eq] at hx
      exact hx
    · intro hi
      obtain ⟨q, rfl⟩ := hw i hi
      obtain ⟨n, hn⟩ := names_complete q
      exact ⟨q, ⟨(q, n), ⟨hn, by rw [has_eq]; exact hi⟩, rfl⟩, rfl⟩
  simp [parse, h1]

/-- The hypothesis, on a set holding the highest bit, and what is printed. -/
example : Known (1 <<< 31 ||| 1 <<< 6 ||| 1 <<< 11) ∧
    print (1 <<< 31 ||| 1 <<< 6 ||| 1 <<< 11) = "NbCrossEqPlane Spectrum User1 ".toList := by
  constructor
  · intro i hi
    simp only [Nat.testBit_or, Nat.one_shiftLeft, Nat.testBit_two_pow, Bool.or_eq_true,
      decide_eq_true_eq] at hi
    rcases hi with (h | h) | h
    · exact ⟨.user1, h.symm⟩
    · exact ⟨.spectrum, h.symm⟩
    · exact ⟨.nbcross, h.symm⟩
  · decide

/-- **C10, effective set.** Reading the text of a scenery and setting it keeps the effective set of
quantities, also when it was the default of the astrobj. -/
theorem effective_round_trip (pt : Bool) (w : Nat) (dflt : Option Nat) (hw : Known (effective w dflt)) :
    effective (parse pt (print (effective w dflt))).w dflt = effective w dflt := by
  rw [quantities_round_trip pt _ hw]
  unfold effective
  by_cases h : w = 0
  · subst h
    simp only [ne_eq, not_true_eq_false, if_false]
    split
    · rfl
    · rfl
  · simp [h]

example : effective 0 (some 1) = 1 := rfl

instance (n : List Char) (q : Q) : Decidable (Asks n q) := by unfold Asks; infer_instance

theorem table_spec : ∀ x ∈ strcmpTable, x.2 < 2 ^ 32 ∧ (∃ q ∈ layoutOrder, Asks x.1.toList q) ∧
    ∀ i < 32, x.2.testBit i = true ↔ ∃ q ∈ layoutOrder, i = bit q ∧ Asks x.1.toList q := by
  decide +kernel

theorem table_complete : ∀ q ∈ layoutOrder, (∃ x ∈ strcmpTable, x.1 = docName q) ∧
    (∃ x ∈ strcmpTable, x.1 = "SpectrumStokes") := by
  decide +kernel

theorem layoutOrder_complete (q : Q) : q ∈ layoutOrder := by
  cases q <;> decide

theorem bitsOf_spec (n : List Char) :
    (∀ b, bitsOf n = some b → ∀ i, b.testBit i = true ↔ ∃ q, i = bit q ∧ Asks n q) ∧
    (bitsOf n = none ↔ ∀ q, ¬ Asks n q) := by
  unfold bitsOf
  constructor
  · intro b hb i
    simp only [Option.map_eq_some_iff] at hb
    obtain ⟨x, hx, rfl⟩ := hb
    have hn := List.find?_some hx
    simp only [beq_iff_eq] at hn
    subst hn
    obtain ⟨h1, _, h2⟩ := table_spec x (List.mem_of_find?_eq_some hx)
    by_cases hi : i < 32
    · rw [h2 i hi]
      exact ⟨fun ⟨q, _, h⟩ => ⟨q, h⟩, fun ⟨q, h⟩ => ⟨q, layoutOrder_complete q, h⟩⟩
    · rw [Nat.testBit_lt_two_pow (lt_of_lt_of_le h1 (Nat.pow_le_pow_right (by decide) (by omega)))]
      simp only [Bool.false_eq_true, false_iff]
      rintro ⟨q, rfl, _⟩
      cases q <;> simp [bit] at hi
  · simp only [Option.map_eq_none_iff, List.find?_eq_none, beq_iff_eq]
    constructor
    · intro h q hq
      obtain ⟨⟨x, hx, hx'⟩, y, hy, hy'⟩ := table_complete q (layoutOrder_complete q)
      rcases hq with rfl | ⟨rfl, _⟩
      · exact h x hx (by rw [hx'])
      · exact h y hy (by rw [hy'])
    · rintro h x hx rfl
      obtain ⟨_, ⟨q, _, hq⟩, _⟩ := table_spec x hx
      exact h q hq

theorem parseLoop_spec (ts : List (List Char)) : ∀ w,
    ((parseLoop w ts).2 = true ↔ ∃ t ∈ ts, ∀ q, ¬ Asks (quantOf t) q) ∧
    ((parseLoop w ts).2 = false → ∀ i, (parseLoop w ts).1.testBit i = true ↔
      w.testBit i = true ∨ ∃ q, i = bit q ∧ ∃ t ∈ ts, Asks (quantOf t) q) := by
  induction ts with
  | nil => intro w; simp [parseLoop]
  | cons t ts ih =>
    intro w
    obtain ⟨s1, s2⟩ := bitsOf_spec (quantOf t)
    rw [parseLoop]
    cases hb : bitsOf (quantOf t) with
    | none =>
      simp only [List.mem_cons, true_iff, Bool.true_eq_false, false_implies, and_true]
      exact ⟨t, Or.inl rfl, s2.mp hb⟩
    | some b =>
      have ha : ¬ ∀ q, ¬ Asks (quantOf t) q := by
        rw [← s2, hb]; simp
      obtain ⟨i1, i2⟩ := ih (w ||| b)
      simp only
      constructor
      · rw [i1]
        simp only [List.mem_cons, exists_eq_or_imp, ha, false_or]
      · intro h i
        rw [i2 h i]
        simp only [Nat.testBit_or, Bool.or_eq_true, s1 b hb i, List.mem_cons, exists_eq_or_imp]
        constructor
        · rintro ((h | ⟨q, h1, h2⟩) | ⟨q, h1, h2⟩)
          · exact Or.inl h
          · exact Or.inr ⟨q, h1, Or.inl h2⟩
          · exact Or.inr ⟨q, h1, Or.inr h2⟩
        · rintro (h | ⟨q, h1, h2 | h2⟩)
          · exact Or.inl (Or.inl h)
          · exact Or.inl (Or.inr ⟨q, h1, h2⟩)
          · exact Or.inr ⟨q, h1, h2⟩

/-- White space between names: blanks, tabs, newlines. -/
def Blank (c : Char) : Prop := c = ' ' ∨ c = '\t' ∨ c = '\n'

/-- The words of a text: maximal runs of non-blank characters, in order. -/
inductive Words : List Char → List (List Char) → Prop where
  | nil : Words [] []
  | blank {c s ws} : Blank c → Words s ws → Words (c :: s) ws
  | word {w s ws} : w ≠ [] → (∀ c ∈ w, ¬ Blank c) → (∀ c s', s = c :: s' → Blank c) → Words s ws →
      Words (w ++ s) (w :: ws)

theorem isDelim_iff (c : Char) : isDelim c = true ↔ Blank c := by
  simp [isDelim, Blank, or_assoc]

theorem tokens_word (w s : List Char) (hw : ∀ c ∈ w, ¬ Blank c) (hs : ∀ c s', s = c :: s' → Blank c) :
    ∀ acc, acc ≠ [] ∨ w ≠ [] → tokens acc (w ++ s) = (acc.reverse ++ w) :: tokens [] s := by
  induction w with
  | nil =>
    intro acc h
    have ha : acc.isEmpty = false := by
      cases acc with
      | nil => simp at h
      | cons => rfl
    cases s with
    | nil => simp [tokens, ha]
    | cons c s =>
      have := (isDelim_iff c).mpr (hs c s rfl)
      simp [tokens, ha, this]
  | cons c w ih =>
    intro acc _
    have hc : isDelim c = false := by
      rw [Bool.eq_false_iff, Ne, isDelim_iff]; exact hw c (by simp)
    simp only [List.cons_append, tokens, hc, Bool.false_eq_true, if_false]
    rw [ih (fun x hx => hw x (by simp [hx])) (c :: acc) (Or.inl (by simp))]
    simp

theorem tokens_words {s : List Char} {ws : List (List Char)} (h : Words s ws) : tokens [] s = ws := by
  induction h with
  | nil => rfl
  | blank hc _ ih => rw [tokens, (isDelim_iff _).mpr hc]; simpa using ih
  | word h0 h1 h2 _ ih => rw [tokens_word _ _ h1 h2 [] (Or.inr h0), ih]; rfl

/-- Every text has words. -/
theorem words_exist (s : List Char) : ∃ ws, Words s ws := by
  suffices h : ∀ n (s : List Char), s.length ≤ n → ∃ ws, Words s ws from h _ s (le_refl _)
  intro n
  induction n with
  | zero => intro s hs; rw [List.length_eq_zero_iff.mp (Nat.le_zero.mp hs)]; exact ⟨[], .nil⟩
  | succ n ih =>
    intro s hs
    cases s with
    | nil => exact ⟨[], .nil⟩
    | cons c s =>
      by_cases hc : Blank c
      · obtain ⟨ws, h⟩ := ih s (by simpa using hs)
        exact ⟨ws, .blank hc h⟩
      · have e := List.takeWhile_append_dropWhile (p := fun c => !isDelim c) (l := c :: s)
        have hd : isDelim c = false := by rw [Bool.eq_false_iff, Ne, isDelim_iff]; exact hc
        have hlen : ((c :: s).dropWhile fun c => !isDelim c).length ≤ n := by
          rw [List.dropWhile_cons, hd]
          simp only [Bool.not_false, if_true]
          have := (List.dropWhile_sublist (l := s) fun c => !isDelim c).length_le
          simp at hs; omega
        obtain ⟨ws, h⟩ := ih _ hlen
        refine ⟨(c :: s).takeWhile (fun c => !isDelim c) :: ws, ?_⟩
        rw [← e]
        rw [e]
        conv => arg 1; rw [← e]
        refine .word ?_ ?_ ?_ h
        · simp [hd]
        · intro x hx
          have := List.mem_takeWhile_imp hx
          rw [← isDelim_iff]; simpa using this
        · intro x s' hx
          have := List.head?_dropWhile_not (fun c => !isDelim c) (c :: s)
          rw [hx] at this
          rw [← isDelim_iff]; simpa using this

/-- A word asks for a quantity: one of its names, possibly followed by a unit in brackets (the last
character is not examined). -/
def TokenAsks (t : List Char) (q : Q) : Prop :=
  ∃ name, Asks name q ∧ (t = name ∨ ∃ u c, t = name ++ '[' :: u ++ [c])

theorem asks_no_bracket {name : List Char} {q : Q} (h : Asks name q) : ∀ c ∈ name, c ≠ '[' := by
  rcases h with rfl | ⟨rfl, _⟩
  · cases q <;> decide
  · decide

theorem tokenAsks_iff (t : List Char) (q : Q) : TokenAsks t q ↔ Asks (quantOf t) q := by
  constructor
  · rintro ⟨name, h, rfl | ⟨u, c, rfl⟩⟩
    · have : t.findIdx? (· == '[') = none := by
        rw [List.findIdx?_eq_none_iff]
        intro x hx; simpa using asks_no_bracket h x hx
      unfold quantOf
      rw [this]; exact h
    · have hf := findIdx_bracket name (u ++ [c]) (asks_no_bracket h)
      unfold quantOf
      simp only [List.append_assoc, List.cons_append, hf]
      rw [if_pos (by simp)]
      simpa using h
  · intro h
    refine ⟨_, h, ?_⟩
    unfold quantOf at h ⊢
    cases hf : t.findIdx? (· == '[') with
    | none => left; rfl
    | some first =>
      simp only
      split
      · right
        rename_i hlt
        rw [List.findIdx?_eq_some_iff_getElem] at hf
        obtain ⟨h1, h2, _⟩ := hf
        have hne : t.drop (first + 1) ≠ [] := by
          intro h0
          have := congrArg List.length h0
          simp at this; omega
        refine ⟨(t.drop (first + 1)).dropLast, (t.drop (first + 1)).getLast hne, ?_⟩
        rw [List.append_assoc, List.cons_append, List.dropLast_concat_getLast]
        conv => lhs; rw [← List.take_append_drop first t]
        rw [List.drop_eq_getElem_cons h1]
        simp only [beq_iff_eq] at h2
        rw [h2]
      · left; rfl

/-- **C10, parsing.** For every text, made of some words: an error is thrown exactly when a word names no
quantity; otherwise the resulting set holds exactly the quantities asked for by the words, and parallel
transport is switched on exactly if a polarised spectrum is asked for. -/
theorem parse_correct (pt : Bool) (s : List Char) :
    ∃ ws, Words s ws ∧
    ((parse pt s).err = true ↔ ∃ t ∈ ws, ∀ q, ¬ TokenAsks t q) ∧
    ((parse pt s).err = false → Known (parse pt s).w ∧
      (∀ q, has (parse pt s).w q = true ↔ ∃ t ∈ ws, TokenAsks t q) ∧
      ((parse pt s).transport = true ↔ pt = true ∨
        ∃ t ∈ ws, TokenAsks t .stokesQ ∨ TokenAsks t .stokesU ∨ TokenAsks t .stokesV)) := by
  obtain ⟨ws, hws⟩ := words_exist s
  refine ⟨ws, hws, ?_⟩
  simp only [tokenAsks_iff]
  rw [← tokens_words hws]
  obtain ⟨h1, h2⟩ := parseLoop_spec (tokens [] s) 0
  have hhas : (parse pt s).err = false → ∀ q, has (parse pt s).w q = true ↔
      ∃ t ∈ tokens [] s, Asks (quantOf t) q := by
    intro h q
    rw [has_eq]
    refine (h2 h (bit q)).trans ?_
    simp only [Nat.zero_testBit, Bool.false_eq_true, false_or]
    constructor
    · rintro ⟨q', hq, t, ht, ha⟩
      rw [bit_inj hq]
      exact ⟨t, ht, ha⟩
    · rintro ⟨t, ht, ha⟩
      exact ⟨q, rfl, t, ht, ha⟩
  refine ⟨h1, fun h => ⟨?_, hhas h, ?_⟩⟩
  · intro i hi
    rcases (h2 h i).mp hi with h | ⟨q, h, _⟩
    · simp at h
    · exact ⟨q, h⟩
  · have hq := hhas h
    have e : (parse pt s).transport = (pt || (has (parse pt s).w .stokesQ ||
        has (parse pt s).w .stokesU || has (parse pt s).w .stokesV)) := by
      have : (parse pt s).err = false := h
      unfold parse at this ⊢
      simp only at this ⊢
      rw [this]; rfl
    rw [e]
    simp only [Bool.or_eq_true, hq]
    constructor
    · rintro (h | (⟨t, ht, h⟩ | ⟨t, ht, h⟩) | ⟨t, ht, h⟩)
      · exact Or.inl h
      · exact Or.inr ⟨t, ht, Or.inl h⟩
      · exact Or.inr ⟨t, ht, Or.inr (Or.inl h)⟩
      · exact Or.inr ⟨t, ht, Or.inr (Or.inr h)⟩
    · rintro (h | ⟨t, ht, h | h | h⟩)
      · exact Or.inl h
      · exact Or.inr (Or.inl (Or.inl ⟨t, ht, h⟩))
      · exact Or.inr (Or.inl (Or.inr ⟨t, ht, h⟩))
      · exact Or.inr (Or.inr ⟨t, ht, h⟩)

example : (parse false "Redshift\tSpectrumStokes[mJy/pix] Redshift".toList) =
    ⟨16 + 64 + 128 + 256 + 512, false, true⟩ ∧
    (parse false "Redshift Spectra".toList).err = true := by
  decide +kernel

/-- **C10, units.** A name followed by a unit in brackets is split into the name and the unit, whatever the
characters of the unit. -/
theorem unit_split (n u : List Char) (hn : ∀ c ∈ n, c ≠ '[') :
    quantOf (n ++ '[' :: u ++ [']']) = n ∧ unitOf (n ++ '[' :: u ++ [']']) = u := by
  have h := findIdx_bracket n (u ++ [']']) hn
  simp only [List.append_assoc, List.cons_append, quantOf, unitOf, h]
  rw [if_pos (by simp), if_pos (by simp)]
  refine ⟨by simp, ?_⟩
  have e : (n ++ '[' :: (u ++ [']'])).drop (n.length + 1) = u ++ [']'] := by
    rw [← List.drop_drop, List.drop_left]; rfl
  rw [e]
  have : (n ++ '[' :: (u ++ [']'])).length - 1 - n.length - 1 = u.length := by
    simp only [List.length_append, List.length_cons, List.length_nil]; omega
  rw [this, List.take_left]

example : quantOf "Intensity[J.m-2.s-1]".toList = "Intensity".toList ∧
    unitOf "Intensity[J.m-2.s-1]".toList = "J.m-2.s-1".toList := by
  decide +kernel

/-! ## C09: the message -/

/-- Slot `s` of the message belongs to quantity `q`. -/
def Slot (w nb : Nat) (q : Q) (s : Nat) : Prop := ∃ p, (q, p) ∈ layout w ∧ p ≤ s ∧ s < p + width nb q

/-- **C09, inside the message.** For every set of quantities and number of channels, every slot used lies
inside the message; every requested quantity has its block, of the right length, and the others have none. -/
theorem message_in_bounds (w nb : Nat) :
    (∀ q s, Slot w nb q s → s < nelt w nb) ∧
    (∀ q, (∃ p, (q, p) ∈ layout w) ↔ has w q = true) ∧
    (∀ q p p', (q, p) ∈ layout w → (q, p') ∈ layout w → p = p') := by
  refine ⟨?_, ?_, ?_⟩
  · rintro q s ⟨p, hp, h1, h2⟩
    have hf : sumAdv w front = scalarCount w + (if has w .impactcoords then 16 else 0) := sumAdv_front w
    rw [layout, show layoutOrder = front ++ spectrals from rfl, layoutFrom_append, List.mem_append] at hp
    unfold nelt
    rcases hp with hp | hp
    · have hb := layoutFrom_bound w front 0 q p hp
      have hm := layoutFrom_mem w front 0 q p hp
      have := width_front nb q hm.1
      have := Nat.zero_le (nb * spectralCount w)
      omega
    · have hb := layoutFrom_bound w spectrals _ q p hp
      have hm := layoutFrom_mem w spectrals _ q p hp
      have hw := width_spectral nb q hm.1
      have ha := advance_spectral q hm.1
      have hs : sumAdv w spectrals = spectralCount w := sumAdv_spectral w
      have : 1 ≤ nb := by omega
      have : 1 ≤ spectralCount w := by omega
      have := Nat.mul_le_mul (Nat.sub_le_sub_right ‹1 ≤ nb› 1) (Nat.sub_le_sub_right ‹1 ≤ spectralCount w› 1)
      obtain ⟨a, rfl⟩ := Nat.exists_eq_add_of_le ‹1 ≤ nb›
      obtain ⟨b, hb'⟩ := Nat.exists_eq_add_of_le ‹1 ≤ spectralCount w›
      rw [hb'] at hs ⊢
      have e : (1 + a) * (1 + b) = 1 + a + b + a * b := by ring
      have := Nat.zero_le (a * b)
      omega
  · intro q
    constructor
    · rintro ⟨p, hp⟩; exact (layoutFrom_mem w _ _ q p hp).2
    · intro h; exact layoutFrom_exists w _ q (layoutOrder_complete q) h 0
  · intro q p p' h h'
    exact layoutFrom_unique w layoutOrder (by decide) 0 q p p' h h'

/-- **C09, exact domain.** Two distinct quantities never share a slot *if and only if* at most one spectral
quantity is requested or there is at most one channel. -/
theorem message_disjoint_iff (w nb : Nat) :
    (∀ q q', q ≠ q' → ∀ s, ¬ (Slot w nb q s ∧ Slot w nb q' s)) ↔ nb ≤ 1 ∨ spectralCount w ≤ 1 := by
  constructor
  · intro h
    by_contra hc
    push Not at hc
    obtain ⟨h1, h2⟩ := hc
    unfold spectralCount at h2
    have hz := layoutFrom_spectrals w (sumAdv w front) spectrals (fun q h => h)
    have hl : layout w = layoutFrom w 0 front ++ layoutFrom w (0 + sumAdv w front) spectrals := by
      rw [layout, show layoutOrder = front ++ spectrals from rfl, layoutFrom_append]
    rw [Nat.zero_add, hz] at hl
    match hfl : spectrals.filter (has w), h2 with
    | q :: q' :: rest, _ =>
      rw [hfl] at hl
      have hnd : (q :: q' :: rest).Nodup := by
        rw [← hfl]; exact (by decide : spectrals.Nodup).sublist List.filter_sublist
      have hq : q ∈ spectrals := (List.mem_filter.mp (by rw [hfl]; simp : q ∈ spectrals.filter (has w))).1
      have hq' : q' ∈ spectrals :=
        (List.mem_filter.mp (by rw [hfl]; simp : q' ∈ spectrals.filter (has w))).1
      refine h q q' (by rintro rfl; simp at hnd) (sumAdv w front + 1) ⟨⟨sumAdv w front, ?_, by omega, ?_⟩,
        ⟨sumAdv w front + 1, ?_, by omega, ?_⟩⟩
      · rw [hl]; simp
      · rw [width_spectral nb q hq]; omega
      · rw [hl]; simp
      · rw [width_spectral nb q' hq']; omega
  · rintro h q q' hne s ⟨⟨p, hp, h1, h2⟩, ⟨p', hp', h1', h2'⟩⟩
    rcases layout_order w q q' p p' hp hp' hne with ho | ho
    · exact disjoint_aux w nb h q q' p p' s hp hp' hne ho.1 ho.2 h2 h1'
    · exact disjoint_aux w nb h q' q p' p s hp' hp (Ne.symm hne) ho.1 ho.2 h2' h1

/-- **C09 (partial).** The stated property, for messages with at most one spectral quantity or at most one
channel.  Missing: the other messages, for which it is false (`message_overlap`). -/
theorem message_no_overlap_partial (w nb : Nat) (h : nb ≤ 1 ∨ spectralCount w ≤ 1) (q q' : Q) (hne : q ≠ q')
    (s : Nat) : ¬ (Slot w nb q s ∧ Slot w nb q' s) ∧ (Slot w nb q s → s < nelt w nb) :=
  ⟨(message_disjoint_iff w nb).mpr h q q' hne s, (message_in_bounds w nb).1 q s⟩

/-- The hypothesis, on intensity, impact coordinates, user 5 and a spectrum of 100 channels. -/
example : (100 ≤ 1 ∨ spectralCount (1 <<< 0 ||| 1 <<< 5 ||| 1 <<< 27 ||| 1 <<< 6) ≤ 1) ∧
    layout (1 <<< 0 ||| 1 <<< 5 ||| 1 <<< 27 ||| 1 <<< 6) =
      [(.intensity, 0), (.impactcoords, 1), (.user5, 17), (.spectrum, 18)] := by
  decide +kernel

/-- **Finding (C09).** With the default polarised spectra (`SpectrumStokes`) and 2 channels, the first
channel of Stokes Q is stored on the second channel of Stokes I. -/
theorem message_overlap : ∃ w nb q q' s, q ≠ q' ∧ Slot w nb q s ∧ Slot w nb q' s :=
  ⟨1 <<< 6 ||| 1 <<< 7, 2, .spectrum, .stokesQ, 1, by decide,
    ⟨0, by decide +kernel, by decide, by decide⟩, ⟨1, by decide +kernel, by decide, by decide⟩⟩

/-! ## C11: `Astrobj::Properties` -/

/-- **C11, moving.** -/
theorem move_add (p : Props) (n m : Nat) :
    (p.add n).add m = p.add (n + m) ∧ p.add 0 = p ∧ p.inc = p.add 1 ∧
    (∀ q, ((p.add n).ptr q).isSome = (p.ptr q).isSome) ∧ (p.add n).offset = p.offset := by
  refine ⟨?_, ?_, rfl, ?_, rfl⟩
  · unfold Props.add
    simp only [Props.mk.injEq, and_true]
    funext q
    rw [Option.map_map]
    congr 1
    funext a
    simp only [Function.comp, Nat.mul_add]; omega
  · obtain ⟨f, o⟩ := p
    unfold Props.add
    simp only [Props.mk.injEq, and_true]
    funext q
    cases q <;> simp
  · intro q; simp [Props.add]

example : (Props.add ⟨fun q => if q = .impactcoords then some 32 else none, 7⟩ 3).ptr .impactcoords = some 80 :=
  rfl

/-- **C11, set of quantities.** The conversion to a word gives exactly the quantities that have an array, and
moving does not change it. -/
theorem word_spec (p : Props) (n : Nat) :
    (∀ q, has p.toWord q = (p.ptr q).isSome) ∧ Known p.toWord ∧ (p.add n).toWord = p.toWord := by
  have key : ∀ (l : List Q) (w i : Nat),
      (l.foldl (fun w q => if (p.ptr q).isSome then w ||| (1 <<< bit q) else w) w).testBit i = true ↔
        w.testBit i = true ∨ ∃ q ∈ l, (p.ptr q).isSome = true ∧ i = bit q := by
    intro l
    induction l with
    | nil => intro w i; simp
    | cons q l ih =>
      intro w i
      rw [List.foldl_cons, ih]
      simp only [List.mem_cons, exists_eq_or_imp]
      by_cases h : (p.ptr q).isSome
      · simp only [h, if_true, Nat.testBit_or, Bool.or_eq_true, Nat.one_shiftLeft, Nat.testBit_two_pow,
          decide_eq_true_eq, true_and, or_assoc, eq_comm (a := bit q)]
      · simp [h]
  refine ⟨?_, ?_, ?_⟩
  · intro q
    rw [has_eq, Bool.eq_iff_iff, Props.toWord, key]
    simp only [Nat.zero_testBit, Bool.false_eq_true, false_or]
    constructor
    · rintro ⟨q', _, h, hq⟩; rw [bit_inj hq]; exact h
    · intro h; exact ⟨q, by cases q <;> simp, h, rfl⟩
  · intro i hi
    rw [Props.toWord, key] at hi
    rcases hi with hi | ⟨q, _, _, h⟩
    · simp at hi
    · exact ⟨q, h⟩
  · unfold Props.toWord
    congr 1
    funext w q
    rw [(move_add p n 0).2.2.2.1 q]

example : Props.toWord ⟨fun q => if q = .user1 then some 0 else none, 7⟩ = 2 ^ 31 := by decide +kernel

/-- Documented neutral value of each quantity (`Astrobj::Properties` documentation): `DBL_MAX` for dates and
distances, not reached; 0 for the others. -/
def neutral : Q → Int
  | .time | .distance | .firstDmin | .impactcoords => dblMax
  | _ => 0

/-- Address `x` belongs to the current cell of quantity `q`. -/
def InCell (p : Props) (nb : Nat) (q : Q) (x : Nat) : Prop :=
  ∃ a, p.ptr q = some a ∧
    if q ∈ spectrals then ∃ i, i < nb ∧ x = a + i * p.offset
    else if q = .impactcoords then a ≤ x ∧ x < a + 16
    else x = a

theorem inCellB_iff (p : Props) (nb : Nat) (q : Q) (x : Nat) : InCellB p nb q x ↔ InCell p nb q x := by
  unfold InCellB InCell
  constructor
  · rintro ⟨a, ha, i, hi, rfl⟩
    refine ⟨a, ha, ?_⟩
    cases q <;> simp_all [spectrals, countOf, strideOf] <;> exact ⟨i, hi, Or.inl rfl⟩
  · rintro ⟨a, ha, h⟩
    refine ⟨a, ha, ?_⟩
    cases q <;> simp_all [spectrals, countOf, strideOf]
    exact ⟨x - a, by omega, by omega⟩

/-- **C11, initialisation.** Addresses outside of the current cell are unchanged; if the cells of distinct
quantities do not meet, each address of the current cell receives the neutral value. -/
theorem init_spec (p : Props) (nb : Nat) (m : Nat → Int) :
    (∀ x, (∀ q, ¬ InCell p nb q x) → p.init nb m x = m x) ∧
    ((∀ q q' x, InCell p nb q x → InCell p nb q' x → q = q') →
      ∀ q x, InCell p nb q x → p.init nb m x = neutral q) := by
  rw [init_eq]
  exact ⟨fun x h => initFold_out p nb _ m x (fun q _ h' => h q ((inCellB_iff p nb q x).mp h')),
    fun hd q x hx => by
      rw [initFold_in p nb (fun q q' x h h' => hd q q' x ((inCellB_iff p nb q x).mp h) ((inCellB_iff p nb q' x).mp h'))
        allQ (by decide) m q x (by cases q <;> decide) ((inCellB_iff p nb q x).mpr hx)]
      cases q <;> rfl⟩

/-- Address `x` belongs to the array of quantity `q`, for an image of `p.offset` cells. -/
def InArray (p : Props) (nb : Nat) (q : Q) (x : Nat) : Prop :=
  ∃ a, p.ptr q = some a ∧ a ≤ x ∧
    x < a + p.offset * (if q ∈ spectrals then nb else if q = .impactcoords then 16 else 1)

theorem inCell_inArray (p : Props) (nb n : Nat) (hn : n < p.offset) (q : Q) (x : Nat)
    (h : InCell (p.add n) nb q x) : InArray p nb q x := by
  obtain ⟨a, ha, h⟩ := h
  simp only [Props.add, Option.map_eq_some_iff] at ha
  obtain ⟨a0, h0, rfl⟩ := ha
  refine ⟨a0, h0, ?_⟩
  by_cases hs : q ∈ spectrals
  · rw [if_pos hs] at h ⊢
    obtain ⟨i, hi, rfl⟩ := h
    have e : moveStep q = 1 := by cases q <;> first | rfl | (simp [spectrals] at hs)
    rw [e]
    have : (p.add n).offset = p.offset := rfl
    rw [this]
    have h1 : (i + 1) * p.offset ≤ nb * p.offset := Nat.mul_le_mul_right _ hi
    rw [Nat.mul_comm p.offset nb]
    have h2 : (i + 1) * p.offset = i * p.offset + p.offset := by ring
    omega
  · rw [if_neg hs] at h ⊢
    by_cases hc : q = .impactcoords
    · subst hc; simp only [if_true, moveStep] at h ⊢; omega
    · rw [if_neg hc] at h ⊢
      subst h
      have e : moveStep q = 1 := by cases q <;> first | rfl | (simp at hc)
      rw [e]; omega

/-- **C11, cells.** Arrays for an image of `p.offset` cells, which do not overlap. Initialising at cell `n`
gives the neutral values to cell `n` and leaves every other cell, and everything outside of the arrays,
unchanged. -/
theorem init_cell (p : Props) (nb : Nat) (m : Nat → Int) (n : Nat) (hn : n < p.offset)
    (hd : ∀ q q' x, InArray p nb q x → InArray p nb q' x → q = q') :
    (∀ q x, InCell (p.add n) nb q x → (p.add n).init nb m x = neutral q) ∧
    (∀ n', n' < p.offset → n' ≠ n → ∀ q x, InCell (p.add n') nb q x → (p.add n).init nb m x = m x) ∧
    (∀ x, (∀ q, ¬ InArray p nb q x) → (p.add n).init nb m x = m x) := by
  obtain ⟨h1, h2⟩ := init_spec (p.add n) nb m
  refine ⟨h2 (fun q q' x h h' => hd q q' x (inCell_inArray p nb n hn q x h) (inCell_inArray p nb n hn q' x h')),
    ?_, fun x hx => h1 x fun q hq => hx q (inCell_inArray p nb n hn q x hq)⟩
  intro n' hn' hne q x hx
  apply h1
  intro q' hx'
  have := hd q q' x (inCell_inArray p nb n' hn' q x hx) (inCell_inArray p nb n hn q' x hx')
  subst this
  obtain ⟨a, ha, h⟩ := hx
  obtain ⟨a', ha', h'⟩ := hx'
  simp only [Props.add, Option.map_eq_some_iff] at ha ha'
  obtain ⟨a0, h0, rfl⟩ := ha
  obtain ⟨a0', h0', rfl⟩ := ha'
  rw [h0] at h0'
  cases h0'
  by_cases hs : q ∈ spectrals
  · rw [if_pos hs] at h h'
    obtain ⟨i, hi, rfl⟩ := h
    obtain ⟨j, hj, h'⟩ := h'
    have e : moveStep q = 1 := by cases q <;> first | rfl | (simp [spectrals] at hs)
    rw [e] at h'
    have e1 : (p.add n').offset = p.offset := rfl
    have e2 : (p.add n).offset = p.offset := rfl
    rw [e1, e2] at h'
    have h3 : n' + i * p.offset = n + j * p.offset := by omega
    have h4 := congrArg (· % p.offset) h3
    simp only [Nat.add_mul_mod_self_right, Nat.mod_eq_of_lt hn, Nat.mod_eq_of_lt hn'] at h4
    exact hne h4
  · rw [if_neg hs] at h h'
    by_cases hc : q = .impactcoords
    · subst hc; simp only [if_true, moveStep] at h h'; omega
    · rw [if_neg hc] at h h'
      subst h
      have e : moveStep q = 1 := by cases q <;> first | rfl | (simp at hc)
      rw [e] at h'; omega

/-- A spectrum of 3 channels and impact coordinates, for an image of 4 cells. -/
def exProps : Props :=
  ⟨fun q => match q with | .spectrum => some 100 | .impactcoords => some 0 | _ => none, 4⟩

example : (∀ q q' x, InArray exProps 3 q x → InArray exProps 3 q' x → q = q') ∧
    InCell (exProps.add 2) 3 .spectrum 106 ∧ InCell (exProps.add 2) 3 .impactcoords 32 := by
  refine ⟨?_, ⟨102, rfl, by simp only [show Q.spectrum ∈ spectrals from by decide, if_true]; exact ⟨1, by decide, rfl⟩⟩,
    ⟨32, rfl, by simp only [show Q.impactcoords ∉ spectrals from by decide, if_false, if_true]; decide⟩⟩
  rintro q q' x ⟨a, ha, h1, h2⟩ ⟨a', ha', h1', h2'⟩
  cases q <;> simp [exProps] at ha <;> cases q' <;> simp [exProps] at ha' <;>
    simp [exProps, spectrals] at h2 h2' <;> first | rfl | omega

end Gyoto.Quant
