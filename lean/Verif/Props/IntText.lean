import Verif.Model.IntText

/-!
# Integers survive being written and read (C14)
-/

namespace Gyoto.IntText

theorem digitChar_table : ∀ d < 10, digitVal (digitChar d) = some d ∧ isSpace (digitChar d) = false ∧
    Gyoto.Quant.isDelim (digitChar d) = false ∧ digitChar d ≠ '-' ∧ digitChar d ≠ '+' ∧ digitChar d ≠ 'x' ∧
    digitChar d ≠ 'X' ∧ (digitChar d = '0' ↔ d = 0) := by
  decide +kernel

/-- Digits. -/
def IsDigit (c : Char) : Prop := ∃ d < 10, c = digitChar d

theorem printNat_digits (n : Nat) : ∀ c ∈ printNat n, IsDigit c := by
  induction n using Nat.strongRecOn with
  | _ n ih =>
    intro c hc
    rw [printNat] at hc
    split at hc
    · simp only [List.mem_singleton] at hc
      exact ⟨n, ‹_›, hc⟩
    · rcases List.mem_append.mp hc with h | h
      · exact ih (n / 10) (by omega) c h
      · simp only [List.mem_singleton] at h
        exact ⟨n % 10, by omega, h⟩

theorem printNat_ne_nil (n : Nat) : printNat n ≠ [] := by
  rw [printNat]; split <;> simp

/-- The first digit is zero only for zero. -/
theorem printNat_head (n : Nat) : (n = 0 ∧ printNat n = ['0']) ∨ ∃ d ds, printNat n = digitChar d :: ds ∧ d ≠ 0 ∧ d < 10 := by
  induction n using Nat.strongRecOn with
  | _ n ih =>
    by_cases h : n < 10
    · by_cases h0 : n = 0
      · left; subst h0; exact ⟨rfl, by rw [printNat]; decide⟩
      · right; exact ⟨n, [], by rw [printNat, if_pos h], h0, h⟩
    · right
      rcases ih (n / 10) (by omega) with ⟨h0, _⟩ | ⟨d, ds, h1, h2⟩
      · omega
      · exact ⟨d, ds ++ [digitChar (n % 10)], by rw [printNat, if_neg h, h1]; rfl, h2⟩

theorem readDigits_append (a b : List Char) (acc : Nat) (ha : ∀ c ∈ a, IsDigit c) :
    readDigits 10 acc (a ++ b) = readDigits 10 (readDigits 10 acc a) b := by
  induction a generalizing acc with
  | nil => rfl
  | cons c a ih =>
    obtain ⟨d, hd, rfl⟩ := ha c (by simp)
    have := digitChar_table d hd
    simp only [List.cons_append, readDigits, this.1, if_pos hd]
    exact ih _ fun c hc => ha c (by simp [hc])

theorem readDigits_printNat (n : Nat) : readDigits 10 0 (printNat n) = n := by
  induction n using Nat.strongRecOn with
  | _ n ih =>
    rw [printNat]
    split
    · rename_i h
      simp [readDigits, (digitChar_table n h).1, h]
    · have hm : n % 10 < 10 := by omega
      rw [readDigits_append _ _ _ (printNat_digits _), ih (n / 10) (by omega)]
      simp only [readDigits, (digitChar_table _ hm).1, if_pos hm]
      omega

theorem readDigits_stop (a : List Char) (c : Char) (b : List Char) (acc : Nat) (ha : ∀ c ∈ a, IsDigit c)
    (hc : digitVal c = none) : readDigits 10 acc (a ++ c :: b) = readDigits 10 acc a := by
  rw [readDigits_append _ _ _ ha]
  simp [readDigits, hc]

theorem digitVal_space : digitVal ' ' = none := by decide

/-- Reading, in base 0, digits that were printed: never taken for octal or hexadecimal. -/
theorem readBase0_printNat (n : Nat) (tail : List Char) (ht : tail = [] ∨ ∃ t, tail = ' ' :: t) :
    readBase0 (printNat n ++ tail) = n := by
  have key : readDigits 10 0 (printNat n ++ tail) = n := by
    rcases ht with rfl | ⟨t, rfl⟩
    · rw [List.append_nil]; exact readDigits_printNat n
    · rw [readDigits_stop _ _ _ _ (printNat_digits n) digitVal_space]; exact readDigits_printNat n
  rcases printNat_head n with ⟨rfl, h⟩ | ⟨d, ds, h, hd, hd10⟩
  · rw [h]
    rcases ht with rfl | ⟨t, rfl⟩
    · rfl
    · simp [readBase0, readDigits, digitVal_space]
  · rw [h] at key ⊢
    have h0 : digitChar d ≠ '0' := fun h => hd ((digitChar_table d hd10).2.2.2.2.2.2.2.mp h)
    rw [List.cons_append] at key ⊢
    unfold readBase0
    split
    · rename_i heq; simp only [List.cons.injEq] at heq; exact absurd heq.1 h0
    · rename_i heq; simp only [List.cons.injEq] at heq; exact absurd heq.1 h0
    · rename_i heq; simp only [List.cons.injEq] at heq; exact absurd heq.1 h0
    · exact key

theorem readSigned_printNat (f : List Char → Nat) (n : Nat) (pre tail : List Char) (hp : ∀ c ∈ pre, isSpace c = true) :
    readSigned f (pre ++ (printNat n ++ tail)) = (false, f (printNat n ++ tail)) := by
  have hdrop : (pre ++ (printNat n ++ tail)).dropWhile isSpace = printNat n ++ tail := by
    rw [List.dropWhile_append_of_pos hp]
    cases hpn : printNat n with
    | nil => exact absurd hpn (printNat_ne_nil n)
    | cons c cs =>
      obtain ⟨d, hd, rfl⟩ := printNat_digits n c (by simp [hpn])
      simp [(digitChar_table d hd).2.1]
  rw [readSigned, hdrop]
  cases hpn : printNat n with
  | nil => exact absurd hpn (printNat_ne_nil n)
  | cons c cs =>
    obtain ⟨d, hd, rfl⟩ := printNat_digits n c (by simp [hpn])
    obtain ⟨_, _, _, h4, h5, _⟩ := digitChar_table d hd
    rw [List.cons_append]
    split
    · rename_i heq; simp only [List.cons.injEq] at heq; exact absurd heq.1 h4
    · rename_i heq; simp only [List.cons.injEq] at heq; exact absurd heq.1 h5
    · rfl

/-- **C14, signed.** Every value of a signed integer parameter is read back as it was written. -/
theorem long_round_trip (i : Int) (h : -2 ^ 63 ≤ i ∧ i < 2 ^ 63) : strtol0 (paramLong i) = i := by
  unfold strtol0 paramLong printInt
  by_cases hi : i < 0
  · rw [if_pos hi]
    have : readSigned readBase0 (' ' :: ('-' :: printNat i.natAbs) ++ [' ']) = (true, i.natAbs) := by
      have hd : (' ' :: ('-' :: printNat i.natAbs) ++ [' ']).dropWhile isSpace =
          '-' :: (printNat i.natAbs ++ [' ']) := by
        rw [List.cons_append, List.cons_append, List.dropWhile_cons, if_pos (by decide), List.dropWhile_cons,
          if_neg (by decide)]
      rw [readSigned, hd]
      simp only [readBase0_printNat i.natAbs [' '] (Or.inr ⟨[], rfl⟩)]
    rw [this]
    simp only [if_true]
    omega
  · rw [if_neg hi]
    have := readSigned_printNat readBase0 i.natAbs [' '] [' '] (by decide)
    rw [readBase0_printNat i.natAbs [' '] (Or.inr ⟨[], rfl⟩)] at this
    have h' : ' ' :: printNat i.natAbs ++ [' '] = [' '] ++ (printNat i.natAbs ++ [' ']) := rfl
    rw [h', this]
    simp only [Bool.false_eq_true, if_false]
    omega

/-- **C14, unsigned.** Every value of an unsigned integer parameter is read back as it was written. -/
theorem ulong_round_trip (n : Nat) (h : n < 2 ^ 64) : strtoul0 (paramULong n) = n := by
  unfold strtoul0 paramULong
  have := readSigned_printNat readBase0 n [' '] [' '] (by decide)
  rw [readBase0_printNat n [' '] (Or.inr ⟨[], rfl⟩)] at this
  have h' : ' ' :: printNat n ++ [' '] = [' '] ++ (printNat n ++ [' ']) := rfl
  rw [h', this]
  simp only [Bool.false_eq_true, if_false]
  rw [if_neg (by omega)]

example : paramLong (-2 ^ 63) = " -9223372036854775808 ".toList ∧ strtol0 " -9223372036854775808 ".toList = -2 ^ 63 ∧
    strtoul0 " 18446744073709551615 ".toList = 2 ^ 64 - 1 ∧ strtol0 " 010 ".toList = 8 := by decide +kernel

theorem printNat_length (k n : Nat) (h : n < 10 ^ (k + 1)) : (printNat n).length ≤ k + 1 := by
  induction k generalizing n with
  | zero => rw [printNat, if_pos (by simpa using h)]; simp
  | succ k ih =>
    rw [printNat]
    split
    · simp
    · have : n / 10 < 10 ^ (k + 1) := by
        rw [Nat.div_lt_iff_lt_mul (by decide)]
        rw [← Nat.pow_succ]; exact h
      have := ih _ this
      simp only [List.length_append, List.length_singleton]
      omega

/-- **C14, buffer.** The text and its final null character fit in the buffer, for every representable value. -/
theorem text_fits (i : Int) (n : Nat) (hi : -2 ^ 63 ≤ i ∧ i < 2 ^ 63) (hn : n < 2 ^ 64) :
    (paramLong i).length + 1 ≤ dvalLength ∧ (paramULong n).length + 1 ≤ dvalLength := by
  have h1 : (printNat n).length ≤ 20 := printNat_length 19 n (by omega)
  have h2 : (printNat i.natAbs).length ≤ 20 := printNat_length 19 _ (by omega)
  unfold paramLong paramULong printInt dvalLength
  constructor
  · split <;> simp only [List.length_append, List.length_cons, List.length_nil] <;> omega
  · simp only [List.length_append, List.length_cons, List.length_nil]; omega

theorem tokens_word (acc w : List Char) (rest : List Char) (hw : ∀ c ∈ w, Gyoto.Quant.isDelim c = false) :
    Gyoto.Quant.tokens acc (w ++ rest) = Gyoto.Quant.tokens (w.reverse ++ acc) rest := by
  induction w generalizing acc with
  | nil => rfl
  | cons c w ih =>
    have hc := hw c (by simp)
    rw [List.cons_append, Gyoto.Quant.tokens, hc]
    simp only [Bool.false_eq_true, if_false]
    rw [ih _ fun c hc => hw c (by simp [hc])]
    simp

theorem digits_not_delim (n : Nat) : ∀ c ∈ printNat n, Gyoto.Quant.isDelim c = false := by
  intro c hc
  obtain ⟨d, hd, rfl⟩ := printNat_digits n c hc
  exact (digitChar_table d hd).2.2.1

theorem tokens_vector_tail (ns : List Nat) : ∀ w : List Char, w ≠ [] →
    Gyoto.Quant.tokens w (ns.flatMap fun k => ' ' :: printNat k) = w.reverse :: ns.map printNat := by
  induction ns with
  | nil => intro w hw; simp [Gyoto.Quant.tokens, hw]
  | cons n ns ih =>
    intro w hw
    have hs : Gyoto.Quant.isDelim ' ' = true := by decide
    have hw' : w.isEmpty = false := by cases w <;> simp_all
    simp only [List.flatMap_cons, List.cons_append, Gyoto.Quant.tokens, hs, hw', if_true, Bool.false_eq_true,
      if_false]
    rw [tokens_word [] (printNat n) _ (digits_not_delim n), List.append_nil,
      ih _ (by simpa using printNat_ne_nil n), List.reverse_reverse, List.map_cons]

theorem tokens_vector (ns : List Nat) : Gyoto.Quant.tokens [] (paramVector ns) = ns.map printNat := by
  cases ns with
  | nil => rfl
  | cons n ns =>
    rw [paramVector, tokens_word [] (printNat n) _ (digits_not_delim n), List.append_nil,
      tokens_vector_tail ns _ (by simpa using printNat_ne_nil n), List.reverse_reverse, List.map_cons]

theorem atol_printNat (n : Nat) : atol (printNat n) = if n < 2 ^ 63 then some (n : Int) else none := by
  have := readSigned_printNat (readDigits 10 0) n [] [] (by simp)
  rw [List.append_nil, List.nil_append, readDigits_printNat] at this
  simp only [atol, this, Bool.false_eq_true, if_false]
  by_cases h : n < 2 ^ 63
  · rw [if_pos ⟨by omega, by exact_mod_cast h⟩, if_pos h]
  · rw [if_neg (by intro h'; exact h (by exact_mod_cast h'.2)), if_neg h]

/-- **C14, vectors (partial).** A vector of unsigned integers below `2^63` is read back as it was written.  Missing:
values from `2^63` (`ulong_vector_large`). -/
theorem ulong_vector_round_trip_partial (ns : List Nat) (h : ∀ n ∈ ns, n < 2 ^ 63) :
    parseArrayULong (paramVector ns) = some ns := by
  rw [parseArrayULong, tokens_vector]
  induction ns with
  | nil => rfl
  | cons n ns ih =>
    have hn := h n (by simp)
    rw [List.map_cons, readItems, atol_printNat, if_pos hn, Option.bind_some,
      ih fun n hn => h n (by simp [hn]), Option.map_some]
    congr
    omega

/-- **Finding (C14).** A vector holding a value from `2^63` on is written, but reading it back calls `atol` out of its
range, which is undefined. -/
theorem ulong_vector_large (ns : List Nat) (n : Nat) (hn : n ∈ ns) (h : 2 ^ 63 ≤ n) :
    parseArrayULong (paramVector ns) = none := by
  rw [parseArrayULong, tokens_vector]
  induction ns with
  | nil => simp at hn
  | cons m ns ih =>
    rw [List.map_cons, readItems, atol_printNat]
    rcases List.mem_cons.mp hn with rfl | hn
    · rw [if_neg (by omega)]; rfl
    · rw [ih hn]
      cases (if m < 2 ^ 63 then some (m : Int) else none) <;> rfl

example : parseArrayULong (paramVector [0, 7, 4096]) = some [0, 7, 4096] ∧ parseArrayULong " 12\t34\n".toList = some [12, 34] := by
  decide +kernel

end Gyoto.IntText
