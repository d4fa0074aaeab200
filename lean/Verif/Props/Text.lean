import Verif.Model.Text

/-!
# Splitting texts (C18), debug mode (C19)
-/

namespace Gyoto.Text

/-! ## C18 -/

/-- `Made d ws s`: the text `s` is made of the non-empty words `ws`, free of delimiters, with at least one delimiter between two
consecutive words and possibly others before and after. -/
inductive Made (d : List Char) : List (List Char) → List Char → Prop
  | blank (s) : (∀ c ∈ s, c ∈ d) → Made d [] s
  | last (pre w post) : (∀ c ∈ pre, c ∈ d) → w ≠ [] → (∀ c ∈ w, c ∉ d) → (∀ c ∈ post, c ∈ d) →
      Made d [w] (pre ++ w ++ post)
  | more (pre w sep rest ws) : (∀ c ∈ pre, c ∈ d) → w ≠ [] → (∀ c ∈ w, c ∉ d) → sep ∈ d → Made d ws rest →
      Made d (w :: ws) (pre ++ w ++ sep :: rest)

theorem findFirstOf_none {d : List Char} : ∀ {s : List Char} {pos : Nat}, findFirstOf d pos s = none ↔ ∀ c ∈ s, c ∉ d := by
  intro s
  induction s with
  | nil => simp [findFirstOf]
  | cons c s ih =>
    intro pos
    unfold findFirstOf
    by_cases h : d.contains c = true
    · rw [if_pos h]
      simp only [reduceCtorEq, List.mem_cons, forall_eq_or_imp, false_iff, not_and]
      intro h'; exact absurd (by simpa using h) h'
    · rw [if_neg h, ih]
      simp only [List.mem_cons, forall_eq_or_imp]
      exact ⟨fun h' => ⟨by simpa using h, h'⟩, fun h' => h'.2⟩

theorem findFirstOf_some {d : List Char} : ∀ {s : List Char} {pos f : Nat}, findFirstOf d pos s = some f →
    ∃ w c rest, s = w ++ c :: rest ∧ f = pos + w.length ∧ (∀ x ∈ w, x ∉ d) ∧ c ∈ d := by
  intro s
  induction s with
  | nil => intro pos f h; simp [findFirstOf] at h
  | cons c s ih =>
    intro pos f h
    unfold findFirstOf at h
    by_cases hc : d.contains c = true
    · rw [if_pos hc] at h
      simp only [Option.some.injEq] at h
      exact ⟨[], c, s, rfl, by simp [h], by simp, by simpa using hc⟩
    · rw [if_neg hc] at h
      obtain ⟨w, c', rest, rfl, h2, h3, h4⟩ := ih h
      refine ⟨c :: w, c', rest, rfl, by simp only [List.length_cons]; omega, ?_, h4⟩
      intro x hx
      rcases List.mem_cons.mp hx with rfl | hx
      · simpa using hc
      · exact h3 x hx

/-- The words found from a position. -/
theorem splitLoop_made (src d : List Char) : ∀ n pos res, src.length - pos ≤ n → pos ≤ src.length →
    ∃ ws, splitLoop src d pos res = res ++ ws ∧ Made d ws (src.drop pos) := by
  intro n
  induction n with
  | zero =>
    intro pos res h1 h2
    have : ¬ pos < src.length := by omega
    rw [splitLoop, if_neg this]
    refine ⟨[], by simp, ?_⟩
    rw [List.drop_eq_nil_of_le (by omega)]
    exact .blank _ (by simp)
  | succ n ih =>
    intro pos res h1 h2
    rw [splitLoop]
    split
    · rename_i hp
      split
      · rename_i fpos hf
        obtain ⟨w, c, rest, hs, rfl, hw, hc⟩ := findFirstOf_some hf
        have hlen : src.length - pos = w.length + 1 + rest.length := by
          have := congrArg List.length hs
          simp only [List.length_drop, List.length_append, List.length_cons] at this
          omega
        have hrest : ∀ k, k = pos + w.length + 1 → src.drop k = rest := by
          intro k hk
          have : src.drop k = (src.drop pos).drop (w.length + 1) := by
            rw [List.drop_drop, hk]; congr 1
          rw [this, hs, List.drop_append, List.drop_eq_nil_of_le (by omega)]
          simp
        split
        · rename_i heq
          have hw0 : w = [] := by
            cases w with
            | nil => rfl
            | cons => simp only [List.length_cons] at heq; omega
          subst hw0
          obtain ⟨ws, e1, e2⟩ := ih (pos + 1) res (by omega) (by omega)
          refine ⟨ws, e1, ?_⟩
          rw [hrest (pos + 1) (by simp)] at e2
          rw [hs, List.nil_append]
          -- a delimiter in front does not change the words
          cases e2 with
          | blank s h => exact .blank _ (by simpa [hc] using h)
          | last pre w post h1 h2 h3 h4 =>
            exact .last (c :: pre) w post (by simpa [hc] using h1) h2 h3 h4
          | more pre w sep rest ws h1 h2 h3 h4 h5 =>
            exact .more (c :: pre) w sep rest ws (by simpa [hc] using h1) h2 h3 h4 h5
        · rename_i hne
          have hw0 : w ≠ [] := by rintro rfl; simp at hne
          obtain ⟨ws, e1, e2⟩ := ih (pos + w.length + 1) (res ++ [(src.drop pos).take (pos + w.length - pos)])
            (by omega) (by omega)
          refine ⟨w :: ws, ?_, ?_⟩
          · rw [e1, hs]
            have : pos + w.length - pos = w.length := by omega
            rw [this]
            simp
          · rw [hrest _ rfl] at e2
            rw [hs]
            have := Made.more [] w c rest ws (by simp) hw0 hw hc e2
            simpa using this
      · rename_i hf
        refine ⟨[src.drop pos], rfl, ?_⟩
        have hne : src.drop pos ≠ [] := by
          intro h
          have := congrArg List.length h
          simp only [List.length_drop, List.length_nil] at this
          omega
        have := Made.last (d := d) [] (src.drop pos) [] (by simp) hne (findFirstOf_none.mp hf) (by simp)
        simpa using this
    · rename_i hp
      refine ⟨[], by simp, ?_⟩
      rw [List.drop_eq_nil_of_le (by omega)]
      exact .blank _ (by simp)

/-- Longest prefix without delimiters, and the words. -/
def words (d : List Char) (cur : List Char) : List Char → List (List Char)
  | [] => if cur = [] then [] else [cur.reverse]
  | c :: cs => if c ∈ d then (if cur = [] then [] else [cur.reverse]) ++ words d [] cs else words d (c :: cur) cs

theorem words_delims (d pre rest : List Char) (h : ∀ c ∈ pre, c ∈ d) : words d [] (pre ++ rest) = words d [] rest := by
  induction pre with
  | nil => rfl
  | cons c pre ih =>
    rw [List.cons_append, words, if_pos (h c (by simp))]
    simpa using ih fun c hc => h c (by simp [hc])

theorem words_word (d w rest cur : List Char) (h : ∀ c ∈ w, c ∉ d) :
    words d cur (w ++ rest) = words d (w.reverse ++ cur) rest := by
  induction w generalizing cur with
  | nil => rfl
  | cons c w ih =>
    rw [List.cons_append, words, if_neg (h c (by simp)), ih _ fun c hc => h c (by simp [hc])]
    simp

theorem made_words {d : List Char} {ws : List (List Char)} {s : List Char} (h : Made d ws s) : words d [] s = ws := by
  induction h with
  | blank s h => have := words_delims d s [] h; rw [List.append_nil] at this; rw [this]; simp [words]
  | last pre w post h1 h2 h3 h4 =>
    rw [List.append_assoc, words_delims d pre _ h1, words_word d w post [] h3, List.append_nil]
    have hne : w.reverse ≠ [] := by simpa using h2
    cases post with
    | nil => simp [words, h2]
    | cons c post =>
      rw [words, if_pos (h4 c (by simp)), if_neg hne, List.reverse_reverse]
      have := words_delims d post [] fun c hc => h4 c (by simp [hc])
      rw [List.append_nil] at this
      rw [this]; simp [words]
  | more pre w sep rest ws h1 h2 h3 h4 h5 ih =>
    rw [List.append_assoc, words_delims d pre _ h1, words_word d w _ [] h3, List.append_nil, words, if_pos h4, ih]
    have hne : w.reverse ≠ [] := by simpa using h2
    rw [if_neg hne, List.reverse_reverse]
    rfl

/-- **C18.** For every text and set of delimiters: the result of `split` is the one and only way to see the text as
non-empty delimiter-free words separated by delimiters. -/
theorem split_iff (src delim : List Char) (ws : List (List Char)) : split src delim = ws ↔ Made delim ws src := by
  obtain ⟨ws', h1, h2⟩ := splitLoop_made src delim src.length 0 [] (by omega) (by omega)
  rw [List.nil_append] at h1
  rw [List.drop_zero] at h2
  constructor
  · rintro rfl
    rw [split, h1]; exact h2
  · intro h
    rw [split, h1, ← made_words h2, made_words h]

/-- **C18, consequences.** No piece is empty or contains a delimiter; put end to end the pieces give the text without its
delimiters. -/
theorem split_pieces (src delim : List Char) :
    (∀ w ∈ split src delim, w ≠ [] ∧ ∀ c ∈ w, c ∉ delim) ∧
    (split src delim).flatten = src.filter fun c => c ∉ delim := by
  have h := (split_iff src delim _).mp rfl
  generalize split src delim = ws at h
  have fd : ∀ l : List Char, (∀ c ∈ l, c ∈ delim) → l.filter (fun c => c ∉ delim) = [] := by
    intro l hl; rw [List.filter_eq_nil_iff]; intro c hc; simpa using hl c hc
  have fw : ∀ l : List Char, (∀ c ∈ l, c ∉ delim) → l.filter (fun c => c ∉ delim) = l := by
    intro l hl; rw [List.filter_eq_self]; intro c hc; simpa using hl c hc
  induction h with
  | blank s h => simp only [List.not_mem_nil, false_implies, implies_true, true_and]; rw [fd s h]; rfl
  | last pre w post h1 h2 h3 h4 =>
    constructor
    · intro x hx; simp only [List.mem_singleton] at hx; subst hx; exact ⟨h2, h3⟩
    · rw [List.filter_append, List.filter_append, fd _ h1, fd _ h4, fw _ h3]; simp
  | more pre w sep rest ws h1 h2 h3 h4 h5 ih =>
    constructor
    · intro x hx
      rcases List.mem_cons.mp hx with rfl | hx
      · exact ⟨h2, h3⟩
      · exact ih.1 x hx
    · rw [List.filter_append, List.filter_append, fd _ h1, fw _ h3, List.filter_cons]
      simp only [h4, not_true_eq_false, decide_false, Bool.false_eq_true, if_false, List.flatten_cons,
        List.nil_append, ih.2]

example : split ",,stdplug,,lorene,".toList ",".toList = ["stdplug".toList, "lorene".toList] := by decide +kernel

/-! ## C19 -/

/-- **C19 (partial).** In any state out of debug mode: entering debug mode, then changing verbosity and entering the same mode again any
number of times, then leaving it, gives back the verbosity selected before.  Missing: going from one debug mode to another
(`other_mode_forgets`). -/
theorem leave_restores_partial (s : Log) (m : Int) (inside : List Call) (hs : s.debug = 0) (hm : m ≠ 0)
    (hi : ∀ c ∈ inside, c = .debug m ∨ ∃ l, c = .verbose l) :
    (run s (.debug m :: inside ++ [.debug 0])).verbosity = s.verbosity ∧
    (run s (.debug m :: inside)).debug = m ∧
    (inside = [] → (run s (.debug m :: inside)).verbosity = 3000) := by
  have hsm : m ≠ s.debug := by rw [hs]; exact hm
  have key : ∀ (l : List Call) (t : Log), (∀ c ∈ l, c = .debug m ∨ ∃ l, c = .verbose l) → t.debug = m →
      (run t l).debug = m ∧ (run t l).prev = t.prev := by
    intro l
    induction l with
    | nil => intro t _ h; exact ⟨h, rfl⟩
    | cons c l ih =>
      intro t hl ht
      have hl' := fun c hc => hl c (List.mem_cons_of_mem _ hc)
      rcases hl c (by simp) with rfl | ⟨v, rfl⟩
      · have : step t (.debug m) = t := by simp [step, ht]
        simp only [run, List.foldl_cons, this]
        exact ih t hl' ht
      · exact ih (step t (.verbose v)) hl' ht
  have h1 : step s (.debug m) = ⟨m, 3000, s.verbosity⟩ := by simp [step, hsm, hm, debugVerbosity]
  obtain ⟨k1, k2⟩ := key inside ⟨m, 3000, s.verbosity⟩ hi rfl
  have h2 : run s (.debug m :: inside) = run ⟨m, 3000, s.verbosity⟩ inside := by
    simp only [run, List.foldl_cons, h1]
  refine ⟨?_, by rw [h2]; exact k1, fun h => by rw [h2, h]; rfl⟩
  have h3 : run s (.debug m :: inside ++ [.debug 0]) = step (run s (.debug m :: inside)) (.debug 0) := by
    rw [run, List.foldl_append]; rfl
  rw [h3, h2]
  have : (0 : Int) ≠ (run ⟨m, 3000, s.verbosity⟩ inside).debug := by rw [k1]; exact hm.symm
  simp [step, this, k2]

example : (run ⟨0, 5, 3000⟩ [.verbose 10, .debug 1, .verbose 0, .debug 1, .debug 0]).verbosity = 10 := by decide

/-- **C19, outside.** Out of debug mode, asking to leave it changes nothing. -/
theorem leave_outside (s : Log) (hs : s.debug = 0) : step s (.debug 0) = s := by simp [step, hs]

/-- **Finding (C19).** Going from one debug mode to another overwrites the saved verbosity: on leaving, the verbosity is that of the debug
mode, whatever it was before. -/
theorem other_mode_forgets (s : Log) (hs : s.debug = 0) :
    (run s [.debug 1, .debug 2, .debug 0]).verbosity = 3000 := by
  simp [run, step, hs, debugVerbosity]

end Gyoto.Text
