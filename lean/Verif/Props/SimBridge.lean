import Verif.Model.SimBridge
import Mathlib.Tactic.Linarith
import Mathlib.Tactic.FieldSimp
import Mathlib.Tactic.FinCases
import Mathlib.Tactic.IntervalCases
import Mathlib.Analysis.SpecialFunctions.Trigonometric.Bounds

/-!
# C143: objects read from simulations: settings, files, coefficients, motion and shape
-/

namespace Gyoto.SimBridge

open Gyoto.MetricAlg

/-! ## The settings -/

/-- C143, partial. The value of the type of emission read back can be given again and changes nothing, for three of the four kinds. Missing: `BB`, for which it is
wrong. -/
theorem emission_partial {kind e : String} (h : setEmission kind = some e) (hk : kind ≠ "BB") : setEmission (getEmission e) = some e := by
  unfold setEmission at h
  split_ifs at h
  all_goals (cases h; rfl)

/-- C143 (negation). What is read back after `BB` is refused: the description that the program writes of such an object cannot be read. -/
theorem emission_wrong : ∃ e, setEmission "BB" = some e ∧ setEmission (getEmission e) = none := ⟨"BlackBody", rfl, rfl⟩

/-- A word: not empty, with neither a space nor a comma. -/
def IsWord (w : List Char) : Prop := w ≠ [] ∧ ∀ c ∈ w, c ≠ ' ' ∧ c ≠ ','

theorem cut_word {w : List Char} (hw : ∀ c ∈ w, c ≠ ' ' ∧ c ≠ ',') {s : Char} (hs : s = ' ' ∨ s = ',') (acc l : List Char) :
    cut acc (w ++ s :: l) = (acc ++ w) :: cut [] l := by
  induction w generalizing acc with
  | nil =>
    show cut acc (s :: l) = _
    rw [cut, if_pos hs, List.append_nil]
  | cons c w ih =>
    obtain ⟨h1, h2⟩ := hw c (List.mem_cons_self ..)
    show cut acc (c :: (w ++ s :: l)) = _
    rw [cut, if_neg (by rintro (h | h); exacts [h1 h, h2 h]), ih fun d hd => hw d (List.mem_cons_of_mem _ hd)]
    simp

theorem cut_words (seps : List Char) (hs : ∀ s ∈ seps, s = ' ' ∨ s = ',') (ws : List (List Char)) (hw : ∀ w ∈ ws, IsWord w) (hl : seps.length = ws.length) :
    (cut [] ((ws.zip seps).flatMap fun x => x.1 ++ [x.2])).filter (fun w => !w.isEmpty) = ws := by
  induction ws generalizing seps with
  | nil => simp [cut]
  | cons w ws ih =>
    cases seps with
    | nil => simp at hl
    | cons s seps =>
      have hww := hw w (List.mem_cons_self ..)
      rw [List.zip_cons_cons, List.flatMap_cons, List.append_assoc, List.singleton_append, cut_word hww.2 (hs s (List.mem_cons_self ..)), List.nil_append,
        List.filter_cons_of_pos (by simpa using hww.1),
        ih seps (fun x hx => hs x (List.mem_cons_of_mem _ hx)) (fun x hx => hw x (List.mem_cons_of_mem _ hx)) (by simpa using hl)]

/-- C143. Any list of at most five words, each followed by a space or a comma, sets the conditions at the boundaries of the first dimensions and leaves the
others. -/
theorem boundary_set (ws : List (List Char)) (seps : List Char) (cur : List (List Char)) (hw : ∀ w ∈ ws, IsWord w)
    (hs : ∀ s ∈ seps, s = ' ' ∨ s = ',') (hl : seps.length = ws.length) (h5 : ws.length ≤ 5) :
    setBoundary ((ws.zip seps).flatMap fun x => x.1 ++ [x.2]) cur = ws ++ cur.drop ws.length := by
  have e : words ((ws.zip seps).flatMap fun x => x.1 ++ [x.2]) = ws := by
    rw [words, cut_words seps hs ws hw hl, List.take_of_length_le h5]
  rw [setBoundary, e]

/-- C143. What is read back of the conditions at the boundaries can be given again, to any object, which then has the same. -/
theorem boundary_kept (cur other : List (List Char)) (hw : ∀ w ∈ cur, IsWord w) (h5 : cur.length = 5) (ho : other.length = 5) :
    setBoundary (getBoundary cur) other = cur := by
  have e : getBoundary cur = (cur.zip (List.replicate 5 ' ')).flatMap fun x => x.1 ++ [x.2] := by
    match cur, h5 with
    | [a, b, c, d, e], _ => simp [getBoundary, List.replicate]
  rw [e, boundary_set cur (List.replicate 5 ' ') other hw (fun s hs => Or.inl (List.eq_of_mem_replicate hs)) (by simp [h5]) h5.le, h5, ← ho, List.drop_length,
    List.append_nil]

theorem cut_mem {l acc w : List Char} (ha : ∀ c ∈ acc, c ≠ ' ' ∧ c ≠ ',') (h : w ∈ cut acc l) : ∀ c ∈ w, c ≠ ' ' ∧ c ≠ ',' := by
  induction l generalizing acc with
  | nil => simp only [cut, List.mem_singleton] at h; subst h; exact ha
  | cons c l ih =>
    rw [cut] at h
    split_ifs at h with hc
    · rcases List.mem_cons.1 h with rfl | h
      · exact ha
      · exact ih (by simp) h
    · refine ih (fun d hd => ?_) h
      rcases List.mem_append.1 hd with hd | hd
      · exact ha d hd
      · rw [List.mem_singleton.1 hd]
        exact ⟨fun h => hc (Or.inl h), fun h => hc (Or.inr h)⟩

/-- C143. Whatever is given, the five conditions stay five words. -/
theorem boundary_words (sbc : List Char) (cur : List (List Char)) (hw : ∀ w ∈ cur, IsWord w) (h5 : cur.length = 5) :
    (∀ w ∈ setBoundary sbc cur, IsWord w) ∧ (setBoundary sbc cur).length = 5 := by
  have hl : (words sbc).length ≤ 5 := List.length_take_le ..
  refine ⟨fun w h => ?_, ?_⟩
  · rcases List.mem_append.1 h with h | h
    · obtain ⟨h1, h2⟩ := List.mem_filter.1 (List.mem_of_mem_take h)
      exact ⟨by simpa using h2, cut_mem (by simp) h1⟩
    · exact hw w (List.mem_of_mem_drop h)
  · simp only [setBoundary, List.length_append, List.length_drop]
    omega

example : setBoundary "Linear, Null".toList (List.replicate 5 "None".toList) = ["Linear".toList, "Null".toList, "None".toList, "None".toList, "None".toList] := by
  decide +kernel

/-! ## The date -/

theorem walk_spec {t : List ℝ} {tcur : ℝ} {n i : ℕ} (hn : i + n + 1 = t.length) (hlast : ∀ x, t[t.length - 1]? = some x → tcur ≤ x) :
    ∃ j, walk t tcur n i = some j ∧ i ≤ j ∧ (∀ k x, i ≤ k → k < j → t[k]? = some x → x < tcur) ∧ ∃ x, t[j]? = some x ∧ tcur ≤ x := by
  induction n generalizing i with
  | zero =>
    have hi : i < t.length := by omega
    have e : t[i]? = some t[i] := List.getElem?_eq_getElem hi
    have hle : tcur ≤ t[i] := hlast _ (by rw [← e]; congr 1; omega)
    rw [walk, e]
    exact ⟨i, by simp [not_lt.2 hle], le_rfl, fun k x h1 h2 => absurd h2 (by omega), _, e, hle⟩
  | succ n ih =>
    have hi : i < t.length := by omega
    have e : t[i]? = some t[i] := List.getElem?_eq_getElem hi
    rw [walk, e]
    by_cases h : tcur > t[i]
    · obtain ⟨j, h1, h2, h3, h4⟩ := ih (i := i + 1) (by omega)
      refine ⟨j, by simpa [h] using h1, by omega, fun k x hk hkj hx => ?_, h4⟩
      rcases Nat.lt_or_ge i k with hik | hik
      · exact h3 k x hik hkj hx
      · obtain rfl : k = i := by omega
        rw [e] at hx; cases hx; exact h
    · exact ⟨i, by simp [not_lt.1 h], le_rfl, fun k x h1 h2 => absurd h2 (by omega), _, e, not_lt.1 h⟩

/-- C143, partial. With two dates or more, a date after the first and not after the last falls between the two files that are read. Missing: the first date itself, for
which it is wrong. -/
theorem date_partial {t : List ℝ} {a b tcur : ℝ} (h2 : 2 ≤ t.length) (ha : t[0]? = some a) (hb : t[t.length - 1]? = some b) (h : a < tcur) (h' : tcur ≤ b) :
    ∃ (i : ℕ) (x y : ℝ), getIndex t tcur = some (i : ℤ) ∧ t[i]? = some x ∧ t[i + 1]? = some y ∧ x < tcur ∧ tcur ≤ y := by
  obtain ⟨j, h1, -, h3, y, hy, hty⟩ := walk_spec (t := t) (tcur := tcur) (n := t.length - 1) (i := 0) (by omega)
    (fun x hx => by rw [hb] at hx; cases hx; exact h')
  cases j with
  | zero => rw [ha] at hy; cases hy; exact absurd h (not_lt.2 hty)
  | succ i =>
    have hi : i + 1 < t.length := (List.getElem?_eq_some_iff.1 hy).1
    have hx : t[i]? = some t[i] := List.getElem?_eq_getElem (by omega)
    refine ⟨i, t[i], y, ?_, hx, hy, h3 i _ (Nat.zero_le _) (Nat.lt_succ_self _) hx, hty⟩
    rw [getIndex, if_neg (by omega), ha, hb]
    simp only [not_lt.2 h.le, not_lt.2 h', gt_iff_lt, if_false, h1, Option.map_some, Nat.cast_add, Nat.cast_one, add_sub_cancel_right]

/-- C143. Out of the dates, the first or the last two files are read. -/
theorem date_out {t : List ℝ} {a b tcur : ℝ} (h2 : 2 ≤ t.length) (ha : t[0]? = some a) (hb : t[t.length - 1]? = some b) (hab : a ≤ b) :
    (tcur < a → getIndex t tcur = some 0) ∧ (b < tcur → getIndex t tcur = some (((t.length - 2 : ℕ)) : ℤ)) := by
  refine ⟨fun h => ?_, fun h => ?_⟩
  · rw [getIndex, if_neg (by omega), ha, hb]
    simp [h]
  · rw [getIndex, if_neg (by omega), ha, hb]
    simp only [not_lt.2 (hab.trans h.le), gt_iff_lt, h, if_false, if_true, Option.some.injEq]
    omega

/-- C143 (negation). At the first date of the simulation, file number -1 is asked for. -/
theorem date_first_wrong {t : List ℝ} {a b : ℝ} (h2 : 2 ≤ t.length) (ha : t[0]? = some a) (hb : t[t.length - 1]? = some b) (hab : a ≤ b) :
    getIndex t a = some (-1) := by
  rw [getIndex, if_neg (by omega), ha, hb]
  have e : walk t a (t.length - 1) 0 = some 0 := by
    rw [walk.eq_def]
    simp only [ha, gt_iff_lt, lt_irrefl, if_false]
  simp [not_lt.2 hab, e]

example : ∃ (i : ℕ) (x y : ℝ), getIndex [0, 10, 30] 10 = some (i : ℤ) ∧ [(0 : ℝ), 10, 30][i]? = some x ∧ [(0 : ℝ), 10, 30][i + 1]? = some y ∧ x < 10 ∧ 10 ≤ y :=
  date_partial (a := 0) (b := 30) (by simp) rfl rfl (by norm_num) (by norm_num)

/-! ## What the file holds -/

theorem scan_spec (hdus : List String) (names : List String) (status : Bool) (k : ℕ) (hk : k < names.length) :
    (scan hdus status names)[k]? = some (!status && ((names.take (k + 1)).all fun n => hdus.contains n)) := by
  induction names generalizing status k with
  | nil => simp at hk
  | cons n ns ih =>
    cases k with
    | zero => cases status <;> simp [scan, move]
    | succ k =>
      have := ih (move hdus n status) k (by simpa using hk)
      show (scan hdus (move hdus n status) ns)[k]? = _
      rw [this]
      cases status <;> simp [move]

/-- C143, partial. A table is said to be in the file exactly when the file has it, if the file has its number of frequencies and every table that comes before in the
order. Missing: the tables after one that is absent, and the files without the number of frequencies, for which it is wrong. -/
theorem flags_partial (hdus : List String) (temperature : Bool) {k : ℕ} {name : String} (hk : tables[k]? = some name)
    (hbefore : ∀ (j : ℕ) (m : String), j < k → tables[j]? = some m → m ∈ hdus) :
    (readFlags hdus true temperature).inFile[k]? = some (decide (name ∈ hdus)) := by
  obtain ⟨hlt, he⟩ := List.getElem?_eq_some_iff.1 hk
  show (scan hdus (!true) tables)[k]? = _
  rw [scan_spec _ _ _ _ hlt]
  congr 1
  rw [List.take_add_one, hk, List.all_append]
  have : ((tables.take k).all fun n => hdus.contains n) = true := by
    rw [List.all_eq_true]
    intro m hm
    obtain ⟨j, hj⟩ := List.mem_iff_getElem?.1 hm
    have hjk : j < k := by
      have := (List.getElem?_eq_some_iff.1 hj).1
      rw [List.length_take] at this
      omega
    rw [List.getElem?_take_of_lt hjk] at hj
    simpa using hbefore j m hjk hj
  rw [this]
  simp

example : (readFlags ["X0", "J_I", "J_Q"] true true).inFile[2]? = some false := by
  have := flags_partial ["X0", "J_I", "J_Q"] true (k := 2) (name := "J_U") rfl (by
    intro j m hj hm
    interval_cases j <;> (cases hm; decide))
  simpa using this

/-- C143. A table that is said to be in the file is in the file. -/
theorem flags_sound (hdus : List String) (freq temperature : Bool) {k : ℕ} {name : String} (hk : tables[k]? = some name)
    (h : (readFlags hdus freq temperature).inFile[k]? = some true) : name ∈ hdus := by
  obtain ⟨hlt, he⟩ := List.getElem?_eq_some_iff.1 hk
  have h : (scan hdus (!freq) tables)[k]? = some true := h
  rw [scan_spec _ _ _ _ hlt, List.take_add_one, hk, List.all_append] at h
  simp only [Option.some.injEq, Bool.and_eq_true] at h
  simpa using h.2.2

/-- C143 (negation). After a table that the file does not have, none is found, be it there: a file with the emission and the absorption of the intensity alone is taken
for a transparent gas. -/
theorem flags_wrong : ∃ hdus : List String, "J_I" ∈ hdus ∧ "ALPHA_I" ∈ hdus ∧ tables[4]? = some "ALPHA_I" ∧
    (readFlags hdus true true).inFile[0]? = some true ∧ (readFlags hdus true true).inFile[4]? = some false :=
  ⟨["J_I", "ALPHA_I"], by decide, by decide, rfl, by decide, by decide⟩

/-- C143. The first table makes the object read emissions, not temperatures, from then on. -/
theorem mode_ok (hdus : List String) (temperature : Bool) (h : "J_I" ∈ hdus) : (readFlags hdus true temperature).temperature = false := by
  have : (scan hdus (!true) tables).head? = some true := by simp [tables, scan, move, h]
  show (if _ then _ else _) = _
  rw [if_pos this]

/-- C143 (negation). A second file, with temperatures, is read as one with emissions, of which there is no table: the array read next does not exist. -/
theorem mode_wrong (temperature : Bool) : ∃ first second : List String, "J_I" ∈ first ∧ "J_I" ∉ second ∧
    (readFlags second true (readFlags first true temperature).temperature).temperature = false ∧
    (readFlags second true (readFlags first true temperature).temperature).inFile[0]? = some false := by
  refine ⟨["J_I"], ["TEMPERATURE"], by decide, by decide, ?_, ?_⟩
  · rw [mode_ok ["J_I"] temperature (by decide)]
    decide
  · rw [mode_ok ["J_I"] temperature (by decide)]
    decide

/-! ## The tables of coefficients -/

/-- C143 (negation). A table with a value for each cell and each of two frequencies or more is refused. -/
theorem table_refused_wrong {ncells nnu : ℕ} (hc : 0 < ncells) (hn : 2 ≤ nnu) (files : List (List ℝ)) (Xq : List ℝ) (axes : List Interp.Axis)
    (cond : List Interp.Cond) {f : List ℝ} (hf : f ∈ files) (hlen : f.length = ncells * nnu) :
    coefficient ncells files Xq axes cond = .error .thrown := by
  rw [coefficient, if_neg]
  intro h
  have := List.all_eq_true.1 h f hf
  rw [beq_iff_eq, hlen] at this
  nlinarith

/-- C143 (negation). And one with the size that is accepted is read beyond its end: here one cell, one date and two frequencies. -/
theorem table_short_wrong (v : ℝ) : coefficient 1 [[v]] [0, 0, 0, 0, 3 / 2]
    [.nodes [0], .nodes [0], .nodes [0], .nodes [0], .nodes [1, 2]] [.none, .none, .none, .none, .none] = .error .ub := by
  have hnu : (Interp.Axis.nodes [1, 2]).index (3 / 2) .none = .ok (0, 3 / 2) := by
    show Interp.getIndice (3 / 2) .none 1 2 2 (some [1, 2]) = _
    rw [Interp.getIndice, if_neg (by decide), if_neg (by decide)]
    simp only []
    rw [if_neg (by norm_num)]
    show (Interp.search (3 / 2) [1, 2] 2 0).map _ = _
    rw [Interp.search.eq_def]
    norm_num
    rfl
  have h1 : (Interp.Axis.nodes [0]).index 0 .none = .ok (0, 0) := rfl
  rw [coefficient, if_pos (by simp)]
  obtain ⟨f, hf⟩ : ∃ f : ℕ → Interp.Out (Int × ℝ), f = (fun ii => do
      let xq ← Interp.get [(0 : ℝ), 0, 0, 0, 3 / 2] ii
      let c ← Interp.get [Interp.Cond.none, .none, .none, .none, .none] ii
      let ax ← Interp.get [Interp.Axis.nodes [0], .nodes [0], .nodes [0], .nodes [0], .nodes [1, 2]] ii
      ax.index xq c) := ⟨_, rfl⟩
  have f0 : f 0 = .ok (0, 0) := by rw [hf]; exact h1
  have f1 : f 1 = .ok (0, 0) := by rw [hf]; exact h1
  have f2 : f 2 = .ok (0, 0) := by rw [hf]; exact h1
  have f3 : f 3 = .ok (0, 0) := by rw [hf]; exact h1
  have f4 : f 4 = .ok (0, 3 / 2) := by rw [hf]; exact hnu
  have hm : (List.range 5).mapM f = .ok [(0, 0), (0, 0), (0, 0), (0, 0), (0, 3 / 2)] := by
    rw [show List.range 5 = [0, 1, 2, 3, 4] from rfl]
    simp only [List.mapM_cons, f0, f1, f2, f3, f4, List.mapM_nil]
    rfl
  unfold Interp.interpolate
  rw [← hf, hm]
  rfl

/-! ## The motion and the shape -/

/-- C143. Below the last stable orbit, the matter falls with a four-velocity of norm -1, an energy of one and no angular momentum, in any metric that mixes only the date
and the azimuth. -/
theorem fall_ok {g gup : Tensor} {u : Vec} (h : fall g gup = some u) (hsym : g 3 0 = g 0 3)
    (h01 : g 0 1 = 0) (h02 : g 0 2 = 0) (h10 : g 1 0 = 0) (h12 : g 1 2 = 0) (h13 : g 1 3 = 0) (h20 : g 2 0 = 0) (h21 : g 2 1 = 0) (h23 : g 2 3 = 0)
    (h31 : g 3 1 = 0) (h32 : g 3 2 = 0) (hinv0 : gup 0 0 * g 0 0 + gup 0 3 * g 3 0 = 1) (hinv3 : gup 0 0 * g 0 3 + gup 0 3 * g 3 3 = 0) :
    (∑ i, ∑ j, g i j * u i * u j = -1) ∧ (∑ j, g 0 j * u j = -1) ∧ (∑ j, g 3 j * u j = 0) ∧ u 1 ≤ 0 ∧ u 2 = 0 := by
  unfold fall at h
  split_ifs at h with hc
  simp only [Option.some.injEq] at h
  push Not at hc
  obtain ⟨hr, hn⟩ := hc
  obtain ⟨q, hq⟩ : ∃ q, q = √((-1 - gup 0 0) / g 1 1) := ⟨_, rfl⟩
  have hq2 : g 1 1 * (q * q) = -1 - gup 0 0 := by
    rw [hq, Real.mul_self_sqrt hn]
    field_simp
  rw [← hq] at h
  have hq0 : 0 ≤ q := hq ▸ Real.sqrt_nonneg _
  have u0 : u 0 = -gup 0 0 := by rw [← h]; rfl
  have u1 : u 1 = -q := by rw [← h]; rfl
  have u2 : u 2 = 0 := by rw [← h]; rfl
  have u3 : u 3 = -gup 0 3 := by rw [← h]; rfl
  refine ⟨?_, ?_, ?_, by rw [u1]; linarith, u2⟩
  · simp only [Fin.sum_univ_four, h01, h02, h10, h12, h13, h20, h21, h23, h31, h32, u0, u1, u2, u3]
    linear_combination hq2 + gup 0 0 * hinv0 + gup 0 3 * hinv3
  · simp only [Fin.sum_univ_four, h01, h02, u0, u1, u2, u3]
    rw [hsym] at hinv0
    linear_combination -hinv0
  · simp only [Fin.sum_univ_four, h31, h32, u0, u1, u2, u3]
    rw [hsym]
    linear_combination -hinv3

example : ∃ u, fall (Matrix.diagonal ![-1 / 2, 2, 16, 16]) (Matrix.diagonal ![-2, 1 / 2, 1 / 16, 1 / 16]) = some u ∧ u 0 = 2 ∧ u 1 < 0 := by
  have e : fall (Matrix.diagonal ![-1 / 2, 2, 16, 16]) (Matrix.diagonal ![-2, 1 / 2, 1 / 16, 1 / 16]) = some ![2, -√(1 / 2), 0, 0] := by
    unfold fall
    rw [if_neg (by norm_num [Matrix.diagonal])]
    norm_num [Matrix.diagonal]
    decide
  exact ⟨_, e, rfl, neg_neg_of_pos (Real.sqrt_pos.2 (by norm_num))⟩

/-- C143. Being inside is having a latitude whose tangent is below the ratio. -/
theorem inside_iff {H r th : ℝ} (hr : 0 < r) (h0 : 0 < th) (hpi : th < Real.pi) : height H r th < 0 ↔ |Real.cos th / Real.sin th| < H := by
  have hs := Real.sin_pos_of_pos_of_lt_pi h0 hpi
  rw [height, abs_mul, abs_of_pos hr, abs_div, abs_of_pos hs, div_lt_iff₀ hs, sub_neg]
  constructor
  · intro h
    nlinarith
  · intro h
    nlinarith

/-- C143 (negation). The ratio of the height to the radius is set to the smallest colatitude of the grid, an angle: of a grid that begins at π/6 from the axis, places at
π/4 are left out. -/
theorem hover_wrong {rest : List ℝ} {r : ℝ} (hr : 0 < r) :
    ∃ H, hoverOf (Real.pi / 6 :: rest) = some H ∧ Real.pi / 6 < Real.pi / 4 ∧ Real.pi / 4 < Real.pi / 2 ∧ 0 < height H r (Real.pi / 4) := by
  have hp := Real.pi_pos
  have h4 := Real.pi_le_four
  refine ⟨|Real.pi / 6|, rfl, by linarith, by linarith, ?_⟩
  rw [height, Real.cos_pi_div_four, Real.sin_pi_div_four, abs_of_pos (by positivity : (0 : ℝ) < Real.pi / 6), abs_of_pos (by positivity)]
  have h2 : 0 < √(2 : ℝ) := Real.sqrt_pos.2 (by norm_num)
  have : r * (√2 / 2) - Real.pi / 6 * (r * (√2 / 2)) = r * (√2 / 2) * (1 - Real.pi / 6) := by ring
  rw [this]
  have : (0 : ℝ) < 1 - Real.pi / 6 := by linarith
  positivity

/-- C143 (negation). A grid that reaches the axis, which should leave nothing out, leaves nothing in but the equator. -/
theorem hover_axis_wrong {rest : List ℝ} {r th : ℝ} : ∃ H, hoverOf (0 :: rest) = some H ∧ 0 ≤ height H r th := by
  refine ⟨|0|, rfl, ?_⟩
  rw [height, abs_zero, zero_mul, sub_zero]
  exact abs_nonneg _

end Gyoto.SimBridge
