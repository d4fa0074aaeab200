import Verif.Model.Refined
import Mathlib.Tactic.Ring
import Mathlib.Tactic.Linarith
import Mathlib.Tactic.FieldSimp
import Mathlib.Tactic.Positivity
import Mathlib.Tactic.NormNum
import Mathlib.Tactic.FinCases

/-!
# C59: dates of a refined worldline, C58: composite objects
-/

namespace Gyoto.Refined

/-! ## C59 -/

/-- Rank of the `j`-th date, going from the first one in the direction `dir`. -/
def pos (n : Nat) (dir : Int) (j : Nat) : Int := (if dir = 1 then 0 else (n : Int) - 1) + dir * j

theorem get_put {a a' : Arr} {i : Int} {v : ℝ} (h : a.put i v = some a') (k : Int) :
    a'.size = a.size ∧ a'.get k = if k = i then some v else a.get k := by
  unfold Arr.put at h
  split_ifs at h with h1
  cases h
  refine ⟨rfl, ?_⟩
  unfold Arr.get
  by_cases hk : k = i
  · subst hk; simp [h1]
  · by_cases hr : 0 ≤ k ∧ k < a.size
    · have : k.toNat ≠ i.toNat := by omega
      simp [hr, hk, Function.update_of_ne this]
    · simp [hr, hk]

theorem put_some {a : Arr} {i : Int} (v : ℝ) (h : 0 ≤ i ∧ i < a.size) : ∃ a', a.put i v = some a' := by
  unfold Arr.put
  rw [if_pos h]
  exact ⟨_, rfl⟩

theorem pos_bounds {n : Nat} {dir : Int} (hd : dir = 1 ∨ dir = -1) {j : Nat} (h : j < n) : 0 ≤ pos n dir j ∧ pos n dir j < n := by
  unfold pos
  rcases hd with rfl | rfl <;> simp <;> omega

theorem pos_inj {n : Nat} {dir : Int} (hd : dir = 1 ∨ dir = -1) {j l : Nat} (h : pos n dir j = pos n dir l) : j = l := by
  unfold pos at h
  rcases hd with rfl | rfl <;> simp at h <;> omega

theorem fill_ok {n : Nat} {dir : Int} (hd : dir = 1 ∨ dir = -1) (d1 step : ℝ) : ∀ (fuel j : Nat) (a : Arr), a.size = n → 1 ≤ j →
    j ≤ n - 1 → n - 1 - j < fuel → (∀ l < j, a.get (pos n dir l) = some (d1 + l * step)) →
    ∃ a', fill 0 (n - 1) dir step fuel (pos n dir j) a = some (pos n dir (n - 1), a') ∧ a'.size = n ∧
      ∀ l < n - 1, a'.get (pos n dir l) = some (d1 + l * step) := by
  intro fuel
  induction fuel with
  | zero => intro j a _ _ _ h; omega
  | succ fuel ih =>
    intro j a ha h1 hj hf hl
    unfold fill
    by_cases hlast : j = n - 1
    · subst hlast
      rw [if_neg]
      · exact ⟨a, rfl, ha, hl⟩
      · unfold pos
        rcases hd with rfl | rfl <;> simp <;> omega
    · rw [if_pos]
      · have hprev : pos n dir j - dir = pos n dir (j - 1) := by
          unfold pos; push_cast [h1]; ring
        have hnext : pos n dir j + dir = pos n dir (j + 1) := by
          unfold pos; push_cast; ring
        rw [hprev, hl (j - 1) (by omega), Option.bind_some]
        obtain ⟨a', ha'⟩ := put_some (a := a) (i := pos n dir j) (d1 + ((j - 1 : Nat) : ℝ) * step + step)
          (ha ▸ pos_bounds hd (by omega))
        rw [ha', Option.bind_some, hnext]
        have g := get_put ha'
        refine ih (j + 1) a' ((g 0).1.trans ha) (by omega) (by omega) (by omega) fun l hlj => ?_
        rw [(g _).2]
        by_cases hl' : l = j
        · subst hl'
          rw [if_pos rfl]
          push_cast [h1]
          congr 1
          ring
        · rw [if_neg fun e => hl' (pos_inj hd e), hl l (by omega)]
      · unfold pos
        rcases hd with rfl | rfl <;> simp <;> omega

theorem size_eq {d1 d2 stepMax : ℝ} (hs : 0 < stepMax) (hq : |d1 - d2| / stepMax < 2 ^ 64 - 2) :
    ∃ n : Nat, size d1 d2 stepMax = some n ∧ 2 ≤ n ∧ |d2 - d1| / ((n : ℝ) - 1) < stepMax := by
  have h0 : 0 ≤ |d1 - d2| / stepMax := div_nonneg (abs_nonneg _) hs.le
  have hfl : 0 ≤ ⌊|d1 - d2| / stepMax⌋ := Int.floor_nonneg.2 h0
  have hlt := Int.lt_floor_add_one (|d1 - d2| / stepMax)
  have hlt2 : ⌊|d1 - d2| / stepMax⌋ < 2 ^ 64 - 2 := by
    rw [Int.floor_lt]; norm_num at hq ⊢; exact hq
  have e : (((⌊|d1 - d2| / stepMax⌋.toNat : Nat) : ℝ)) = (⌊|d1 - d2| / stepMax⌋ : ℝ) := by
    have : ((⌊|d1 - d2| / stepMax⌋.toNat : Nat) : Int) = ⌊|d1 - d2| / stepMax⌋ := Int.toNat_of_nonneg hfl
    exact_mod_cast congrArg (fun z : Int => (z : ℝ)) this
  refine ⟨⌊|d1 - d2| / stepMax⌋.toNat + 2, ?_, by omega, ?_⟩
  · unfold size
    rw [if_neg hs.ne']
    dsimp only
    rw [if_pos ⟨by linarith, by linarith⟩, Nat.mod_eq_of_lt (by omega)]
  · push_cast
    rw [e, abs_sub_comm d2 d1]
    have hp : (0 : ℝ) < (⌊|d1 - d2| / stepMax⌋ : ℝ) + 2 - 1 := by
      have : (0 : ℝ) ≤ (⌊|d1 - d2| / stepMax⌋ : ℝ) := by exact_mod_cast hfl
      linarith
    rw [div_lt_iff₀ hp]
    rw [div_lt_iff₀ hs] at hlt
    linarith

/-- **C59**: for every pair of dates, in both directions and for every positive step that does not ask for 2^64 dates, the refined
worldline has at least two dates; they are evenly spaced from the first to the last, closer to each other than the step; no access
is made outside the array. -/
theorem refined_dates {d1 d2 stepMax : ℝ} {dir : Int} (hs : 0 < stepMax) (hq : |d1 - d2| / stepMax < 2 ^ 64 - 2)
    (hd : dir = 1 ∨ dir = -1) :
    ∃ a, dates d1 d2 dir stepMax = some a ∧ 2 ≤ a.size ∧ |d2 - d1| / ((a.size : ℝ) - 1) < stepMax ∧
      a.get (pos a.size dir 0) = some d1 ∧ a.get (pos a.size dir (a.size - 1)) = some d2 ∧
      ∀ j < a.size, a.get (pos a.size dir j) = some (d1 + j * ((d2 - d1) / ((a.size : ℝ) - 1))) := by
  obtain ⟨n, hn, h2, hlt⟩ := size_eq hs hq
  have hn1 : (0 : ℝ) < (n : ℝ) - 1 := by
    have : (2 : ℝ) ≤ n := by exact_mod_cast h2
    linarith
  unfold dates
  rw [hn, Option.bind_some]
  dsimp only
  have e0 : (if dir = 1 then (0 : Int) else (n : Int) - 1) = pos n dir 0 := by simp [pos]
  have e1 : pos n dir 0 + dir = pos n dir 1 := by unfold pos; push_cast; ring
  obtain ⟨a, ha⟩ := put_some (a := ⟨n, fun _ => none⟩) (i := pos n dir 0) d1 (pos_bounds hd (by omega))
  rw [e0, ha, Option.bind_some, e1]
  have g := get_put ha
  obtain ⟨b, hb, hbs, hbv⟩ := fill_ok (n := n) hd d1 ((d2 - d1) / ((n : ℝ) - 1)) n 1 a (g 0).1 le_rfl (by omega) (by omega) (fun l hl => by
    obtain rfl : l = 0 := by omega
    rw [(g _).2, if_pos rfl]
    simp)
  rw [hb, Option.bind_some]
  obtain ⟨c, hc⟩ := put_some (a := b) (i := pos n dir (n - 1)) d2 (hbs ▸ pos_bounds hd (by omega))
  have gc := get_put hc
  have hcs : c.size = n := (gc 0).1.trans hbs
  have hall : ∀ j < n, c.get (pos n dir j) = some (d1 + j * ((d2 - d1) / ((n : ℝ) - 1))) := by
    intro j hj
    rw [(gc _).2]
    by_cases hj' : j = n - 1
    · subst hj'
      rw [if_pos rfl]
      have : ((n - 1 : Nat) : ℝ) = (n : ℝ) - 1 := by rw [Nat.cast_sub (by omega)]; simp
      rw [this, mul_div_cancel₀ _ hn1.ne']
      congr 1
      ring
    · rw [if_neg fun e => hj' (pos_inj hd e), hbv j (by omega)]
  refine ⟨c, hc, by omega, by rw [hcs]; exact hlt, ?_, ?_, by rw [hcs]; exact hall⟩
  · rw [hcs, hall 0 (by omega)]; simp
  · rw [hcs, (gc _).2, if_pos rfl]

/-- The step is not checked: with a step of zero the number of dates is undefined. -/
theorem zero_step_wrong (d1 d2 : ℝ) (dir : Int) : dates d1 d2 dir 0 = none := by simp [dates, size]

/-- Backwards from 10 to 9 with steps below 0.3: four intervals of 0.25. -/
example : ∃ a, dates 10 9 (-1) 0.3 = some a ∧ 2 ≤ a.size ∧ a.get (a.size - 1) = some 10 ∧ a.get 0 = some 9 := by
  obtain ⟨a, h, h2, -, h3, h4, -⟩ := refined_dates (d1 := 10) (d2 := 9) (stepMax := 0.3) (dir := -1) (by norm_num) (by norm_num)
    (Or.inr rfl)
  refine ⟨a, h, h2, ?_, ?_⟩
  · simpa [pos] using h3
  · have : pos a.size (-1) (a.size - 1) = 0 := by unfold pos; simp; omega
    rwa [this] at h4

/-! ## C58: hits -/

/-- The part called. -/
def Call.part : Call → Nat
  | .whole i => i
  | .piece i _ => i

/-- Earliest and latest date of the segment a call is about. -/
noncomputable def Call.interval (d1 d2 : ℝ) (a : Option Arr) : Call → ℝ × ℝ
  | .whole _ => (d1, d2)
  | .piece _ n => match a with
    | none => (0, 0)
    | some a => ((a.get n).getD 0, (a.get (n + 1)).getD 0)

/-- The order in which the calls should be made: the latest segment first and, in a segment, the parts in order. -/
def Before (d1 d2 : ℝ) (a : Option Arr) (c c' : Call) : Prop :=
  (c'.interval d1 d2 a).2 ≤ (c.interval d1 d2 a).1 ∨ c.interval d1 d2 a = c'.interval d1 d2 a ∧ c.part < c'.part

theorem sum_zero_iff (l : List Nat) : l.sum = 0 ↔ ∀ x ∈ l, x = 0 := by
  induction l with
  | nil => simp
  | cons a l ih => simp [ih]

theorem mem_parts {answers : List Nat} {i : Nat} :
    i ∈ (List.range answers.length).filter (fun i => decide (answers.getD i 0 ≠ 0)) ↔ answers.getD i 0 ≠ 0 := by
  simp only [List.mem_filter, List.mem_range, decide_eq_true_eq]
  constructor
  · exact fun h => h.2
  · intro h
    refine ⟨?_, h⟩
    by_contra hc
    exact h (by simp [List.getD, List.getElem?_eq_none (not_lt.1 hc)])

/-- **C58**: whatever the parts answer, the composite is hit if and only if some part is; parts that are not hit are never asked to
process anything; every part that is hit is asked exactly once about every date of the segment (apart from the finitely many refined
dates), the latest first and, for the same stretch, in the order of the parts. -/
theorem impact_calls (answers : List Nat) {d1 d2 stepMax : ℝ} (hs : 0 < stepMax) (hq : |d1 - d2| / stepMax < 2 ^ 64 - 2)
    (h12 : d1 < d2) :
    ∃ res a calls, impact answers d1 d2 stepMax = some (res, a, calls) ∧
      (res = 1 ↔ ∃ x ∈ answers, x ≠ 0) ∧ (res = 0 ∨ res = 1) ∧
      (∀ c ∈ calls, answers.getD c.part 0 ≠ 0) ∧
      calls.Pairwise (Before d1 d2 a) ∧
      (∀ i, answers.getD i 0 ≠ 0 → ∀ tau, d1 < tau → tau < d2 →
        (∀ b, a = some b → ∀ n : Nat, b.get n ≠ some tau) →
        ∃! c, c ∈ calls ∧ c.part = i ∧ (c.interval d1 d2 a).1 < tau ∧ tau < (c.interval d1 d2 a).2) := by
  have hsome : answers.sum ≠ 0 ↔ ∃ x ∈ answers, x ≠ 0 := by
    rw [Ne, sum_zero_iff]; push Not; rfl
  have hnone : answers.sum = 0 → ∀ i, answers.getD i 0 = 0 := by
    intro h i
    rw [sum_zero_iff] at h
    by_cases hi : i < answers.length
    · rw [List.getD, List.getElem?_eq_getElem hi]; exact h _ (List.getElem_mem hi)
    · simp [List.getD, List.getElem?_eq_none (not_lt.1 hi)]
  have hsorted : ((List.range answers.length).filter (fun i => decide (answers.getD i 0 ≠ 0))).Pairwise (· < ·) :=
    List.Pairwise.filter _ List.pairwise_lt_range
  unfold impact
  dsimp only
  by_cases h1 : answers.sum = 1
  · rw [if_pos h1]
    refine ⟨1, none, _, rfl, by simp [← hsome, h1], Or.inr rfl, ?_, ?_, ?_⟩
    · intro c hc
      obtain ⟨i, hi, rfl⟩ := List.mem_map.1 hc
      exact mem_parts.1 hi
    · rw [List.pairwise_map]
      exact hsorted.imp fun h => Or.inr ⟨rfl, h⟩
    · intro i hi tau ht1 ht2 _
      refine ⟨.whole i, ⟨List.mem_map.2 ⟨i, mem_parts.2 hi, rfl⟩, rfl, ht1, ht2⟩, ?_⟩
      rintro c ⟨hc, hci, -⟩
      obtain ⟨j, hj, rfl⟩ := List.mem_map.1 hc
      exact congrArg Call.whole hci
  rw [if_neg h1]
  by_cases h2 : answers.sum ≥ 2
  · rw [if_pos h2]
    obtain ⟨a, ha, ha2, -, -, -, hval⟩ := refined_dates (dir := 1) hs hq (Or.inl rfl)
    rw [ha, Option.map_some]
    have hn1 : (0 : ℝ) < (a.size : ℝ) - 1 := by
      have : (2 : ℝ) ≤ a.size := by exact_mod_cast ha2
      linarith
    have hval' : ∀ j : Nat, j < a.size → a.get j = some (d1 + j * ((d2 - d1) / ((a.size : ℝ) - 1))) := by
      intro j hj
      have := hval j hj
      simpa [pos] using this
    have hstep : 0 < (d2 - d1) / ((a.size : ℝ) - 1) := div_pos (by linarith) hn1
    generalize hh : (d2 - d1) / ((a.size : ℝ) - 1) = h at *
    have hint : ∀ i n : Nat, n + 1 < a.size →
        (Call.piece i n).interval d1 d2 (some a) = (d1 + n * h, d1 + (n + 1) * h) := by
      intro i n hn
      have e1 := hval' n (by omega)
      have e2 := hval' (n + 1) hn
      push_cast at e2
      simp [Call.interval, e1, e2]
    refine ⟨1, some a, _, rfl, ⟨fun _ => hsome.1 (by omega), fun _ => rfl⟩, Or.inr rfl, ?_, ?_, ?_⟩
    · intro c hc
      obtain ⟨n, -, hc⟩ := List.mem_flatMap.1 hc
      obtain ⟨i, hi, rfl⟩ := List.mem_map.1 hc
      exact mem_parts.1 hi
    · rw [List.pairwise_flatMap]
      constructor
      · intro n hn
        rw [List.pairwise_map]
        exact hsorted.imp fun h => Or.inr ⟨rfl, h⟩
      · rw [List.pairwise_reverse]
        have : (List.range (a.size - 1)).Pairwise fun x y => x < y ∧ y < a.size - 1 := by
          rw [List.pairwise_iff_getElem]
          intro i j hi hj hij
          simp at hi hj ⊢
          omega
        refine this.imp ?_
        intro x y hxy c hc c' hc'
        obtain ⟨i, -, rfl⟩ := List.mem_map.1 hc
        obtain ⟨j, -, rfl⟩ := List.mem_map.1 hc'
        left
        rw [hint _ _ (by omega), hint _ _ (by omega)]
        dsimp only
        have : (x : ℝ) + 1 ≤ y := by exact_mod_cast hxy.1
        nlinarith
    · intro i hi tau ht1 ht2 hno
      have hfl0 : 0 ≤ ⌊(tau - d1) / h⌋ := Int.floor_nonneg.2 (div_nonneg (by linarith) hstep.le)
      have l1 := Int.floor_le ((tau - d1) / h)
      have l2 := Int.lt_floor_add_one ((tau - d1) / h)
      have hub : (tau - d1) / h < (a.size : ℝ) - 1 := by
        rw [div_lt_iff₀ hstep, ← hh, mul_div_cancel₀ _ hn1.ne']; linarith
      have hfl1 : ⌊(tau - d1) / h⌋ < (a.size : Int) - 1 := by
        rw [Int.floor_lt]; push_cast; exact hub
      rw [le_div_iff₀ hstep] at l1
      rw [div_lt_iff₀ hstep] at l2
      generalize ⌊(tau - d1) / h⌋ = m at *
      obtain ⟨n, rfl⟩ := Int.eq_ofNat_of_zero_le hfl0
      have hn : n + 1 < a.size := by omega
      push_cast at l1 l2
      have hne : d1 + n * h ≠ tau := fun e => hno a rfl n (by rw [hval' n (by omega), e])
      have hlt : d1 + n * h < tau := lt_of_le_of_ne (by linarith) hne
      refine ⟨.piece i n, ⟨?_, rfl, ?_, ?_⟩, ?_⟩
      · rw [List.mem_flatMap]
        refine ⟨n, ?_, List.mem_map.2 ⟨i, mem_parts.2 hi, rfl⟩⟩
        simp; omega
      · rw [hint _ _ hn]; exact hlt
      · rw [hint _ _ hn]; dsimp only; linarith
      · rintro c ⟨hc, hci, hc1, hc2⟩
        obtain ⟨n', hn', hc⟩ := List.mem_flatMap.1 hc
        obtain ⟨j, hj, rfl⟩ := List.mem_map.1 hc
        have hn'' : n' + 1 < a.size := by simp at hn'; omega
        rw [hint _ _ hn''] at hc1 hc2
        dsimp only at hc1 hc2
        have hji : j = i := hci
        subst hji
        congr 1
        have a1 : (n' : ℝ) < n + 1 := by
          by_contra hcon
          push Not at hcon
          nlinarith
        have a2 : (n : ℝ) < n' + 1 := by
          by_contra hcon
          push Not at hcon
          nlinarith
        have b1 : n' < n + 1 := by exact_mod_cast a1
        have b2 : n < n' + 1 := by exact_mod_cast a2
        omega
  · rw [if_neg h2]
    have h0 : answers.sum = 0 := by omega
    refine ⟨0, none, [], rfl, by simp [← hsome, h0], Or.inl rfl, by simp, List.Pairwise.nil, ?_⟩
    intro i hi
    exact absurd (hnone h0 i) hi

/-- Parts 0 and 2 of three are hit: they share the stretches. -/
example : ∃ a calls, impact [1, 0, 1] 0 1 0.4 = some (1, a, calls) ∧ calls.Pairwise (Before 0 1 a) := by
  obtain ⟨res, a, calls, h1, h2, -, -, h3, -⟩ := impact_calls [1, 0, 1] (d1 := 0) (d2 := 1) (stepMax := 0.4) (by norm_num)
    (by norm_num) (by norm_num)
  have : res = 1 := h2.2 ⟨1, by simp, by norm_num⟩
  subst this
  exact ⟨a, calls, h1, h3⟩

/-! ## C58: parts -/

/-- The composite holds exactly the parts of the list, in order. -/
def Holds (c : Comp) (l : List Nat) : Prop := c.cardinal = l.length ∧ ∀ i < l.length, c.elements i = l[i]?

theorem copyTo_eq (src dst : Nat → Option Nat) (n i : Nat) : copyTo src n dst i = if i < n then src i else dst i := by
  induction n with
  | zero => simp [copyTo]
  | succ n ih =>
    unfold copyTo
    by_cases h : i = n
    · subst h; simp
    · rw [Function.update_of_ne h, ih]
      by_cases h2 : i < n
      · rw [if_pos h2, if_pos (by omega)]
      · rw [if_neg h2, if_neg (by omega)]

theorem append_holds {c : Comp} {l : List Nat} (w : Metrics) (e : Nat) (h : Holds c l) : Holds (c.append w e).1 (l ++ [e]) := by
  have key : ∀ i < (l ++ [e]).length,
      Function.update (copyTo c.elements c.cardinal fun _ => none) c.cardinal (some e) i = (l ++ [e])[i]? := by
    intro i hi
    rw [List.length_append, List.length_singleton] at hi
    by_cases hc : i = l.length
    · subst hc
      rw [← h.1, Function.update_self, h.1]
      simp
    · rw [Function.update_of_ne (by rw [h.1]; exact hc), copyTo_eq, if_pos (by rw [h.1]; omega), h.2 i (by omega),
        List.getElem?_append_left (by omega)]
  have hlen : c.cardinal + 1 = (l ++ [e]).length := by simp [h.1]
  unfold Comp.append
  dsimp only
  cases c.gg with
  | none => exact ⟨hlen, key⟩
  | some g => exact ⟨hlen, key⟩

theorem removeLoop_eq (orig : Nat → Option Nat) (i k : Nat) :
    (removeLoop orig i k).2 = (if i < k then k - 1 else k) ∧
    ∀ j < (removeLoop orig i k).2, (removeLoop orig i k).1 j = if j < i then orig j else orig (j + 1) := by
  induction k with
  | zero => simp [removeLoop]
  | succ k ih =>
    unfold removeLoop
    dsimp only
    by_cases hk : k = i
    · subst hk
      rw [if_neg (by simp)]
      refine ⟨?_, ih.2⟩
      rw [ih.1, if_neg (by omega), if_pos (by omega)]; omega
    · rw [if_pos hk]
      have e : (removeLoop orig i k).2 + 1 = if i < k + 1 then k + 1 - 1 else k + 1 := by
        rw [ih.1]; split_ifs <;> omega
      refine ⟨e, fun j hj => ?_⟩
      dsimp only at hj ⊢
      by_cases hj2 : j = (removeLoop orig i k).2
      · rw [hj2, Function.update_self, ih.1]
        by_cases h3 : i < k
        · rw [if_pos h3, if_neg (by omega)]; congr 1; omega
        · rw [if_neg h3, if_pos (by omega)]
      · rw [Function.update_of_ne hj2, ih.2 j (by omega)]

theorem remove_holds {c c' : Comp} {l : List Nat} {i : Nat} (h : Holds c l) (hr : c.remove i = some c') : Holds c' (l.eraseIdx i) := by
  unfold Comp.remove at hr
  split_ifs at hr with hi
  cases hr
  have hil : i < l.length := by rw [← h.1]; omega
  have r := removeLoop_eq c.elements i c.cardinal
  rw [if_pos (by omega)] at r
  refine ⟨by simp [List.length_eraseIdx, hil, h.1], fun j hj => ?_⟩
  rw [List.length_eraseIdx, if_pos hil] at hj
  dsimp only
  rw [r.2 j (by rw [r.1, h.1]; exact hj), List.getElem?_eraseIdx]
  split_ifs
  · exact h.2 j (by omega)
  · exact h.2 (j + 1) (by omega)

/-- Operations on a composite. -/
inductive Op where
  | append (e : Nat)
  | remove (i : Nat)
  | metric (g : Option Nat)

/-- What each operation should do to the list of parts; `none`: refused. -/
def Op.spec (l : List Nat) : Op → Option (List Nat)
  | .append e => some (l ++ [e])
  | .remove i => if i < l.length then some (l.eraseIdx i) else none
  | .metric _ => some l

/-- The operation itself. -/
def Op.run (s : Comp × Metrics) : Op → Option (Comp × Metrics)
  | .append e => some (s.1.append s.2 e)
  | .remove i => (s.1.remove i).map fun c => (c, s.2)
  | .metric g => some (s.1.metric s.2 g)

/-- A sequence of operations; refused operations are errors for the caller and leave everything as it was. -/
def runOps : Comp × Metrics → List Op → Comp × Metrics
  | s, [] => s
  | s, o :: os => runOps ((o.run s).getD s) os

/-- The list after a sequence. -/
def specOps : List Nat → List Op → List Nat
  | l, [] => l
  | l, o :: os => specOps ((o.spec l).getD l) os

theorem run_holds {s : Comp × Metrics} {l : List Nat} (o : Op) (h : Holds s.1 l) :
    ((o.run s).isSome = (o.spec l).isSome) ∧ Holds ((o.run s).getD s).1 ((o.spec l).getD l) := by
  cases o with
  | append e => exact ⟨rfl, append_holds s.2 e h⟩
  | metric g => exact ⟨rfl, h⟩
  | remove i =>
    unfold Op.run Op.spec
    dsimp only
    by_cases hi : i < l.length
    · have hr : s.1.remove i =
          some { s.1 with cardinal := s.1.cardinal - 1, elements := (removeLoop s.1.elements i s.1.cardinal).1 } := by
        unfold Comp.remove
        rw [if_neg (by rw [h.1]; omega)]
      rw [hr, if_pos hi]
      exact ⟨rfl, remove_holds h hr⟩
    · have hr : s.1.remove i = none := by
        unfold Comp.remove
        rw [if_pos (by rw [h.1]; omega)]
      rw [hr, if_neg hi]
      exact ⟨rfl, h⟩

/-- **C58**: whatever parts are appended and removed, indexing gives the parts that a list would hold, in order, and an error beyond
the last. -/
theorem parts_are_list (w : Metrics) (os : List Op) (i : Nat) :
    (runOps (Comp.empty, w) os).1.at i = (specOps [] os)[i]? ∧
    (runOps (Comp.empty, w) os).1.cardinal = (specOps [] os).length := by
  have key : ∀ (os : List Op) (s : Comp × Metrics) (l : List Nat), Holds s.1 l → Holds (runOps s os).1 (specOps l os) := by
    intro os
    induction os with
    | nil => exact fun s l h => h
    | cons o os ih => exact fun s l h => ih _ _ (run_holds o h).2
  have h := key os (Comp.empty, w) [] ⟨rfl, fun i hi => absurd hi (by simp)⟩
  refine ⟨?_, h.1⟩
  unfold Comp.at
  by_cases hi : i < (specOps [] os).length
  · rw [if_neg (by rw [h.1]; omega), h.2 i hi]
  · rw [if_pos (by rw [h.1]; omega), List.getElem?_eq_none (not_lt.1 hi)]

example : (runOps (Comp.empty, fun _ => none) [.append 7, .append 8, .append 9, .remove 1]).1.at 1 = some 9 := by
  rw [(parts_are_list _ _ _).1]; rfl

/-! ## C58: the metric of the parts -/

/-- Every part uses the metric of the composite. -/
def Shared (s : Comp × Metrics) : Prop := ∀ i e, s.1.at i = some e → s.2 e = s.1.gg

theorem setAll_eq (el : Nat → Option Nat) (gg : Option Nat) (n : Nat) (w : Metrics) (e : Nat) :
    setAll el gg n w e = if ∃ i < n, el i = some e then gg else w e := by
  induction n with
  | zero => simp [setAll]
  | succ n ih =>
    unfold setAll
    cases hn : el n with
    | none =>
      dsimp only
      rw [ih]
      have : (∃ i < n, el i = some e) ↔ ∃ i < n + 1, el i = some e := by
        constructor
        · rintro ⟨i, h, h'⟩; exact ⟨i, by omega, h'⟩
        · rintro ⟨i, h, h'⟩
          refine ⟨i, ?_, h'⟩
          by_contra hc
          obtain rfl : i = n := by omega
          rw [hn] at h'; cases h'
      simp only [this]
    | some f =>
      dsimp only
      by_cases hf : e = f
      · subst hf
        rw [Function.update_self, if_pos ⟨n, by omega, hn⟩]
      · rw [Function.update_of_ne hf, ih]
        have : (∃ i < n, el i = some e) ↔ ∃ i < n + 1, el i = some e := by
          constructor
          · rintro ⟨i, h, h'⟩; exact ⟨i, by omega, h'⟩
          · rintro ⟨i, h, h'⟩
            refine ⟨i, ?_, h'⟩
            by_contra hc
            obtain rfl : i = n := by omega
            rw [hn] at h'; cases h'; exact hf rfl
        simp only [this]

/-- **C58**: setting the metric of a composite sets it in every part, and in nothing else. -/
theorem metric_all (c : Comp) (w : Metrics) (g : Option Nat) :
    Shared (c.metric w g) ∧ (c.metric w g).1.gg = g ∧ ∀ e, (∀ i, c.at i ≠ some e) → (c.metric w g).2 e = w e := by
  refine ⟨?_, rfl, ?_⟩
  · intro i e h
    unfold Comp.metric at h ⊢
    unfold Comp.at at h
    dsimp only at h ⊢
    split_ifs at h with hi
    rw [setAll_eq, if_pos ⟨i, by omega, h⟩]
  · intro e he
    unfold Comp.metric
    dsimp only
    rw [setAll_eq, if_neg]
    rintro ⟨i, hi, h⟩
    exact he i (by unfold Comp.at; rw [if_neg (by omega), h])

/-- Operations that keep the composite in a metric. -/
def Op.keepsMetric : Op → Prop
  | .metric none => False
  | _ => True

/-- **C58**, the part that holds: once the composite has a metric and all its parts share it, they share it for ever, whatever is
appended, removed or set (parts appended later included). -/
theorem shared_partial {s : Comp × Metrics} {l : List Nat} (hl : Holds s.1 l) (hg : s.1.gg ≠ none) (hs : Shared s) (os : List Op)
    (ho : ∀ o ∈ os, o.keepsMetric) : Shared (runOps s os) ∧ (runOps s os).1.gg ≠ none := by
  induction os generalizing s l with
  | nil => exact ⟨hs, hg⟩
  | cons o os ih =>
    have hh := (run_holds o hl).2
    refine ih hh ?_ ?_ (fun o' h' => ho o' (List.mem_cons_of_mem _ h'))
    · cases o with
      | append e =>
        obtain ⟨g, hg'⟩ := Option.ne_none_iff_exists'.1 hg
        simp [Op.run, Comp.append, hg']
      | remove i =>
        unfold Op.run Comp.remove
        by_cases hi : i ≥ s.1.cardinal <;> simp [hi, hg]
      | metric g =>
        have := ho _ List.mem_cons_self
        cases g with
        | none => exact this.elim
        | some g => simp [Op.run, Comp.metric]
    · cases o with
      | metric g => exact (metric_all s.1 s.2 g).1
      | append e =>
        obtain ⟨g, hg'⟩ := Option.ne_none_iff_exists'.1 hg
        intro i f hf
        have hat : ((Op.append e).run s |>.getD s).1.at i = (l ++ [e])[i]? := by
          unfold Comp.at
          by_cases hi : i < (l ++ [e]).length
          · have := hh.2 i hi
            rw [if_neg (by rw [hh.1]; exact not_le.2 hi)]
            exact this
          · rw [if_pos (by rw [hh.1]; exact not_lt.1 hi), List.getElem?_eq_none (not_lt.1 hi)]
        rw [hat] at hf
        simp only [Op.run, Option.getD_some, Comp.append, hg']
        by_cases hfe : f = e
        · subst hfe; simp
        · rw [Function.update_of_ne hfe]
          have hi : i < l.length := by
            by_contra hc
            rcases Nat.lt_or_ge i (l.length + 1) with h | h
            · obtain rfl : i = l.length := by omega
              simp at hf; exact hfe hf.symm
            · rw [List.getElem?_eq_none (by simp; omega)] at hf; cases hf
          rw [List.getElem?_append_left hi] at hf
          rw [← hg']
          refine hs i f ?_
          unfold Comp.at
          rw [if_neg (by rw [hl.1]; omega), hl.2 i hi, hf]
      | remove k =>
        unfold Op.run
        dsimp only
        cases hr : s.1.remove k with
        | none => exact hs
        | some c' =>
          have h' := remove_holds hl hr
          intro i f hf
          simp only [Option.map_some, Option.getD_some] at hf ⊢
          have hgg : c'.gg = s.1.gg := by
            unfold Comp.remove at hr
            split_ifs at hr
            cases hr; rfl
          rw [hgg]
          unfold Comp.at at hf
          split_ifs at hf with hi
          rw [h'.2 i (by rw [← h'.1]; omega)] at hf
          have hmem : f ∈ l := List.mem_of_mem_eraseIdx (List.mem_of_getElem? hf)
          obtain ⟨m, hm, hfm⟩ := List.getElem_of_mem hmem
          refine hs m f ?_
          unfold Comp.at
          rw [if_neg (by rw [hl.1]; omega), hl.2 m hm, List.getElem?_eq_getElem hm, hfm]

/-- A part without a metric followed by a part with one: the composite takes the metric of the second and the first stays without. -/
theorem shared_wrong : ∃ (w : Metrics) (os : List Op), (∀ o ∈ os, o.keepsMetric) ∧ ¬ Shared (runOps (Comp.empty, w) os) ∧
    (runOps (Comp.empty, w) os).1.gg ≠ none := by
  refine ⟨fun e => if e = 2 then some 5 else none, [.append 1, .append 2], ?_, ?_, ?_⟩
  · intro o ho
    fin_cases ho <;> trivial
  · intro h
    have := h 0 1 (by rw [(parts_are_list _ _ _).1]; rfl)
    simp [runOps, Op.run, Comp.append, Comp.empty] at this
  · simp [runOps, Op.run, Comp.append, Comp.empty]

/-- **C58**: the radius of a composite is its own or that of one of its parts, and none of these exceeds it. -/
theorem rMax_is_max (own : ℝ) (parts : List ℝ) :
    rMax own parts ∈ own :: parts ∧ ∀ r ∈ own :: parts, r ≤ rMax own parts := by
  unfold rMax
  induction parts generalizing own with
  | nil => simp
  | cons p parts ih =>
    rw [List.foldl_cons]
    by_cases h : own < p
    · rw [if_pos h]
      obtain ⟨a, b⟩ := ih p
      refine ⟨List.mem_cons_of_mem _ a, fun r hr => ?_⟩
      rcases List.mem_cons.1 hr with rfl | hr
      · exact h.le.trans (b p List.mem_cons_self)
      · exact b r hr
    · rw [if_neg h]
      obtain ⟨a, b⟩ := ih own
      refine ⟨?_, fun r hr => ?_⟩
      · rcases List.mem_cons.1 a with e | e
        · rw [e]; exact List.mem_cons_self
        · exact List.mem_cons_of_mem _ (List.mem_cons_of_mem _ e)
      · rcases List.mem_cons.1 hr with rfl | hr
        · exact b _ List.mem_cons_self
        · rcases List.mem_cons.1 hr with rfl | hr
          · exact (not_lt.1 h).trans (b _ List.mem_cons_self)
          · exact b r (List.mem_cons_of_mem _ hr)

example : rMax 0 [3, 8, 5] = 8 := by norm_num [rMax]

end Gyoto.Refined
