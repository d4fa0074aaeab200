import Verif.Model.ChannelInt
import Mathlib.MeasureTheory.Integral.IntervalIntegral.TrapezoidalRule
import Mathlib.Tactic.NormNum
import Mathlib.Tactic.Linarith
import Mathlib.Tactic.FieldSimp

/-! # C36: integrating a spectrum over a channel

The reference is `trapezoidal_integral` of Mathlib: `T_N` is the trapezoidal rule with `N` intervals. -/

namespace Gyoto.ChannelInt

open Finset Filter Topology

/-- The integral computed: enough steps give `v`. -/
def Returns (f : ℝ → ℝ) (nu1 nu2 v : ℝ) : Prop := ∃ k, integrate f nu1 nu2 k = some v

theorem sum_pairs (g : ℕ → ℝ) (N : ℕ) : ∑ i ∈ range (2 * N), g i = ∑ i ∈ range N, (g (2 * i) + g (2 * i + 1)) := by
  induction N with
  | zero => simp
  | succ N ih => rw [show 2 * (N + 1) = 2 * N + 1 + 1 by ring, sum_range_succ, sum_range_succ, ih, sum_range_succ]; ring

/-- Twice finer: the mean of the trapezoidal rule and of the rule of midpoints. -/
theorem trapezoidal_double (f : ℝ → ℝ) {N : ℕ} (hN : 0 < N) (a h : ℝ) :
    trapezoidal_integral f (2 * N) a (a + N * h) =
      (trapezoidal_integral f N a (a + N * h) + ∑ j ∈ range N, f (a + (j + 1 / 2) * h) * h) / 2 := by
  have e : a + N * h = a + ((2 * N : ℕ) : ℝ) * (h / 2) := by push_cast; ring
  conv_lhs => rw [e]
  rw [← sum_trapezoidal_integral_adjacent_intervals (by omega), ← sum_trapezoidal_integral_adjacent_intervals hN,
    sum_pairs, ← sum_add_distrib, sum_div]
  refine sum_congr rfl fun j _ => ?_
  simp only [trapezoidal_integral_one]
  have e1 : a + ((2 * j : ℕ) : ℝ) * (h / 2) = a + j * h := by push_cast; ring
  have e2 : a + (((2 * j : ℕ) : ℝ) + 1) * (h / 2) = a + (j + 1 / 2) * h := by push_cast; ring
  have e3 : a + ((2 * j + 1 : ℕ) : ℝ) * (h / 2) = a + (j + 1 / 2) * h := by push_cast; ring
  have e4 : a + (((2 * j + 1 : ℕ) : ℝ) + 1) * (h / 2) = a + (j + 1) * h := by push_cast; ring
  rw [e1, e2, e3, e4]
  ring

/-- The inner loop over `m` midpoints. -/
theorem sumLoop_eq (f : ℝ → ℝ) {b d : ℝ} (hd : 0 < d) :
    ∀ (m k : ℕ) (nu acc : ℝ), m < k → nu + m * d = b + d / 2 →
      sumLoop f b d k nu acc = some (acc + ∑ j ∈ range m, f (nu + j * d) * d) := by
  intro m
  induction m with
  | zero =>
    intro k nu acc hk he
    obtain ⟨k, rfl⟩ : ∃ k', k = k' + 1 := ⟨k - 1, by omega⟩
    have hno : ¬ nu < b := by simp at he; linarith
    simp [sumLoop, hno]
  | succ m ih =>
    intro k nu acc hk he
    obtain ⟨k, rfl⟩ : ∃ k', k = k' + 1 := ⟨k - 1, by omega⟩
    have hm : (0 : ℝ) ≤ m * d := by positivity
    have hlt : nu < b := by push_cast at he; linarith
    rw [sumLoop, if_pos hlt, ih k (nu + d) _ (by omega) (by push_cast at he; linarith), sum_range_succ']
    have : ∀ j : ℕ, nu + d + (j : ℝ) * d = nu + ((j + 1 : ℕ) : ℝ) * d := fun j => by push_cast; ring
    simp only [this]
    simp
    ring

/-- Steps of the inner loop at the `n`th turn do not exceed `2^n`. -/
theorem sumLoop_short (f : ℝ → ℝ) {b d : ℝ} (hd : 0 < d) :
    ∀ (m k : ℕ) (nu acc : ℝ), k ≤ m → nu + m * d = b + d / 2 → sumLoop f b d k nu acc = none := by
  intro m
  induction m with
  | zero => intro k nu acc hk _; obtain rfl : k = 0 := by omega
            rfl
  | succ m ih =>
    intro k nu acc hk he
    cases k with
    | zero => rfl
    | succ k =>
      have hm : (0 : ℝ) ≤ m * d := by positivity
      have hlt : nu < b := by push_cast at he; linarith
      rw [sumLoop, if_pos hlt]
      exact ih k _ _ (by omega) (by push_cast at he; linarith)

/-- The `n`th value of `Icur`. -/
noncomputable def T (f : ℝ → ℝ) (a b : ℝ) (n : ℕ) : ℝ := trapezoidal_integral f (2 ^ n) a b

/-- One turn of the loop. -/
theorem turn (f : ℝ → ℝ) {a b : ℝ} (hab : a < b) (n k : ℕ) (hk : 2 ^ n < k) :
    sumLoop f b ((b - a) * 2 / 2 ^ n * 0.5) k (a + 0.5 * ((b - a) * 2 / 2 ^ n * 0.5)) (T f a b n) = some (T f a b (n + 1) * 2) := by
  have hp : (0 : ℝ) < 2 ^ n := by positivity
  have e : (b - a) * 2 / 2 ^ n * 0.5 = (b - a) / 2 ^ n := by ring
  have hd : 0 < (b - a) / 2 ^ n := div_pos (by linarith) hp
  rw [e, sumLoop_eq f hd (2 ^ n) k _ _ hk (by push_cast; field_simp; ring)]
  have hb : b = a + ((2 ^ n : ℕ) : ℝ) * ((b - a) / 2 ^ n) := by push_cast; field_simp; ring
  have h2 := trapezoidal_double f (N := 2 ^ n) (by positivity) a ((b - a) / 2 ^ n)
  rw [← hb] at h2
  rw [T, T, show 2 ^ (n + 1) = 2 * 2 ^ n by ring, h2]
  congr 1
  have : ∀ j : ℕ, a + 0.5 * ((b - a) / 2 ^ n) + (j : ℝ) * ((b - a) / 2 ^ n) = a + (j + 1 / 2) * ((b - a) / 2 ^ n) := fun j => by ring
  simp only [this]
  ring

theorem turn_short (f : ℝ → ℝ) {a b : ℝ} (hab : a < b) (n k : ℕ) (hk : k ≤ 2 ^ n) (I : ℝ) :
    sumLoop f b ((b - a) * 2 / 2 ^ n * 0.5) k (a + 0.5 * ((b - a) * 2 / 2 ^ n * 0.5)) I = none := by
  have hp : (0 : ℝ) < 2 ^ n := by positivity
  have e : (b - a) * 2 / 2 ^ n * 0.5 = (b - a) / 2 ^ n := by ring
  have hd : 0 < (b - a) / 2 ^ n := div_pos (by linarith) hp
  rw [e]
  exact sumLoop_short f hd (2 ^ n) k _ _ hk (by push_cast; field_simp; ring)

/-- The test that ends the loop after turn `n`. -/
def Done (f : ℝ → ℝ) (a b : ℝ) (n : ℕ) : Prop := |T f a b (n + 1) - T f a b n| ≤ 1e-2 * T f a b (n + 1)

theorem outer_eq (f : ℝ → ℝ) {a b : ℝ} (hab : a < b) (k : ℕ) (v : ℝ) :
    ∀ m n, outer f a b k m ((b - a) * 2 / 2 ^ n) (T f a b n) = some v ↔
      ∃ j, n ≤ j ∧ j < n + m ∧ 2 ^ j < k ∧ Done f a b j ∧ (∀ i, n ≤ i → i < j → ¬ Done f a b i) ∧ v = T f a b (j + 1) := by
  intro m
  induction m with
  | zero => intro n; simp [outer]; intros; omega
  | succ m ih =>
    intro n
    by_cases hk : 2 ^ n < k
    · simp only [outer, turn f hab n k hk]
      have e1 : T f a b (n + 1) * 2 * 0.5 = T f a b (n + 1) := by ring
      have e2 : (b - a) * 2 / 2 ^ n * 0.5 = (b - a) * 2 / 2 ^ (n + 1) := by rw [pow_succ]; field_simp; ring
      rw [e1, e2]
      by_cases hdone : Done f a b n
      · rw [if_neg (not_lt.2 hdone)]
        constructor
        · intro h
          exact ⟨n, le_rfl, by omega, hk, hdone, fun i h1 h2 => by omega, (Option.some.inj h).symm⟩
        · rintro ⟨j, h1, h2, h3, h4, h5, h6⟩
          rcases Nat.eq_or_lt_of_le h1 with h | h
          · subst h; rw [h6]
          · exact absurd hdone (h5 n le_rfl h)
      · rw [if_pos (not_le.1 hdone), ih (n + 1)]
        constructor
        · rintro ⟨j, h1, h2, h3, h4, h5, h6⟩
          refine ⟨j, by omega, by omega, h3, h4, fun i hi1 hi2 => ?_, h6⟩
          rcases Nat.eq_or_lt_of_le hi1 with h | h
          · subst h; exact hdone
          · exact h5 i h hi2
        · rintro ⟨j, h1, h2, h3, h4, h5, h6⟩
          have : n ≠ j := fun e => hdone (e ▸ h4)
          exact ⟨j, by omega, by omega, h3, h4, fun i hi1 hi2 => h5 i (by omega) hi2, h6⟩
    · simp only [outer, turn_short f hab n k (not_lt.1 hk)]
      constructor
      · intro h; simp at h
      · rintro ⟨j, h1, h2, h3, h4, h5, h6⟩
        have : 2 ^ n ≤ 2 ^ j := Nat.pow_le_pow_right (by omega) h1
        omega

/-- **C36** The integral does not depend on the order of the bounds. -/
theorem integrate_symm (f : ℝ → ℝ) (a b : ℝ) (k : ℕ) : integrate f a b k = integrate f b a k := by
  rcases lt_trichotomy a b with h | h | h
  · simp [integrate, h, not_lt.2 h.le]
  · rw [h]
  · simp [integrate, h, not_lt.2 h.le]

/-- **C36** Between different bounds, the values computed one after the other are those of the trapezoidal rule with 2, 4, 8 …
intervals, and the value returned is the first one that differs from the previous one by no more than a hundredth of itself. -/
theorem integrate_trapezoidal (f : ℝ → ℝ) {a b : ℝ} (hab : a < b) (v : ℝ) :
    Returns f a b v ↔ ∃ n,
      |trapezoidal_integral f (2 ^ (n + 1)) a b - trapezoidal_integral f (2 ^ n) a b| ≤ trapezoidal_integral f (2 ^ (n + 1)) a b / 100 ∧
      (∀ i < n, |trapezoidal_integral f (2 ^ (i + 1)) a b - trapezoidal_integral f (2 ^ i) a b| >
        trapezoidal_integral f (2 ^ (i + 1)) a b / 100) ∧
      v = trapezoidal_integral f (2 ^ (n + 1)) a b := by
  have hdone : ∀ n, Done f a b n ↔
      |trapezoidal_integral f (2 ^ (n + 1)) a b - trapezoidal_integral f (2 ^ n) a b| ≤ trapezoidal_integral f (2 ^ (n + 1)) a b / 100 := by
    intro n
    rw [Done, T, T]
    constructor <;> intro h <;> norm_num at h ⊢ <;> linarith
  have hint : ∀ k, integrate f a b k = outer f a b k k ((b - a) * 2 / 2 ^ 0) (T f a b 0) := by
    intro k
    have h0 : T f a b 0 = (f b + f a) * ((b - a) * 2) * 0.25 := by
      rw [T, pow_zero, trapezoidal_integral_one]; ring
    simp only [integrate, not_lt.2 hab.le, if_false, h0, pow_zero, div_one]
  constructor
  · rintro ⟨k, hk⟩
    rw [hint, outer_eq f hab] at hk
    obtain ⟨j, -, -, -, h4, h5, h6⟩ := hk
    exact ⟨j, (hdone j).1 h4, fun i hi => not_le.1 fun h => h5 i (by omega) hi ((hdone i).2 h), h6⟩
  · rintro ⟨n, h1, h2, h3⟩
    refine ⟨2 ^ n + n + 1, ?_⟩
    rw [hint, outer_eq f hab]
    exact ⟨n, by omega, by have := Nat.one_le_two_pow (n := n); omega, by omega, (hdone n).2 h1,
      fun i _ hi h => absurd ((hdone i).1 h) (not_le.2 (h2 i hi)), h3⟩

/-- **C36** An empty channel gives zero. -/
theorem integrate_empty (f : ℝ → ℝ) (a : ℝ) (k : ℕ) (hk : 0 < k) : integrate f a a k = some 0 := by
  obtain ⟨k, rfl⟩ : ∃ k', k = k' + 1 := ⟨k - 1, by omega⟩
  simp [integrate, outer, sumLoop]

/-- Trapezoids are exact for affine functions. -/
theorem trapezoidal_affine {f : ℝ → ℝ} {a b p q : ℝ} (hab : a < b) (hf : ∀ x, a ≤ x → x ≤ b → f x = p + q * x) {N : ℕ} (hN : 0 < N) :
    trapezoidal_integral f N a b = (b - a) * (p + q * ((a + b) / 2)) := by
  have hb : b = a + N * ((b - a) / N) := by
    have : (N : ℝ) ≠ 0 := by positivity
    field_simp; ring
  have hh : 0 < (b - a) / N := div_pos (by linarith) (by positivity)
  generalize (b - a) / (N : ℝ) = h at hb hh
  have key : ∀ M : ℕ, M ≤ N → ∑ i ∈ range M, trapezoidal_integral f 1 (a + i * h) (a + (i + 1) * h) =
      M * h * (p + q * ((a + (a + M * h)) / 2)) := by
    intro M
    induction M with
    | zero => intro _; simp
    | succ M ih =>
      intro hM
      have hle : (M : ℝ) + 1 ≤ N := by exact_mod_cast hM
      have hM0 : (0 : ℝ) ≤ M := by positivity
      have i1 : a ≤ a + M * h := by nlinarith
      have i2 : a + (M + 1) * h ≤ b := by rw [hb]; nlinarith
      rw [sum_range_succ, ih (by omega), trapezoidal_integral_one, hf _ i1 (by nlinarith), hf _ (by nlinarith) i2]
      push_cast
      ring
  conv_lhs => rw [hb]
  rw [← sum_trapezoidal_integral_adjacent_intervals hN, key N le_rfl, ← hb]
  have : N * h = b - a := by linarith
  rw [this]

/-- **C36 (partial: the integral has to be non-negative, see `integrate_negative_wrong`)** For a spectrum which is affine over the
channel the value is exact, whatever the order of the bounds. -/
theorem integrate_affine_partial {f : ℝ → ℝ} {a b p q : ℝ} (hab : a < b) (hf : ∀ x, a ≤ x → x ≤ b → f x = p + q * x)
    (hpos : 0 ≤ p + q * ((a + b) / 2)) (v : ℝ) :
    (Returns f a b v ↔ v = (b - a) * (p + q * ((a + b) / 2))) ∧ (Returns f b a v ↔ v = (b - a) * (p + q * ((a + b) / 2))) := by
  have h0 : 0 ≤ (b - a) * (p + q * ((a + b) / 2)) := mul_nonneg (by linarith) hpos
  have hT : ∀ n : ℕ, trapezoidal_integral f (2 ^ n) a b = (b - a) * (p + q * ((a + b) / 2)) := fun n =>
    trapezoidal_affine hab hf (by positivity)
  have h1 : Returns f a b v ↔ v = (b - a) * (p + q * ((a + b) / 2)) := by
    rw [integrate_trapezoidal f hab]
    simp only [hT, sub_self, abs_zero]
    constructor
    · rintro ⟨n, -, -, h⟩; exact h
    · intro h; exact ⟨0, by linarith, by simp, h⟩
  refine ⟨h1, ?_⟩
  rw [← h1]
  simp only [Returns, integrate_symm f b a]

/-- **Finding (C36)** If the integral is negative, the loop never ends, although the value is exact from the start: the
tolerance is compared with the value and not its absolute value. -/
theorem integrate_negative_wrong {f : ℝ → ℝ} {a b p q : ℝ} (hab : a < b) (hf : ∀ x, a ≤ x → x ≤ b → f x = p + q * x)
    (hneg : p + q * ((a + b) / 2) < 0) (k : ℕ) : integrate f a b k = none := by
  have h0 : (b - a) * (p + q * ((a + b) / 2)) < 0 := mul_neg_of_pos_of_neg (by linarith) hneg
  have hT : ∀ n : ℕ, trapezoidal_integral f (2 ^ n) a b = (b - a) * (p + q * ((a + b) / 2)) := fun n =>
    trapezoidal_affine hab hf (by positivity)
  cases h : integrate f a b k with
  | none => rfl
  | some v =>
    exfalso
    obtain ⟨n, h1, -, -⟩ := (integrate_trapezoidal f hab v).1 ⟨k, h⟩
    simp only [hT, sub_self, abs_zero] at h1
    linarith

/-- **C36** For a spectrum with bounded second derivative and a positive integral, the loop ends. -/
theorem integrate_terminates {f : ℝ → ℝ} {a b ζ : ℝ} (hab : a < b) (hf : ContDiffOn ℝ 2 f (Set.uIcc a b))
    (hζ : ∀ x, |iteratedDerivWithin 2 f (Set.uIcc a b) x| ≤ ζ) (hpos : 0 < ∫ x in a..b, f x) : ∃ v, Returns f a b v := by
  have hlim : Tendsto (fun n : ℕ => trapezoidal_integral f (2 ^ n) a b) atTop (𝓝 (∫ x in a..b, f x)) := by
    rw [tendsto_iff_norm_sub_tendsto_zero]
    have h0 : 0 ≤ ζ := le_trans (abs_nonneg _) (hζ 0)
    refine squeeze_zero (g := fun n : ℕ => |b - a| ^ 3 * ζ / 12 * ((1 / 4 : ℝ) ^ n)) (fun _ => norm_nonneg _) (fun n => ?_) ?_
    · have h := trapezoidal_error_le_of_c2 hf hζ (N := 2 ^ n) (by positivity)
      rw [trapezoidal_error] at h
      rw [Real.norm_eq_abs]
      refine h.trans (le_of_eq ?_)
      push_cast
      rw [one_div, inv_pow, ← pow_mul, mul_comm n 2, pow_mul]
      norm_num
      field_simp
    · have := (tendsto_pow_atTop_nhds_zero_of_lt_one (r := (1 / 4 : ℝ)) (by norm_num) (by norm_num)).const_mul (|b - a| ^ 3 * ζ / 12)
      simpa using this
  have hlim' := (tendsto_add_atTop_iff_nat 1).2 hlim
  have hsub : Tendsto (fun n : ℕ => |trapezoidal_integral f (2 ^ (n + 1)) a b - trapezoidal_integral f (2 ^ n) a b|) atTop (𝓝 0) := by
    have := (hlim'.sub hlim).abs
    simpa using this
  have hval : Tendsto (fun n : ℕ => trapezoidal_integral f (2 ^ (n + 1)) a b / 100) atTop (𝓝 ((∫ x in a..b, f x) / 100)) :=
    hlim'.div_const 100
  have hev := hsub.eventually_lt hval (by linarith)
  obtain ⟨n, hn⟩ := hev.exists
  classical
  have hex : ∃ n, |trapezoidal_integral f (2 ^ (n + 1)) a b - trapezoidal_integral f (2 ^ n) a b| ≤
      trapezoidal_integral f (2 ^ (n + 1)) a b / 100 := ⟨n, hn.le⟩
  exact ⟨_, (integrate_trapezoidal f hab _).2 ⟨Nat.find hex, Nat.find_spec hex, fun i hi => not_le.1 (Nat.find_min hex hi), rfl⟩⟩

theorem mapM_forall₂ {α β : Type} (g : α → Option β) : ∀ (xs : List α) (l : List β), xs.mapM g = some l →
    List.Forall₂ (fun x y => g x = some y) xs l := by
  intro xs
  induction xs with
  | nil => intro l h; simp at h; subst h; exact .nil
  | cons x xs ih =>
    intro l h
    simp only [List.mapM_cons, Option.bind_eq_bind, Option.bind_eq_some_iff, Option.pure_def, Option.some.injEq] at h
    obtain ⟨y, hy, ys, hys, rfl⟩ := h
    exact .cons hy (ih ys hys)

/-- **C36** Channels: the bounds of channel `i` are those designated by the indices `2i` and `2i+1`. -/
theorem integrateAll_channel {f : ℝ → ℝ} {boundaries : List ℝ} {chaninds : List ℕ} {k nbnu : ℕ} {l : List (Option ℝ)}
    (h : integrateAll f boundaries chaninds k nbnu = some l) :
    l.length = nbnu ∧ ∀ i < nbnu, ∃ i1 i2 nu1 nu2, chaninds[2 * i]? = some i1 ∧ chaninds[2 * i + 1]? = some i2 ∧
      boundaries[i1]? = some nu1 ∧ boundaries[i2]? = some nu2 ∧ l[i]? = some (integrate f nu1 nu2 k) := by
  have hall := mapM_forall₂ _ _ _ h
  have hlen : l.length = nbnu := by simpa using hall.length_eq.symm
  refine ⟨hlen, fun i hi => ?_⟩
  have hg := (List.forall₂_iff_get.1 hall).2 i (by simpa using hi) (by omega)
  simp only [List.get_eq_getElem, List.getElem_range, Option.bind_eq_bind, Option.bind_eq_some_iff, Option.some.injEq] at hg
  obtain ⟨i1, h1, i2, h2, nu1, h3, nu2, h4, h5⟩ := hg
  exact ⟨i1, i2, nu1, nu2, h1, h2, h3, h4, by rw [List.getElem?_eq_getElem (by omega), h5]⟩

/-- A linear spectrum between 1 and 3. -/
example : Returns (fun x => x) 3 1 4 := by
  have := (integrate_affine_partial (f := fun x => x) (a := 1) (b := 3) (p := 0) (q := 1) (by norm_num) (by intros; ring) (by norm_num) 4).2
  exact this.2 (by norm_num)

/-- Two channels sharing a bound. -/
example (f : ℝ → ℝ) (k : ℕ) : integrateAll f [1, 2, 4] [0, 1, 1, 2] k 2 = some [integrate f 1 2 k, integrate f 2 4 k] := by
  simp [integrateAll, List.range_succ]

end Gyoto.ChannelInt
