import Verif.Model.Spectrometer
import Mathlib.Tactic.Ring
import Mathlib.Tactic.FieldSimp
import Mathlib.Tactic.Positivity
import Mathlib.Tactic.Linarith
import Mathlib.Algebra.BigOperators.Group.List.Basic
import Mathlib.Algebra.BigOperators.Group.Finset.Basic

/-!
# Spectral channels tile the band (C40); limits of the band in a unit (C60)

What a program sees of a spectrometer is read by `channel`: the two boundaries of a channel, found through the channel indices, its
midpoint and its width.
-/

namespace Gyoto.Spectrometer

/-! ### Specification -/

/-- A channel: its two limits (Hz), its midpoint and its width. -/
structure Channel where
  lo : ℝ
  hi : ℝ
  mid : ℝ
  width : ℝ

/-- Element `i` of an array that the program takes to have `n` elements. -/
def read {α : Type} (a : Option (List α)) (n i : ℕ) : Option α :=
  if i < n then a.bind fun l => l[i]? else none

/-- Channel `i`, read through the public accessors; `none` if any access is out of bounds. -/
def channel (a : Arrays) (i : ℕ) : Option Channel :=
  (read a.chanind (2 * a.nsamples) (2 * i)).bind fun i1 =>
  (read a.chanind (2 * a.nsamples) (2 * i + 1)).bind fun i2 =>
  (read a.boundaries a.nboundaries i1).bind fun lo =>
  (read a.boundaries a.nboundaries i2).bind fun hi =>
  (read a.midpoints a.nsamples i).bind fun mid =>
  (read a.widths a.nsamples i).map fun width => ⟨lo, hi, mid, width⟩

/-- Frequency of a limit of the band, from the meaning of the four kinds: frequency, its decimal logarithm, wavelength, its decimal
logarithm. -/
noncomputable def frequency (k : Kind) (x : ℝ) : ℝ :=
  match k with
  | .freq => x
  | .freqlog => (10 : ℝ) ^ x
  | .wave => 299792458 / x
  | .wavelog => 299792458 / (10 : ℝ) ^ x

/-- A setter called on a uniform spectrometer. -/
inductive USet where
  | kind (k : Kind)
  | n (n : ℕ)
  | band (b0 b1 : ℝ)

noncomputable def Uniform.apply (u : Uniform) : USet → Uniform
  | .kind k => (u.setKind k).1
  | .n n => (u.setN n).1
  | .band b0 b1 => (u.setBand b0 b1).1

/-- After any sequence of setters. -/
inductive UReach : Uniform → Prop
  | new : UReach Uniform.new
  | apply {u : Uniform} (s : USet) : UReach u → UReach (u.apply s)

/-! ### Uniform spectrometers -/

/-- What `reset_` establishes. -/
def Filled (u : Uniform) : Prop :=
  u.arr.nsamples ≠ 0 → u.arr.nboundaries = u.arr.nsamples + 1 ∧
    u.arr.boundaries = some ((List.range (u.arr.nsamples + 1)).map u.boundary) ∧
    u.arr.chanind = some ((List.range u.arr.nsamples).flatMap fun i => [i, i + 1]) ∧
    u.arr.widths = some ((List.range u.arr.nsamples).map fun i => |u.boundary (i + 1) - u.boundary i|) ∧
    u.arr.midpoints = some ((List.range u.arr.nsamples).map fun i => u.boundary (i + 1) * 0.5 + u.boundary i * 0.5)

theorem reset_filled (u : Uniform) (h : u.arr.nsamples ≠ 0 → u.arr.nboundaries = u.arr.nsamples + 1) : Filled u.reset.1 := by
  unfold Uniform.reset
  split_ifs with hn
  · intro h'
    exact absurd hn h'
  · intro _
    exact ⟨h hn, rfl, rfl, rfl, rfl⟩

theorem reset_n (u : Uniform) : u.reset.1.arr.nsamples = u.arr.nsamples ∧ u.reset.1.arr.nboundaries = u.arr.nboundaries ∧
    u.reset.1.kind = u.kind ∧ u.reset.1.band0 = u.band0 ∧ u.reset.1.band1 = u.band1 := by
  unfold Uniform.reset
  split_ifs <;> exact ⟨rfl, rfl, rfl, rfl, rfl⟩

theorem reach_nb {u : Uniform} (h : UReach u) : u.arr.nsamples ≠ 0 → u.arr.nboundaries = u.arr.nsamples + 1 := by
  induction h with
  | new => intro h; exact absurd rfl h
  | @apply u s h ih =>
    cases s with
    | kind k =>
      obtain ⟨h1, h2, -⟩ := reset_n { u with kind := k }
      show (Uniform.reset { u with kind := k }).1.arr.nsamples ≠ 0 → (Uniform.reset { u with kind := k }).1.arr.nboundaries = (Uniform.reset { u with kind := k }).1.arr.nsamples + 1
      rw [h1, h2]; exact ih
    | n n =>
      obtain ⟨h1, h2, -⟩ := reset_n { u with arr := { u.arr with nsamples := n, nboundaries := n + 1 } }
      intro _
      show (Uniform.reset { u with arr := { u.arr with nsamples := n, nboundaries := n + 1 } }).1.arr.nboundaries = (Uniform.reset { u with arr := { u.arr with nsamples := n, nboundaries := n + 1 } }).1.arr.nsamples + 1
      rw [h1, h2]
    | band b0 b1 =>
      obtain ⟨h1, h2, -⟩ := reset_n { u with band0 := b0, band1 := b1 }
      show (Uniform.reset { u with band0 := b0, band1 := b1 }).1.arr.nsamples ≠ 0 → (Uniform.reset { u with band0 := b0, band1 := b1 }).1.arr.nboundaries = (Uniform.reset { u with band0 := b0, band1 := b1 }).1.arr.nsamples + 1
      rw [h1, h2]; exact ih

theorem reach_filled {u : Uniform} (h : UReach u) : Filled u := by
  cases h with
  | new => intro h; exact absurd rfl h
  | @apply u s h =>
    cases s with
    | kind k =>
      have := reach_nb h
      exact reset_filled { u with kind := k } this
    | n n => exact reset_filled _ (fun _ => rfl)
    | band b0 b1 =>
      have := reach_nb h
      exact reset_filled { u with band0 := b0, band1 := b1 } this

theorem chan_pairs (n i : ℕ) (h : i < n) :
    ((List.range n).flatMap fun i => [i, i + 1])[2 * i]? = some i ∧
      ((List.range n).flatMap fun i => [i, i + 1])[2 * i + 1]? = some (i + 1) := by
  have hl : ∀ n, ((List.range n).flatMap fun i => [i, i + 1]).length = 2 * n := by
    intro n
    induction n with
    | zero => rfl
    | succ n ih => rw [List.range_succ, List.flatMap_append, List.length_append, ih]; simp; ring
  induction n with
  | zero => omega
  | succ n ih =>
    rw [List.range_succ, List.flatMap_append]
    by_cases hi : i < n
    · rw [List.getElem?_append_left (by rw [hl]; omega), List.getElem?_append_left (by rw [hl]; omega)]
      exact ih hi
    · have : i = n := by omega
      subst this
      rw [List.getElem?_append_right (by rw [hl]), List.getElem?_append_right (by rw [hl]; omega), hl]
      constructor
      · simp
      · have : 2 * i + 1 - 2 * i = 1 := by omega
        rw [this]; simp

theorem channel_of_filled (u : Uniform) (h : Filled u) (i : ℕ) (hi : i < u.arr.nsamples) :
    channel u.arr i = some ⟨u.boundary i, u.boundary (i + 1), u.boundary (i + 1) * 0.5 + u.boundary i * 0.5,
      |u.boundary (i + 1) - u.boundary i|⟩ := by
  obtain ⟨hb, h1, h2, h3, h4⟩ := h (by omega)
  obtain ⟨p1, p2⟩ := chan_pairs u.arr.nsamples i hi
  have l1 : 2 * i < 2 * u.arr.nsamples := by omega
  have l2 : 2 * i + 1 < 2 * u.arr.nsamples := by omega
  have l3 : i < u.arr.nsamples + 1 := by omega
  have l4 : i + 1 < u.arr.nsamples + 1 := by omega
  simp only [channel, read, h1, h2, h3, h4, hb, if_pos l1, if_pos l2, Option.bind_some, p1, p2, if_pos l3, if_pos l4, if_pos hi]
  simp [l3, hi]

theorem boundary_eq (u : Uniform) (i : ℕ)
    (h : u.kind = .wave → u.band0 + (i : ℝ) * (u.band1 - u.band0) / (u.arr.nsamples : ℝ) ≠ 0) :
    u.boundary i = frequency u.kind (u.band0 + (i : ℝ) * (u.band1 - u.band0) / (u.arr.nsamples : ℝ)) := by
  have hp : ∀ x : ℝ, (10 : ℝ) ^ x ≠ 0 := fun x => (Real.rpow_pos_of_pos (by norm_num) x).ne'
  unfold Uniform.boundary
  cases hk : u.kind with
  | freq => simp [frequency]
  | freqlog => simp [frequency]
  | wave => simp [frequency, h hk, c]
  | wavelog => simp [frequency, hp, c]

/-- **C40**: a uniform spectrometer's channels tile the band: the first starts at the first limit, the last ends at the second one,
each starts where the previous one ends; midpoints are half way, widths are the distance between the limits. -/
theorem uniform_tiles {u : Uniform} (h : UReach u) (hn : u.arr.nsamples ≠ 0)
    (h0 : u.kind = .wave → u.band0 ≠ 0) (h1 : u.kind = .wave → u.band1 ≠ 0) :
    ∃ ch : ℕ → Channel, (∀ i < u.arr.nsamples, channel u.arr i = some (ch i)) ∧
      (ch 0).lo = frequency u.kind u.band0 ∧
      (ch (u.arr.nsamples - 1)).hi = frequency u.kind u.band1 ∧
      (∀ i, (ch (i + 1)).lo = (ch i).hi) ∧
      (∀ i, (ch i).mid = ((ch i).lo + (ch i).hi) / 2) ∧
      (∀ i, (ch i).width = |(ch i).hi - (ch i).lo|) := by
  have hn' : (u.arr.nsamples : ℝ) ≠ 0 := Nat.cast_ne_zero.mpr hn
  refine ⟨_, fun i hi => channel_of_filled u (reach_filled h) i hi, ?_, ?_, fun i => rfl, fun i => ?_, fun i => rfl⟩
  · show u.boundary 0 = _
    have e : u.band0 + ((0 : ℕ) : ℝ) * (u.band1 - u.band0) / (u.arr.nsamples : ℝ) = u.band0 := by simp
    rw [boundary_eq u 0 (by rw [e]; exact h0), e]
  · show u.boundary (u.arr.nsamples - 1 + 1) = _
    rw [Nat.sub_add_cancel (Nat.one_le_iff_ne_zero.mpr hn)]
    have e : u.band0 + (u.arr.nsamples : ℝ) * (u.band1 - u.band0) / (u.arr.nsamples : ℝ) = u.band1 := by
      field_simp; ring
    rw [boundary_eq u _ (by rw [e]; exact h1), e]
  · show u.boundary (i + 1) * 0.5 + u.boundary i * 0.5 = (u.boundary i + u.boundary (i + 1)) / 2
    ring

/-- No wavelength of the band's grid is zero: the band does not contain wavelength 0. -/
def NoZero (u : Uniform) : Prop := u.kind = .wave → (0 < u.band0 ∧ 0 < u.band1)

theorem grid_pos (u : Uniform) (h0 : 0 < u.band0) (h1 : 0 < u.band1) (i : ℕ) (hi : i ≤ u.arr.nsamples) (hn : u.arr.nsamples ≠ 0) :
    0 < u.band0 + (i : ℝ) * (u.band1 - u.band0) / (u.arr.nsamples : ℝ) := by
  have hn' : (0 : ℝ) < u.arr.nsamples := Nat.cast_pos.mpr (Nat.pos_of_ne_zero hn)
  have hi' : (i : ℝ) ≤ u.arr.nsamples := Nat.cast_le.mpr hi
  have e : u.band0 + (i : ℝ) * (u.band1 - u.band0) / (u.arr.nsamples : ℝ) =
      (u.band0 * (u.arr.nsamples - i) + u.band1 * i) / u.arr.nsamples := by
    field_simp; ring
  rw [e]
  apply div_pos _ hn'
  rcases Nat.eq_zero_or_pos i with h | h
  · subst h; simp; positivity
  · have : (0 : ℝ) < i := Nat.cast_pos.mpr h
    have : 0 ≤ u.band0 * ((u.arr.nsamples : ℝ) - i) := mul_nonneg h0.le (by linarith)
    have : 0 < u.band1 * (i : ℝ) := by positivity
    linarith

/-- **C40**: channels are evenly spaced, in the quantity the kind is named after. -/
theorem uniform_even {u : Uniform} (h : UReach u) (hz : NoZero u) (i : ℕ) (hi : i < u.arr.nsamples) :
    ∃ ch, channel u.arr i = some ch ∧
      (u.kind = .freq → ch.hi - ch.lo = (u.band1 - u.band0) / u.arr.nsamples) ∧
      (u.kind = .wave → 299792458 / ch.hi - 299792458 / ch.lo = (u.band1 - u.band0) / u.arr.nsamples) ∧
      (u.kind = .freqlog → Real.logb 10 ch.hi - Real.logb 10 ch.lo = (u.band1 - u.band0) / u.arr.nsamples) ∧
      (u.kind = .wavelog →
        Real.logb 10 (299792458 / ch.hi) - Real.logb 10 (299792458 / ch.lo) = (u.band1 - u.band0) / u.arr.nsamples) := by
  have hn : u.arr.nsamples ≠ 0 := by omega
  have hn' : (u.arr.nsamples : ℝ) ≠ 0 := Nat.cast_ne_zero.mpr hn
  refine ⟨_, channel_of_filled u (reach_filled h) i hi, ?_⟩
  have b0 := boundary_eq u i (fun hk => (grid_pos u (hz hk).1 (hz hk).2 i hi.le hn).ne')
  have b1 := boundary_eq u (i + 1) (fun hk => (grid_pos u (hz hk).1 (hz hk).2 (i + 1) hi hn).ne')
  simp only [b0, b1]
  have e : (u.band0 + ((i + 1 : ℕ) : ℝ) * (u.band1 - u.band0) / (u.arr.nsamples : ℝ)) -
      (u.band0 + (i : ℝ) * (u.band1 - u.band0) / (u.arr.nsamples : ℝ)) = (u.band1 - u.band0) / u.arr.nsamples := by
    push_cast; field_simp; ring
  have hc : (299792458 : ℝ) ≠ 0 := by norm_num
  refine ⟨fun hk => ?_, fun hk => ?_, fun hk => ?_, fun hk => ?_⟩
  · simp only [hk, frequency]; exact e
  · simp only [hk, frequency]
    rw [div_div_cancel₀ hc, div_div_cancel₀ hc]; exact e
  · simp only [hk, frequency]
    rw [Real.logb_rpow (by norm_num) (by norm_num), Real.logb_rpow (by norm_num) (by norm_num)]; exact e
  · simp only [hk, frequency]
    rw [div_div_cancel₀ hc, div_div_cancel₀ hc, Real.logb_rpow (by norm_num) (by norm_num),
      Real.logb_rpow (by norm_num) (by norm_num)]; exact e

theorem frequency_mono (k : Kind) :
    (∀ x y, (k = .wave → 0 < x) → x ≤ y → frequency k x ≤ frequency k y) ∨
      (∀ x y, (k = .wave → 0 < x) → x ≤ y → frequency k y ≤ frequency k x) := by
  cases k with
  | freq => exact Or.inl fun x y _ h => h
  | freqlog => exact Or.inl fun x y _ h => Real.rpow_le_rpow_of_exponent_le (by norm_num) h
  | wave => exact Or.inr fun x y h0 h => div_le_div_of_nonneg_left (by norm_num) (h0 rfl) h
  | wavelog =>
    exact Or.inr fun x y _ h => div_le_div_of_nonneg_left (by norm_num) (Real.rpow_pos_of_pos (by norm_num) _)
      (Real.rpow_le_rpow_of_exponent_le (by norm_num) h)

/-- Sum of distances along a monotone sequence. -/
theorem sum_abs_mono (f : ℕ → ℝ) (n : ℕ) (h : (∀ i < n, f i ≤ f (i + 1)) ∨ (∀ i < n, f (i + 1) ≤ f i)) :
    ((List.range n).map fun i => |f (i + 1) - f i|).sum = |f n - f 0| := by
  rcases h with h | h
  · have : ∀ m ≤ n, ((List.range m).map fun i => |f (i + 1) - f i|).sum = f m - f 0 ∧ f 0 ≤ f m := by
      intro m hm
      induction m with
      | zero => simp
      | succ m ih =>
        obtain ⟨i1, i2⟩ := ih (by omega)
        rw [List.range_succ, List.map_append, List.sum_append, i1]
        have := h m (by omega)
        simp only [List.map_cons, List.map_nil, List.sum_cons, List.sum_nil]
        rw [abs_of_nonneg (by linarith)]
        exact ⟨by ring, by linarith⟩
    obtain ⟨i1, i2⟩ := this n le_rfl
    rw [i1, abs_of_nonneg (by linarith)]
  · have : ∀ m ≤ n, ((List.range m).map fun i => |f (i + 1) - f i|).sum = f 0 - f m ∧ f m ≤ f 0 := by
      intro m hm
      induction m with
      | zero => simp
      | succ m ih =>
        obtain ⟨i1, i2⟩ := ih (by omega)
        rw [List.range_succ, List.map_append, List.sum_append, i1]
        have := h m (by omega)
        simp only [List.map_cons, List.map_nil, List.sum_cons, List.sum_nil]
        rw [abs_of_nonpos (by linarith)]
        exact ⟨by ring, by linarith⟩
    obtain ⟨i1, i2⟩ := this n le_rfl
    rw [i1, abs_of_nonpos (by linarith)]; ring

/-- **C40**: the widths add up to the width of the band. -/
theorem uniform_widths {u : Uniform} (h : UReach u) (hz : NoZero u) (hn : u.arr.nsamples ≠ 0) :
    ∃ ws, u.arr.widths = some ws ∧ ws.length = u.arr.nsamples ∧
      ws.sum = |frequency u.kind u.band1 - frequency u.kind u.band0| := by
  obtain ⟨-, -, -, h3, -⟩ := reach_filled h hn
  have hn' : (u.arr.nsamples : ℝ) ≠ 0 := Nat.cast_ne_zero.mpr hn
  have hpos : (0 : ℝ) < u.arr.nsamples := Nat.cast_pos.mpr (Nat.pos_of_ne_zero hn)
  refine ⟨_, h3, by simp, ?_⟩
  set g : ℕ → ℝ := fun i => u.band0 + (i : ℝ) * (u.band1 - u.band0) / (u.arr.nsamples : ℝ) with hg
  have hb : ∀ i ≤ u.arr.nsamples, u.boundary i = frequency u.kind (g i) := fun i hi =>
    boundary_eq u i (fun hk => (grid_pos u (hz hk).1 (hz hk).2 i hi hn).ne')
  have hgp : ∀ i ≤ u.arr.nsamples, u.kind = .wave → 0 < g i := fun i hi hk => grid_pos u (hz hk).1 (hz hk).2 i hi hn
  have hstep : ∀ i : ℕ, g (i + 1) - g i = (u.band1 - u.band0) / u.arr.nsamples := by
    intro i; simp only [hg]; push_cast; field_simp; ring
  have e0 : g 0 = u.band0 := by simp [hg]
  have e1 : g u.arr.nsamples = u.band1 := by simp only [hg]; field_simp; ring
  rw [sum_abs_mono u.boundary, hb _ le_rfl, hb 0 (Nat.zero_le _), e0, e1]
  rcases le_total u.band0 u.band1 with hle | hle
  · have hs : ∀ i, g i ≤ g (i + 1) := fun i => by
      have := hstep i
      have : 0 ≤ (u.band1 - u.band0) / (u.arr.nsamples : ℝ) := div_nonneg (by linarith) hpos.le
      linarith
    rcases frequency_mono u.kind with m | m
    · left; intro i hi; rw [hb i hi.le, hb (i + 1) hi]; exact m _ _ (hgp i hi.le) (hs i)
    · right; intro i hi; rw [hb i hi.le, hb (i + 1) hi]; exact m _ _ (hgp i hi.le) (hs i)
  · have hs : ∀ i, g (i + 1) ≤ g i := fun i => by
      have := hstep i
      have : (u.band1 - u.band0) / (u.arr.nsamples : ℝ) ≤ 0 := div_nonpos_of_nonpos_of_nonneg (by linarith) hpos.le
      linarith
    rcases frequency_mono u.kind with m | m
    · right; intro i hi; rw [hb i hi.le, hb (i + 1) hi]; exact m _ _ (hgp (i + 1) hi) (hs i)
    · left; intro i hi; rw [hb i hi.le, hb (i + 1) hi]; exact m _ _ (hgp (i + 1) hi) (hs i)

/-- The setters do what they say: the number of channels, kind and band are the last ones set. -/
theorem setters (u : Uniform) (k : Kind) (n : ℕ) (b0 b1 : ℝ) :
    (u.apply (.kind k)).kind = k ∧ (u.apply (.n n)).arr.nsamples = n ∧ (u.apply (.band b0 b1)).band0 = b0 ∧
      (u.apply (.band b0 b1)).band1 = b1 :=
  ⟨(reset_n _).2.2.1, (reset_n _).1, (reset_n _).2.2.2.1, (reset_n _).2.2.2.2⟩

/-! ### Composite spectrometers -/

/-- Arrays of the announced sizes, with channel indices inside them. -/
structure Sound (a : Arrays) : Prop where
  b : ∃ l, memcpy a.boundaries a.nboundaries = some l ∧ l.length = a.nboundaries
  w : ∃ l, memcpy a.widths a.nsamples = some l ∧ l.length = a.nsamples
  m : ∃ l, memcpy a.midpoints a.nsamples = some l ∧ l.length = a.nsamples
  c : ∃ l, memcpy a.chanind (2 * a.nsamples) = some l ∧ l.length = 2 * a.nsamples ∧ ∀ j ∈ l, j < a.nboundaries

theorem read_memcpy {α : Type} {a : Option (List α)} {n : ℕ} {l : List α} (h : memcpy a n = some l) (hl : l.length = n) (i : ℕ) :
    read a n i = l[i]? := by
  unfold memcpy at h
  unfold read
  split_ifs at h with h0
  · subst h0
    cases h
    simp
  · rw [Option.bind_eq_some_iff] at h
    obtain ⟨l', rfl, h⟩ := h
    split_ifs at h with h1
    · cases h
      split_ifs with hi
      · simp [hi]
      · simp; omega

theorem memcpy_full {α : Type} (l : List α) (n : ℕ) (h : l.length = n) : memcpy (some l) n = some l := by
  unfold memcpy
  split_ifs with h0
  · subst h0; rw [List.length_eq_zero_iff.mp h]
  · subst h; simp

/-- Channel `i` in terms of the four arrays. -/
def channelOf (b : List ℝ) (ci : List ℕ) (m w : List ℝ) (i : ℕ) : Option Channel :=
  (ci[2 * i]?).bind fun i1 => (ci[2 * i + 1]?).bind fun i2 => (b[i1]?).bind fun lo => (b[i2]?).bind fun hi =>
    (m[i]?).bind fun mid => (w[i]?).map fun width => ⟨lo, hi, mid, width⟩

theorem channel_eq {a : Arrays} {b w m : List ℝ} {ci : List ℕ} (hb : memcpy a.boundaries a.nboundaries = some b)
    (lb : b.length = a.nboundaries) (hw : memcpy a.widths a.nsamples = some w) (lw : w.length = a.nsamples)
    (hm : memcpy a.midpoints a.nsamples = some m) (lm : m.length = a.nsamples)
    (hc : memcpy a.chanind (2 * a.nsamples) = some ci) (lc : ci.length = 2 * a.nsamples) (i : ℕ) :
    channel a i = channelOf b ci m w i := by
  unfold channel channelOf
  simp only [read_memcpy hb lb, read_memcpy hw lw, read_memcpy hm lm, read_memcpy hc lc]

/-- A channel of a piece in the middle. -/
theorem channelOf_mid (b1 b2 b3 : List ℝ) (c1 c2 c3 : List ℕ) (m1 m2 m3 w1 w2 w3 : List ℝ) (n k i : ℕ)
    (hc1 : c1.length = 2 * n) (hm1 : m1.length = n) (hw1 : w1.length = n)
    (hc2 : c2.length = 2 * k) (hm2 : m2.length = k) (hw2 : w2.length = k) (hi : i < k) (hin : ∀ j ∈ c2, j < b2.length) :
    channelOf (b1 ++ (b2 ++ b3)) (c1 ++ (c2.map (· + b1.length) ++ c3)) (m1 ++ (m2 ++ m3)) (w1 ++ (w2 ++ w3)) (n + i) =
      channelOf b2 c2 m2 w2 i := by
  have g : ∀ {α : Type} (x y z : List α) (p q : ℕ), x.length = p → q < y.length → (x ++ (y ++ z))[p + q]? = y[q]? := by
    intro α x y z p q hp hq
    rw [List.getElem?_append_right (by omega), List.getElem?_append_left (by omega)]
    congr 1; omega
  unfold channelOf
  rw [show 2 * (n + i) = 2 * n + 2 * i by ring, show 2 * n + 2 * i + 1 = 2 * n + (2 * i + 1) by ring,
    g c1 (c2.map (· + b1.length)) c3 _ _ hc1 (by rw [List.length_map]; omega),
    g c1 (c2.map (· + b1.length)) c3 _ _ hc1 (by rw [List.length_map]; omega),
    g m1 m2 m3 _ _ hm1 (by omega), g w1 w2 w3 _ _ hw1 (by omega), List.getElem?_map, List.getElem?_map]
  have hx : ∃ x, c2[2 * i]? = some x ∧ x < b2.length :=
    ⟨c2[2 * i], List.getElem?_eq_getElem _, hin _ (List.getElem_mem (by omega))⟩
  have hy : ∃ y, c2[2 * i + 1]? = some y ∧ y < b2.length :=
    ⟨c2[2 * i + 1], List.getElem?_eq_getElem _, hin _ (List.getElem_mem (by omega))⟩
  obtain ⟨x, hx, hx'⟩ := hx
  obtain ⟨y, hy, hy'⟩ := hy
  rw [hx, hy]
  simp only [Option.map_some, Option.bind_some]
  rw [show x + b1.length = b1.length + x by ring, show y + b1.length = b1.length + y by ring,
    g b1 b2 b3 _ _ rfl hx', g b1 b2 b3 _ _ rfl hy']

/-- Invariant of the loop of `tell`. -/
structure AccOk (acc : Acc) : Prop where
  b : acc.boundaries.length = acc.boffset
  w : acc.widths.length = acc.offset
  m : acc.midpoints.length = acc.offset
  c : acc.chanind.length = 2 * acc.offset
  i : ∀ j ∈ acc.chanind, j < acc.boffset

theorem tellPart_ok {acc : Acc} (ha : AccOk acc) {e : Arrays} (he : Sound e) :
    ∃ acc', tellPart acc e = some acc' ∧ AccOk acc' ∧ acc'.boffset = acc.boffset + e.nboundaries ∧
      acc'.offset = acc.offset + e.nsamples := by
  obtain ⟨⟨b, hb, lb⟩, ⟨w, hw, lw⟩, ⟨m, hm, lm⟩, ⟨ci, hc, lc, ic⟩⟩ := he
  have e1 : tellPart acc e = some ⟨acc.boundaries ++ b, acc.widths ++ w, acc.midpoints ++ m,
      acc.chanind ++ ci.map (· + acc.boffset), acc.boffset + e.nboundaries, acc.offset + e.nsamples⟩ := by
    simp only [tellPart, hb, hw, hm, hc, Option.bind_some, Option.map_some]
  refine ⟨_, e1, ⟨?_, ?_, ?_, ?_, ?_⟩, rfl, rfl⟩
  · simp [ha.b, lb]
  · simp [ha.w, lw]
  · simp [ha.m, lm]
  · simp [ha.c, lc]; ring
  · intro j hj
    simp only [List.mem_append, List.mem_map] at hj
    rcases hj with hj | ⟨k, hk, rfl⟩
    · have := ha.i j hj; show j < acc.boffset + e.nboundaries; omega
    · have := ic k hk; show k + acc.boffset < acc.boffset + e.nboundaries; omega

theorem tellFold_ok (parts : List Arrays) (h : ∀ e ∈ parts, Sound e) (acc : Acc) (ha : AccOk acc) :
    ∃ acc', parts.foldlM tellPart acc = some acc' ∧ AccOk acc' ∧
      acc'.boffset = acc.boffset + (parts.map (·.nboundaries)).sum ∧
      acc'.offset = acc.offset + (parts.map (·.nsamples)).sum ∧
      (∃ bs ws ms cs, acc'.boundaries = acc.boundaries ++ bs ∧ acc'.widths = acc.widths ++ ws ∧
        acc'.midpoints = acc.midpoints ++ ms ∧ acc'.chanind = acc.chanind ++ cs) := by
  induction parts generalizing acc with
  | nil => exact ⟨acc, rfl, ha, by simp, by simp, [], [], [], [], by simp⟩
  | cons e l ih =>
    obtain ⟨a1, h1, o1, hb1, hs1⟩ := tellPart_ok ha (h e (by simp))
    obtain ⟨a2, h2, o2, hb2, hs2, bs, ws, ms, cs, e1, e2, e3, e4⟩ := ih (fun x hx => h x (by simp [hx])) a1 o1
    refine ⟨a2, ?_, o2, ?_, ?_, ?_⟩
    · rw [List.foldlM_cons, h1]; exact h2
    · rw [hb2, hb1]; simp; ring
    · rw [hs2, hs1]; simp; ring
    · simp only [tellPart, Option.bind_eq_some_iff, Option.map_eq_some_iff] at h1
      obtain ⟨b, -, w, -, m, -, ci, -, rfl⟩ := h1
      exact ⟨b ++ bs, w ++ ws, m ++ ms, ci.map (· + acc.boffset) ++ cs, by simp [e1], by simp [e2], by simp [e3], by simp [e4]⟩

theorem accOk_start : AccOk ⟨[], [], [], [], 0, 0⟩ := ⟨rfl, rfl, rfl, rfl, by simp⟩

/-- **C40**: the composite's channels are those of its parts, in order: channel `j` of a part comes after all channels of the parts
before it, and has the same limits, midpoint and width. -/
theorem tell_concat (parts : List Arrays) (h : ∀ e ∈ parts, Sound e) :
    ∃ a, tell parts = some a ∧ Sound a ∧ a.nsamples = (parts.map (·.nsamples)).sum ∧
      a.nboundaries = (parts.map (·.nboundaries)).sum ∧
      ∀ l1 e l2, parts = l1 ++ e :: l2 → ∀ j < e.nsamples,
        channel a ((l1.map (·.nsamples)).sum + j) = channel e j := by
  obtain ⟨acc, hf, ok, hb, hs, -⟩ := tellFold_ok parts h _ accOk_start
  simp only [zero_add] at hb hs
  have mb := memcpy_full acc.boundaries _ (ok.b.trans hb)
  have mw := memcpy_full acc.widths _ (ok.w.trans hs)
  have mm := memcpy_full acc.midpoints _ (ok.m.trans hs)
  have mc := memcpy_full acc.chanind _ (ok.c.trans (by rw [hs]))
  refine ⟨_, by unfold tell; rw [hf]; rfl, ⟨⟨_, mb, ok.b.trans hb⟩, ⟨_, mw, ok.w.trans hs⟩, ⟨_, mm, ok.m.trans hs⟩,
    ⟨_, mc, ok.c.trans (by rw [hs]), fun j hj => by have := ok.i j hj; rw [hb] at this; exact this⟩⟩, rfl, rfl, ?_⟩
  intro l1 e l2 hp j hj
  rw [channel_eq mb (ok.b.trans hb) mw (ok.w.trans hs) mm (ok.m.trans hs) mc (ok.c.trans (by rw [hs]))]
  obtain ⟨a1, h1, o1, b1, s1, -⟩ := tellFold_ok l1 (fun x hx => h x (by rw [hp]; simp [hx])) _ accOk_start
  simp only [zero_add] at b1 s1
  have he : Sound e := h e (by rw [hp]; simp)
  obtain ⟨⟨b, hb', lb⟩, ⟨w, hw', lw⟩, ⟨m, hm', lm⟩, ⟨ci, hc', lc, ic⟩⟩ := he
  rw [channel_eq hb' lb hw' lw hm' lm hc' lc]
  obtain ⟨a2, h2, o2, -, -⟩ := tellPart_ok o1 (h e (by rw [hp]; simp))
  obtain ⟨a3, h3, -, -, -, bs, ws, ms, cs, e1, e2, e3, e4⟩ :=
    tellFold_ok l2 (fun x hx => h x (by rw [hp]; simp [hx])) a2 o2
  have : a3 = acc := by
    have : parts.foldlM tellPart ⟨[], [], [], [], 0, 0⟩ = some a3 := by
      rw [hp, List.foldlM_append, h1]
      show (e :: l2).foldlM tellPart a1 = some a3
      rw [List.foldlM_cons, h2]; exact h3
    rw [hf] at this
    exact (Option.some.inj this).symm
  subst this
  simp only [tellPart, hb', hw', hm', hc', Option.bind_some, Option.map_some, Option.some.injEq] at h2
  subst h2
  rw [e1, e2, e3, e4]
  simp only [List.append_assoc]
  have := channelOf_mid a1.boundaries b bs a1.chanind ci cs a1.midpoints m ms a1.widths w ws a1.offset e.nsamples j o1.c o1.m o1.w
    lc lm lw hj (by rw [lb]; exact ic)
  rw [o1.b] at this
  rw [← s1]
  exact this

/-! ### A composite follows its parts -/

theorem filled_sound {u : Uniform} (h : UReach u) (hn : u.arr.nsamples ≠ 0) : Sound u.arr := by
  obtain ⟨hb, h1, h2, h3, h4⟩ := reach_filled h hn
  have hl : ∀ n, ((List.range n).flatMap fun i => [i, i + 1]).length = 2 * n := by
    intro n
    induction n with
    | zero => rfl
    | succ n ih => rw [List.range_succ, List.flatMap_append, List.length_append, ih]; simp; ring
  refine ⟨⟨_, by rw [h1]; exact memcpy_full _ _ (by simp [hb]), by simp [hb]⟩, ⟨_, by rw [h3]; exact memcpy_full _ _ (by simp), by simp⟩,
    ⟨_, by rw [h4]; exact memcpy_full _ _ (by simp), by simp⟩,
    ⟨_, by rw [h2]; exact memcpy_full _ _ (hl _), hl _, ?_⟩⟩
  intro j hj
  simp only [List.mem_flatMap, List.mem_range, List.mem_cons, List.not_mem_nil, or_false] at hj
  obtain ⟨i, hi, rfl | rfl⟩ := hj <;> omega

/-- Set up with at least one channel, or untouched as far as the number of channels goes. -/
def Usable (u : Uniform) : Prop := UReach u ∧ (u.arr.nsamples = 0 → u.arr.nboundaries = 0)

theorem usable_sound {u : Uniform} (h : Usable u) : Sound u.arr := by
  by_cases hn : u.arr.nsamples = 0
  · have hb := h.2 hn
    refine ⟨⟨[], by simp [memcpy, hb], by simp [hb]⟩, ⟨[], by simp [memcpy, hn], by simp [hn]⟩, ⟨[], by simp [memcpy, hn], by simp [hn]⟩,
      ⟨[], by simp [memcpy, hn], by simp [hn], by simp⟩⟩
  · exact filled_sound h.1 hn

/-- Uses of a composite for which it follows its parts: no part is given zero channels, and none is added while it is already
there. -/
def Proper (w : World) : Op → Prop
  | .setN _ n => n ≠ 0
  | .append i => i ∉ w.parts
  | _ => True

/-- Worlds reached by proper operations that all went through. -/
inductive Reach : World → Prop
  | new : Reach World.new
  | step {w w' : World} (op : Op) : Reach w → Proper w op → w.step op = some w' → Reach w'

/-- The composite shows the current channels of its parts, in order, and nothing else. -/
def Follows (w : World) : Prop :=
  w.arr.nsamples = (w.parts.map fun i => (w.store i).arr.nsamples).sum ∧
  ∀ l1 i l2, w.parts = l1 ++ i :: l2 → ∀ j < (w.store i).arr.nsamples,
    channel w.arr ((l1.map fun i => (w.store i).arr.nsamples).sum + j) = channel (w.store i).arr j

structure Inv (w : World) : Prop where
  usable : ∀ i, Usable (w.store i)
  nodup : w.parts.Nodup
  hooked : ∀ i, i ∈ w.hooked ↔ i ∈ w.parts
  follows : Follows w

theorem refresh_ok (w : World) (h : ∀ i, Usable (w.store i)) :
    ∃ w', w.refresh = some w' ∧ w'.store = w.store ∧ w'.parts = w.parts ∧ w'.hooked = w.hooked ∧ Follows w' := by
  obtain ⟨a, ha, -, hs, -, hc⟩ := tell_concat (w.parts.map fun i => (w.store i).arr) (by
    intro e he
    obtain ⟨i, -, rfl⟩ := List.mem_map.mp he
    exact usable_sound (h i))
  refine ⟨{ w with arr := a }, by unfold World.refresh; rw [ha]; rfl, rfl, rfl, rfl, ?_, ?_⟩
  · show a.nsamples = _
    rw [hs, List.map_map]; rfl
  · intro l1 i l2 hp j hj
    have := hc (l1.map fun i => (w.store i).arr) (w.store i).arr (l2.map fun i => (w.store i).arr) (by
      show w.parts.map _ = _
      rw [show w.parts = l1 ++ i :: l2 from hp]; simp) j hj
    rw [List.map_map] at this
    exact this

theorem reset_usable (v : Uniform) (hn : v.arr.nsamples = 0 → v.arr.nboundaries = 0) :
    v.reset.1.arr.nsamples = 0 → v.reset.1.arr.nboundaries = 0 := by
  obtain ⟨h1, h2, -⟩ := reset_n v
  rw [h1, h2]; exact hn

theorem update_inv (w : World) (h : Inv w) (i : ℕ) (v : Uniform) (hu : Usable v.reset.1)
    (hsame : v.arr.nsamples = 0 → (w.store i).arr.nsamples = 0) :
    ∃ w', w.update i v.reset = some w' ∧ Inv w' := by
  set w1 : World := { w with store := fun j => if j = i then v.reset.1 else w.store j } with hw1
  have husable : ∀ j, Usable (w1.store j) := by
    intro j
    simp only [hw1]
    split_ifs
    · exact hu
    · exact h.usable j
  by_cases hr : v.reset.2 = true ∧ i ∈ w.hooked
  · obtain ⟨w', h1, h2, h3, h4, h5⟩ := refresh_ok w1 husable
    refine ⟨w', by unfold World.update; rw [if_pos hr]; exact h1, ?_, ?_, ?_, h5⟩
    · rw [h2]; exact husable
    · rw [h3]; exact h.nodup
    · rw [h3, h4]; exact h.hooked
  · refine ⟨w1, by unfold World.update; rw [if_neg hr], husable, h.nodup, h.hooked, ?_⟩
    have hst : ∀ j ∈ w.parts, (w1.store j).arr.nsamples = (w.store j).arr.nsamples ∧
        (∀ k < (w1.store j).arr.nsamples, channel (w1.store j).arr k = channel (w.store j).arr k) := by
      intro j hj
      by_cases hji : j = i
      · subst hji
        have hz : v.arr.nsamples = 0 := by
          by_contra hn
          apply hr
          refine ⟨?_, (h.hooked j).mpr hj⟩
          unfold Uniform.reset
          rw [if_neg hn]
        have e1 : (w1.store j).arr.nsamples = 0 := by
          simp only [hw1, if_true]
          rw [(reset_n v).1, hz]
        rw [e1, hsame hz]
        exact ⟨rfl, fun k hk => absurd hk (by omega)⟩
      · simp only [hw1, if_neg hji]
        exact ⟨trivial, fun _ _ => trivial⟩
    have hsum : ∀ l : List ℕ, (∀ j ∈ l, j ∈ w.parts) →
        (l.map fun i => (w1.store i).arr.nsamples).sum = (l.map fun i => (w.store i).arr.nsamples).sum := by
      intro l hl
      congr 1
      apply List.map_congr_left
      intro j hj
      exact (hst j (hl j hj)).1
    obtain ⟨f1, f2⟩ := h.follows
    refine ⟨?_, ?_⟩
    · show w.arr.nsamples = (w.parts.map fun i => (w1.store i).arr.nsamples).sum
      rw [hsum _ (fun j hj => hj)]; exact f1
    · intro l1 k l2 hp j hj
      have hp' : w.parts = l1 ++ k :: l2 := hp
      have hk : k ∈ w.parts := by rw [hp']; simp
      rw [hsum l1 (fun x hx => by rw [hp']; simp [hx]), (hst k hk).2 j hj]
      exact f2 l1 k l2 hp' j (by rw [← (hst k hk).1]; exact hj)

theorem step_inv (w : World) (op : Op) (h : Inv w) (hp : Proper w op) : ∃ w', w.step op = some w' ∧ Inv w' := by
  cases op with
  | setKind i k =>
    exact update_inv w h i { w.store i with kind := k }
      ⟨UReach.apply (.kind k) (h.usable i).1, reset_usable _ (h.usable i).2⟩ id
  | setN i n =>
    refine update_inv w h i { w.store i with arr := { (w.store i).arr with nsamples := n, nboundaries := n + 1 } }
      ⟨UReach.apply (.n n) (h.usable i).1, fun h0 => absurd ((reset_n _).1.symm.trans h0) hp⟩ (fun h0 => absurd h0 hp)
  | setBand i b0 b1 =>
    exact update_inv w h i { w.store i with band0 := b0, band1 := b1 }
      ⟨UReach.apply (.band b0 b1) (h.usable i).1, reset_usable _ (h.usable i).2⟩ id
  | append i =>
    obtain ⟨w', h1, h2, h3, h4, h5⟩ := refresh_ok { w with parts := w.parts ++ [i], hooked := i :: w.hooked } h.usable
    refine ⟨w', h1, by rw [h2]; exact h.usable, ?_, ?_, h5⟩
    · rw [h3]
      exact List.Nodup.append h.nodup (List.nodup_singleton i) (by
        intro x hx hx'
        rw [List.mem_singleton] at hx'
        subst hx'
        exact hp hx)
    · intro j
      rw [h3, h4]
      simp only [List.mem_cons, List.mem_append, List.not_mem_nil, or_false, h.hooked j]
      tauto
  | remove p =>
    show ∃ w', w.remove p = some w' ∧ Inv w'
    unfold World.remove
    cases hx : w.parts[p]? with
    | none => exact ⟨w, rfl, h⟩
    | some i =>
      obtain ⟨w', h1, h2, h3, h4, h5⟩ :=
        refresh_ok { w with parts := w.parts.eraseIdx p, hooked := w.hooked.filter (· ≠ i) } h.usable
      refine ⟨w', h1, by rw [h2]; exact h.usable, ?_, ?_, h5⟩
      · rw [h3]; exact h.nodup.sublist (List.eraseIdx_sublist ..)
      · intro j
        rw [h3, h4]
        simp only [List.mem_filter, h.hooked j, ne_eq, decide_not, Bool.not_eq_eq_eq_not, Bool.not_true, decide_eq_false_iff_not]
        obtain ⟨hlt, rfl⟩ := List.getElem?_eq_some_iff.mp hx
        rw [← h.nodup.erase_getElem p hlt, h.nodup.mem_erase_iff]
        tauto

theorem reach_inv {w : World} (h : Reach w) : Inv w := by
  induction h with
  | new =>
    exact ⟨fun _ => ⟨UReach.new, fun _ => rfl⟩, List.nodup_nil, fun _ => Iff.rfl, rfl, fun l1 i l2 hp => by simp [World.new] at hp⟩
  | step op _ hp hs ih =>
    obtain ⟨w', h1, h2⟩ := step_inv _ op ih hp
    rw [hs] at h1
    cases h1
    exact h2

/-- **C40**: whatever is done to the composite and its parts, every operation goes through and the composite shows the current
channels of its parts.  Partial: parts must be distinct and keep at least one channel, see the findings. -/
theorem composite_follows_partial {w : World} (h : Reach w) :
    Follows w ∧ ∀ op, Proper w op → ∃ w', w.step op = some w' ∧ Follows w' := by
  refine ⟨(reach_inv h).follows, fun op hp => ?_⟩
  obtain ⟨w', h1, h2⟩ := step_inv w op (reach_inv h) hp
  exact ⟨w', h1, h2.follows⟩

/-- **C40**: removing or adding gives the expected list of parts; other parts are left alone. -/
theorem composite_parts (w w' : World) :
    (∀ i, w.step (.append i) = some w' → w'.parts = w.parts ++ [i] ∧ w'.store = w.store) ∧
    (∀ p, w.step (.remove p) = some w' → w'.parts = w.parts.eraseIdx p ∧ w'.store = w.store) := by
  constructor
  · intro i h
    simp only [World.step, World.append, World.refresh, Option.map_eq_some_iff] at h
    obtain ⟨a, -, rfl⟩ := h
    exact ⟨rfl, rfl⟩
  · intro p h
    simp only [World.step, World.remove] at h
    split at h
    · rename_i hx
      cases h
      rw [List.eraseIdx_of_length_le (List.getElem?_eq_none_iff.mp hx)]
      exact ⟨rfl, rfl⟩
    · simp only [World.refresh, Option.map_eq_some_iff] at h
      obtain ⟨a, -, rfl⟩ := h
      exact ⟨rfl, rfl⟩

/-- **C40**: a copy of a uniform spectrometer with channels is the same. -/
theorem copy_same {u : Uniform} (h : UReach u) (hn : u.arr.nsamples ≠ 0) : u.copy = some u := by
  obtain ⟨hb, h1, h2, h3, h4⟩ := reach_filled h hn
  have hl : ∀ n, ((List.range n).flatMap fun i => [i, i + 1]).length = 2 * n := by
    intro n
    induction n with
    | zero => rfl
    | succ n ih => rw [List.range_succ, List.flatMap_append, List.length_append, ih]; simp; ring
  have hc : u.arr.copy = some u.arr := by
    unfold Arrays.copy
    simp only [h1, h2, h3, h4, hb, copyArray]
    rw [memcpy_full _ _ (by simp), memcpy_full _ _ (by simp), memcpy_full _ _ (by simp), memcpy_full _ _ (hl _)]
    simp only [Option.map_some, Option.bind_some]
    rw [← h1, ← h2, ← h3, ← h4, ← hb]
  have hr : u.reset.1 = u := by
    unfold Uniform.reset
    rw [if_neg hn]
    dsimp only
    rw [← h1, ← h2, ← h3, ← h4]
  unfold Uniform.copy
  rw [hc]
  exact congrArg some hr

/-! ### Findings -/

/-- Finding: after `nSamples(0)`, copying the spectrometer reads through a null pointer. -/
theorem zero_copy_wrong : (Uniform.new.setN 0).1.copy = none := by
  simp [Uniform.setN, Uniform.reset, Uniform.new, Arrays.empty, Uniform.copy, Arrays.copy, copyArray]

/-- Finding: adding such a spectrometer to a composite does the same. -/
theorem zero_append_wrong :
    ((World.new.step (.setN 0 0)).bind fun w => w.step (.append 0)) = none := by
  simp [World.step, World.update, World.new, Uniform.setN, Uniform.reset, Uniform.new, Arrays.empty, World.append, World.refresh, tell,
    tellPart, memcpy]

/-- Finding: when a part is given zero channels the composite is not told, and still shows the old ones. -/
theorem zero_stale_wrong :
    ∃ w w', Reach w ∧ w.step (.setN 0 0) = some w' ∧ w'.parts = [0] ∧ (w'.store 0).arr.nsamples = 0 ∧ w'.arr.nsamples = 3 := by
  obtain ⟨w1, h1, i1⟩ := step_inv World.new (.setN 0 3) (reach_inv .new) (by simp [Proper])
  have r1 : Reach w1 := .step (.setN 0 3) .new (by simp [Proper]) h1
  have e1 : (w1.store 0).arr.nsamples = 3 ∧ w1.parts = [] := by
    simp only [World.step, World.update, World.new, List.not_mem_nil, and_false, if_false, Option.some.injEq] at h1
    subst h1
    exact ⟨(reset_n _).1, rfl⟩
  have p1 : Proper w1 (.append 0) := by simp [Proper, e1.2]
  obtain ⟨w2, h2, i2⟩ := step_inv w1 (.append 0) i1 p1
  obtain ⟨e2, e3⟩ := (composite_parts w1 w2).1 0 h2
  have n2 : w2.arr.nsamples = 3 := by rw [i2.follows.1, e2, e3, e1.2]; simp [e1.1]
  refine ⟨w2, { w2 with store := fun j => if j = 0 then ((w2.store 0).setN 0).1 else w2.store j }, .step _ r1 p1 h2, ?_, ?_, ?_, n2⟩
  · have : ((w2.store 0).setN 0).2 = false := by simp [Uniform.setN, Uniform.reset]
    simp only [World.step, World.update, this]
    simp
  · show w2.parts = [0]
    rw [e2, e1.2]; rfl
  · simp [Uniform.setN, Uniform.reset]

/-- Finding: when the same part was added twice, removing one of them makes the composite deaf to changes of the other. -/
theorem twice_wrong :
    ∃ w w2 w3 w4 w5, Reach w ∧ w.step (.append 0) = some w2 ∧ w2.step (.append 0) = some w3 ∧ w3.step (.remove 0) = some w4 ∧
      w4.step (.setN 0 5) = some w5 ∧ w5.parts = [0] ∧ (w5.store 0).arr.nsamples = 5 ∧ w5.arr.nsamples = 3 := by
  obtain ⟨w1, h1, i1⟩ := step_inv World.new (.setN 0 3) (reach_inv .new) (by simp [Proper])
  have r1 : Reach w1 := .step (.setN 0 3) .new (by simp [Proper]) h1
  have e1 : (w1.store 0).arr.nsamples = 3 ∧ w1.parts = [] ∧ w1.hooked = [] := by
    simp only [World.step, World.update, World.new, List.not_mem_nil, and_false, if_false, Option.some.injEq] at h1
    subst h1
    exact ⟨(reset_n _).1, rfl, rfl⟩
  obtain ⟨w2, h2, s2, p2, k2, -⟩ := refresh_ok { w1 with parts := w1.parts ++ [0], hooked := 0 :: w1.hooked } i1.usable
  obtain ⟨w3, h3, s3, p3, k3, -⟩ := refresh_ok { w2 with parts := w2.parts ++ [0], hooked := 0 :: w2.hooked } (by
    simp only [s2]; exact i1.usable)
  have q3 : w3.parts = [0, 0] := by rw [p3]; simp only [p2, e1.2.1]; rfl
  have l3 : w3.hooked = [0, 0] := by rw [k3]; simp only [k2, e1.2.2]
  obtain ⟨w4, h4, s4, p4, k4, f4⟩ := refresh_ok { w3 with parts := w3.parts.eraseIdx 0, hooked := w3.hooked.filter (· ≠ 0) } (by
    simp only [s3, s2]; exact i1.usable)
  have q4 : w4.parts = [0] := by rw [p4]; simp only [q3]; rfl
  have l4 : w4.hooked = [] := by rw [k4]; simp [l3]
  have n4 : w4.arr.nsamples = 3 := by
    rw [f4.1, q4]
    simp only [s4, s3, s2]
    simp [e1.1]
  refine ⟨w1, w2, w3, w4, { w4 with store := fun j => if j = 0 then ((w4.store 0).setN 5).1 else w4.store j }, r1, h2, h3, ?_, ?_, q4,
    ?_, n4⟩
  · simp only [World.step, World.remove]
    rw [q3] at h4 ⊢
    exact h4
  · simp only [World.step, World.update, l4]
    simp
  · simp [Uniform.setN, Uniform.reset]

/-- Finding: the constructor that sets everything leaves the number of boundaries at 0: programs are told that there is no
boundary, although channels point to some. -/
theorem constructor_wrong (n : ℕ) (b0 b1 : ℝ) (k : Kind) (i : ℕ) :
    (Uniform.make n b0 b1 k).arr.nsamples = n ∧ (Uniform.make n b0 b1 k).arr.nboundaries = 0 ∧
      channel (Uniform.make n b0 b1 k).arr i = none := by
  have h1 : (Uniform.make n b0 b1 k).arr.nsamples = n := (reset_n _).1
  have h2 : (Uniform.make n b0 b1 k).arr.nboundaries = 0 := (reset_n _).2.1
  refine ⟨h1, h2, ?_⟩
  unfold channel
  rw [h2]
  simp only [read, Nat.not_lt_zero, if_false, Option.bind_none]
  cases (if 2 * i < 2 * (Uniform.make n b0 b1 k).arr.nsamples then _ else none : Option ℕ) with
  | none => rfl
  | some x =>
    cases (if 2 * i + 1 < 2 * (Uniform.make n b0 b1 k).arr.nsamples then _ else none : Option ℕ) <;> rfl

/-! ### C60: limits of the band in a unit -/

/-- How each kind is spelled. -/
def kindName : Kind → String
  | .freq => "freq" | .freqlog => "freqlog" | .wave => "wave" | .wavelog => "wavelog"

/-- The four names are read as the four kinds, and nothing else is. -/
theorem parseKind_spec (s : String) (k : Kind) : parseKind s = some k ↔ s = kindName k := by
  constructor
  · intro h
    unfold parseKind at h
    split_ifs at h with h1 h2 h3 h4 <;> (rw [Option.some.injEq] at h; subst h; assumption)
  · rintro rfl
    cases k <;> rfl

/-- **C60**: for linear kinds, asking for the band in the unit it was given in gives back the same limits. Partial: see
`band_log_wrong`. -/
theorem band_unit_partial (k : Kind) (hk : k = .freq ∨ k = .wave) (toU frm : ℝ → ℝ) (h : ∀ x, frm (toU x) = x) (x : ℝ) :
    bandFrom k frm (bandTo k toU x) = x := by
  unfold bandFrom bandTo
  rw [if_pos hk, if_pos hk, h]

/-- **C60**: for logarithmic kinds, what is stored is the logarithm of the converted limit. -/
theorem band_log_stored (k : Kind) (hk : k = .freqlog ∨ k = .wavelog) (a : ℝ) (ha : 0 < a) (x : ℝ) :
    bandTo k (fun v => a * v) x = x + Real.logb 10 a := by
  have h1 : ¬(k = .freq ∨ k = .wave) := by rcases hk with rfl | rfl <;> decide
  unfold bandTo
  rw [if_neg h1, Real.logb_mul ha.ne' (Real.rpow_pos_of_pos (by norm_num) x).ne', Real.logb_rpow (by norm_num) (by norm_num)]
  ring

/-- Finding: for logarithmic kinds the conversion back exchanges logarithm and power: a band limit of 3 (log of 1000 kHz) comes back
smaller than 2. -/
theorem band_log_wrong : bandFrom .freqlog (fun v => v / 1000) (bandTo .freqlog (fun v => 1000 * v) 3) < 2 := by
  rw [band_log_stored .freqlog (Or.inl rfl) 1000 (by norm_num)]
  have e : Real.logb 10 1000 = 3 := by
    rw [show (1000 : ℝ) = (10 : ℝ) ^ (3 : ℝ) by norm_num, Real.logb_rpow (by norm_num) (by norm_num)]
  rw [e]
  unfold bandFrom
  rw [if_neg (by decide)]
  have h6 : Real.logb 10 (3 + 3) ≤ 1 := by
    rw [← Real.logb_self_eq_one (b := (10 : ℝ)) (by norm_num)]
    exact Real.logb_le_logb_of_le (by norm_num) (by norm_num) (by norm_num)
  calc (10 : ℝ) ^ (Real.logb 10 (3 + 3) / 1000) ≤ (10 : ℝ) ^ ((1 : ℝ) / 4) := by
        apply Real.rpow_le_rpow_of_exponent_le (by norm_num)
        generalize Real.logb 10 (3 + 3) = y at h6 ⊢
        linarith
    _ < (16 : ℝ) ^ ((1 : ℝ) / 4) := Real.rpow_lt_rpow (by norm_num) (by norm_num) (by norm_num)
    _ = 2 := by
        rw [show (16 : ℝ) = 2 ^ (4 : ℝ) by norm_num, ← Real.rpow_mul (by norm_num)]
        norm_num

/-! ### Examples -/

/-- Three channels from 10 to 40 Hz. -/
noncomputable def demo : Uniform := ((Uniform.new.apply (.kind .freq)).apply (.band 10 40)).apply (.n 3)

theorem demo_reach : UReach demo := .apply _ (.apply _ (.apply _ .new))

theorem demo_fields : demo.kind = .freq ∧ demo.band0 = 10 ∧ demo.band1 = 40 ∧ demo.arr.nsamples = 3 := by
  obtain ⟨n1, -, k1, a1, b1⟩ := reset_n { Uniform.new with kind := .freq }
  obtain ⟨n2, -, k2, a2, b2⟩ := reset_n { Uniform.new.apply (.kind .freq) with band0 := 10, band1 := 40 }
  set u := (Uniform.new.apply (.kind .freq)).apply (.band 10 40)
  obtain ⟨n3, -, k3, a3, b3⟩ := reset_n { u with arr := { u.arr with nsamples := 3, nboundaries := 3 + 1 } }
  exact ⟨k3.trans (k2.trans k1), a3.trans a2, b3.trans b2, n3⟩

example : ∃ ch, channel demo.arr 1 = some ch ∧ ch.hi - ch.lo = 10 := by
  obtain ⟨hk, h0, h1, hn⟩ := demo_fields
  obtain ⟨ch, h, h', -⟩ := uniform_even demo_reach (fun hk' => by rw [hk] at hk'; cases hk') 1 (by rw [hn]; decide)
  refine ⟨ch, h, ?_⟩
  rw [h' hk, h0, h1, hn]; norm_num

example : ∃ ws, demo.arr.widths = some ws ∧ ws.sum = 30 := by
  obtain ⟨hk, h0, h1, hn⟩ := demo_fields
  obtain ⟨ws, h, -, h'⟩ := uniform_widths demo_reach (fun hk' => by rw [hk] at hk'; cases hk') (by rw [hn]; decide)
  refine ⟨ws, h, ?_⟩
  rw [h', hk, h0, h1]
  simp only [frequency]; norm_num

/-- Two of them in a composite: channel 4 of the composite is channel 1 of the second one. -/
example : ∃ a, tell [demo.arr, demo.arr] = some a ∧ a.nsamples = 6 ∧ channel a 4 = channel demo.arr 1 := by
  obtain ⟨-, -, -, hn⟩ := demo_fields
  have hs := filled_sound demo_reach (by rw [hn]; decide)
  obtain ⟨a, h, -, h1, -, h2⟩ := tell_concat [demo.arr, demo.arr] (by simp [hs])
  refine ⟨a, h, by rw [h1]; simp [hn], ?_⟩
  have := h2 [demo.arr] demo.arr [] rfl 1 (by rw [hn]; decide)
  simpa [hn] using this

end Gyoto.Spectrometer
