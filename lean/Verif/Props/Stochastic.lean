import Verif.Lemmas.Stochastic
import Mathlib.Algebra.BigOperators.Fin
import Mathlib.Algebra.BigOperators.Intervals
import Mathlib.Algebra.BigOperators.Ring.Finset

/-!
# The random waves of `StochasticThinDisk`
-/

namespace Gyoto.Stochastic

open Real

/-! ### C103: the waves -/

/-- The modes. -/
def Mode (m n : Int) : Prop := -64 ≤ m ∧ m ≤ 64 ∧ 1 ≤ n ∧ n ≤ 64

/-- C103. The indices stay in the arrays. -/
theorem idx_lt {m n : Int} (h : Mode m n) : 0 ≤ idx m n ∧ idx m n < size := by
  obtain ⟨h1, h2, h3, h4⟩ := h
  simp only [idx, size, Mmax, Nmax]
  omega

/-- C103. Two modes do not share an element, and each element is for a mode. -/
theorem idx_bij : (∀ m n m' n', Mode m n → Mode m' n' → idx m n = idx m' n' → m = m' ∧ n = n') ∧
    ∀ i : Nat, i < size → ∃ m n, Mode m n ∧ idx m n = i := by
  constructor
  · intro m n m' n' ⟨h1, h2, h3, h4⟩ ⟨k1, k2, k3, k4⟩ e
    simp only [idx, Mmax, Nmax] at e
    omega
  · intro i hi
    simp only [size, Mmax, Nmax] at hi
    refine ⟨(i / 64 : Int) - 64, (i % 64 : Int) + 1, ⟨?_, ?_, ?_, ?_⟩, ?_⟩
    all_goals (try simp only [idx, Mmax, Nmax]); omega

theorem mem_ints {a : Int} {k : Nat} {i : Int} : i ∈ ints a k ↔ a ≤ i ∧ i < a + k := by
  unfold ints
  rw [List.mem_map]
  constructor
  · rintro ⟨j, hj, rfl⟩
    have := List.mem_range.1 hj
    omega
  · intro ⟨h1, h2⟩
    exact ⟨(i - a).toNat, List.mem_range.2 (by omega), by omega⟩

theorem mem_m {m : Int} : m ∈ ints (-Mmax) (2 * Mmax + 1) ↔ -64 ≤ m ∧ m ≤ 64 := by
  rw [mem_ints]; simp only [Mmax]; omega

theorem mem_n {n : Int} : n ∈ ints 1 Nmax ↔ 1 ≤ n ∧ n ≤ 64 := by
  rw [mem_ints]; simp only [Nmax]; omega

theorem foldl_add {α : Type} (f : α → ℝ) (l : List α) (u : ℝ) : l.foldl (fun u x => u + f x) u = u + (l.map f).sum := by
  induction l generalizing u with
  | nil => simp
  | cons x xs ih => rw [List.foldl_cons, ih, List.map_cons, List.sum_cons, add_assoc]

theorem ints_sum (f : Int → ℝ) (a : Int) (k : Nat) : ((ints a k).map f).sum = ∑ i ∈ Finset.Ico a (a + k), f i := by
  unfold ints
  have e : ∀ (g : Nat → ℝ) (k : Nat), ((List.range k).map g).sum = ∑ i ∈ Finset.range k, g i := by
    intro g k
    induction k with
    | zero => simp
    | succ k ih => rw [List.range_succ, List.map_append, List.sum_append, ih, Finset.sum_range_succ]; simp
  rw [List.map_map, e]
  refine Finset.sum_nbij' (fun i : Nat => a + (i : Int)) (fun i : Int => (i - a).toNat) ?_ ?_ ?_ ?_ ?_
  · intro i hi
    rw [Finset.mem_range] at hi
    rw [Finset.mem_Ico]; omega
  · intro i hi
    rw [Finset.mem_Ico] at hi
    rw [Finset.mem_range]; omega
  · intro i _; omega
  · intro i hi
    rw [Finset.mem_Ico] at hi
    omega
  · intro i _; rfl

/-- What one mode contributes to the field. -/
noncomputable def mode (d : Disk) (m n : Int) (t r p : ℝ) : ℝ :=
  d.C (idx m n) / d.N (idx m n) * besselJ m.natAbs (d.K (idx m n) * r) * cos (m * p + d.Phi (idx m n)) *
      cos (d.K (idx m n) * t + d.Psi (idx m n))

theorem solution_sum (d : Disk) (he : d.eq = .wave) (t r p : ℝ) :
    solution d t r p = ∑ m ∈ Finset.Icc (-64 : Int) 64, ∑ n ∈ Finset.Icc (1 : Int) 64, mode d m n t r p := by
  have e : ∀ m, addMode d t r p m = fun u n => u + mode d m n t r p := by
    intro m
    funext u n
    unfold addMode
    rw [if_pos he]
    rfl
  unfold solution
  simp only [e, foldl_add]
  rw [zero_add, ints_sum]
  refine Finset.sum_congr rfl fun m _ => ?_
  rw [ints_sum]
  rfl

theorem isWave_sum {ι : Type} (s : Finset ι) (u : ι → ℝ → ℝ → ℝ → ℝ) (h : ∀ i ∈ s, IsWave (u i)) :
    IsWave fun t r p => ∑ i ∈ s, u i t r p := by
  classical
  induction s using Finset.induction_on with
  | empty => simpa using isWave_zero
  | insert i s hi ih =>
    have := (h i (Finset.mem_insert_self _ _)).add (ih fun j hj => h j (Finset.mem_insert_of_mem hj))
    simpa only [Finset.sum_insert hi] using this

theorem bessel_abs (m : Int) : IsBessel m (besselJ m.natAbs) := by
  obtain ⟨f', f'', h⟩ := besselJ_isBessel m.natAbs
  refine ⟨f', f'', fun x => ⟨(h x).1, (h x).2.1, ?_⟩⟩
  have e : ((m.natAbs : Nat) : ℝ) ^ 2 = (m : ℝ) ^ 2 := by
    rw [← Int.cast_natCast, Int.natCast_natAbs, Int.cast_abs, sq_abs]
  rw [← e]
  exact (h x).2.2

/-- C103. Whatever the numbers in its tables, the field is a wave of the speed of light on the disk. -/
theorem solution_wave (d : Disk) : IsWave (solution d) := by
  rcases h : d.eq with _ | _
  · have e : solution d = fun t r p => ∑ m ∈ Finset.Icc (-64 : Int) 64, ∑ n ∈ Finset.Icc (1 : Int) 64, mode d m n t r p := by
      funext t r p
      exact solution_sum d h t r p
    rw [e]
    exact isWave_sum _ _ fun m _ => isWave_sum _ _ fun n _ => mode_wave (bessel_abs m) _ _ _ _
  · have e : solution d = fun _ _ _ => 0 := by
      funext t r p
      have e : ∀ m, addMode d t r p m = fun u _ => u := by
        intro m
        funext u n
        unfold addMode
        rw [h, if_neg (by decide)]
      unfold solution
      simp only [e]
      have f : ∀ (l : List Int) (u : ℝ), l.foldl (fun u _ => u) u = u := by
        intro l
        induction l with
        | nil => intro u; rfl
        | cons x xs ih => intro u; exact ih u
      simp only [f]
    rw [e]
    exact isWave_zero

/-- C103. It has one value at each place. -/
theorem solution_periodic (d : Disk) (t r p : ℝ) (k : Int) : solution d t r (p + 2 * π * k) = solution d t r p := by
  have e : ∀ m, addMode d t r (p + 2 * π * k) m = addMode d t r p m := by
    intro m
    funext u n
    unfold addMode
    have : (m : ℝ) * (p + 2 * π * k) + d.Phi (idx m n) = (m * p + d.Phi (idx m n)) + (m * k : Int) * (2 * π) := by
      push_cast; ring
    rw [this, cos_add_int_mul_two_pi]
  unfold solution
  simp only [e]

/-! ### The tables -/

section
variable (zeros : Nat → Int → ℝ) (dr : Int → Int → Draw)

/-- The elements of the tables for a mode, once drawn. -/
def Drawn (d : Disk) (m n : Int) : Prop :=
  d.C (idx m n) = √(spectrum 3 3 m n) * (dr m n).g ∧ d.N (idx m n) = 1 ∧ d.Phi (idx m n) = 2 * π * (dr m n).u ∧
    d.Psi (idx m n) = 2 * π * (dr m n).v ∧ d.K (idx m n) = zeros m.natAbs n / d.rout

theorem draw_sets (d : Disk) (he : d.eq = .wave) (m n : Int) : Drawn zeros dr (draw zeros dr m d n) m n := by
  unfold draw
  rw [if_pos he]
  refine ⟨?_, ?_, ?_, ?_, ?_⟩ <;> simp only [Function.update_self]

theorem draw_keeps (d : Disk) {m n m' n' : Int} (h : Mode m n) (h' : Mode m' n') (hd : Drawn zeros dr d m n) :
    Drawn zeros dr (draw zeros dr m' d n') m n := by
  by_cases he : d.eq = .wave
  · by_cases e : idx m n = idx m' n'
    · obtain ⟨rfl, rfl⟩ := idx_bij.1 _ _ _ _ h h' e
      exact draw_sets zeros dr d he m n
    · obtain ⟨k1, k2, k3, k4, k5⟩ := hd
      unfold draw
      rw [if_pos he]
      refine ⟨?_, ?_, ?_, ?_, ?_⟩ <;> simp only [Function.update_of_ne e] <;> assumption
  · unfold draw
    rw [if_neg he]
    exact hd

theorem draw_same (d : Disk) (m n : Int) : (draw zeros dr m d n).eq = d.eq ∧ (draw zeros dr m d n).rout = d.rout ∧
    (draw zeros dr m d n).kind = d.kind := by
  unfold draw
  split <;> exact ⟨rfl, rfl, rfl⟩

/-- A loop: what every turn keeps is kept, and what a turn establishes holds at the end. -/
theorem foldl_keeps {α β : Type} {f : α → β → α} {P : α → Prop} (l : List β) (h : ∀ x ∈ l, ∀ a, P a → P (f a x)) (a : α) (ha : P a) :
    P (l.foldl f a) := by
  induction l generalizing a with
  | nil => exact ha
  | cons x xs ih => exact ih (fun y hy => h y (List.mem_cons_of_mem _ hy)) _ (h x List.mem_cons_self a ha)

theorem foldl_reaches {α β : Type} {f : α → β → α} {I P : α → Prop} (l : List β) (x : β) (hx : x ∈ l) (hI : ∀ y ∈ l, ∀ a, I a → I (f a y))
    (hs : ∀ a, I a → P (f a x)) (hk : ∀ y ∈ l, ∀ a, I a → P a → P (f a y)) (a : α) (ha : I a) : P (l.foldl f a) := by
  induction l generalizing a with
  | nil => cases hx
  | cons y ys ih =>
    rw [List.foldl_cons]
    have hI' := hI y List.mem_cons_self a ha
    by_cases hy : x ∈ ys
    · exact ih hy (fun z hz => hI z (List.mem_cons_of_mem _ hz)) (fun z hz => hk z (List.mem_cons_of_mem _ hz)) _ hI'
    · obtain rfl | h := List.mem_cons.1 hx
      · exact (foldl_keeps (P := fun a => I a ∧ P a) ys (fun z hz a k => ⟨hI z (List.mem_cons_of_mem _ hz) a k.1,
          hk z (List.mem_cons_of_mem _ hz) a k.1 k.2⟩) _ ⟨hI', hs a ha⟩).2
      · exact absurd h hy

theorem inner_same (d : Disk) (m : Int) : ((ints 1 Nmax).foldl (draw zeros dr m) d).eq = d.eq ∧
    ((ints 1 Nmax).foldl (draw zeros dr m) d).rout = d.rout := by
  refine foldl_keeps (P := fun d' : Disk => d'.eq = d.eq ∧ d'.rout = d.rout) _ (fun n _ a k => ?_) d ⟨rfl, rfl⟩
  obtain ⟨h1, h2, -⟩ := draw_same zeros dr a m n
  rw [h1, h2]
  exact k

/-- `modalQuantities` fills the tables for every mode, and nothing else. -/
theorem modal_drawn (d : Disk) (he : d.eq = .wave) {m n : Int} (h : Mode m n) : Drawn zeros dr (modalQuantities zeros dr d) m n ∧
    (modalQuantities zeros dr d).eq = .wave ∧ (modalQuantities zeros dr d).rout = d.rout := by
  have hI : ∀ y ∈ ints (-Mmax) (2 * Mmax + 1), ∀ a : Disk, (a.eq = .wave ∧ a.rout = d.rout) →
      (((ints 1 Nmax).foldl (draw zeros dr y) a).eq = .wave ∧ ((ints 1 Nmax).foldl (draw zeros dr y) a).rout = d.rout) := by
    intro y _ a k
    obtain ⟨h1, h2⟩ := inner_same zeros dr a y
    rw [h1, h2]
    exact k
  have hE := foldl_keeps (P := fun a : Disk => a.eq = .wave ∧ a.rout = d.rout) _ hI d ⟨he, rfl⟩
  unfold modalQuantities
  refine ⟨?_, hE⟩
  refine foldl_reaches (I := fun a : Disk => a.eq = .wave ∧ a.rout = d.rout) (P := fun a => Drawn zeros dr a m n) _ m (mem_m.2 ⟨h.1, h.2.1⟩) hI ?_ ?_ d ⟨he, rfl⟩
  · intro a ha
    refine foldl_reaches (I := fun a : Disk => a.eq = .wave) (P := fun a => Drawn zeros dr a m n) _ n (mem_n.2 h.2.2) (fun y _ b hb => ?_) (fun b hb => draw_sets zeros dr b hb m n)
      (fun y hy b _ hP => draw_keeps zeros dr b h ⟨h.1, h.2.1, (mem_n.1 hy).1, (mem_n.1 hy).2⟩ hP) a ha.1
    rw [(draw_same zeros dr b m y).1]
    exact hb
  · intro y hy a _ hP
    exact foldl_keeps (P := fun a => Drawn zeros dr a m n) _ (fun z hz b hb => draw_keeps zeros dr b h ⟨(mem_m.1 hy).1, (mem_m.1 hy).2, (mem_n.1 hz).1, (mem_n.1 hz).2⟩ hb) a hP

/-- C103. After `modalQuantities` the field is the sum over the modes of standing waves whose amplitudes are the numbers drawn times the
square root of the spectrum, whose phases are the uniform numbers drawn, and whose wave numbers are the zeros of the Bessel functions
divided by the outer radius. -/
theorem modal_field (d : Disk) (he : d.eq = .wave) (t r p : ℝ) : solution (modalQuantities zeros dr d) t r p =
    ∑ m ∈ Finset.Icc (-64 : Int) 64, ∑ n ∈ Finset.Icc (1 : Int) 64,
      √((1 + (m : ℝ) ^ 2) ^ (-3 / 2 : ℝ) * (1 + (n : ℝ) ^ 2) ^ (-3 / 2 : ℝ)) * (dr m n).g * besselJ m.natAbs (zeros m.natAbs n * (r / d.rout)) *
        cos (m * p + 2 * π * (dr m n).u) * cos (zeros m.natAbs n * (t / d.rout) + 2 * π * (dr m n).v) := by
  obtain ⟨-, he', hr'⟩ := modal_drawn zeros dr d he (m := 0) (n := 1) (by unfold Mode; omega)
  rw [solution_sum _ he']
  refine Finset.sum_congr rfl fun m hm => Finset.sum_congr rfl fun n hn => ?_
  rw [Finset.mem_Icc] at hm hn
  obtain ⟨⟨k1, k2, k3, k4, k5⟩, -, -⟩ := modal_drawn zeros dr d he (m := m) (n := n) ⟨hm.1, hm.2, hn.1, hn.2⟩
  unfold mode
  rw [k1, k2, k3, k4, k5, hr', div_one]
  unfold spectrum
  rw [show zeros m.natAbs n / d.rout * r = zeros m.natAbs n * (r / d.rout) by ring,
    show zeros m.natAbs n / d.rout * t = zeros m.natAbs n * (t / d.rout) by ring, ← pow_two, ← pow_two]

/-- C103. Then it vanishes on the outer edge of the disk, at every date. -/
theorem modal_edge (hz : ∀ m n, m ≤ 64 → 1 ≤ n → n ≤ 64 → besselJ m (zeros m n) = 0) (d : Disk) (he : d.eq = .wave) (hr : d.rout ≠ 0)
    (t p : ℝ) : solution (modalQuantities zeros dr d) t d.rout p = 0 := by
  rw [modal_field zeros dr d he]
  refine Finset.sum_eq_zero fun m hm => Finset.sum_eq_zero fun n hn => ?_
  rw [Finset.mem_Icc] at hm hn
  rw [div_self hr, mul_one, hz m.natAbs n (by omega) hn.1 hn.2]
  ring

/-- The emission is linear in the Gaussian numbers drawn. -/
theorem modal_neg (d : Disk) (he : d.eq = .wave) (t r p : ℝ) :
    solution (modalQuantities zeros (fun m n => { dr m n with g := -(dr m n).g }) d) t r p = -solution (modalQuantities zeros dr d) t r p := by
  rw [modal_field _ _ d he, modal_field _ _ d he, ← Finset.sum_neg_distrib]
  refine Finset.sum_congr rfl fun m _ => ?_
  rw [← Finset.sum_neg_distrib]
  exact Finset.sum_congr rfl fun n _ => by ring

end

/-- Finding: nothing keeps the emission positive. Whatever the zeros, there are an outer radius and numbers drawn for which the
disk emits a negative intensity, at any radius. -/
theorem emission_positive_wrong (zeros : Nat → Int → ℝ) (r : ℝ) : ∃ (dr : Int → Int → Draw) (rout : ℝ), r < rout ∧
    emission (modalQuantities zeros dr (fresh rout)) 0 r 0 < 0 := by
  have hc : ContinuousAt (fun x : ℝ => besselJ 0 (zeros 0 1 * x)) 0 :=
    ((besselJ_continuous 0).comp (continuous_const.mul continuous_id)).continuousAt
  have h0 : 0 < besselJ 0 (zeros 0 1 * 0) := by rw [mul_zero, besselJ_zero]; norm_num
  obtain ⟨e, he, hb⟩ := Metric.eventually_nhds_iff.1 (hc.eventually (lt_mem_nhds h0))
  let R := (|r| + 1) / e + |r| + 1
  have hp : 0 < (|r| + 1) / e := by positivity
  have hR : 0 < R := by positivity
  have hx : |r / R| < e := by
    rw [abs_div, abs_of_pos hR, div_lt_iff₀ hR]
    have : e * ((|r| + 1) / e) = |r| + 1 := by field_simp
    have h1 : 0 ≤ e * |r| := by positivity
    calc |r| < |r| + 1 := by linarith
      _ = e * ((|r| + 1) / e) := this.symm
      _ ≤ e * R := by
        refine mul_le_mul_of_nonneg_left ?_ he.le
        show _ ≤ (|r| + 1) / e + |r| + 1
        linarith [abs_nonneg r]
  have hJ := hb (y := r / R) (by rw [Real.dist_eq, sub_zero]; exact hx)
  refine ⟨fun m n => if m = 0 ∧ n = 1 then ⟨-1, 0, 0⟩ else ⟨0, 0, 0⟩, R, ?_, ?_⟩
  · show r < (|r| + 1) / e + |r| + 1
    linarith [le_abs_self r]
  · unfold emission
    rw [one_mul, modal_field zeros _ (fresh R) rfl, Finset.sum_eq_single (0 : Int), Finset.sum_eq_single (1 : Int)]
    · have hs : 0 < √((1 + ((0 : Int) : ℝ) ^ 2) ^ (-3 / 2 : ℝ) * (1 + ((1 : Int) : ℝ) ^ 2) ^ (-3 / 2 : ℝ)) := by
        apply Real.sqrt_pos.2
        positivity
      have hJ' : 0 < besselJ (Int.natAbs 0) (zeros (Int.natAbs 0) 1 * (r / (fresh R).rout)) := hJ
      have := mul_pos hs hJ'
      simp only [and_self, if_true, mul_zero, zero_div, add_zero, cos_zero, mul_one]
      linarith
    · intro n _ hn
      rw [if_neg (fun k => hn k.2)]
      ring
    · intro h; exact absurd (Finset.mem_Icc.2 ⟨by norm_num, by norm_num⟩) h
    · intro m _ hm
      refine Finset.sum_eq_zero fun n _ => ?_
      rw [if_neg (fun k => hm k.1)]
      ring
    · intro h; exact absurd (Finset.mem_Icc.2 ⟨by norm_num, by norm_num⟩) h

/-! ### What the library does of it -/

/-- What a user can ask through the properties of the object. -/
inductive Call where
  | equation (k : String)
  | motion (k : String)
  | outer (r : ℝ)

/-- The object after the call, whether it throws or not. -/
def Call.run (d : Disk) : Call → Disk
  | .equation k => (setEquation d k).disk
  | .motion k => (setKind d k).disk
  | .outer r => { d with rout := r }

/-- The tables of a new object. -/
def Blank (d : Disk) : Prop := ∀ i, d.C i = 1 ∧ d.N i = 1 ∧ d.Phi i = 0 ∧ d.Psi i = 0 ∧ d.K i = 0

theorem run_blank {d : Disk} (h : Blank d) (l : List Call) : Blank (l.foldl Call.run d) := by
  refine foldl_keeps _ (fun c _ a ha => ?_) d h
  cases c with
  | equation k =>
    simp only [Call.run, setEquation]
    split
    · exact ha
    · split <;> exact ha
  | motion k =>
    simp only [Call.run, setKind]
    by_cases k1 : k = "Static" <;> by_cases k2 : k = "Circular" <;> by_cases k3 : k = "Radial" <;> simp only [k1, k2, k3, if_true, if_false] <;>
      exact ha
  | outer r => exact ha

theorem blank_solution {d : Disk} (h : Blank d) (he : d.eq = .wave) (t r p : ℝ) : solution d t r p = 64 := by
  rw [solution_sum d he, Finset.sum_eq_single (0 : Int)]
  · rw [Finset.sum_congr rfl (g := fun _ => (1 : ℝ)) ?_]
    · simp
    · intro n _
      obtain ⟨h1, h2, h3, h4, h5⟩ := h (idx 0 n)
      unfold mode
      rw [h1, h2, h3, h4, h5, zero_mul, zero_mul, Int.natAbs_zero, besselJ_zero]
      simp
  · intro m _ hm
    refine Finset.sum_eq_zero fun n _ => ?_
    obtain ⟨h1, h2, h3, h4, h5⟩ := h (idx m n)
    unfold mode
    rw [h5, zero_mul, besselJ_zero, if_neg (Int.natAbs_ne_zero.2 hm)]
    ring
  · intro h; exact absurd (Finset.mem_Icc.2 ⟨by norm_num, by norm_num⟩) h

/-- Finding: `modalQuantities` is not called by the library. Whatever the properties given to the object, it emits the same
intensity everywhere and always: 64, or 0 with the advection and diffusion. -/
theorem never_drawn (rout : ℝ) (l : List Call) (t r p t' r' p' : ℝ) :
    emission (l.foldl Call.run (fresh rout)) t r p = emission (l.foldl Call.run (fresh rout)) t' r' p' ∧
      ((l.foldl Call.run (fresh rout)).eq = .wave → emission (l.foldl Call.run (fresh rout)) t r p = 64) := by
  have hb := run_blank (d := fresh rout) (fun i => ⟨rfl, rfl, rfl, rfl, rfl⟩) l
  generalize l.foldl Call.run (fresh rout) = d at *
  unfold emission
  rcases he : d.eq with _ | _
  · rw [blank_solution hb he, blank_solution hb he]
    exact ⟨rfl, fun _ => one_mul _⟩
  · refine ⟨?_, fun h => by cases h⟩
    have e : ∀ (t r p : ℝ) (m : Int), addMode d t r p m = fun u _ => u := by
      intro t r p m
      funext u n
      unfold addMode
      rw [he, if_neg (by decide)]
    unfold solution
    simp only [e]

/-- Finding: then the field does not vanish on the outer edge. -/
theorem edge_wrong : ¬∀ (rout : ℝ) (l : List Call) (t p : ℝ), 0 < rout → emission (l.foldl Call.run (fresh rout)) t (l.foldl Call.run (fresh rout)).rout p = 0 := by
  intro h
  have := h 1 [] 0 0 one_pos
  rw [(never_drawn 1 [] 0 _ 0 0 0 0).2 rfl] at this
  norm_num at this

/-- C103. The names: what was set is read back. -/
theorem names_partial (d : Disk) : (∀ k d', setEquation d k = .ok d' → getEquation d' = k) ∧ (∀ k d', setKind d k = .ok d' → getKind d' = k) ∧
    (∀ k d', setEquation d k = .throws d' → d' = d) ∧ setEquation d (getEquation d) = .ok d ∧
    (d.kind ≠ .static → setKind d (getKind d) = .ok d) := by
  refine ⟨fun k d' => ?_, fun k d' => ?_, fun k d' => ?_, ?_, fun h => ?_⟩
  · unfold setEquation
    split
    · next e => intro h; cases h; exact e.symm
    · split
      · next e => intro h; cases h; exact e.symm
      · intro h; cases h
  · unfold setKind
    by_cases k1 : k = "Static" <;> by_cases k2 : k = "Circular" <;> by_cases k3 : k = "Radial" <;> simp only [k1, k2, k3, if_true, if_false] <;>
      intro h <;> first | (cases h; rfl) | skip
    all_goals simp_all
  · unfold setEquation
    split
    · intro h; cases h
    · split
      · intro h; cases h
      · intro h; cases h; rfl
  · rcases d with ⟨C, N, Phi, Psi, K, e, k, R⟩
    cases e <;> simp [setEquation, getEquation]
  · rcases d with ⟨C, N, Phi, Psi, K, e, k, R⟩
    cases k
    · exact absurd rfl h
    · simp [setKind, getKind]
    · simp [setKind, getKind]

/-- Finding: the motion of a new object, `"Static"`, cannot be given back to it: the setter throws, after having set it. -/
theorem static_wrong : ¬∀ d : Disk, ∃ d', setKind d (getKind d) = .ok d' := by
  intro h
  obtain ⟨d', e⟩ := h (fresh 1)
  simp [setKind, getKind, fresh] at e

theorem static_throws (d : Disk) : setKind d "Static" = .throws { d with kind := .static } := by
  simp [setKind]

/-- C103, on an example: the zeros being those of the Bessel functions, the field vanishes at the edge of a disk of radius 100. -/
example (zeros : Nat → Int → ℝ) (hz : ∀ m n, m ≤ 64 → 1 ≤ n → n ≤ 64 → besselJ m (zeros m n) = 0) :
    solution (modalQuantities zeros (fun m n => ⟨m, n / 100, 1 / 3⟩) (fresh 100)) 7 100 2 = 0 :=
  modal_edge zeros _ hz (fresh 100) rfl (by simp [fresh]) 7 2

end Gyoto.Stochastic
