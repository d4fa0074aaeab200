import Verif.Props.Doughnut
import Verif.Lemmas.Trapezoid
import Verif.Lemmas.Synch
import Mathlib.Data.List.OfFn

/-!
# C134: the channels of the Polish doughnut (`PolishDoughnut::integrateEmission`)
-/

namespace Gyoto.Doughnut

open Gyoto.Transfer (Out)
open Gyoto.Synch
open Gyoto.Spec (trapezoids point point_last point_step)

/-- The rule of the trapezoids from the lower end of a channel to the upper one, in whichever order they are given. -/
noncomputable def rule (f : ℝ → ℝ) (m : ℕ) (c : ℝ × ℝ) : ℝ := trapezoids f (min c.1 c.2) (max c.1 c.2) m

theorem cuts_get {m : ℕ} (hm : 0 < m) (lo hi : ℝ) {j : ℕ} (hj : j ≤ m) : (cuts m lo hi)[j]? = some (point lo hi m j) := by
  unfold cuts
  rcases Nat.lt_or_ge j m with h | h
  · rw [List.getElem?_append_left (by simpa using h)]
    simp only [List.getElem?_map, List.getElem?_range h, Option.map_some, Option.some.injEq, point]
    ring
  · obtain rfl : j = m := le_antisymm hj h
    rw [List.getElem?_append_right (by simp)]
    simp [point_last lo hi hm]

theorem cuts_length (m : ℕ) (lo hi : ℝ) : (cuts m lo hi).length = m + 1 := by simp [cuts]

/-- The sum over a channel. -/
theorem channelSum_eq {m : ℕ} (hm : 0 < m) (f : ℝ → ℝ) (lo hi : ℝ) :
    channelSum m ((cuts m lo hi).map f) (cuts m lo hi) = some (rule f m (lo, hi)) := by
  have key : ∀ n, n ≤ m → (List.range n).foldl (fun acc j => do
      let a ← acc
      let i0 ← ((cuts m lo hi).map f)[j]?
      let i1 ← ((cuts m lo hi).map f)[j + 1]?
      let x0 ← (cuts m lo hi)[j]?
      let x1 ← (cuts m lo hi)[j + 1]?
      some (a + (i1 + i0) * 0.5 * |x1 - x0|)) (some (0 : ℝ)) =
      some (∑ i ∈ Finset.range n, (f (point lo hi m i) + f (point lo hi m (i + 1))) / 2 * |(hi - lo) / m|) := by
    intro n
    induction n with
    | zero => intro _; simp
    | succ n ih =>
      intro hn
      rw [List.range_succ, List.foldl_append, ih (by omega)]
      simp only [List.foldl_cons, List.foldl_nil, List.getElem?_map, cuts_get hm lo hi (show n ≤ m by omega), cuts_get hm lo hi (show n + 1 ≤ m by omega),
        Option.map_some, Option.bind_eq_bind, Option.bind_some, point_step, Finset.sum_range_succ]
      congr 2
      ring
  unfold channelSum
  rw [key m le_rfl]
  congr 1
  have hm0 : (m : ℝ) ≠ 0 := by positivity
  unfold rule trapezoids
  rcases le_total lo hi with h | h
  · simp only [min_eq_left h, max_eq_right h]
    rw [abs_of_nonneg (div_nonneg (by linarith) (by positivity))]
  · simp only [min_eq_right h, max_eq_left h]
    have e : |(hi - lo) / m| = (lo - hi) / m := by
      rw [show (hi - lo) / m = -((lo - hi) / m) by ring, abs_neg, abs_of_nonneg (div_nonneg (by linarith) (by positivity))]
    rw [e, ← Finset.sum_range_reflect]
    refine Finset.sum_congr rfl fun i hi' => ?_
    have hi' := Finset.mem_range.1 hi'
    have p : ∀ j, j ≤ m → point lo hi m (m - j) = point hi lo m j := by
      intro j hj
      unfold point
      rw [Nat.cast_sub hj]
      field_simp
      ring
    rw [show m - 1 - i + 1 = m - i by omega, show m - 1 - i = m - (i + 1) by omega, p i (by omega), p (i + 1) (by omega)]
    ring

theorem slice {α : Type} {k : ℕ} : ∀ (L : List (List α)), (∀ l ∈ L, l.length = k) → ∀ i (h : i < L.length), (L.flatten.drop (i * k)).take k = L[i]
  | [], _, i, h => absurd h (by simp)
  | l :: L, hL, 0, _ => by
    have := hL l (by simp)
    simp [← this]
  | l :: L, hL, i + 1, h => by
    have e := hL l (by simp)
    rw [List.flatten_cons, show (i + 1) * k = l.length + i * k by rw [e]; ring, List.drop_append, List.drop_eq_nil_of_le (by omega), List.nil_append]
    simpa using slice L (fun x hx => hL x (by simp [hx])) i (by simpa using h)

theorem mapM_ok {α β : Type} {g : α → Option β} {h : α → β} : ∀ (l : List α), (∀ x ∈ l, g x = some (h x)) → l.mapM g = some (l.map h)
  | [], _ => rfl
  | x :: l, e => by
    rw [List.mapM_cons, e x (by simp), mapM_ok l fun y hy => e y (by simp [hy])]
    rfl

/-- The ends of channel `i` are `lo i` and `hi i`. -/
def Channels (boundaries : List ℝ) (chaninds : List ℕ) (nbnu : ℕ) (lo hi : ℕ → ℝ) : Prop :=
  ∀ i < nbnu, ∃ i1 i2, chaninds[2 * i]? = some i1 ∧ chaninds[2 * i + 1]? = some i2 ∧ boundaries[i1]? = some (lo i) ∧ boundaries[i2]? = some (hi i)

theorem ends_eq {boundaries : List ℝ} {chaninds : List ℕ} {nbnu : ℕ} {lo hi : ℕ → ℝ} (h : Channels boundaries chaninds nbnu lo hi) :
    ends boundaries chaninds nbnu = some ((List.range nbnu).map fun i => (lo i, hi i)) := by
  refine mapM_ok _ fun i hi => ?_
  obtain ⟨i1, i2, e1, e2, e3, e4⟩ := h i (List.mem_range.1 hi)
  simp [e1, e2, e3, e4]

/-- **C134** Each channel gets the sum of the trapezoids of the emission over as many equal parts of the channel as the oversampling says, whether or not the
channels touch or overlap and in whichever order their ends are given. The emission is asked once, and only inside of the channels. -/
theorem channels {s : Torus} {f : ℝ → ℝ} {emission : List ℝ → Out (List ℝ)} {boundaries : List ℝ} {chaninds : List ℕ} {nbnu : ℕ} {lo hi : ℕ → ℝ}
    (hm : 0 < s.oversampling) (he : Channels boundaries chaninds nbnu lo hi)
    (hf : ∀ l, (∀ x ∈ l, ∃ i < nbnu, min (lo i) (hi i) ≤ x ∧ x ≤ max (lo i) (hi i)) → emission l = .ok (l.map f)) :
    s.integrate emission boundaries chaninds nbnu = .ok ((List.range nbnu).map fun i => rule f s.oversampling (lo i, hi i)) := by
  generalize hM : s.oversampling = m at *
  have hm0 : (0 : ℝ) < m := by exact_mod_cast hm
  have inside : ∀ a b : ℝ, ∀ x ∈ cuts m a b, min a b ≤ x ∧ x ≤ max a b := by
    intro a b x hx
    obtain ⟨j, hj⟩ := List.mem_iff_getElem?.1 hx
    have hl : j < (cuts m a b).length := by
      by_contra hc
      rw [List.getElem?_eq_none (by omega)] at hj
      cases hj
    rw [cuts_length] at hl
    rw [cuts_get hm a b (by omega)] at hj
    obtain rfl := Option.some.inj hj
    have j0 : (0 : ℝ) ≤ j / m := by positivity
    have j1 : (j : ℝ) / m ≤ 1 := by rw [div_le_one hm0]; exact_mod_cast (by omega : j ≤ m)
    have e : point a b m j = a + j / m * (b - a) := by unfold point; ring
    rw [e]
    rcases le_total a b with h | h
    · rw [min_eq_left h, max_eq_right h]; constructor <;> nlinarith
    · rw [min_eq_right h, max_eq_left h]; constructor <;> nlinarith
  have em : emission (((List.range nbnu).map fun i => (lo i, hi i)).flatMap fun c => cuts m c.1 c.2) =
      .ok ((((List.range nbnu).map fun i => (lo i, hi i)).flatMap fun c => cuts m c.1 c.2).map f) := by
    refine hf _ fun x hx => ?_
    obtain ⟨c, hc, hx⟩ := List.mem_flatMap.1 hx
    obtain ⟨i, hi, rfl⟩ := List.mem_map.1 hc
    exact ⟨i, List.mem_range.1 hi, inside _ _ x hx⟩
  unfold Torus.integrate
  simp only [hM, ends_eq he]
  rw [if_neg (by omega), em, bind_ok]
  have sum : ((List.range nbnu).mapM fun i => channelSum m
      ((((((List.range nbnu).map fun i => (lo i, hi i)).flatMap fun c => cuts m c.1 c.2).map f).drop (i * (m + 1))).take (m + 1))
      (((((List.range nbnu).map fun i => (lo i, hi i)).flatMap fun c => cuts m c.1 c.2).drop (i * (m + 1))).take (m + 1))) =
      some ((List.range nbnu).map fun i => rule f m (lo i, hi i)) := by
    refine mapM_ok _ fun i hi' => ?_
    have hi' := List.mem_range.1 hi'
    have sl : (((((List.range nbnu).map fun i => (lo i, hi i)).flatMap fun c => cuts m c.1 c.2).drop (i * (m + 1))).take (m + 1)) = cuts m (lo i) (hi i) := by
      rw [List.flatMap_def]
      rw [slice _ (by
        intro l hl
        obtain ⟨c, -, rfl⟩ := List.mem_map.1 hl
        exact cuts_length m c.1 c.2) i (by simpa using hi')]
      simp
    rw [← List.map_drop, ← List.map_take, sl]
    exact channelSum_eq hm f (lo i) (hi i)
  simp only [sum]

/-- **C134** With more and more parts each channel gets the integral of an emission that is continuous over it. -/
theorem channels_tend {f : ℝ → ℝ} {a b : ℝ} (hf : ContinuousOn f (Set.uIcc a b)) {ε : ℝ} (hε : 0 < ε) :
    ∃ N : ℕ, 0 < N ∧ ∀ m, N ≤ m → |rule f m (a, b) - ∫ x in (min a b)..(max a b), f x| ≤ ε :=
  Spec.trapezoids_tendsto (min_le_max) hf hε

/-- **C134** A constant emission over channels gives its value times the width of each, for any oversampling. -/
theorem channels_flat {m : ℕ} (hm : 0 < m) (v a b : ℝ) : rule (fun _ => v) m (a, b) = v * |b - a| := by
  have hm0 : (m : ℝ) ≠ 0 := by positivity
  unfold rule trapezoids
  rw [max_sub_min_eq_abs]
  simp only [Finset.sum_const, Finset.card_range, nsmul_eq_mul]
  field_simp
  ring

/-- C134. Without subchannels the arrays are written outside of their limits, whatever the channels. -/
theorem no_parts_wrong {s : Torus} (hm : s.oversampling = 0) (emission : List ℝ → Out (List ℝ)) (boundaries : List ℝ) (chaninds : List ℕ) {nbnu : ℕ}
    (hn : 0 < nbnu) : s.integrate emission boundaries chaninds nbnu = .ub := by
  unfold Torus.integrate
  rw [if_pos ⟨hm, hn⟩]

/-- Example: two channels that do not touch, the second from above to below, the emission proportional to the frequency: as a new torus does it, in 10 parts. -/
example : Torus.new.integrate (fun l => .ok (l.map fun x => 3 * x)) [1, 2, 4, 6] [0, 1, 3, 2] 2 = .ok [4.5, 30] := by
  rw [channels (f := fun x => 3 * x) (lo := fun i => if i = 0 then 1 else 6) (hi := fun i => if i = 0 then 2 else 4) (by simp [Torus.new]) ?_ (fun _ _ => rfl)]
  · simp [List.range_succ, rule, trapezoids, point, Torus.new, Finset.sum_range_succ]
    norm_num
  · intro i hi
    interval_cases i
    · exact ⟨0, 1, rfl, rfl, rfl, rfl⟩
    · exact ⟨3, 2, rfl, rfl, rfl, rfl⟩

end Gyoto.Doughnut
