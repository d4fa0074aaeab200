import Verif.Lemmas.Worldline

/-! # C03 — storage of a worldline -/

namespace Gyoto.Wline
variable {α : Type}

/-- Specification: a trajectory is the initial point with what has been computed before and after it
(dates increasing). -/
structure Traj (α : Type) where
  past : List α
  init : α
  future : List α

/-- All the points, in order of date. -/
def Traj.all (t : Traj α) : List α := t.past ++ t.init :: t.future

/-- Specification of the operations. The integrator delivers the points in the order in which it meets
them, so backward integration delivers the most recent one first. -/
def Traj.apply (t : Traj α) : Op α → Traj α
  | .setInit _ _ c => ⟨[], c, []⟩
  | .reset => ⟨[], t.init, []⟩
  | .fill .fwd pts => { t with future := t.future ++ pts }
  | .fill .bwd pts => { t with past := pts.reverse ++ t.past }

/-- The arrays hold the trajectory `t`: the index range is inside the arrays, contains the initial point at
the right place, and reading the range gives the points in order. -/
structure Holds (s : Store α) (t : Traj α) : Prop where
  range : s.imin ≤ s.i0 ∧ s.i0 ≤ s.imax ∧ s.imax < s.size
  count : s.imax - s.imin + 1 = t.all.length
  before : s.i0 - s.imin = t.past.length
  points : ∀ j, j < t.all.length → s.get (s.imin + j) = t.all[j]?

theorem holds_of_rep {s : Store α} {t : Traj α} (h : Rep s t.all t.past.length) : Holds s t := by
  have h1 := h.hk; have h2 := h.hi0; have h3 := h.himax; have h4 := h.hsize
  exact ⟨⟨by omega, by omega, h4⟩, by omega, by omega, fun j hj => h.get hj⟩

theorem step_rep {s : Store α} {t : Traj α} (h : Rep s t.all t.past.length) (op : Op α) :
    ∃ s', step s op = some s' ∧ Rep s' (t.apply op).all (t.apply op).past.length := by
  have h1 := h.hk; have h2 := h.hi0; have h3 := h.himax; have h4 := h.hsize
  cases op with
  | setInit m d c =>
    obtain ⟨s', e1, e2, _⟩ := rep_setInit (s := s) (by omega) (by omega) m d c
    exact ⟨s', e1, by simpa [Traj.apply, Traj.all] using e2⟩
  | reset =>
    refine ⟨s.reset, rfl, ?_⟩
    have := rep_reset h
    have e : t.all[t.past.length]'h.hk = t.init := by simp [Traj.all]
    rw [e] at this
    simpa [Traj.apply, Traj.all] using this
  | fill d pts =>
    obtain ⟨s', e1, e2⟩ := rep_fill h d pts
    refine ⟨s', e1, ?_⟩
    cases d with
    | fwd => simpa [Traj.apply, Traj.all] using e2
    | bwd =>
      simp only at e2
      have : t.past.length + pts.length = (t.apply (.fill .bwd pts)).past.length := by
        simp [Traj.apply]; omega
      rw [this] at e2
      simpa [Traj.apply, Traj.all] using e2

/-- **C03.** Start from a freshly allocated worldline of any size, set an initial condition, then do
anything (integrate forward or backward by any number of points, reset, set a new initial condition): no
access is out of bounds, and the arrays hold exactly the trajectory of the specification — in particular
growing loses nothing. -/
theorem storage_refines (size : Nat) (hsize : 0 < size) (m : Bool) (d : Option Dir) (c : α)
    (ops : List (Op α)) :
    ∃ s, run (Store.new size) (.setInit m d c :: ops) = some s ∧
      Holds s (ops.foldl Traj.apply ⟨[], c, []⟩) := by
  obtain ⟨s0, e0, r0, _⟩ := rep_setInit (s := (Store.new size : Store α)) hsize hsize m d c
  have key : ∀ (ops : List (Op α)) (s : Store α) (t : Traj α), Rep s t.all t.past.length →
      ∃ s', run s ops = some s' ∧ Rep s' (ops.foldl Traj.apply t).all
        (ops.foldl Traj.apply t).past.length := by
    intro ops
    induction ops with
    | nil => intro s t h; exact ⟨s, rfl, h⟩
    | cons op ops ih =>
      intro s t h
      obtain ⟨s1, e1, h1⟩ := step_rep h op
      obtain ⟨s2, e2, h2⟩ := ih s1 _ h1
      exact ⟨s2, by simp [run, e1, e2], h2⟩
  obtain ⟨s', e1, e2⟩ := key ops s0 ⟨[], c, []⟩ (by simpa [Traj.all] using r0)
  exact ⟨s', by simp [run, step, e0, e1], holds_of_rep e2⟩

/-- Arrays of 2 elements, enlarged several times in both directions. -/
example : (List.foldl Traj.apply (⟨[], 0, []⟩ : Traj Int)
      [.fill .bwd [-1, -2, -3], .fill .fwd [1, 2], .fill .bwd [-4]]).all
      = [-4, -3, -2, -1, 0, 1, 2] := by decide

/-- **C03, backward ray tracing (`Photon::hit`), partial.** If the first valid index is not 0, a
backward hit computation has no out-of-bounds access and prepends the points it computed.  Missing: the case
where the first valid index is 0, and forward ray tracing (both refuted below). -/
theorem hit_backward_partial {s : Store α} {t : Traj α} (h : Holds s t) (hpos : 0 < s.imin)
    (inTime beforeT impact : α → Bool) (htot : ∀ p, inTime p = false → beforeT p = true)
    (pts : List (α × Bool)) :
    ∃ s', s.hitBwd inTime beforeT impact pts = some s' ∧
      (Holds s' t ∨ Holds s' (t.apply (.fill .bwd (stored pts)))) := by
  have hr : Rep s t.all t.past.length := by
    obtain ⟨⟨a, b, c⟩, d, e, f⟩ := h
    have : t.past.length < t.all.length := by simp [Traj.all]
    refine ⟨this, by omega, by omega, c, fun j hj => ?_⟩
    have := f j hj
    unfold Store.get at this
    rwa [if_pos (by omega)] at this
  obtain ⟨s', e1, new, hn, e2⟩ := rep_hitBwd hr hpos inTime beforeT impact htot pts
  refine ⟨s', e1, ?_⟩
  rcases hn with rfl | rfl
  · exact Or.inl (holds_of_rep (by simpa using e2))
  · right
    apply holds_of_rep
    have : t.past.length + (stored pts).length
        = (t.apply (.fill .bwd (stored pts))).past.length := by
      simp [Traj.apply]; omega
    rw [this] at e2
    simpa [Traj.apply, Traj.all] using e2

/-- The hypotheses hold for a photon just initialised in arrays of two elements (integrating backward). -/
example : ∃ s, run (Store.new 2) [.setInit false none (0 : Int)] = some s ∧
    Holds s ⟨[], 0, []⟩ ∧ 0 < s.imin := by
  obtain ⟨s, e, h⟩ := storage_refines 2 (by decide) false none (0 : Int) []
  refine ⟨s, e, h, ?_⟩
  have : (run (Store.new 2) [.setInit false none (0 : Int)]).map (·.imin) = some 1 := by
    simp [run, step, Store.setInit, Store.new, Store.put]
  rw [e] at this
  simp at this
  omega

/-- **Finding (C03).** Forward ray tracing writes past the end of the arrays as soon as it computes as many
points as there are free elements after the current one, plus one: the arrays are never enlarged in
time. -/
theorem hit_forward_overflows (s : Store α) (p : α) (hget : s.get s.imax = some p)
    (pts : List (α × Bool)) (hns : ∀ x ∈ pts, x.2 = false) (hlen : s.size - s.imax ≤ pts.length) :
    s.hitFwdExtend pts = none := by
  have hlt : s.imax < s.size := by
    unfold Store.get at hget
    split at hget
    · assumption
    · simp at hget
  simp only [Store.hitFwdExtend]
  rw [if_neg (by omega)]
  simp only [hget, Option.bind_some]
  exact hitLoopFwd_overflow pts s hlt hlen hns

/-- A photon initialised forward in arrays of two elements, two points computed. -/
example : ∃ s, run (Store.new 2) [.setInit false (some .fwd) (0 : Int)] = some s ∧
    s.get s.imax = some 0 ∧ s.size - s.imax ≤ [((1 : Int), false), (2, false)].length := by
  refine ⟨_, rfl, ?_⟩
  simp [Store.get, Store.new]

/-- **Finding (C03).** A backward ray tracing which stops just as it fills element 0 leaves the worldline in
a state where the next one reads before the beginning of the arrays; so does a worldline initialised for
forward integration. -/
theorem hit_backward_underflows :
    (∃ s s', run (Store.new 2) [.setInit false (some .bwd) (0 : Int)] = some s ∧
      s.hitBwd (fun _ => true) (fun _ => false) (fun _ => false) [(-1, true)] = some s' ∧
      s'.hitBwd (fun _ => true) (fun _ => false) (fun _ => false) [(-2, true)] = none) ∧
    (∃ s, run (Store.new 2) [.setInit false (some .fwd) (0 : Int)] = some s ∧
      s.hitBwd (fun _ => true) (fun _ => false) (fun _ => false) [(-1, true)] = none) := by
  refine ⟨⟨_, _, rfl, rfl, ?_⟩, ⟨_, rfl, rfl⟩⟩
  rfl

end Gyoto.Wline
