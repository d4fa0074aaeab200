import Verif.Model.Doughnut
import Verif.Props.Functors

/-!
# C131: the parameters of the Polish doughnut and what is kept of them
-/

namespace Gyoto.Doughnut

open Gyoto.MetricAlg
open Gyoto.Functors (NearZero ridders)

/-- The torus that fills its Roche lobe in the metric `h`, for the parameter `lam`: its angular momentum, the place where its surface crosses itself, its
centre, the potential at both, the outer radius. -/
structure Filled (h : Hole) (s : Torus) : Prop where
  l0 : s.l0 = s.lam * (h.ell h.rmb - h.ell h.rms) + h.ell h.rms
  rin : s.rin = root (fun r => h.ell r - s.l0) h.rmb h.rms
  cusp : s.cusp = if s.changeCusp then s.rin.map (fun r => r * 1.25) else s.rin
  centre : s.centre = root (fun r => h.ell r - s.l0) h.rms 1000
  Ws : s.Ws = s.rin.map fun r => h.pot ![0, r, Real.pi / 2, 0] s.l0
  Wc : s.Wc = s.centre.map fun r => h.pot ![0, r, Real.pi / 2, 0] s.l0
  outer : ∃ W d c r, s.Ws = some W ∧ s.dW = some (some d) ∧ s.centre = some c ∧ s.outer = some r ∧
    root (fun r => (h.pot ![0, r, Real.pi / 2, 0] s.l0 - W) * d) c 5000 = some r
  dW : s.dW = some (gap s.Wc s.Ws)
  below : s.lam ≤ 0.99

/-- The torus of a given angular momentum and inner radius. -/
structure Placed (h : Hole) (s : Torus) : Prop where
  cusp : s.cusp = s.rin
  centre : s.centre = s.rin.bind fun r => root (fun r => h.ell r - s.l0) r 1000
  Ws : s.Ws = s.rin.map fun r => h.pot ![0, r, Real.pi / 2, 0] s.l0
  Wc : s.Wc = s.centre.map fun r => h.pot ![0, r, Real.pi / 2, 0] s.l0
  dW : s.dW = some (gap s.Wc s.Ws)
  outer : s.outer = h.outer s.l0 1000 s.Ws (gap s.Wc s.Ws) s.centre

/-! ### Searches -/

theorem mono (f : ℝ → ℝ) : ∀ (k : ℕ) (s : Functors.Pair) (r : ℝ), Functors.riddersLoop f k s = .done r →
    ∀ m, k ≤ m → Functors.riddersLoop f m s = .done r := by
  have one : ∀ (k : ℕ) (s : Functors.Pair) (r : ℝ), Functors.riddersLoop f k s = .done r → Functors.riddersLoop f (k + 1) s = .done r := by
    intro k
    induction k with
    | zero => intro s r hr; cases hr
    | succ k ih =>
      intro s r hr
      rw [Functors.riddersLoop] at hr ⊢
      simp only at hr ⊢
      split_ifs at hr ⊢ with c1 c2
      · exact ih _ _ hr
      · exact hr
  intro k s r hr m hm
  induction m, hm using Nat.le_induction with
  | base => exact hr
  | succ m _ ih => exact one m _ _ ih

/-- What a search returns does not depend on the number of turns it is given. -/
theorem root_iff (f : ℝ → ℝ) (r1 r2 r : ℝ) : root f r1 r2 = some r ↔ ∃ n, ridders f r1 r2 n = .done r := by
  have uniq : ∀ {r r' : ℝ} {n n' : ℕ}, ridders f r1 r2 n = .done r → ridders f r1 r2 n' = .done r' → r = r' := by
    intro r r' n n' h h'
    have a := mono f n _ r h (max n n') (le_max_left _ _)
    have b := mono f n' _ r' h' (max n n') (le_max_right _ _)
    rw [a] at b
    injection b
  unfold root
  split_ifs with h
  · constructor
    · intro e
      obtain ⟨n, hn⟩ := h.choose_spec
      injection e with e
      exact ⟨n, e ▸ hn⟩
    · rintro ⟨n, hn⟩
      obtain ⟨m, hm⟩ := h.choose_spec
      rw [uniq hm hn]
  · constructor
    · intro e; cases e
    · rintro ⟨n, hn⟩; exact absurd ⟨r, n, hn⟩ h

/-- From a bracket a search gives a number. -/
theorem root_ok (f : ℝ → ℝ) (r1 r2 : ℝ) (h : f r1 * f r2 < 0) : ∃ r, root f r1 r2 = some r ∧ NearZero f r1 r2 r := by
  obtain ⟨N, hN⟩ := Functors.ridders_ok r1 r2
  obtain ⟨r, hr, hz⟩ := hN f h
  exact ⟨r, (root_iff f r1 r2 r).2 ⟨N, hr N le_rfl⟩, hz⟩

/-- If the function and its value at the middle of the interval do not allow a step, there is no number. -/
theorem root_none (f : ℝ → ℝ) (r1 r2 : ℝ) (h : f (1 / 2 * (r1 + r2)) * f (1 / 2 * (r1 + r2)) - f r1 * f r2 ≤ 0) : root f r1 r2 = none := by
  rcases e : root f r1 r2 with _ | r
  · rfl
  · obtain ⟨n, hn⟩ := (root_iff f r1 r2 r).1 e
    cases n with
    | zero => cases hn
    | succ n =>
      unfold ridders at hn
      rw [Functors.riddersLoop] at hn
      simp only [if_pos h] at hn
      cases hn

/-! ### One call -/

theorem lambda_none {s : Torus} (e : s.metric = none) (x : ℝ) : s.lambda x = .ok { s with roche := true, rinner := false, lam := x } := by
  simp only [Torus.lambda, e]

open Classical in
theorem lambda_some {s : Torus} {h : Hole} (e : s.metric = some h) (x : ℝ) : s.lambda x = if x > 0.99 then .thrown (s.fill h x)
    else if ((s.fill h x).close h).outer = none then .thrown ((s.fill h x).close h) else .ok ((s.fill h x).close h) := by
  simp only [Torus.lambda, e]

theorem lambda_ok {s s' : Torus} {h : Hole} {x : ℝ} (e : s.metric = some h) (k : s.lambda x = .ok s') :
    Filled h s' ∧ s'.metric = some h ∧ s'.lam = x ∧ s'.roche = true ∧ s'.rinner = false ∧ s'.changeCusp = s.changeCusp := by
  simp only [Torus.lambda, e] at k
  split_ifs at k with h1 h2
  injection k with k
  subst k
  obtain ⟨r, hr⟩ := Option.ne_none_iff_exists'.1 h2
  refine ⟨⟨rfl, rfl, rfl, rfl, rfl, rfl, ?_, rfl, not_lt.1 h1⟩, e, rfl, rfl, rfl, rfl⟩
  have hr0 := hr
  simp only [Torus.close, Hole.outer, Option.bind_eq_bind, Option.bind_eq_some_iff] at hr
  obtain ⟨W, hW, d, hd, c, hc, hr'⟩ := hr
  exact ⟨W, d, c, r, hW, congrArg some hd, hc, hr0, hr'⟩

theorem place_none {s : Torus} (e : s.metric = none) (l : ℝ) (r : Option ℝ) : s.place l r = .ok { s with l0 := l, rin := r, cusp := r } := by
  simp only [Torus.place, e]

theorem place_ok {s s' : Torus} {h : Hole} {l : ℝ} {r : Option ℝ} (e : s.metric = some h) (k : s.place l r = .ok s') :
    Placed h s' ∧ s'.metric = some h ∧ s'.l0 = l ∧ s'.rin = r ∧ s'.roche = s.roche ∧ s'.rinner = s.rinner := by
  simp only [Torus.place, e] at k
  split_ifs at k with h1
  injection k with k
  subst k
  exact ⟨⟨rfl, rfl, rfl, rfl, rfl, rfl⟩, rfl, rfl, rfl, rfl, rfl⟩

/-- Flags after a setter, whatever the outcome. -/
theorem lambda_flags {s s' : Torus} {x : ℝ} (k : s.lambda x = .ok s' ∨ s.lambda x = .thrown s') :
    s'.roche = true ∧ s'.rinner = false ∧ s'.lam = x ∧ s'.metric = s.metric := by
  rcases e : s.metric with _ | h
  · rw [lambda_none e] at k
    rcases k with k | k
    · injection k with k; subst k; exact ⟨rfl, rfl, rfl, e⟩
    · cases k
  · simp only [Torus.lambda, e] at k
    split_ifs at k with h1 h2
    · simp only [reduceCtorEq, Res.thrown.injEq, false_or] at k; subst k; exact ⟨rfl, rfl, rfl, e⟩
    · simp only [reduceCtorEq, Res.thrown.injEq, false_or] at k; subst k; exact ⟨rfl, rfl, rfl, e⟩
    · simp only [reduceCtorEq, Res.ok.injEq, or_false] at k; subst k; exact ⟨rfl, rfl, rfl, e⟩

theorem place_flags {s s' : Torus} {l : ℝ} {r : Option ℝ} (k : s.place l r = .ok s' ∨ s.place l r = .thrown s') :
    s'.roche = s.roche ∧ s'.rinner = s.rinner ∧ s'.l0 = l ∧ s'.rin = r ∧ s'.metric = s.metric := by
  rcases e : s.metric with _ | h
  · rw [place_none e] at k
    rcases k with k | k
    · injection k with k; subst k; exact ⟨rfl, rfl, rfl, rfl, e⟩
    · cases k
  · simp only [Torus.place, e] at k
    split_ifs at k with h1
    · simp only [reduceCtorEq, Res.thrown.injEq, false_or] at k; subst k; exact ⟨rfl, rfl, rfl, rfl, rfl⟩
    · simp only [reduceCtorEq, Res.ok.injEq, or_false] at k; subst k; exact ⟨rfl, rfl, rfl, rfl, rfl⟩

theorem angmomrinner_flags {s s' : Torus} {v : List ℝ} (k : s.angmomrinner v = .ok s' ∨ s.angmomrinner v = .thrown s') :
    s'.roche = false ∧ s'.rinner = true := by
  unfold Torus.angmomrinner at k
  simp only at k
  split at k
  · obtain ⟨a, b, -⟩ := place_flags k
    exact ⟨a, b⟩
  · rcases k with k | k
    · cases k
    · injection k with k; subst k; exact ⟨rfl, rfl⟩

theorem again_flags {s s' : Torus} (hx : ¬ (s.roche = true ∧ s.rinner = true)) (k : s.again = .ok s' ∨ s.again = .thrown s') :
    s'.roche = s.roche ∧ s'.rinner = s.rinner := by
  unfold Torus.again at k
  split_ifs at k with h1 h2
  · obtain ⟨a, b, -⟩ := place_flags k
    simp only [h1] at a b hx ⊢
    rw [a, b]
    simp_all
  · obtain ⟨a, b, -⟩ := lambda_flags k
    rw [a, b, h2]; simp_all
  · rcases k with k | k
    · injection k with k; subst k; exact ⟨rfl, rfl⟩
    · cases k

/-! ### Histories -/

/-- What calls make of a new object, accepted or refused. -/
inductive Reach : Torus → Prop
  | new : Reach Torus.new
  | step {s s' : Torus} (c : Call) : Reach s → (s.call c = .ok s' ∨ s.call c = .thrown s') → Reach s'

/-- **C131** Whatever the history, at most one of the two descriptions of the torus is in force. -/
theorem exclusive {s : Torus} (h : Reach s) : ¬ (s.roche = true ∧ s.rinner = true) := by
  induction h with
  | new => simp [Torus.new]
  | @step s s' c _ k ih =>
    cases c with
    | lambda x => obtain ⟨-, b, -⟩ := lambda_flags k; simp [b]
    | angmomrinner v => obtain ⟨a, -⟩ := angmomrinner_flags k; simp [a]
    | metric h =>
      obtain ⟨a, b⟩ := again_flags (s := { s with metric := h }) ih k
      rw [a, b]; exact ih
    | mutated h =>
      simp only [Torus.call] at k
      rcases e : s.metric with _ | m
      · rw [e] at k; simp only [Res.ok.injEq, reduceCtorEq, or_false] at k; subst k; exact ih
      · rw [e] at k
        obtain ⟨a, b⟩ := again_flags (s := { s with metric := some h }) ih k
        rw [a, b]; exact ih
    | nonThermal v =>
      simp only [Torus.call] at k
      split at k <;> (simp only [Res.ok.injEq, Res.thrown.injEq, reduceCtorEq, or_false, false_or] at k; subst k; exact ih)
    | adafparams v =>
      simp only [Torus.call, Torus.adafparams] at k
      split at k <;> (simp only [Res.ok.injEq, Res.thrown.injEq, reduceCtorEq, or_false, false_or] at k; subst k; exact ih)
    | xmlADAF v =>
      simp only [Torus.call, Torus.adafparams] at k
      split_ifs at k
      · simp only [Res.ok.injEq, reduceCtorEq, or_false] at k; subst k; exact ih
      · split at k <;> (simp only [Res.ok.injEq, Res.thrown.injEq, reduceCtorEq, or_false, false_or] at k; subst k; exact ih)
    | _ => simp only [Torus.call, Res.ok.injEq, reduceCtorEq, or_false] at k; subst k; exact ih

/-- Histories in which each call is accepted and the change of the cusp is not asked for (or taken back) once the torus is there. -/
inductive Orderly : Torus → Prop
  | new : Orderly Torus.new
  | step {s s' : Torus} (c : Call) : Orderly s → s.call c = .ok s' →
      (∀ b, c = .changeCusp b → s.roche = true → s.metric = none ∨ b = s.changeCusp) → Orderly s'

theorem Orderly.reach {s : Torus} (h : Orderly s) : Reach s := by
  induction h with
  | new => exact .new
  | step c _ k _ ih => exact .step c ih (.inl k)

/-- The torus is that of the metric and of the parameters. -/
def InForce (s : Torus) : Prop := ∀ h, s.metric = some h → (s.roche = true → Filled h s) ∧ (s.rinner = true → Placed h s)

theorem filled_congr {h : Hole} {s t : Torus} (k : Filled h s) (e1 : t.l0 = s.l0) (e2 : t.lam = s.lam) (e3 : t.rin = s.rin) (e4 : t.cusp = s.cusp)
    (e5 : t.centre = s.centre) (e6 : t.Ws = s.Ws) (e7 : t.Wc = s.Wc) (e8 : t.dW = s.dW) (e9 : t.outer = s.outer) (e10 : t.changeCusp = s.changeCusp) :
    Filled h t := by
  constructor
  · rw [e1, e2]; exact k.l0
  · rw [e1, e3]; exact k.rin
  · rw [e4, e10, e3]; exact k.cusp
  · rw [e1, e5]; exact k.centre
  · rw [e1, e6, e3]; exact k.Ws
  · rw [e1, e7, e5]; exact k.Wc
  · rw [e1, e6, e8, e5, e9]; exact k.outer
  · rw [e8, e7, e6]; exact k.dW
  · rw [e2]; exact k.below

theorem placed_congr {h : Hole} {s t : Torus} (k : Placed h s) (e1 : t.l0 = s.l0) (e3 : t.rin = s.rin) (e4 : t.cusp = s.cusp)
    (e5 : t.centre = s.centre) (e6 : t.Ws = s.Ws) (e7 : t.Wc = s.Wc) (e8 : t.dW = s.dW) (e9 : t.outer = s.outer) :
    Placed h t := by
  constructor
  · rw [e4, e3]; exact k.cusp
  · rw [e1, e5, e3]; exact k.centre
  · rw [e1, e6, e3]; exact k.Ws
  · rw [e1, e7, e5]; exact k.Wc
  · rw [e8, e7, e6]; exact k.dW
  · rw [e9, e1, e7, e6, e5]; exact k.outer

theorem again_inForce {s s' : Torus} (hx : ¬ (s.roche = true ∧ s.rinner = true)) (k : s.again = .ok s') : InForce s' := by
  intro h e
  unfold Torus.again at k
  split_ifs at k with h1 h2
  · obtain ⟨a, b, -, -, m⟩ := place_flags (.inl k)
    rw [e] at m
    obtain ⟨p, -⟩ := place_ok (s := { s with rinner := true, roche := false }) m.symm k
    refine ⟨fun r => ?_, fun _ => p⟩
    rw [a] at r; cases r
  · obtain ⟨a, b, -, m⟩ := lambda_flags (.inl k)
    rw [e] at m
    refine ⟨fun _ => (lambda_ok m.symm k).1, fun r => ?_⟩
    rw [b] at r; cases r
  · injection k with k
    subst k
    exact ⟨fun r => absurd r h2, fun r => absurd r h1⟩

/-- **C131** After any orderly history with a metric, the angular momentum, the radii and the potentials of the torus are those that its metric and the
parameters in force give, be the metric set before or after them, replaced, or changed. -/
theorem follows_partial {s : Torus} (hs : Orderly s) : InForce s := by
  induction hs with
  | new => intro h e; cases e
  | @step s s' c o k hc ih =>
    have hx := exclusive o.reach
    cases c with
    | lambda x =>
      intro h e
      obtain ⟨a, b, -, m⟩ := lambda_flags (.inl k)
      rw [e] at m
      refine ⟨fun _ => (lambda_ok m.symm k).1, fun r => ?_⟩
      rw [b] at r; cases r
    | angmomrinner v =>
      intro h e
      obtain ⟨a, b⟩ := angmomrinner_flags (.inl k)
      refine ⟨fun r => (by rw [a] at r; cases r), fun _ => ?_⟩
      simp only [Torus.call, Torus.angmomrinner] at k
      split at k
      · have m := (place_flags (.inl k)).2.2.2.2
        rw [e] at m
        exact (place_ok (s := { s with rinner := true, roche := false }) m.symm k).1
      · cases k
    | metric h => exact again_inForce (s := { s with metric := h }) hx k
    | mutated h =>
      simp only [Torus.call] at k
      rcases e : s.metric with _ | m
      · rw [e] at k; injection k with k; subst k; exact ih
      · rw [e] at k; exact again_inForce (s := { s with metric := some h }) hx k
    | changeCusp b =>
      simp only [Torus.call, Res.ok.injEq] at k
      subst k
      intro h e
      refine ⟨fun r => ?_, fun r => placed_congr ((ih h e).2 r) rfl rfl rfl rfl rfl rfl rfl rfl⟩
      rcases hc b rfl r with n | n
      · have e' : s.metric = some h := e
        rw [n] at e'; cases e'
      · exact filled_congr ((ih h e).1 r) rfl rfl rfl rfl rfl rfl rfl rfl rfl n
    | nonThermal v =>
      simp only [Torus.call] at k
      split at k
      · injection k with k; subst k
        exact fun h e => ⟨fun r => filled_congr ((ih h e).1 r) rfl rfl rfl rfl rfl rfl rfl rfl rfl rfl,
          fun r => placed_congr ((ih h e).2 r) rfl rfl rfl rfl rfl rfl rfl rfl⟩
      · cases k
    | adafparams v =>
      simp only [Torus.call, Torus.adafparams] at k
      split at k
      · injection k with k; subst k
        exact fun h e => ⟨fun r => filled_congr ((ih h e).1 r) rfl rfl rfl rfl rfl rfl rfl rfl rfl rfl,
          fun r => placed_congr ((ih h e).2 r) rfl rfl rfl rfl rfl rfl rfl rfl⟩
      · cases k
    | xmlADAF v =>
      simp only [Torus.call, Torus.adafparams] at k
      split_ifs at k
      · injection k with k; subst k; exact ih
      · split at k
        · injection k with k; subst k
          exact fun h e => ⟨fun r => filled_congr ((ih h e).1 r) rfl rfl rfl rfl rfl rfl rfl rfl rfl rfl,
            fun r => placed_congr ((ih h e).2 r) rfl rfl rfl rfl rfl rfl rfl rfl⟩
        · cases k
    | _ =>
      simp only [Torus.call, Res.ok.injEq] at k
      subst k
      exact fun h e => ⟨fun r => filled_congr ((ih h e).1 r) rfl rfl rfl rfl rfl rfl rfl rfl rfl rfl,
        fun r => placed_congr ((ih h e).2 r) rfl rfl rfl rfl rfl rfl rfl rfl⟩

/-- **C131** The metric may be given before or after the parameters. -/
theorem order_free {s : Torus} (e : s.metric = none) (e1 : s.roche = false) (e2 : s.rinner = false) (h : Hole) :
    (∀ x, ∃ s1 s2, s.call (.lambda x) = .ok s1 ∧ s.call (.metric (some h)) = .ok s2 ∧ s1.call (.metric (some h)) = s2.call (.lambda x)) ∧
    ∀ l r, ∃ s1 s2, s.call (.angmomrinner [l, r]) = .ok s1 ∧ s.call (.metric (some h)) = .ok s2 ∧
      s1.call (.metric (some h)) = s2.call (.angmomrinner [l, r]) := by
  have m : s.call (.metric (some h)) = .ok { s with metric := some h } := by
    simp [Torus.call, Torus.again, e1, e2]
  refine ⟨fun x => ⟨_, _, lambda_none e x, m, ?_⟩, fun l r =>
    ⟨{ s with rinner := true, roche := false, l0 := l, rin := some r, cusp := some r }, _, ?_, m, ?_⟩⟩
  · rfl
  · simp [Torus.call, Torus.angmomrinner, Torus.place, e]
  · simp [Torus.call, Torus.again, Torus.angmomrinner, Torus.place]

/-- **C131** What is set is given back, and of the two descriptions that which was set last is written to a file. -/
theorem given_back {s s' : Torus} :
    (∀ x, s.call (.lambda x) = .ok s' → s'.getLambda = x ∧ s'.written = (true, false)) ∧
    (∀ l r, s.call (.angmomrinner [l, r]) = .ok s' → s'.getRinner = (l, some r) ∧ s'.written = (false, true)) ∧
    (∀ x, s.call (.enthalpy x) = .ok s' → s'.enthalpy / 10 = x) ∧
    (∀ d p, s.call (.nonThermal [d, p]) = .ok s' → s'.deltaPL = d ∧ s'.pl.p = p) ∧
    (∀ b, s.call (.averaged b) = .ok s' → s'.averaged = b ∧ s'.synch.averaged = b ∧ s'.pl.averaged = b) ∧
    (∀ T n, s.call (.adafparams [T, n]) = .ok s' → s'.adaf = true ∧ s'.adafT = T ∧ s'.adafN = n) := by
  refine ⟨fun x k => ?_, fun l r k => ?_, fun x k => ?_, fun d p k => ?_, fun b k => ?_, fun T n k => ?_⟩
  · obtain ⟨a, b, c, -⟩ := lambda_flags (.inl k)
    exact ⟨c, by simp [Torus.written, a, b]⟩
  · obtain ⟨a, b⟩ := angmomrinner_flags (s := s) (v := [l, r]) (.inl k)
    obtain ⟨-, -, c, d, -⟩ := place_flags (.inl k)
    exact ⟨by simp [Torus.getRinner, c, d], by simp [Torus.written, a, b]⟩
  all_goals
    simp only [Torus.call, Torus.adafparams, Res.ok.injEq] at k
    subst k
  · show 10 * x / 10 = x
    ring
  · exact ⟨rfl, rfl⟩
  · exact ⟨rfl, rfl, rfl⟩
  · exact ⟨rfl, rfl, rfl⟩

/-- **C131** A refused vector leaves the electrons and the ADAF as they were. -/
theorem refused_kept {s : Torus} {v : List ℝ} (hv : v.length ≠ 2) : s.call (.nonThermal v) = .thrown s ∧ s.call (.adafparams v) = .thrown s := by
  constructor
  · simp only [Torus.call]
    split
    · simp at hv
    · rfl
  · simp only [Torus.call, Torus.adafparams]
    split
    · simp at hv
    · rfl

/-- **C131** is not so for the torus: a refused `AngMomRinner` puts an end to the torus that fills its lobe. From then on the angular momentum and the inner
radius of that torus are taken for what the user has asked for, and no longer follow the metric. -/
theorem refused_rinner_wrong {s : Torus} {v : List ℝ} (hv : v.length ≠ 2) (hr : s.roche = true) :
    ∃ s', s.call (.angmomrinner v) = .thrown s' ∧ s'.roche = false ∧ s'.rinner = true ∧ s'.l0 = s.l0 ∧ s'.rin = s.rin ∧
      ∀ h s'', (s'.call (.metric (some h)) = .ok s'' ∨ s'.call (.metric (some h)) = .thrown s'') → s''.l0 = s.l0 ∧ s''.rin = s.rin := by
  refine ⟨{ s with rinner := true, roche := false }, ?_, rfl, rfl, rfl, rfl, fun h s'' k => ?_⟩
  · simp only [Torus.call, Torus.angmomrinner]
    split
    · simp at hv
    · rfl
  · simp only [Torus.call, Torus.again, if_true] at k
    obtain ⟨-, -, a, b, -⟩ := place_flags k
    exact ⟨a, b⟩

/-- **C131** is not so: a value of `Lambda` above 0.99 is refused after it has been used; the torus has the new surface and the old outer radius. -/
theorem refused_lambda_wrong {s : Torus} {h : Hole} (e : s.metric = some h) {x : ℝ} (hx : 0.99 < x) :
    ∃ s', s.call (.lambda x) = .thrown s' ∧ s'.getLambda = x ∧ s'.roche = true ∧ s'.l0 = x * (h.ell h.rmb - h.ell h.rms) + h.ell h.rms ∧
      s'.rin = root (fun r => h.ell r - s'.l0) h.rmb h.rms ∧ s'.outer = s.outer := by
  refine ⟨s.fill h x, ?_, rfl, rfl, rfl, rfl, rfl⟩
  simp only [Torus.call, Torus.lambda, e, if_pos hx]

/-- **C131** is not so: to ask for the change of the cusp once the torus is there does nothing to it, until the metric or the parameter is set again. -/
theorem cusp_late_wrong {s : Torus} {h : Hole} (e : s.metric = some h) (k : Filled h s) {c : ℝ} (hc : s.rin = some c) (c0 : c ≠ 0)
    (hf : s.changeCusp = false) : ∃ s', s.call (.changeCusp true) = .ok s' ∧ s'.changeCusp = true ∧ s'.cusp = some c ∧ ¬ Filled h s' ∧
      ∃ s'', s'.call (.lambda s'.getLambda) = .ok s'' ∧ s''.cusp = some (c * 1.25) := by
  refine ⟨{ s with changeCusp := true }, rfl, rfl, ?_, fun q => ?_, ?_⟩
  · have := k.cusp
    rw [hf, hc] at this
    simpa using this
  · have a := k.cusp
    have b := q.cusp
    rw [hf, hc] at a
    simp only [hc, if_true, Option.map_some] at b
    simp only [Bool.false_eq_true, if_false] at a
    rw [a] at b
    injection b with b
    apply c0
    linarith
  · have hn : ¬ s.lam > 0.99 := not_lt.2 k.below
    have l := k.l0
    have rr := k.rin
    obtain ⟨W, d, cc, o, w1, w2, w3, w4, w5⟩ := k.outer
    have fe : (({ s with changeCusp := true } : Torus).fill h s.lam) = { s with roche := true, rinner := false, changeCusp := true, cusp := some (c * 1.25) } := by
      have q1 : root (h.cross s.l0) h.rmb h.rms = some c := by rw [← hc]; exact rr.symm
      have q2 : root (h.cross s.l0) h.rms 1000 = s.centre := k.centre.symm
      have q3 : (s.centre.map (h.plane s.l0)) = s.Wc := k.Wc.symm
      have q4 : some (h.plane s.l0 c) = s.Ws := by have := k.Ws; rw [hc] at this; exact this.symm
      simp only [Torus.fill, ← l, q1, q2, q3, if_true, Option.map_some, q4, ← k.dW, hc]
    have ce : ((({ s with changeCusp := true } : Torus).fill h s.lam).close h) =
        { s with roche := true, rinner := false, changeCusp := true, cusp := some (c * 1.25) } := by
      rw [fe]
      have q5 : h.outer s.l0 5000 s.Ws (gap s.Wc s.Ws) s.centre = s.outer := by
        have g : gap s.Wc s.Ws = some d := by have := k.dW; rw [w2] at this; injection this with this; exact this.symm
        rw [g, w1, w3, w4]
        exact w5
      simp only [Torus.close, q5]
    refine ⟨{ s with roche := true, rinner := false, changeCusp := true, cusp := some (c * 1.25) }, ?_, ?_⟩
    · show Torus.lambda _ _ = _
      rw [lambda_some (s := { s with changeCusp := true }) e, Torus.getLambda]
      rw [if_neg hn, ce]
      simp only [w4, reduceCtorEq, if_false]
    · rfl

/-- **C131** is not so: an inner radius from which no centre is found is accepted; the centre, the potential there and the outer radius are not numbers. Nothing
starts at the end of the interval that is searched, for example. -/
theorem no_centre_wrong {s : Torus} {h : Hole} (e : s.metric = some h) (l : ℝ) :
    ∃ s', s.call (.angmomrinner [l, 1000]) = .ok s' ∧ s'.centre = none ∧ s'.Wc = none ∧ s'.dW = some none ∧ s'.outer = none := by
  have r0 : root (h.cross l) 1000 1000 = none := by
    apply root_none
    norm_num
  refine ⟨{ s with rinner := true, roche := false, l0 := l, rin := some 1000, cusp := some 1000, Ws := some (h.plane l 1000), centre := none, Wc := none,
                   dW := some none, outer := none }, ?_, ?_⟩
  · simp [Torus.call, Torus.angmomrinner, Torus.place, e, r0, gap, Hole.outer]
  · exact ⟨rfl, rfl, rfl, rfl⟩

/-- **C131** is not so: an element `ADAF` without content is read and does nothing. -/
theorem adaf_element_wrong (s : Torus) : s.call (.xmlADAF []) = .ok s := by
  simp [Torus.call]

/-- **C131** A torus in the lobe whose parameter is between 0 and 1, where the angular momentum of the free orbits at the smallest stable orbit is below that at
the smallest bound one and that of the torus is reached before the radius 1000: the cusp is between the two orbits, the centre beyond, and there the
angular momentum is that of the torus up to the tolerance of the search. -/
theorem found {h : Hole} {s : Torus} (k : Filled h s) (l0 : 0 < s.lam) (l1 : s.lam < 1) (hl : h.ell h.rms < h.ell h.rmb) (hf : s.l0 < h.ell 1000) :
    h.ell h.rms < s.l0 ∧ s.l0 < h.ell h.rmb ∧
    (∃ c, s.rin = some c ∧ NearZero (fun r => h.ell r - s.l0) h.rmb h.rms c) ∧
    ∃ c, s.centre = some c ∧ NearZero (fun r => h.ell r - s.l0) h.rms 1000 c := by
  have e := k.l0
  have d : 0 < h.ell h.rmb - h.ell h.rms := by linarith
  have a : h.ell h.rms < s.l0 := by rw [e]; nlinarith
  have b : s.l0 < h.ell h.rmb := by rw [e]; nlinarith
  refine ⟨a, b, ?_, ?_⟩
  · rw [k.rin]
    exact root_ok _ _ _ (by nlinarith)
  · rw [k.centre]
    exact root_ok _ _ _ (by nlinarith)

end Gyoto.Doughnut
