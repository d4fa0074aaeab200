import Verif.Model.Integrator

/-!
# Names and copies of integrators (C38), and settings used by a step (C56)

* `name_selects_partial`, `selected_name`: selecting an integrator by its reported name.
* `copy_keeps_partial`: what a copy of a worldline keeps.
* `nextStep_current`, `doStep_current`: steps use the current settings, whatever was done before.
* Findings: `classic_name_wrong` (the name reported for the classic Cash-Karp integrator is not
  accepted), `copy_31_wrong` (a copy silently goes back to the 4D equation of motion),
  `select_31_wrong` (so does selecting an integrator, even the same one), `legacy_31_wrong` (the
  Legacy integrator reports but ignores the choice of the 3+1 formalism).
-/

namespace Gyoto.Integrator

/-! ### What `init` leaves alone and what it copies -/

theorem init_kind (s : State) (w : Settings) : (s.init w).kind = s.kind := by
  obtain ⟨k, _⟩ := s
  cases k with
  | legacy => rfl
  | boost k => simp only [State.init]; split_ifs <;> rfl

theorem init_31 (s : State) (w : Settings) : (s.init w).integ31 = s.integ31 := by
  obtain ⟨k, _⟩ := s
  cases k with
  | legacy => rfl
  | boost k => simp only [State.init]; split_ifs <;> rfl

theorem init_gg (s : State) (w : Settings) : (s.init w).gg = w.metric := by
  obtain ⟨k, _⟩ := s
  cases k with
  | legacy => rfl
  | boost k => simp only [State.init]; split_ifs <;> rfl

theorem init_bools (s : State) (w : Settings) :
    (s.init w).adaptive = w.adaptive ∧ (s.init w).parallel = w.parallel ∧
      (s.init w).checkBasis = (w.parallel && w.checkBasis) := by
  obtain ⟨k, _⟩ := s
  cases k with
  | legacy => exact ⟨rfl, rfl, rfl⟩
  | boost k => simp only [State.init]; split_ifs <;> exact ⟨rfl, rfl, rfl⟩

/-! ### C38 -/

/-- **C38**: the reported name selects the same integrator.  Partial: see `classic_name_wrong`. -/
theorem name_selects_partial (k : Kind) (h : k ≠ .boost .cashKarp54Classic) :
    parse k.name = some k := by
  cases k with
  | legacy => decide
  | boost k => cases k <;> first | decide | exact absurd rfl h

/-- Finding: the name reported for `runge_kutta_cash_karp54_classic` is refused. -/
theorem classic_name_wrong :
    ∃ k, parse "runge_kutta_cash_karp54_classic" = some k ∧ parse k.name = none :=
  ⟨.boost .cashKarp54Classic, by decide, by decide⟩

/-- **C38**: an accepted name is the one reported afterwards, except for the classic one; different
accepted names are different integrators. -/
theorem selected_name (type : String) (k : Kind) (h : parse type = some k) :
    (k ≠ .boost .cashKarp54Classic → k.name = type) ∧
      (∀ type', parse type' = some k → type' = type) := by
  have H : ∀ t k, parse t = some k → t = match k with
      | .boost .cashKarp54Classic => "runge_kutta_cash_karp54_classic"
      | k => k.name := by
    intro t k h
    unfold parse parseBoost at h
    split_ifs at h with h1 h2 h3 h4 h5
    · cases h; exact h1
    · cases h; exact h2
    · cases h; exact h3
    · cases h; exact h4
    · cases h; exact h5
    · simp at h
  refine ⟨fun hk => ?_, fun type' h' => (H _ _ h').trans (H _ _ h).symm⟩
  have := H _ _ h
  cases k with
  | legacy => exact this.symm
  | boost b =>
    cases b with
    | cashKarp54Classic => exact absurd rfl hk
    | _ => exact this.symm

/-- **C38**: a copy keeps the integrator and the settings (its metric is a clone of the original's).
Partial: not the choice of the 3+1 formalism, see `copy_31_wrong`. -/
theorem copy_keeps_partial (l : Line) (m : ℕ) :
    (step l (.copy m)).state.kind = l.state.kind ∧
      (step l (.copy m)).set = { l.set with metric := l.set.metric.map fun _ => m } ∧
      (l.state.integ31 = false →
        (step l (.copy m)).state.integ31 = l.state.integ31) := by
  refine ⟨rfl, rfl, fun h => ?_⟩
  rw [h]
  rfl

/-- Finding: a copy of a worldline set to the 3+1 formalism integrates the 4D equation. -/
theorem copy_31_wrong (l : Line) (m : ℕ) (_h : l.state.integ31 = true) :
    (step l (.copy m)).state.integ31 = false ∧ (step l (.copy m)).nextStep.converts31 = false :=
  ⟨rfl, init_31 _ _⟩

/-- Finding: selecting an integrator, even the current one, goes back to the 4D equation. -/
theorem select_31_wrong (l : Line) (_h31 : l.state.integ31 = true)
    (hk : l.state.kind ≠ .boost .cashKarp54Classic) :
    (step l (.integrator l.state.kind.name)).state.kind = l.state.kind ∧
      (step l (.integrator l.state.kind.name)).state.integ31 = false := by
  simp only [step, name_selects_partial _ hk]
  exact ⟨rfl, rfl⟩

/-! ### C56 -/

theorem init_boost (s : State) (w : Settings) (k : BoostKind) (hk : s.kind = .boost k) :
    (s.init w).system = (w.metric.map fun m => (m, s.integ31)) ∧
      (w.hasPoints = true → w.metric ≠ none →
        (s.init w).stepper = some ⟨w.absTol, w.relTol, w.normTol⟩) := by
  unfold State.init
  rw [hk]
  dsimp only
  split_ifs with h
  · refine ⟨rfl, fun h1 h2 => ?_⟩
    rcases h with h | h
    · rw [h1] at h; exact absurd h (by decide)
    · exact absurd h h2
  · exact ⟨rfl, fun _ _ => rfl⟩

/-- **C56**: during an integration, a step uses the settings the worldline has at that moment: step
control, transport of the basis, equation of motion and tolerances; and the vector is converted to
the 3+1 variables exactly when the equation of motion is the 3+1 one. -/
theorem nextStep_current (l : Line) :
    l.nextStep.adaptive = l.set.adaptive ∧ l.nextStep.parallel = l.set.parallel ∧
    l.nextStep.checkBasis = (l.set.parallel && l.set.checkBasis) ∧
    l.nextStep.converts31 = l.state.integ31 ∧
    ∀ k m, l.state.kind = .boost k → l.set.metric = some m → l.set.hasPoints = true →
      l.nextStep.system = some (m, l.state.integ31) ∧
      l.nextStep.stepper = some ⟨l.set.absTol, l.set.relTol, l.set.normTol⟩ := by
  obtain ⟨h1, h2, h3⟩ := init_bools l.state l.set
  refine ⟨h1, h2, h3, init_31 .., fun k m hk hm hp => ?_⟩
  obtain ⟨h4, h5⟩ := init_boost l.state l.set k hk
  refine ⟨?_, h5 hp (by rw [hm]; simp)⟩
  show (l.state.init l.set).system = _
  rw [h4, hm]
  rfl

/-- The cache is empty or agrees with the worldline. -/
def Inv (l : Line) : Prop :=
  l.state.gg ≠ none → ∀ k, l.state.kind = .boost k →
    l.state.gg = l.set.metric ∧
    l.state.system = (l.set.metric.map fun m => (m, l.state.integ31)) ∧
    (l.set.hasPoints = true → l.state.stepper.isSome = true)

theorem inv_reinit (l : Line) : Inv l.reinit := by
  intro hg k hk
  simp only [Line.reinit] at hg hk ⊢
  rw [init_gg] at hg
  rw [init_kind] at hk
  obtain ⟨h1, h2⟩ := init_boost l.state l.set k hk
  refine ⟨init_gg .., by rw [h1, init_31], fun hp => ?_⟩
  rw [h2 hp hg]
  rfl

theorem inv_new (k : Kind) (w : Settings) : Inv ⟨w, State.new k⟩ := fun h => absurd rfl h

theorem inv_step (l : Line) (op : Op) (h : Inv l) : Inv (step l op) := by
  cases op with
  | integrator type =>
    simp only [step]
    split
    · exact inv_new _ _
    · exact h
  | copy m => exact inv_new _ _
  | normTol t => exact h
  | deltaMax t => exact h
  | overR t => exact h
  | parallel b =>
    simp only [step]
    split_ifs
    · exact inv_reinit _
    · exact h
  | _ => exact inv_reinit _

/-- A worldline reached from a new one by any sequence of operations. -/
inductive Reachable : Line → Prop
  | new : Reachable Line.new
  | step {l : Line} (op : Op) : Reachable l → Reachable (step l op)

theorem reachable_inv {l : Line} (h : Reachable l) : Inv l := by
  induction h with
  | new => exact inv_new _ _
  | step op _ ih => exact inv_step _ op ih

/-- **C56**: whatever was done before, a step to an intermediate date uses the worldline's current
metric and formalism, and the stepper is ready. -/
theorem doStep_current (l : Line) (h : Reachable l) (k : BoostKind) (m : ℕ)
    (hk : l.state.kind = .boost k) (hm : l.set.metric = some m) (hp : l.set.hasPoints = true) :
    l.doStep = (some (m, l.state.integ31), l.state.integ31, true) := by
  unfold Line.doStep
  split_ifs with hg
  · obtain ⟨h1, h2⟩ := init_boost l.state l.set k hk
    dsimp only
    rw [h1, init_31, h2 hp (by rw [hm]; simp), hm]
    rfl
  · obtain ⟨-, h1, h2⟩ := reachable_inv h hg k hk
    dsimp only
    rw [h1, h2 hp, hm]
    rfl

/-- Finding: with the Legacy integrator the choice of the 3+1 formalism is recorded but no equation
of motion depends on it. -/
theorem legacy_31_wrong (l : Line) (h : l.state.kind = .legacy) :
    (step l (.integ31 true)).state.integ31 = true ∧
      (step l (.integ31 true)).nextStep.system = l.state.system := by
  constructor
  · simp only [step, Line.reinit, init_31]
  · simp only [step, Line.reinit, Line.nextStep, State.init, h]

/-! ### Examples -/

/-- A worldline with a metric and a starting point, set to the 3+1 formalism. -/
noncomputable def demo : Line :=
  step (step (step Line.new (.metric (some 7))) .initCoord) (.integ31 true)

example : Reachable demo ∧ demo.doStep = (some (7, true), true, true) := by
  have h : Reachable demo := .step _ (.step _ (.step _ .new))
  exact ⟨h, doStep_current demo h .fehlberg78 7 rfl rfl rfl⟩

/-- Its copy has lost the formalism, and uses its own metric. -/
example : (step demo (.copy 8)).doStep = (some (8, false), false, true) :=
  doStep_current _ (.step _ (.step _ (.step _ (.step _ .new)))) .fehlberg78 8 rfl rfl rfl

example : (step demo (.absTol 5)).nextStep.stepper = some ⟨5, 1e-6, 1e-3⟩ :=
  ((nextStep_current _).2.2.2.2 .fehlberg78 7 rfl rfl rfl).2

end Gyoto.Integrator
