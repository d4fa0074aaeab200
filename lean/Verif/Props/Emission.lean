import Verif.Model.Emission

/-!
# C27: default emission methods terminate and use what the user provided

Specification (`want…`): which of the user's methods each virtual call must use, in the order of preference documented at
`lib/Astrobj.C:450-474`, and the documented fall-back: unit emission (`dsem` for an optically thin object), transmission 1 for
an optically thin object and 0 otherwise.
-/

namespace Gyoto.Emission

variable {Site : Type}

section spec
variable (m : Impl Site) (ds : ℝ) (s : Site)

/-- Without any radiative-transfer method: the user's scalar emission or uniform emission. -/
def baseEmission (nu : ℝ) : ℝ :=
  match m.emission with
  | some f => f nu ds s
  | none => if m.thin then ds else 1

/-- Without any radiative-transfer method: the user's transmission or uniform opacity. -/
def baseTransmission (nu : ℝ) : ℝ :=
  match m.transmission with
  | some f => f nu ds s
  | none => if m.thin then 1 else 0

/-- Without any radiative-transfer method: the user's array emission, or the scalar one for each frequency. -/
def baseEmissionVec {n : Nat} (nu : Fin n → ℝ) : Fin n → ℝ :=
  match m.emissionVec with
  | some f => f n nu ds s
  | none => fun i => baseEmission m ds s (nu i)

/-- Unpolarised radiative transfer: the user's, the user's polarised version, emission and transmission. -/
def wantRadQ {n : Nat} (nu : Fin n → ℝ) : (Fin n → ℝ) × (Fin n → ℝ) :=
  match m.radiativeQ, m.radiativeQPolar with
  | some f, _ => f n nu ds s
  | none, some f => ((f n nu ds s).I, fun i => (f n nu ds s).O i 0 0)
  | none, none => (baseEmissionVec m ds s nu, fun i => baseTransmission m ds s (nu i))

/-- Polarised radiative transfer: the user's or the unpolarised one. -/
noncomputable def wantPolar {n : Nat} (nu : Fin n → ℝ) : Polar n :=
  match m.radiativeQPolar with
  | some f => f n nu ds s
  | none => ⟨(wantRadQ m ds s nu).1, fun _ => 0, fun _ => 0, fun _ => 0,
      fun c => alphaOf m.unitLength ds ((wantRadQ m ds s nu).2 c) • (1 : Mueller)⟩

/-- Emission at several frequencies: the user's or that of the radiative transfer. -/
def wantEmissionVec {n : Nat} (nu : Fin n → ℝ) : Fin n → ℝ :=
  match m.emissionVec with
  | some f => f n nu ds s
  | none => (wantRadQ m ds s nu).1

/-- Emission at one frequency: the user's, or the array version for this frequency. -/
def wantEmission (nu : ℝ) : ℝ :=
  match m.emission with
  | some f => f nu ds s
  | none => wantEmissionVec m ds s (fun _ : Fin 1 => nu) 0

/-- Transmission: the user's or that of the radiative transfer. -/
def wantTransmission (nu : ℝ) : ℝ :=
  match m.transmission with
  | some f => f nu ds s
  | none => (wantRadQ m ds s (fun _ : Fin 1 => nu)).2 0

end spec

/-- A flag is set only if the method is not implemented by the user. -/
structure Ok (m : Impl Site) (fl : Flags) : Prop where
  polar : fl.polar = true → m.radiativeQPolar = none
  radQ : fl.radQ = true → m.radiativeQ = none
  vec : fl.vec = true → m.emissionVec = none

/-- The flags are reachable and those of `fl` are still set. -/
structure After (m : Impl Site) (fl fl' : Flags) : Prop where
  ok : Ok m fl'
  polar : fl.polar = true → fl'.polar = true
  radQ : fl.radQ = true → fl'.radQ = true
  vec : fl.vec = true → fl'.vec = true

variable {m : Impl Site}

theorem After.refl {fl : Flags} (h : Ok m fl) : After m fl fl := ⟨h, id, id, id⟩

theorem After.trans {a b c : Flags} (h : After m a b) (h' : After m b c) : After m a c :=
  ⟨h'.ok, h'.polar ∘ h.polar, h'.radQ ∘ h.radQ, h'.vec ∘ h.vec⟩

theorem After.setPolar {fl : Flags} (h : Ok m fl) (hn : m.radiativeQPolar = none) : After m fl { fl with polar := true } :=
  ⟨⟨fun _ => hn, h.radQ, h.vec⟩, fun _ => rfl, id, id⟩
theorem After.setRadQ {fl : Flags} (h : Ok m fl) (hn : m.radiativeQ = none) : After m fl { fl with radQ := true } :=
  ⟨⟨h.polar, fun _ => hn, h.vec⟩, id, fun _ => rfl, id⟩
theorem After.setVec {fl : Flags} (h : Ok m fl) (hn : m.emissionVec = none) : After m fl { fl with vec := true } :=
  ⟨⟨h.polar, h.radQ, fun _ => hn⟩, id, id, fun _ => rfl⟩

theorem fill_spec (call : Flags → ℝ → Option (ℝ × Flags)) (f : ℝ → ℝ) (P : Flags → Prop)
    (h : ∀ fl nu, Ok m fl → P fl → ∃ fl', call fl nu = some (f nu, fl') ∧ After m fl fl')
    (hP : ∀ fl fl', P fl → After m fl fl' → P fl')
    (n : Nat) (nu : Fin n → ℝ) (fl : Flags) (ok : Ok m fl) (p : P fl) :
    ∃ fl', fill call n nu fl = some (fun i => f (nu i), fl') ∧ After m fl fl' := by
  induction n generalizing fl with
  | zero =>
    refine ⟨fl, ?_, After.refl ok⟩
    simp only [fill]
    congr 2
    funext i
    exact i.elim0
  | succ n ih =>
    obtain ⟨fl1, h1, a1⟩ := h fl (nu 0) ok p
    obtain ⟨fl2, h2, a2⟩ := ih (fun i => nu i.succ) fl1 a1.ok (hP _ _ p a1)
    refine ⟨fl2, ?_, a1.trans a2⟩
    simp only [fill, h1, h2]
    congr 2
    funext i
    refine Fin.cases ?_ (fun j => ?_) i <;> simp

/-- Neither radiative-transfer method is the user's and this is known. -/
def Both (fl : Flags) : Prop := fl.radQ = true ∧ fl.polar = true

theorem Both.after {fl fl' : Flags} (h : Both fl) (a : After m fl fl') : Both fl' := ⟨a.radQ h.1, a.polar h.2⟩

theorem transmission_both {fl : Flags} (k : Nat) (nu ds : ℝ) (s : Site) (b : Both fl) :
    transmission m (k + 1) fl nu ds s = some (baseTransmission m ds s nu, fl) := by
  cases h : m.transmission <;> simp [transmission, baseTransmission, h, b.1, b.2]

theorem emission_both {fl : Flags} (k : Nat) (nu ds : ℝ) (s : Site) (b : Both fl) (hv : fl.vec = true) :
    emission m (k + 1) fl nu ds s = some (baseEmission m ds s nu, fl) := by
  cases h : m.emission <;> simp [emission, baseEmission, h, b.1, b.2, hv]

theorem emissionVec_both {fl : Flags} (k n : Nat) (nu : Fin n → ℝ) (ds : ℝ) (s : Site) (ok : Ok m fl) (b : Both fl) :
    ∃ fl', emissionVec m (k + 2) fl n nu ds s = some (baseEmissionVec m ds s nu, fl') ∧ After m fl fl' := by
  cases h : m.emissionVec with
  | some f => exact ⟨fl, by simp [emissionVec, baseEmissionVec, h], After.refl ok⟩
  | none =>
    have a := After.setVec ok h
    obtain ⟨fl', h1, a1⟩ := fill_spec (fun fl nu => emission m (k + 1) fl nu ds s) (baseEmission m ds s)
      (fun fl => Both fl ∧ fl.vec = true)
      (fun fl nu ok p => ⟨fl, emission_both k nu ds s p.1 p.2, After.refl ok⟩)
      (fun fl fl' p a => ⟨p.1.after a, a.vec p.2⟩) n nu { fl with vec := true } a.ok ⟨b.after a, rfl⟩
    refine ⟨fl', ?_, a.trans a1⟩
    simp only [emissionVec, h, b.1, b.2] at h1 ⊢
    simp [h1, baseEmissionVec, h]

theorem fillTransmission_both {fl : Flags} (k n : Nat) (nu : Fin n → ℝ) (ds : ℝ) (s : Site) (ok : Ok m fl) (b : Both fl) :
    ∃ fl', fill (fun fl nu => transmission m (k + 1) fl nu ds s) n nu fl =
      some (fun i => baseTransmission m ds s (nu i), fl') ∧ After m fl fl' :=
  fill_spec _ _ Both (fun fl nu ok p => ⟨fl, transmission_both k nu ds s p, After.refl ok⟩)
    (fun _ _ p a => p.after a) n nu fl ok b

theorem radiativeQ_polar {fl : Flags} (k n : Nat) (nu : Fin n → ℝ) (ds : ℝ) (s : Site) (ok : Ok m fl)
    (hp : fl.polar = true) :
    ∃ fl', radiativeQ m (k + 3) fl n nu ds s = some (wantRadQ m ds s nu, fl') ∧ After m fl fl' ∧
      (m.radiativeQ = none → fl'.radQ = true) := by
  cases h : m.radiativeQ with
  | some f => exact ⟨fl, by simp [radiativeQ, wantRadQ, h], After.refl ok, by simp⟩
  | none =>
    have a := After.setRadQ ok h
    have b : Both { fl with radQ := true } := ⟨rfl, hp⟩
    obtain ⟨fl1, h1, a1⟩ := emissionVec_both k n nu ds s a.ok b
    obtain ⟨fl2, h2, a2⟩ := fillTransmission_both (k + 1) n nu ds s a1.ok (b.after a1)
    refine ⟨fl2, ?_, a.trans (a1.trans a2), fun _ => a2.radQ (a1.radQ rfl)⟩
    simp only [radiativeQ, h, hp] at h1 ⊢
    simp [h1, h2, wantRadQ, h, ok.polar hp]

theorem radiativeQPolar_any {fl : Flags} (k n : Nat) (nu : Fin n → ℝ) (ds : ℝ) (s : Site) (ok : Ok m fl) :
    ∃ fl', radiativeQPolar m (k + 4) fl n nu ds s = some (wantPolar m ds s nu, fl') ∧ After m fl fl' ∧
      (m.radiativeQPolar = none → fl'.polar = true) := by
  cases h : m.radiativeQPolar with
  | some f => exact ⟨fl, by simp [radiativeQPolar, wantPolar, h], After.refl ok, by simp⟩
  | none =>
    have a := After.setPolar ok h
    obtain ⟨fl1, h1, a1, -⟩ := radiativeQ_polar k n nu ds s a.ok rfl
    refine ⟨fl1, ?_, a.trans a1, fun _ => a1.polar rfl⟩
    simp [radiativeQPolar, h, h1, wantPolar]

theorem radiativeQ_any {fl : Flags} (k n : Nat) (nu : Fin n → ℝ) (ds : ℝ) (s : Site) (ok : Ok m fl) :
    ∃ fl', radiativeQ m (k + 5) fl n nu ds s = some (wantRadQ m ds s nu, fl') ∧ After m fl fl' := by
  by_cases hp : fl.polar = true
  · obtain ⟨fl', h1, h2, -⟩ := radiativeQ_polar (k + 2) n nu ds s ok hp
    exact ⟨fl', h1, h2⟩
  cases h : m.radiativeQ with
  | some f => exact ⟨fl, by simp [radiativeQ, wantRadQ, h], After.refl ok⟩
  | none =>
    have a := After.setRadQ ok h
    obtain ⟨fl1, h1, a1, p1⟩ := radiativeQPolar_any k n nu ds s a.ok
    cases hq : m.radiativeQPolar with
    | some f =>
      refine ⟨fl1, ?_, a.trans a1⟩
      have hp1 : fl1.polar = false := by
        by_contra hc
        have := a1.ok.polar (by simpa using hc)
        simp [this] at hq
      simp only [radiativeQ, h, hp] at h1 ⊢
      simp [h1, hp1, wantPolar, wantRadQ, h, hq]
    | none =>
      have hp1 := p1 hq
      obtain ⟨fl2, h2, a2⟩ := fillTransmission_both (k + 3) n nu ds s a1.ok ⟨a1.radQ rfl, hp1⟩
      refine ⟨fl2, ?_, a.trans (a1.trans a2)⟩
      simp only [radiativeQ, h, hp] at h1 ⊢
      simp [h1, hp1, h2, wantPolar, wantRadQ, h, hq]

theorem emissionVec_any {fl : Flags} (k n : Nat) (nu : Fin n → ℝ) (ds : ℝ) (s : Site) (ok : Ok m fl) :
    ∃ fl', emissionVec m (k + 6) fl n nu ds s = some (wantEmissionVec m ds s nu, fl') ∧ After m fl fl' := by
  cases h : m.emissionVec with
  | some f => exact ⟨fl, by simp [emissionVec, wantEmissionVec, h], After.refl ok⟩
  | none =>
    have a := After.setVec ok h
    by_cases hr : fl.radQ = true
    · by_cases hp : fl.polar = true
      · obtain ⟨fl', h1, h2⟩ := emissionVec_both (k + 4) n nu ds s ok ⟨hr, hp⟩
        refine ⟨fl', ?_, h2⟩
        rw [h1]
        simp [wantEmissionVec, h, wantRadQ, ok.radQ hr, ok.polar hp]
      · obtain ⟨fl1, h1, a1, -⟩ := radiativeQPolar_any (k + 1) n nu ds s a.ok
        refine ⟨fl1, ?_, a.trans a1⟩
        simp only [emissionVec, h, hr, hp] at h1 ⊢
        cases hq : m.radiativeQPolar <;> simp [h1, wantEmissionVec, h, wantRadQ, ok.radQ hr, wantPolar, hq]
    · obtain ⟨fl1, h1, a1⟩ := radiativeQ_any k n nu ds s a.ok
      refine ⟨fl1, ?_, a.trans a1⟩
      simp only [emissionVec, h, hr] at h1 ⊢
      simp [h1, wantEmissionVec, h]

theorem emission_any {fl : Flags} (k : Nat) (nu ds : ℝ) (s : Site) (ok : Ok m fl) :
    ∃ fl', emission m (k + 7) fl nu ds s = some (wantEmission m ds s nu, fl') ∧ After m fl fl' := by
  cases h : m.emission with
  | some f => exact ⟨fl, by simp [emission, wantEmission, h], After.refl ok⟩
  | none =>
    by_cases hv : fl.vec = true
    · by_cases b : Both fl
      · refine ⟨fl, ?_, After.refl ok⟩
        rw [emission_both (k + 6) nu ds s b hv]
        simp [wantEmission, baseEmission, h, wantEmissionVec, ok.vec hv, wantRadQ, ok.radQ b.1, ok.polar b.2,
          baseEmissionVec]
      · obtain ⟨fl1, h1, a1⟩ := radiativeQ_any (k + 1) 1 (fun _ => nu) ds s ok
        refine ⟨fl1, ?_, a1⟩
        have c : (!fl.radQ || !fl.polar) = true := by
          rw [Both] at b
          cases h1 : fl.radQ <;> cases h2 : fl.polar <;> simp_all
        simp only [emission, h, hv, c]
        simp [h1, wantEmission, h, wantEmissionVec, ok.vec hv]
    · obtain ⟨fl1, h1, a1⟩ := emissionVec_any k 1 (fun _ => nu) ds s ok
      refine ⟨fl1, ?_, a1⟩
      simp [emission, h, hv, h1, wantEmission]

theorem transmission_any {fl : Flags} (k : Nat) (nu ds : ℝ) (s : Site) (ok : Ok m fl) :
    ∃ fl', transmission m (k + 6) fl nu ds s = some (wantTransmission m ds s nu, fl') ∧ After m fl fl' := by
  cases h : m.transmission with
  | some f => exact ⟨fl, by simp [transmission, wantTransmission, h], After.refl ok⟩
  | none =>
    by_cases b : Both fl
    · refine ⟨fl, ?_, After.refl ok⟩
      rw [transmission_both (k + 5) nu ds s b]
      simp [wantTransmission, baseTransmission, h, wantRadQ, ok.radQ b.1, ok.polar b.2]
    · obtain ⟨fl1, h1, a1⟩ := radiativeQ_any k 1 (fun _ => nu) ds s ok
      refine ⟨fl1, ?_, a1⟩
      have c : (!fl.radQ || !fl.polar) = true := by
        rw [Both] at b
        cases h1 : fl.radQ <;> cases h2 : fl.polar <;> simp_all
      simp only [transmission, h, c]
      simp [h1, wantTransmission, h]

/-! ### C27: any history of calls -/

/-- A call made by the rest of the program. -/
inductive Call (Site : Type) where
  | transmission (nu ds : ℝ) (s : Site)
  | emission (nu ds : ℝ) (s : Site)
  | emissionVec (n : Nat) (nu : Fin n → ℝ) (ds : ℝ) (s : Site)
  | radiativeQ (n : Nat) (nu : Fin n → ℝ) (ds : ℝ) (s : Site)
  | radiativeQPolar (n : Nat) (nu : Fin n → ℝ) (ds : ℝ) (s : Site)

/-- What it returns. -/
inductive Answer where
  | scalar (v : ℝ)
  | array (n : Nat) (v : Fin n → ℝ)
  | pair (n : Nat) (v : (Fin n → ℝ) × (Fin n → ℝ))
  | polar (n : Nat) (v : Polar n)

/-- One call with bounded depth. -/
noncomputable def Call.run (m : Impl Site) (depth : Nat) (fl : Flags) : Call Site → Option (Answer × Flags)
  | .transmission nu ds s => (Emission.transmission m depth fl nu ds s).map fun r => (.scalar r.1, r.2)
  | .emission nu ds s => (Emission.emission m depth fl nu ds s).map fun r => (.scalar r.1, r.2)
  | .emissionVec n nu ds s => (Emission.emissionVec m depth fl n nu ds s).map fun r => (.array n r.1, r.2)
  | .radiativeQ n nu ds s => (Emission.radiativeQ m depth fl n nu ds s).map fun r => (.pair n r.1, r.2)
  | .radiativeQPolar n nu ds s => (Emission.radiativeQPolar m depth fl n nu ds s).map fun r => (.polar n r.1, r.2)

/-- A sequence of calls on one object: the flags persist. -/
noncomputable def runAll (m : Impl Site) (depth : Nat) : Flags → List (Call Site) → Option (List Answer × Flags)
  | fl, [] => some ([], fl)
  | fl, c :: cs =>
    match c.run m depth fl with
    | none => none
    | some (a, fl) => (runAll m depth fl cs).map fun r => (a :: r.1, r.2)

/-- The answer the user is entitled to. -/
noncomputable def Call.want (m : Impl Site) : Call Site → Answer
  | .transmission nu ds s => .scalar (wantTransmission m ds s nu)
  | .emission nu ds s => .scalar (wantEmission m ds s nu)
  | .emissionVec n nu ds s => .array n (wantEmissionVec m ds s nu)
  | .radiativeQ n nu ds s => .pair n (wantRadQ m ds s nu)
  | .radiativeQPolar n nu ds s => .polar n (wantPolar m ds s nu)

/-- **C27.** Whatever subset of the five methods the class implements, whatever the sequence of calls made on a new object,
every call returns, after at most 7 nested calls, the value specified by `want…`. -/
theorem emission_history (m : Impl Site) (k : Nat) (cs : List (Call Site)) :
    ∃ fl, runAll m (k + 7) {} cs = some (cs.map (Call.want m), fl) := by
  have gen : ∀ fl, Ok m fl → ∃ fl', runAll m (k + 7) fl cs = some (cs.map (Call.want m), fl') := by
    induction cs with
    | nil => intro fl _; exact ⟨fl, rfl⟩
    | cons c cs ih =>
      intro fl ok
      have one : ∃ fl1, c.run m (k + 7) fl = some (c.want m, fl1) ∧ Ok m fl1 := by
        cases c with
        | transmission nu ds s =>
          obtain ⟨fl1, h1, h2⟩ := transmission_any (k + 1) nu ds s ok
          exact ⟨fl1, by simp [Call.run, Call.want, h1], h2.ok⟩
        | emission nu ds s =>
          obtain ⟨fl1, h1, h2⟩ := emission_any k nu ds s ok
          exact ⟨fl1, by simp [Call.run, Call.want, h1], h2.ok⟩
        | emissionVec n nu ds s =>
          obtain ⟨fl1, h1, h2⟩ := emissionVec_any (k + 1) n nu ds s ok
          exact ⟨fl1, by simp [Call.run, Call.want, h1], h2.ok⟩
        | radiativeQ n nu ds s =>
          obtain ⟨fl1, h1, h2⟩ := radiativeQ_any (k + 2) n nu ds s ok
          exact ⟨fl1, by simp [Call.run, Call.want, h1], h2.ok⟩
        | radiativeQPolar n nu ds s =>
          obtain ⟨fl1, h1, h2, -⟩ := radiativeQPolar_any (k + 3) n nu ds s ok
          exact ⟨fl1, by simp [Call.run, Call.want, h1], h2.ok⟩
      obtain ⟨fl1, h1, ok1⟩ := one
      obtain ⟨fl2, h2⟩ := ih fl1 ok1
      exact ⟨fl2, by simp [runAll, h1, h2]⟩
  exact gen {} ⟨by simp, by simp, by simp⟩

/-- A class giving only a scalar emission and a transmission. -/
def sample : Impl Unit where
  thin := true
  unitLength := 1
  transmission := some fun _ ds _ => 1 - ds
  emission := some fun nu ds _ => nu * ds
  emissionVec := none
  radiativeQ := none
  radiativeQPolar := none

/-- Its radiative transfer at two frequencies is made from these. -/
example : wantRadQ sample (1 / 2) () ![2, 6] = (![1, 3], ![1 / 2, 1 / 2]) := by
  refine Prod.ext ?_ ?_
  · funext i
    fin_cases i <;> norm_num [wantRadQ, sample, baseEmissionVec, baseEmission]
  · funext i
    fin_cases i <;> norm_num [wantRadQ, sample, baseTransmission]

/-- A class giving nothing, optically thin: uniform emission. -/
def bare : Impl Unit := { sample with transmission := none, emission := none }

example : ∃ fl, runAll bare 7 {} [.emission 3 (1 / 2) (), .transmission 3 (1 / 2) ()] =
    some ([.scalar (1 / 2), .scalar 1], fl) := by
  obtain ⟨fl, h⟩ := emission_history bare 0 [.emission 3 (1 / 2) (), .transmission 3 (1 / 2) ()]
  refine ⟨fl, ?_⟩
  rw [h]
  simp [Call.want, wantEmission, wantEmissionVec, wantRadQ, wantTransmission, bare, sample, baseEmissionVec,
    baseEmission, baseTransmission]

end Gyoto.Emission
