import Verif.Model.MetricDispatch
import Mathlib.Tactic.FinCases

/-!
# C26: default metric methods terminate and use what the user provided

Specification (`want…`): which of the user's methods each virtual call must use, in order of preference, and the numerical
fall-back. Theorem: from any flags reached by a history of calls, depth 9 suffices, no uninitialised variable is used and the
value is the specified one.
-/

namespace Gyoto.MetricDispatch

/-- A symmetric tensor from its upper triangle. -/
def sym (f : Fin 4 → Fin 4 → ℚ) : Tensor := fun i j => if i ≤ j then f i j else f j i

section spec
variable (m : Impl) (x : Vec)

/-- Inverse metric, as a matrix. -/
def wantUpMat : Tensor :=
  match m.upMat, m.upCoef, m.upJac with
  | some f, _, _ => f x
  | none, some f, _ => sym (f x)
  | none, none, some f => (f x).1
  | none, none, none => m.invert (m.gmunu x)

/-- Inverse metric, one coefficient. -/
def wantUpCoef : Fin 4 → Fin 4 → ℚ :=
  match m.upCoef with
  | some f => f x
  | none => wantUpMat m x

/-- Derivatives of the metric. -/
def wantJac : Tensor3 :=
  match m.jac, m.upJac with
  | some f, _ => f x
  | none, some f => (f x).2
  | none, none => derive (m.gmunu x) m.gmunu x

/-- Both. -/
def wantUpJac : Tensor × Tensor3 :=
  match m.upJac with
  | some f => f x
  | none => (wantUpMat m x, wantJac m x)

/-- Connection, as a whole. -/
def wantChrMat : Tensor3 :=
  match m.chrMat, m.chrCoef with
  | some f, _ => (f x).2
  | none, some f => fun a => sym (f x a)
  | none, none => connection (wantUpJac m x).1 (wantUpJac m x).2

/-- Return code of the latter: that of the class's own method, otherwise success. -/
def wantCode : Int :=
  match m.chrMat with
  | some f => (f x).1
  | none => 0

/-- Connection, one coefficient. -/
def wantChrCoef : Tensor3 :=
  match m.chrCoef with
  | some f => f x
  | none => wantChrMat m x

end spec

/-- The inverse metrics computed by the class and by the numerical inversion are symmetric (`lib/Utils.C` writes each pair of
opposite places with one value). -/
structure Symm (m : Impl) : Prop where
  invert : ∀ x i j, m.invert (m.gmunu x) i j = m.invert (m.gmunu x) j i
  upJac : ∀ f, m.upJac = some f → ∀ x i j, (f x).1 i j = (f x).1 j i

/-- A flag is set only if the method is not implemented by the user. -/
structure Ok (m : Impl) (fl : Flags) : Prop where
  upCoef : fl.upCoef = true → m.upCoef = none
  upMat : fl.upMat = true → m.upMat = none
  jac : fl.jac = true → m.jac = none
  upJac : fl.upJac = true → m.upJac = none
  chrCoef : fl.chrCoef = true → m.chrCoef = none
  chrMat : fl.chrMat = true → m.chrMat = none

theorem fillPairs_spec (call : Flags → Fin 4 → Fin 4 → Option (ℚ × Flags)) (P : Flags → Prop) (f : Fin 4 → Fin 4 → ℚ)
    (h : ∀ fl mu nu, P fl → ∃ fl', call fl mu nu = some (f mu nu, fl') ∧ P fl') (l : List (Fin 4 × Fin 4)) (fl : Flags)
    (t : Tensor) (hP : P fl) :
    ∃ fl', fillPairs call l fl t = some (l.foldl (fun t p => fun i j =>
      if (i = p.1 ∧ j = p.2) ∨ (i = p.2 ∧ j = p.1) then f p.1 p.2 else t i j) t, fl') ∧ P fl' := by
  induction l generalizing fl t with
  | nil => exact ⟨fl, rfl, hP⟩
  | cons p l ih =>
    obtain ⟨fl1, h1, hP1⟩ := h fl p.1 p.2 hP
    obtain ⟨fl2, h2, hP2⟩ := ih fl1 (fun i j =>
      if (i = p.1 ∧ j = p.2) ∨ (i = p.2 ∧ j = p.1) then f p.1 p.2 else t i j) hP1
    refine ⟨fl2, ?_, hP2⟩
    simp only [fillPairs, h1, h2, List.foldl_cons]

theorem pairs_eq : pairs = [(0,0),(0,1),(0,2),(0,3),(1,1),(1,2),(1,3),(2,2),(2,3),(3,3)] := by decide

theorem fill_all (call : Flags → Fin 4 → Fin 4 → Option (ℚ × Flags)) (P : Flags → Prop) (f : Fin 4 → Fin 4 → ℚ)
    (h : ∀ fl mu nu, P fl → ∃ fl', call fl mu nu = some (f mu nu, fl') ∧ P fl') (fl : Flags)
    (t : Tensor) (hP : P fl) : ∃ fl', fillPairs call pairs fl t = some (sym f, fl') ∧ P fl' := by
  obtain ⟨fl', h1, h2⟩ := fillPairs_spec call P f h pairs fl t hP
  refine ⟨fl', ?_, h2⟩
  rw [h1, pairs_eq]
  congr 2
  funext i j
  fin_cases i <;> fin_cases j <;> simp [sym]

theorem fillTriples_all (call : Flags → Fin 4 → Fin 4 → Fin 4 → Option (ℚ × Flags)) (P : Flags → Prop)
    (f : Fin 4 → Fin 4 → Fin 4 → ℚ)
    (h : ∀ fl a mu nu, P fl → ∃ fl', call fl a mu nu = some (f a mu nu, fl') ∧ P fl') (fl : Flags)
    (t : Tensor3) (hP : P fl) :
    ∃ fl', fillTriples call (List.finRange 4) fl t = some (fun a => sym (f a), fl') ∧ P fl' := by
  have step : ∀ a fl t, P fl → ∃ fl', fillPairs (fun fl mu nu => call fl a mu nu) pairs fl t = some (sym (f a), fl') ∧
      P fl' := fun a fl t hP => fill_all _ P (f a) (fun fl mu nu hP => h fl a mu nu hP) fl t hP
  have gen : ∀ (l : List (Fin 4)) fl t, P fl → ∃ fl', fillTriples call l fl t =
      some (l.foldl (fun t a => fun b => if b = a then sym (f a) else t b) t, fl') ∧ P fl' := by
    intro l
    induction l with
    | nil => intro fl t hP; exact ⟨fl, rfl, hP⟩
    | cons a l ih =>
      intro fl t hP
      obtain ⟨f0, h0, p0⟩ := step a fl (t a) hP
      obtain ⟨f1, h1, p1⟩ := ih f0 (fun b => if b = a then sym (f a) else t b) p0
      refine ⟨f1, ?_, p1⟩
      simp only [fillTriples, h0, h1, List.foldl_cons]
  obtain ⟨fl', h1, h2⟩ := gen (List.finRange 4) fl t hP
  refine ⟨fl', ?_, h2⟩
  rw [h1]
  have e : List.finRange 4 = [0, 1, 2, 3] := by decide
  rw [e]
  congr 2
  funext a
  fin_cases a <;> simp

/-! ### Inside the default `gmunu_up_and_jacobian` -/

/-- Flags there: `upJac` is set; `jac` keeps its value `j`. -/
def Inside (m : Impl) (j : Bool) (fl : Flags) : Prop := Ok m fl ∧ fl.upJac = true ∧ fl.jac = j

variable {m : Impl}

theorem Ok.setUpCoef {fl : Flags} (h : Ok m fl) (hn : m.upCoef = none) : Ok m { fl with upCoef := true } :=
  ⟨fun _ => hn, h.upMat, h.jac, h.upJac, h.chrCoef, h.chrMat⟩
theorem Ok.setUpMat {fl : Flags} (h : Ok m fl) (hn : m.upMat = none) : Ok m { fl with upMat := true } :=
  ⟨h.upCoef, fun _ => hn, h.jac, h.upJac, h.chrCoef, h.chrMat⟩
theorem Ok.setJac {fl : Flags} (h : Ok m fl) (hn : m.jac = none) : Ok m { fl with jac := true } :=
  ⟨h.upCoef, h.upMat, fun _ => hn, h.upJac, h.chrCoef, h.chrMat⟩
theorem Ok.setUpJac {fl : Flags} (h : Ok m fl) (hn : m.upJac = none) : Ok m { fl with upJac := true } :=
  ⟨h.upCoef, h.upMat, h.jac, fun _ => hn, h.chrCoef, h.chrMat⟩
theorem Ok.setChrCoef {fl : Flags} (h : Ok m fl) (hn : m.chrCoef = none) : Ok m { fl with chrCoef := true } :=
  ⟨h.upCoef, h.upMat, h.jac, h.upJac, fun _ => hn, h.chrMat⟩
theorem Ok.setChrMat {fl : Flags} (h : Ok m fl) (hn : m.chrMat = none) : Ok m { fl with chrMat := true } :=
  ⟨h.upCoef, h.upMat, h.jac, h.upJac, h.chrCoef, fun _ => hn⟩

theorem upMat_inside1 {j : Bool} {fl : Flags} (n : Nat) (x : Vec) (h : Inside m j fl) (hc : fl.upCoef = true) :
    ∃ fl', upMat m (n + 1) fl x = some (wantUpMat m x, fl') ∧ Inside m j fl' := by
  obtain ⟨ok, hu, hj⟩ := h
  cases hm : m.upMat with
  | some f => exact ⟨fl, by simp [upMat, wantUpMat, hm], ok, hu, hj⟩
  | none =>
    refine ⟨{ fl with upMat := true }, ?_, ok.setUpMat hm, hu, hj⟩
    simp [upMat, wantUpMat, hm, hc, hu, ok.upCoef hc, ok.upJac hu]

theorem upCoef_inside {j : Bool} {fl : Flags} (n : Nat) (x : Vec) (mu nu : Fin 4) (h : Inside m j fl) :
    ∃ fl', upCoef m (n + 2) fl x mu nu = some (wantUpCoef m x mu nu, fl') ∧ Inside m j fl' := by
  cases hm : m.upCoef with
  | some f => exact ⟨fl, by simp [upCoef, wantUpCoef, hm], h⟩
  | none =>
    obtain ⟨fl', h1, h2⟩ := upMat_inside1 n x (fl := { fl with upCoef := true }) ⟨h.1.setUpCoef hm, h.2.1, h.2.2⟩ rfl
    exact ⟨fl', by simp [upCoef, hm, h1, wantUpCoef], h2⟩

theorem sym_of_symm {t : Tensor} (h : ∀ i j, t i j = t j i) : sym t = t := by
  funext i j
  simp only [sym]
  split
  · rfl
  · exact h j i

theorem wantUpCoef_sym (hs : Symm m) (x : Vec) (hm : m.upMat = none) : sym (wantUpCoef m x) = wantUpMat m x := by
  cases h : m.upCoef with
  | some f => simp [wantUpCoef, wantUpMat, h, hm]
  | none =>
    have e : wantUpCoef m x = wantUpMat m x := by simp [wantUpCoef, h]
    rw [e]
    apply sym_of_symm
    cases hu : m.upJac with
    | none => simpa [wantUpMat, h, hm, hu] using hs.invert x
    | some f => simpa [wantUpMat, h, hm, hu] using hs.upJac f hu x

theorem upMat_inside (hs : Symm m) {j : Bool} {fl : Flags} (n : Nat) (x : Vec) (h : Inside m j fl) :
    ∃ fl', upMat m (n + 3) fl x = some (wantUpMat m x, fl') ∧ Inside m j fl' := by
  cases hm : m.upMat with
  | some f => exact ⟨fl, by simp [upMat, wantUpMat, hm], h⟩
  | none =>
    by_cases hc : fl.upCoef = true
    · exact upMat_inside1 (n + 2) x h hc
    · obtain ⟨fl', h1, h2⟩ := fill_all (fun fl mu nu => upCoef m (n + 2) fl x mu nu) (Inside m j) (wantUpCoef m x)
        (fun fl mu nu hP => upCoef_inside n x mu nu hP) { fl with upMat := true } (fun _ _ => 0)
        ⟨h.1.setUpMat hm, h.2.1, h.2.2⟩
      refine ⟨fl', ?_, h2⟩
      rw [← wantUpCoef_sym hs x hm, ← h1]
      simp [upMat, hm, hc]

/-! ### From any flags -/

theorem upJac_any (hs : Symm m) {fl : Flags} (n : Nat) (x : Vec) (ok : Ok m fl) :
    ∃ fl', upJac m (n + 4) fl x = some (wantUpJac m x, fl') ∧ Ok m fl' := by
  cases hu : m.upJac with
  | some f => exact ⟨fl, by simp [upJac, wantUpJac, hu], ok⟩
  | none =>
    have ok1 := ok.setUpJac hu
    -- the inverse metric
    have first : ∃ fl1, (if fl.upCoef && fl.upMat then
          (if (fl.upCoef && fl.upMat) || fl.jac then some (m.gmunu x) else none).map
            fun g0 => (m.invert g0, { fl with upJac := true })
        else upMat m (n + 3) { fl with upJac := true } x) = some (wantUpMat m x, fl1) ∧ Inside m fl.jac fl1 := by
      by_cases hc : (fl.upCoef && fl.upMat) = true
      · refine ⟨{ fl with upJac := true }, ?_, ok1, rfl, rfl⟩
        have h1 := ok.upCoef (by simp_all)
        have h2 := ok.upMat (by simp_all)
        simp [hc, wantUpMat, h1, h2, hu]
      · rw [if_neg hc]
        exact upMat_inside hs n x ⟨ok1, rfl, rfl⟩
    obtain ⟨fl1, h1, ok2, hu1, hj1⟩ := first
    by_cases hj : fl.jac = true
    · refine ⟨fl1, ?_, ok2⟩
      have hj' : fl1.jac = true := hj1.trans hj
      simp only [upJac, hu, h1, hj']
      simp [hj, wantUpJac, hu, wantJac, ok.jac hj]
    · have hj' : fl1.jac = false := by rw [hj1]; simpa using hj
      cases hjm : m.jac with
      | some f =>
        refine ⟨fl1, ?_, ok2⟩
        simp only [upJac, hu, h1, hj']
        simp [jacobian, hjm, wantUpJac, hu, wantJac]
      | none =>
        refine ⟨{ fl1 with jac := true }, ?_, ok2.setJac hjm⟩
        simp only [upJac, hu, h1, hj']
        simp [jacobian, hjm, wantUpJac, hu, wantJac, hu1]

theorem upMat_any1 (hs : Symm m) {fl : Flags} (n : Nat) (x : Vec) (ok : Ok m fl) (hc : fl.upCoef = true) :
    ∃ fl', upMat m (n + 5) fl x = some (wantUpMat m x, fl') ∧ Ok m fl' := by
  by_cases hu : fl.upJac = true
  · obtain ⟨fl', h1, h2⟩ := upMat_inside1 (n + 4) x (j := fl.jac) ⟨ok, hu, rfl⟩ hc
    exact ⟨fl', h1, h2.1⟩
  · cases hm : m.upMat with
    | some f => exact ⟨fl, by simp [upMat, wantUpMat, hm], ok⟩
    | none =>
      obtain ⟨fl', h1, h2⟩ := upJac_any hs n x (ok.setUpMat hm)
      refine ⟨fl', ?_, h2⟩
      have e : (wantUpJac m x).1 = wantUpMat m x := by
        cases hj : m.upJac <;> simp [wantUpJac, wantUpMat, hj, hm, ok.upCoef hc]
      simp [upMat, hm, hc, hu] at h1 ⊢
      simp [h1, e]

theorem upCoef_any (hs : Symm m) {fl : Flags} (n : Nat) (x : Vec) (mu nu : Fin 4) (ok : Ok m fl) :
    ∃ fl', upCoef m (n + 6) fl x mu nu = some (wantUpCoef m x mu nu, fl') ∧ Ok m fl' := by
  cases hm : m.upCoef with
  | some f => exact ⟨fl, by simp [upCoef, wantUpCoef, hm], ok⟩
  | none =>
    obtain ⟨fl', h1, h2⟩ := upMat_any1 hs n x (ok.setUpCoef hm) rfl
    exact ⟨fl', by simp [upCoef, hm, h1, wantUpCoef], h2⟩

theorem upMat_any (hs : Symm m) {fl : Flags} (n : Nat) (x : Vec) (ok : Ok m fl) :
    ∃ fl', upMat m (n + 7) fl x = some (wantUpMat m x, fl') ∧ Ok m fl' := by
  cases hm : m.upMat with
  | some f => exact ⟨fl, by simp [upMat, wantUpMat, hm], ok⟩
  | none =>
    by_cases hc : fl.upCoef = true
    · exact upMat_any1 hs (n + 2) x ok hc
    · obtain ⟨fl', h1, h2⟩ := fill_all (fun fl mu nu => upCoef m (n + 6) fl x mu nu) (Ok m) (wantUpCoef m x)
        (fun fl mu nu hP => upCoef_any hs n x mu nu hP) { fl with upMat := true } (fun _ _ => 0) (ok.setUpMat hm)
      refine ⟨fl', ?_, h2⟩
      rw [← wantUpCoef_sym hs x hm, ← h1]
      simp [upMat, hm, hc]

theorem jacobian_any (hs : Symm m) {fl : Flags} (n : Nat) (x : Vec) (ok : Ok m fl) :
    ∃ fl', jacobian m (n + 5) fl x = some (wantJac m x, fl') ∧ Ok m fl' := by
  cases hm : m.jac with
  | some f => exact ⟨fl, by simp [jacobian, wantJac, hm], ok⟩
  | none =>
    by_cases hu : fl.upJac = true
    · exact ⟨{ fl with jac := true }, by simp [jacobian, wantJac, hm, hu, ok.upJac hu], ok.setJac hm⟩
    · obtain ⟨fl', h1, h2⟩ := upJac_any hs n x (ok.setJac hm)
      refine ⟨fl', ?_, h2⟩
      have e : (wantUpJac m x).2 = wantJac m x := by
        cases hj : m.upJac <;> simp [wantUpJac, wantJac, hj, hm]
      simp [hu] at h1
      simp [jacobian, hm, hu, h1, e]

theorem chrMat_any1 (hs : Symm m) {fl : Flags} (n : Nat) (x : Vec) (ok : Ok m fl) (hc : fl.chrCoef = true) :
    ∃ fl', chrMat m (n + 5) fl x = some ((wantCode m x, wantChrMat m x), fl') ∧ Ok m fl' := by
  cases hm : m.chrMat with
  | some f => exact ⟨fl, by simp [chrMat, wantChrMat, wantCode, hm], ok⟩
  | none =>
    obtain ⟨fl', h1, h2⟩ := upJac_any hs n x (ok.setChrMat hm)
    refine ⟨fl', ?_, h2⟩
    simp [chrMat, hm, hc] at h1 ⊢
    simp [h1, wantChrMat, wantCode, hm, ok.chrCoef hc]

theorem chrCoef_any (hs : Symm m) {fl : Flags} (n : Nat) (x : Vec) (a mu nu : Fin 4) (ok : Ok m fl) :
    ∃ fl', chrCoef m (n + 6) fl x a mu nu = some (wantChrCoef m x a mu nu, fl') ∧ Ok m fl' := by
  cases hm : m.chrCoef with
  | some f => exact ⟨fl, by simp [chrCoef, wantChrCoef, hm], ok⟩
  | none =>
    obtain ⟨fl', h1, h2⟩ := chrMat_any1 hs n x (ok.setChrCoef hm) rfl
    exact ⟨fl', by simp [chrCoef, hm, h1, wantChrCoef], h2⟩

theorem connection_symm (gup : Tensor) (jac : Tensor3) (a mu nu : Fin 4) :
    connection gup jac a mu nu = connection gup jac a nu mu := by
  simp only [connection]
  rcases lt_trichotomy mu nu with h | h | h
  · rw [if_pos h.le, if_neg (not_le.2 h)]
  · rw [h]
  · rw [if_neg (not_le.2 h), if_pos h.le]

theorem wantChrCoef_sym (x : Vec) (hm : m.chrMat = none) : (fun a => sym (wantChrCoef m x a)) = wantChrMat m x := by
  cases h : m.chrCoef with
  | some f => simp [wantChrCoef, wantChrMat, h, hm]
  | none =>
    funext a
    have e : wantChrCoef m x = connection (wantUpJac m x).1 (wantUpJac m x).2 := by
      simp [wantChrCoef, wantChrMat, h, hm]
    have e' : wantChrMat m x = connection (wantUpJac m x).1 (wantUpJac m x).2 := by
      simp [wantChrMat, h, hm]
    rw [e, e', sym_of_symm (connection_symm _ _ a)]

theorem chrMat_any (hs : Symm m) {fl : Flags} (n : Nat) (x : Vec) (ok : Ok m fl) :
    ∃ fl', chrMat m (n + 7) fl x = some ((wantCode m x, wantChrMat m x), fl') ∧ Ok m fl' := by
  cases hm : m.chrMat with
  | some f => exact ⟨fl, by simp [chrMat, wantChrMat, wantCode, hm], ok⟩
  | none =>
    by_cases hc : fl.chrCoef = true
    · exact chrMat_any1 hs (n + 2) x ok hc
    · obtain ⟨fl', h1, h2⟩ := fillTriples_all (fun fl a mu nu => chrCoef m (n + 6) fl x a mu nu) (Ok m) (wantChrCoef m x)
        (fun fl a mu nu hP => chrCoef_any hs n x a mu nu hP) { fl with chrMat := true } (fun _ _ _ => 0) (ok.setChrMat hm)
      refine ⟨fl', ?_, h2⟩
      rw [wantChrCoef_sym x hm] at h1
      simp [hc] at h1
      simp [chrMat, hm, hc, h1, wantCode]

/-! ### C26: any history of calls -/

/-- A call made by the rest of the program. -/
inductive Call where
  | upCoef (x : Vec) (mu nu : Fin 4)
  | upMat (x : Vec)
  | jacobian (x : Vec)
  | upJac (x : Vec)
  | chrCoef (x : Vec) (a mu nu : Fin 4)
  | chrMat (x : Vec)

/-- What it returns. -/
inductive Answer where
  | scalar (v : ℚ)
  | tensor (t : Tensor)
  | tensor3 (t : Tensor3)
  | both (p : Tensor × Tensor3)
  | coded (p : Int × Tensor3)

/-- One call with bounded depth. -/
def Call.run (m : Impl) (depth : Nat) (fl : Flags) : Call → Option (Answer × Flags)
  | .upCoef x mu nu => (MetricDispatch.upCoef m depth fl x mu nu).map fun r => (.scalar r.1, r.2)
  | .upMat x => (MetricDispatch.upMat m depth fl x).map fun r => (.tensor r.1, r.2)
  | .jacobian x => (MetricDispatch.jacobian m depth fl x).map fun r => (.tensor3 r.1, r.2)
  | .upJac x => (MetricDispatch.upJac m depth fl x).map fun r => (.both r.1, r.2)
  | .chrCoef x a mu nu => (MetricDispatch.chrCoef m depth fl x a mu nu).map fun r => (.scalar r.1, r.2)
  | .chrMat x => (MetricDispatch.chrMat m depth fl x).map fun r => (.coded r.1, r.2)

/-- A sequence of calls on one metric: the flags persist. -/
def runAll (m : Impl) (depth : Nat) : Flags → List Call → Option (List Answer × Flags)
  | fl, [] => some ([], fl)
  | fl, c :: cs =>
    match c.run m depth fl with
    | none => none
    | some (a, fl) => (runAll m depth fl cs).map fun r => (a :: r.1, r.2)

/-- The answer the user is entitled to. -/
def Call.want (m : Impl) : Call → Answer
  | .upCoef x mu nu => .scalar (wantUpCoef m x mu nu)
  | .upMat x => .tensor (wantUpMat m x)
  | .jacobian x => .tensor3 (wantJac m x)
  | .upJac x => .both (wantUpJac m x)
  | .chrCoef x a mu nu => .scalar (wantChrCoef m x a mu nu)
  | .chrMat x => .coded (wantCode m x, wantChrMat m x)

/-- **C26.** Whatever subset of the six methods the class implements, whatever the sequence of calls made on a new metric,
every call returns, after at most 7 nested calls, the value specified by `want…`. -/
theorem dispatch_history (hs : Symm m) (n : Nat) (cs : List Call) :
    ∃ fl, runAll m (n + 7) {} cs = some (cs.map (Call.want m), fl) := by
  have gen : ∀ fl, Ok m fl → ∃ fl', runAll m (n + 7) fl cs = some (cs.map (Call.want m), fl') := by
    induction cs with
    | nil => intro fl _; exact ⟨fl, rfl⟩
    | cons c cs ih =>
      intro fl ok
      have one : ∃ fl1, c.run m (n + 7) fl = some (c.want m, fl1) ∧ Ok m fl1 := by
        cases c with
        | upCoef x mu nu =>
          obtain ⟨fl1, h1, h2⟩ := upCoef_any hs (n + 1) x mu nu ok
          exact ⟨fl1, by simp [Call.run, Call.want, h1], h2⟩
        | upMat x =>
          obtain ⟨fl1, h1, h2⟩ := upMat_any hs n x ok
          exact ⟨fl1, by simp [Call.run, Call.want, h1], h2⟩
        | jacobian x =>
          obtain ⟨fl1, h1, h2⟩ := jacobian_any hs (n + 2) x ok
          exact ⟨fl1, by simp [Call.run, Call.want, h1], h2⟩
        | upJac x =>
          obtain ⟨fl1, h1, h2⟩ := upJac_any hs (n + 3) x ok
          exact ⟨fl1, by simp [Call.run, Call.want, h1], h2⟩
        | chrCoef x a mu nu =>
          obtain ⟨fl1, h1, h2⟩ := chrCoef_any hs (n + 1) x a mu nu ok
          exact ⟨fl1, by simp [Call.run, Call.want, h1], h2⟩
        | chrMat x =>
          obtain ⟨fl1, h1, h2⟩ := chrMat_any hs n x ok
          exact ⟨fl1, by simp [Call.run, Call.want, h1], h2⟩
      obtain ⟨fl1, h1, ok1⟩ := one
      obtain ⟨fl2, h2⟩ := ih fl1 ok1
      exact ⟨fl2, by simp [runAll, h1, h2]⟩
  exact gen {} ⟨by simp, by simp, by simp, by simp, by simp, by simp⟩

/-- A class giving only the metric and one coefficient of the connection at a time. -/
def sample : Impl where
  gmunu := fun x i j => if i = j then x 1 else 0
  invert := fun g i j => if i = j then 1 / g i i else 0
  upCoef := none
  upMat := none
  jac := none
  upJac := none
  chrCoef := some fun x a mu nu => if a = 1 ∧ mu ≤ nu then x 0 else 0
  chrMat := none

example : Symm sample := ⟨by intro x i j; by_cases h : i = j <;> simp [sample, h, eq_comm], by simp [sample]⟩

/-- First call: the whole connection, from the coefficients; then the inverse metric, numerically. The flags record it. -/
example : (runAll sample 7 {} [.chrMat (fun _ => 2), .upCoef (fun _ => 2) 1 1, .jacobian (fun _ => 2)]).map (·.2) =
    some { upCoef := true, upMat := true, jac := true, upJac := true, chrMat := true } := by decide +kernel

example : wantUpCoef sample (fun _ => 2) 1 1 = 1 / 2 ∧ wantChrMat sample (fun _ => 2) 1 2 0 = 2 := by decide +kernel

end Gyoto.MetricDispatch
