import Verif.Model.PatternDisk
import Verif.Lemmas.GridRead
import Verif.Lemmas.PhiTheta

/-!
# Disks read from a grid
-/

namespace Gyoto.PatternDisk

open Gyoto.GridRead Gyoto.PhiTheta Real

/-! ## The arrays have the size of the grid -/

/-- The sizes of the arrays and the step in azimuth are those of the grid. -/
structure Inv (d : Disk) : Prop where
  emission : ∀ l, d.emission = some l → l.length = d.nnu * d.nphi * d.nr ∧ 0 < d.nnu ∧ 0 < d.nphi ∧ 2 ≤ d.nr ∧
    (1 < d.nphi → d.repeatPhi ≠ 0 → d.dphi = (d.phimax - d.phimin) / (((d.nphi : ℝ) - 1) * d.repeatPhi))
  opacity : ∀ l, d.opacity = some l → l.length = d.nnu * d.nphi * d.nr
  velocity : ∀ l, d.velocity = some l → l.length = 2 * d.nphi * d.nr
  radius : ∀ l, d.radius = some l → l.length = d.nr ∧ 2 ≤ d.nr

/-- The arrays given by the caller have at least the announced size. -/
def Fits : Op → Prop
  | .copyIntensity (some p) a b c => a * b * c ≤ p.length
  | .copyOpacity (some p) a b c => a * b * c ≤ p.length
  | .copyVelocity (some p) a b => 2 * a * b ≤ p.length
  | .copyGridRadius (some p) n => n ≤ p.length
  | _ => True

/-- The disks that calls of the methods can give, exceptions included. -/
inductive Reachable (big : ℝ) : Disk → Prop
  | init : Reachable big (init big)
  | step {d} (op : Op) : Reachable big d → Fits op → Reachable big (step d op).1

theorem phiStep_eq {d : Disk} (h : 1 < d.nphi) : phiStep d = (d.phimax - d.phimin) / (((d.nphi : ℝ) - 1) * d.repeatPhi) := by
  unfold phiStep
  rw [Nat.cast_mul, Nat.cast_sub h.le, Nat.cast_one]

theorem resize_emission (a b c : ℕ) (d : Disk) : (resize a b c d).emission = d.emission := by
  unfold resize
  simp only
  split_ifs <;> rfl

theorem resize_inv (a b c : ℕ) {d : Disk} (h : Inv { d with emission := none }) :
    Inv (resize a b c { d with emission := none }) := by
  obtain ⟨hE, hO, hV, hR⟩ := h
  refine ⟨by rw [resize_emission]; simp, fun l hl => ?_, fun l hl => ?_, fun l hl => ?_⟩
  · show l.length = a * b * c
    by_cases h1 : d.nnu = a <;> by_cases h2 : d.nphi = b <;> by_cases h3 : d.nr = c <;> simp [resize, h1, h2, h3] at hl
    rw [← h1, ← h2, ← h3]; exact hO l hl
  · show l.length = 2 * b * c
    by_cases h1 : d.nnu = a <;> by_cases h2 : d.nphi = b <;> by_cases h3 : d.nr = c <;> simp [resize, h1, h2, h3] at hl <;>
    · rw [← h2, ← h3]; exact hV l hl
  · show l.length = c ∧ 2 ≤ c
    by_cases h1 : d.nnu = a <;> by_cases h2 : d.nphi = b <;> by_cases h3 : d.nr = c <;> simp [resize, h1, h2, h3] at hl <;>
    · rw [← h3]; exact hR l hl

/-- C85. Every method keeps the arrays in step with the dimensions, and none reads beyond what the caller gave. -/
theorem step_ok {d : Disk} {op : Op} (h : Inv d) (hf : Fits op) : Inv (step d op).1 ∧ (step d op).2 ≠ some .ub := by
  obtain ⟨hE, hO, hV, hR⟩ := h
  cases op with
  | copyIntensity p a b c =>
    cases p with
    | none => exact ⟨⟨by simp [step, copyIntensity], hO, hV, hR⟩, by simp [step, copyIntensity]⟩
    | some p =>
      have hk := resize_inv a b c (d := { d with emission := none }) ⟨by simp, hO, hV, hR⟩
      obtain ⟨D, hD⟩ : ∃ D, D = resize a b c { d with emission := none } := ⟨_, rfl⟩
      have e1 : D.nnu = a := by rw [hD]; rfl
      have e2 : D.nphi = b := by rw [hD]; rfl
      have e3 : D.nr = c := by rw [hD]; rfl
      have e0 : D.emission = none := by rw [hD, resize_emission]
      rw [← hD] at hk
      obtain ⟨-, kO, kV, kR⟩ := hk
      simp only [step, copyIntensity]
      rw [← hD]
      have hno : ∀ l, D.emission = some l → False := by rw [e0]; simp
      by_cases c1 : a * b * c = 0
      · rw [if_pos c1]; exact ⟨⟨fun l hl => (hno l hl).elim, kO, kV, kR⟩, by simp⟩
      rw [if_neg c1]
      by_cases c2 : D.nr = 1
      · rw [if_pos c2]; exact ⟨⟨fun l hl => (hno l hl).elim, kO, kV, kR⟩, by simp⟩
      rw [if_neg c2]
      by_cases c3 : D.repeatPhi = 0
      · rw [if_pos c3]; exact ⟨⟨fun l hl => (hno l hl).elim, kO, kV, kR⟩, by simp⟩
      rw [if_neg c3, memcpy_ok hf]
      have hab : 0 < a ∧ 0 < b ∧ 0 < c :=
        ⟨Nat.pos_of_ne_zero (by rintro rfl; simp at c1), Nat.pos_of_ne_zero (by rintro rfl; simp at c1),
          Nat.pos_of_ne_zero (by rintro rfl; simp at c1)⟩
      refine ⟨⟨fun l hl => ?_, kO, kV, kR⟩, by simp⟩
      obtain rfl : p.take (a * b * c) = l := Option.some.inj hl
      refine ⟨?_, ?_, ?_, ?_, fun h1 _ => ?_⟩
      · rw [take_len hf, e1, e2, e3]
      · rw [e1]; exact hab.1
      · rw [e2]; exact hab.2.1
      · have := hab.2.2
        simp only
        omega
      · simp only at h1 ⊢
        rw [if_pos h1]; exact phiStep_eq h1
  | copyOpacity p a b c =>
    obtain ⟨D, hD⟩ : ∃ D, D = (if d.opacity.isSome then { d with opacity := none, radtransf := false } else d) := ⟨_, rfl⟩
    have hi : Inv D := by
      rw [hD]; split_ifs
      · exact ⟨hE, by simp, hV, hR⟩
      · exact ⟨hE, hO, hV, hR⟩
    cases p with
    | none => simp only [step, copyOpacity]; rw [← hD]; exact ⟨hi, by simp⟩
    | some p =>
      simp only [step, copyOpacity]; rw [← hD]
      by_cases c1 : D.nnu ≠ a ∨ D.nphi ≠ b ∨ D.nr ≠ c
      · rw [if_pos c1]; exact ⟨hi, by simp⟩
      rw [if_neg c1]
      push Not at c1
      have hf' : D.nnu * D.nphi * D.nr ≤ p.length := by rw [c1.1, c1.2.1, c1.2.2]; exact hf
      rw [memcpy_ok hf']
      obtain ⟨kE, -, kV, kR⟩ := hi
      refine ⟨⟨kE, fun l hl => ?_, kV, kR⟩, by simp⟩
      obtain rfl := Option.some.inj hl
      exact take_len hf'
  | copyVelocity p a b =>
    have hi : Inv { d with velocity := none } := ⟨hE, hO, by simp, hR⟩
    cases p with
    | none => exact ⟨hi, by simp [step, copyVelocity]⟩
    | some p =>
      simp only [step, copyVelocity]
      by_cases c0 : d.emission = none
      · rw [if_pos c0]; exact ⟨hi, by simp⟩
      rw [if_neg c0]
      by_cases c1 : d.nphi ≠ a ∨ d.nr ≠ b
      · rw [if_pos c1]; exact ⟨hi, by simp⟩
      rw [if_neg c1]
      push Not at c1
      have hf' : 2 * d.nphi * d.nr ≤ p.length := by rw [c1.1, c1.2]; exact hf
      rw [memcpy_ok hf']
      refine ⟨⟨hE, hO, fun l hl => ?_, hR⟩, by simp⟩
      obtain rfl := Option.some.inj hl
      exact take_len hf'
  | copyGridRadius p n =>
    have hi : Inv { d with radius := none } := ⟨hE, hO, hV, by simp⟩
    cases p with
    | none => exact ⟨hi, by simp [step, copyGridRadius]⟩
    | some p =>
      simp only [step, copyGridRadius]
      by_cases c0 : d.emission = none
      · rw [if_pos c0]; exact ⟨hi, by simp⟩
      rw [if_neg c0]
      by_cases c1 : d.nr ≠ n
      · rw [if_pos c1]; exact ⟨hi, by simp⟩
      rw [if_neg c1]
      have hf' : d.nr ≤ p.length := by rw [not_not.1 c1]; exact hf
      rw [memcpy_ok hf']
      obtain ⟨e, he⟩ := Option.ne_none_iff_exists'.1 c0
      have h2 := (hE e he).2.2.2.1
      have hl := take_len hf'
      simp only
      have r0 : read (some (p.take d.nr)) 0 = .ok (p.take d.nr)[0] := read_ok' (k := 0) rfl (by omega)
      have r1 : read (some (p.take d.nr)) ((d.nr : ℤ) - 1) = .ok (p.take d.nr)[d.nr - 1] :=
        read_ok' (k := d.nr - 1) (by omega) (by omega)
      rw [r0, r1]
      refine ⟨⟨hE, hO, hV, fun l hl' => ?_⟩, by simp⟩
      obtain rfl := Option.some.inj hl'
      exact ⟨hl, h2⟩
  | repeatPhi n =>
    refine ⟨?_, by simp [step]⟩
    simp only [step]
    split_ifs with hc
    · exact ⟨fun l hl => ⟨(hE l hl).1, (hE l hl).2.1, (hE l hl).2.2.1, (hE l hl).2.2.2.1, fun h1 _ => phiStep_eq h1⟩, hO, hV, hR⟩
    · refine ⟨fun l hl => ⟨(hE l hl).1, (hE l hl).2.1, (hE l hl).2.2.1, (hE l hl).2.2.2.1, fun h1 h2 => ?_⟩, hO, hV, hR⟩
      exact absurd (Nat.mul_pos (Nat.sub_pos_of_lt h1) (Nat.pos_of_ne_zero h2)) hc
  | phimin x =>
    refine ⟨?_, by simp [step]⟩
    simp only [step]
    split_ifs with hc
    · exact ⟨fun l hl => ⟨(hE l hl).1, (hE l hl).2.1, (hE l hl).2.2.1, (hE l hl).2.2.2.1, fun h1 _ => phiStep_eq h1⟩, hO, hV, hR⟩
    · exact ⟨fun l hl => ⟨(hE l hl).1, (hE l hl).2.1, (hE l hl).2.2.1, (hE l hl).2.2.2.1, fun h1 h2 => absurd h1 hc⟩, hO, hV, hR⟩
  | phimax x =>
    refine ⟨?_, by simp [step]⟩
    simp only [step]
    split_ifs with hc
    · exact ⟨fun l hl => ⟨(hE l hl).1, (hE l hl).2.1, (hE l hl).2.2.1, (hE l hl).2.2.2.1, fun h1 _ => phiStep_eq h1⟩, hO, hV, hR⟩
    · exact ⟨fun l hl => ⟨(hE l hl).1, (hE l hl).2.1, (hE l hl).2.2.1, (hE l hl).2.2.2.1, fun h1 h2 => absurd h1 hc⟩, hO, hV, hR⟩
  | innerRadius x =>
    refine ⟨?_, by simp [step]⟩
    simp only [step]
    split_ifs <;> exact ⟨hE, hO, hV, hR⟩
  | outerRadius x =>
    refine ⟨?_, by simp [step]⟩
    simp only [step]
    split_ifs <;> exact ⟨hE, hO, hV, hR⟩
  | patternVelocity x => exact ⟨⟨hE, hO, hV, hR⟩, by simp [step]⟩
  | nu0 x => exact ⟨⟨hE, hO, hV, hR⟩, by simp [step]⟩
  | dnu x => exact ⟨⟨hE, hO, hV, hR⟩, by simp [step]⟩
  | opticallyThin b => exact ⟨⟨hE, hO, hV, hR⟩, by simp [step]⟩
  | dir n => exact ⟨⟨hE, hO, hV, hR⟩, by simp [step]⟩

/-- C85. Whatever the calls, the arrays have the size of the grid. -/
theorem reachable_ok {big : ℝ} {d : Disk} (h : Reachable big d) : Inv d := by
  induction h with
  | init => exact ⟨by simp [init], by simp [init], by simp [init], by simp [init]⟩
  | step op _ hf ih => exact (step_ok ih hf).1

/-! ## The step in radius -/

/-- The step in radius is the one of the uniform grid between the inner and the outer radius. -/
def StepOk (d : Disk) : Prop := d.emission ≠ none → d.radius = none → d.dr = (d.rout - d.rin) / ((d.nr : ℝ) - 1)

/-- C85. The step in radius follows the limits, provided a grid of radii is not taken away. -/
theorem step_dr_partial {d : Disk} {op : Op} (h : Inv d) (hs : StepOk d)
    (hop : ∀ p n, op = .copyGridRadius p n → (step d op).1.radius ≠ none ∨ d.radius = none) : StepOk (step d op).1 := by
  have hcast : ∀ {D : Disk}, Inv D → D.emission ≠ none → 2 ≤ D.nr := fun hi he => by
    obtain ⟨e, he⟩ := Option.ne_none_iff_exists'.1 he
    exact (hi.emission e he).2.2.2.1
  cases op with
  | copyIntensity p a b c =>
    intro h1 h2
    cases p with
    | none => exact absurd rfl h1
    | some p =>
      revert h1 h2
      simp only [step, copyIntensity]
      obtain ⟨D, hD⟩ : ∃ D, D = resize a b c { d with emission := none } := ⟨_, rfl⟩
      rw [← hD]
      have e0 : D.emission = none := by rw [hD, resize_emission]
      by_cases c1 : a * b * c = 0
      · rw [if_pos c1]; intro h1; exact absurd e0 h1
      rw [if_neg c1]
      by_cases c2 : D.nr = 1
      · rw [if_pos c2]; intro h1; exact absurd e0 h1
      rw [if_neg c2]
      by_cases c3 : D.repeatPhi = 0
      · rw [if_pos c3]; intro h1; exact absurd e0 h1
      rw [if_neg c3]
      have e3 : D.nr = c := by rw [hD]; rfl
      have hc : c ≠ 0 := by rintro rfl; simp at c1
      cases memcpy (a * b * c) p with
      | error e => intro h1; exact absurd e0 h1
      | ok l =>
        intro _ _
        simp only
        rw [Nat.cast_sub (by omega), Nat.cast_one]
  | copyOpacity p a b c =>
    obtain ⟨D, hD⟩ : ∃ D, D = (if d.opacity.isSome then { d with opacity := none, radtransf := false } else d) := ⟨_, rfl⟩
    have hi : StepOk D := by
      rw [hD]; split_ifs
      · exact hs
      · exact hs
    cases p with
    | none => simp only [step, copyOpacity]; rw [← hD]; exact hi
    | some p =>
      simp only [step, copyOpacity]; rw [← hD]
      by_cases c1 : D.nnu ≠ a ∨ D.nphi ≠ b ∨ D.nr ≠ c
      · rw [if_pos c1]; exact hi
      rw [if_neg c1]
      cases memcpy (D.nnu * D.nphi * D.nr) p <;> exact hi
  | copyVelocity p a b =>
    cases p with
    | none => exact hs
    | some p =>
      simp only [step, copyVelocity]
      by_cases c0 : d.emission = none
      · rw [if_pos c0]; exact hs
      rw [if_neg c0]
      by_cases c1 : d.nphi ≠ a ∨ d.nr ≠ b
      · rw [if_pos c1]; exact hs
      rw [if_neg c1]
      cases memcpy (2 * d.nphi * d.nr) p <;> exact hs
  | copyGridRadius p n =>
    rcases hop p n rfl with hr | hr
    · intro _ h2; exact absurd h2 hr
    cases p with
    | none => intro h1 _; exact hs h1 hr
    | some p =>
      simp only [step, copyGridRadius]
      by_cases c0 : d.emission = none
      · rw [if_pos c0]; intro h1 _; exact absurd c0 h1
      rw [if_neg c0]
      by_cases c1 : d.nr ≠ n
      · rw [if_pos c1]; intro h1 _; exact hs h1 hr
      rw [if_neg c1]
      cases memcpy d.nr p with
      | error e => intro h1 _; exact hs h1 hr
      | ok l =>
        simp only
        split
        · intro _ h2; simp at h2
        · intro _ h2; simp at h2
  | repeatPhi n =>
    simp only [step]
    split_ifs <;> exact hs
  | phimin x =>
    simp only [step]
    split_ifs <;> exact hs
  | phimax x =>
    simp only [step]
    split_ifs <;> exact hs
  | innerRadius x =>
    intro h1 h2
    simp only [step] at h1 h2 ⊢
    split_ifs at h1 h2 ⊢ with hc
    · simp only
      rw [Nat.cast_sub (by omega), Nat.cast_one]
    · exact absurd ⟨hcast h h1, h2⟩ hc
  | outerRadius x =>
    intro h1 h2
    simp only [step] at h1 h2 ⊢
    split_ifs at h1 h2 ⊢ with hc
    · simp only
      rw [Nat.cast_sub (by omega), Nat.cast_one]
    · exact absurd ⟨hcast h h1, h2⟩ hc
  | patternVelocity x => exact hs
  | nu0 x => exact hs
  | dnu x => exact hs
  | opticallyThin b => exact hs
  | dir n => exact hs

/-- C85 (negation). Once the limits are changed with a grid of radii in place and the grid is taken away, the step is stale. -/
theorem step_dr_wrong : ∃ d : Disk, Reachable 100 d ∧ d.emission ≠ none ∧ d.radius = none ∧
    d.dr ≠ (d.rout - d.rin) / ((d.nr : ℝ) - 1) := by
  have e1 : (step (init 100) (.copyIntensity (some [1, 2]) 1 1 2)).1 =
      { init 100 with emission := some [1, 2], nnu := 1, nphi := 1, nr := 2, dr := 100 } := by
    simp [step, copyIntensity, resize, init, memcpy]
  have e2 : (step { init 100 with emission := some [1, 2], nnu := 1, nphi := 1, nr := 2, dr := 100 }
      (.copyGridRadius (some [1, 4]) 2)).1 =
      { init 100 with emission := some [1, 2], nnu := 1, nphi := 1, nr := 2, dr := 3, rin := 1, rout := 4, radius := some [1, 4] } := by
    simp [step, copyGridRadius, init, memcpy, GridRead.read]
    norm_num
  have r1 := Reachable.step (.copyIntensity (some [1, 2]) 1 1 2) (Reachable.init (big := 100)) (by simp [Fits])
  rw [e1] at r1
  have r2 := Reachable.step (.copyGridRadius (some [1, 4]) 2) r1 (by simp [Fits])
  rw [e2] at r2
  have r3 := Reachable.step (.innerRadius 0) r2 trivial
  have r4 := Reachable.step (.copyGridRadius none 2) r3 trivial
  refine ⟨_, r4, ?_, ?_, ?_⟩ <;> simp [step, copyGridRadius, init]
  norm_num

/-! ## Copies -/

/-- C85. A disk without a grid of radii is copied as it is. -/
theorem clone_partial {d : Disk} (h : Inv d) (hr : d.radius = none) : clone d = .ok d := by
  obtain ⟨hE, hO, hV, hR⟩ := h
  unfold clone
  rw [copyArray_ok (fun l hl => (hE l hl).1), copyArray_ok hO, copyArray_ok hV]
  simp only [bind, Except.bind, pure, Except.pure]
  rw [hr]
  simp only [copyArray]
  rw [← hr]

/-- C85 (negation). The copy of a disk with a grid of radii reads beyond the grid. -/
theorem clone_wrong {d : Disk} {l e : List ℝ} (h : Inv d) (hr : d.radius = some l) (he : d.emission = some e) :
    clone d = .error .ub := by
  obtain ⟨hE, hO, hV, hR⟩ := h
  have h1 := hR l hr
  have h2 := (hE e he).2.2.1
  unfold clone
  rw [copyArray_ok (fun l hl => (hE l hl).1), copyArray_ok hO, copyArray_ok hV]
  simp only [bind, Except.bind]
  rw [hr]
  simp only [copyArray, memcpy]
  rw [if_neg]
  · rfl
  · rw [h1.1]
    have : 2 * 1 * d.nr ≤ 2 * d.nphi * d.nr := Nat.mul_le_mul_right _ (Nat.mul_le_mul_left _ h2)
    omega

end Gyoto.PatternDisk
