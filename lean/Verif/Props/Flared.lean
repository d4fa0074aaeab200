import Verif.Model.Flared
import Verif.Props.InterpGrid
import Mathlib.Analysis.Real.Pi.Bounds

/-! # C129. The data of the flared disk -/

namespace Gyoto.Flared

open Gyoto.Interp
open Gyoto.Synch (boltzmannCGS)
open Gyoto.MetricAlg (Vec)

/-- What can be made of a new object by calls that return or throw an error that is caught. -/
inductive Reach : Disk → Prop
  | new : Reach .new
  | ok {s t : Disk} {c : Call} (h : Reach s) (e : s.call c = .ok t) : Reach t
  | thrown {s t : Disk} {c : Call} (h : Reach s) (e : s.call c = .thrown t) : Reach t

/-- The same if no file was refused. -/
inductive Tidy : Disk → Prop
  | new : Tidy .new
  | ok {s t : Disk} {c : Call} (h : Tidy s) (e : s.call c = .ok t) : Tidy t
  | thrown {s t : Disk} {c : Call} (h : Tidy s) (hc : ∀ f, c ≠ .file f) (e : s.call c = .thrown t) : Tidy t

/-! ## The strength of the field -/

theorem timeTranslation_keeps {s t : Disk} {x : ℝ} (e : s.timeTranslation x = .ok t ∨ s.timeTranslation x = .thrown t) :
    t.BMax = s.BMax ∧ t.nMax = s.nMax ∧ t.TMax = s.TMax ∧ t.beta = s.beta := by
  unfold Disk.timeTranslation at e
  simp only at e
  split_ifs at e with h
  · rcases e with e | e <;> cases e
    simp
  · split at e
    · rcases e with e | e <;> cases e
      simp
    · split_ifs at e
      · rcases e with e | e <;> cases e
        simp
      · rcases e with e | e <;> cases e

theorem copyDensity_keeps {s t : Disk} {l : Option (List ℝ)} {a b c : ℕ} (e : s.copyDensity l a b c = .ok t ∨ s.copyDensity l a b c = .thrown t) :
    t.BMax = s.BMax ∧ t.nMax = s.nMax ∧ t.TMax = s.TMax ∧ t.beta = s.beta := by
  unfold Disk.copyDensity at e
  rcases l with _ | l
  · rcases e with e | e <;> cases e
    simp
  · simp only at e
    by_cases h : s.grid.nt ≠ c ∨ s.grid.nphi ≠ b ∨ s.grid.nr ≠ a
    · simp only [if_pos h] at e
      split_ifs at e
      · rcases e with e | e <;> cases e
        simp
      · split at e <;> rcases e with e | e <;> cases e
        simp
    · simp only [if_neg h] at e
      split_ifs at e
      · rcases e with e | e <;> cases e
        simp
      · split at e <;> rcases e with e | e <;> cases e
        simp

theorem copyVelocity_keeps {s t : Disk} {l : Option (List ℝ)} {a b c : ℕ} (e : s.copyVelocity l a b c = .ok t ∨ s.copyVelocity l a b c = .thrown t) :
    t.BMax = s.BMax ∧ t.nMax = s.nMax ∧ t.TMax = s.TMax ∧ t.beta = s.beta := by
  unfold Disk.copyVelocity at e
  rcases l with _ | l
  · rcases e with e | e <;> cases e
    simp
  · simp only at e
    split_ifs at e
    · rcases e with e | e <;> cases e
      simp
    · rcases e with e | e <;> cases e
      simp
    · split at e <;> rcases e with e | e <;> cases e
      simp

theorem copyBvector_keeps {s t : Disk} {l : Option (List ℝ)} {a b c : ℕ} (e : s.copyBvector l a b c = .ok t ∨ s.copyBvector l a b c = .thrown t) :
    t.BMax = s.BMax ∧ t.nMax = s.nMax ∧ t.TMax = s.TMax ∧ t.beta = s.beta := by
  unfold Disk.copyBvector at e
  rcases l with _ | l
  · rcases e with e | e <;> cases e
    simp
  · simp only at e
    split_ifs at e
    · rcases e with e | e <;> cases e
      simp
    · rcases e with e | e <;> cases e
      simp
    · split at e <;> rcases e with e | e <;> cases e
      simp

theorem copyTimeArray_keeps {s t : Disk} {l : Option (List ℝ)} {n : ℕ} (e : s.copyTimeArray l n = .ok t ∨ s.copyTimeArray l n = .thrown t) :
    t.BMax = s.BMax ∧ t.nMax = s.nMax ∧ t.TMax = s.TMax ∧ t.beta = s.beta := by
  unfold Disk.copyTimeArray at e
  rcases l with _ | l
  · rcases e with e | e <;> cases e
    simp
  · simp only at e
    split_ifs at e
    · rcases e with e | e <;> cases e
      simp
    · split at e <;> rcases e with e | e <;> cases e
      simp

theorem images_keeps {s t : Disk} {g : Grid} {f : File} (e : s.images g f = .ok t ∨ s.images g f = .thrown t) :
    t.BMax = s.BMax ∧ t.nMax = s.nMax ∧ t.TMax = s.TMax ∧ t.beta = s.beta := by
  unfold Disk.images at e
  simp only at e
  split at e
  · rcases e with e | e <;> cases e
  · split at e
    · rcases e with e | e <;> cases e
    · split_ifs at e
      · rcases e with e | e <;> cases e
        simp
      · split at e
        · split at e <;> rcases e with e | e <;> cases e
          simp
        · split at e
          · rcases e with e | e <;> cases e
          · split_ifs at e
            · rcases e with e | e <;> cases e
              simp
            · split at e <;> rcases e with e | e <;> cases e
              simp

theorem file_cases {s t : Disk} {f : File} (e : s.file f = .ok t ∨ s.file f = .thrown t) :
    (∃ g, s.images g f = .ok t ∨ s.images g f = .thrown t) ∨ ∃ g, t = { s with grid := g } := by
  have rest : ∀ g, Disk.file.rest s f g = .ok t ∨ Disk.file.rest s f g = .thrown t →
      (∃ g, s.images g f = .ok t ∨ s.images g f = .thrown t) ∨ ∃ g, t = { s with grid := g } := by
    intro g e
    unfold Disk.file.rest at e
    split at e
    · split_ifs at e
      · rcases e with e | e <;> cases e
        exact .inr ⟨_, rfl⟩
      · exact .inl ⟨_, e⟩
    · exact .inl ⟨_, e⟩
  unfold Disk.file at e
  simp only at e
  split at e
  · split_ifs at e
    · rcases e with e | e <;> cases e
      exact .inr ⟨_, rfl⟩
    · exact rest _ e
  · exact rest _ e

theorem call_field {s t : Disk} {c : Call} (e : s.call c = .ok t ∨ s.call c = .thrown t) (h : s.BMax = fieldMax s.nMax s.TMax s.beta ∧ 0 < s.beta) :
    t.BMax = fieldMax t.nMax t.TMax t.beta ∧ 0 < t.beta := by
  have via : t.BMax = s.BMax ∧ t.nMax = s.nMax ∧ t.TMax = s.TMax ∧ t.beta = s.beta → t.BMax = fieldMax t.nMax t.TMax t.beta ∧ 0 < t.beta := by
    rintro ⟨e1, e2, e3, e4⟩
    rw [e1, e2, e3, e4]
    exact h
  unfold Disk.call at e
  split at e
  case h_3 | h_4 | h_12 =>
    split_ifs at e <;> rcases e with e | e <;> cases e
    all_goals first | exact h | exact ⟨rfl, not_le.1 ‹_›⟩
  case h_8 => exact via (timeTranslation_keeps e)
  case h_15 => exact via (copyDensity_keeps e)
  case h_16 => exact via (copyVelocity_keeps e)
  case h_17 => exact via (copyBvector_keeps e)
  case h_18 => exact via (copyTimeArray_keeps e)
  case h_19 =>
    rcases file_cases e with ⟨g, e⟩ | ⟨g, rfl⟩
    · exact via (images_keeps e)
    · exact h
  all_goals
    rcases e with e | e <;> cases e
    first | exact h | exact ⟨rfl, h.2⟩

/-- C129. Whatever calls were made, in whatever order, the ratio of the pressure of the gas to that of the field, at the maximum, is the one that was
given: the strength of the field follows the density, the temperature and this ratio. -/
theorem field_strength {s : Disk} (h : Reach s) : 0 < s.beta ∧
    (0 ≤ s.nMax * s.TMax → ∃ B, s.BMax = some B ∧ 0 ≤ B ∧ s.nMax * boltzmannCGS * s.TMax = s.beta * (B ^ 2 / (8 * Real.pi))) := by
  have key : s.BMax = fieldMax s.nMax s.TMax s.beta ∧ 0 < s.beta := by
    induction h with
    | new => exact ⟨by simp [Disk.new, fieldMax], by norm_num [Disk.new]⟩
    | ok _ e ih => exact call_field (.inl e) ih
    | thrown _ e ih => exact call_field (.inr e) ih
  obtain ⟨hB, hb⟩ := key
  refine ⟨hb, fun hn => ?_⟩
  have hpi := Real.pi_pos
  have hx : 0 ≤ 8 * Real.pi * s.nMax * boltzmannCGS * s.TMax / s.beta := by
    have : 8 * Real.pi * s.nMax * boltzmannCGS * s.TMax / s.beta = 8 * Real.pi * boltzmannCGS * (s.nMax * s.TMax) / s.beta := by ring
    rw [this]
    unfold boltzmannCGS
    positivity
  refine ⟨√(8 * Real.pi * s.nMax * boltzmannCGS * s.TMax / s.beta), ?_, Real.sqrt_nonneg _, ?_⟩
  · rw [hB, fieldMax, if_neg (by rintro (h | h) <;> linarith)]
  · rw [Real.sq_sqrt hx]
    field_simp

/-- C129. The density and the polytropic index are given back as they were given. -/
theorem given_back (s : Disk) (x : ℝ) : (∃ t, s.call (.numberDensityMax x) = .ok t ∧ t.numberDensityMax = x) ∧
    ∃ t, s.call (.polytropicIndex x) = .ok t ∧ t.polytropicIndex = x := by
  refine ⟨⟨_, rfl, ?_⟩, ⟨_, rfl, ?_⟩⟩
  · unfold Disk.numberDensityMax
    norm_num
    ring
  · unfold Disk.polytropicIndex
    ring

/-- C129 (negation). The index of a new object is 8/3: the constructor stores 5/3 where the index less one belongs. -/
theorem default_index_wrong : Disk.new.polytropicIndex = 8 / 3 := by
  norm_num [Disk.polytropicIndex, Disk.new]

/-! ## The sizes of the arrays -/

theorem readInto_length {n : ℕ} {l d : List ℝ} (h : readInto n l = some d) : d.length = n := by
  unfold readInto at h
  split_ifs at h with hl
  cases h
  simp
  omega

theorem copyOf_length {n : ℕ} {l d : List ℝ} (h : copyOf n l = some d) : d.length = n := by
  unfold copyOf at h
  split_ifs at h with hl
  cases h
  simp
  omega

/-- The arrays of density and velocity have the sizes of the grid. -/
def Fits (s : Disk) : Prop := (∀ d, s.density = some d → d.length = s.cells) ∧ ∀ v, s.velocity = some v → v.length = 2 * s.cells

theorem images_fits {s t : Disk} {g : Grid} {f : File} (e : s.images g f = .ok t) : Fits t := by
  unfold Disk.images at e
  simp only at e
  split at e
  · cases e
  · rename_i d hd
    split at e
    · cases e
    · rename_i v hv
      have ld := readInto_length hd
      have lv := readInto_length hv
      split_ifs at e with hne
      push Not at hne
      obtain ⟨e1, e2, e3⟩ := hne
      split at e
      · split at e
        · cases e
        · cases e
          refine ⟨fun d' h => ?_, fun v' h => ?_⟩
          · cases h
            simp only [Disk.cells, setSizes]
            rw [ld, e1, e2, e3]
          · cases h
            simp only [Disk.cells, setSizes]
            rw [lv]
            ring
      · rename_i B _
        split at e
        · cases e
        · split_ifs at e with hB
          push Not at hB
          obtain ⟨f1, f2, f3⟩ := hB
          split at e
          · cases e
          · cases e
            refine ⟨fun d' h => ?_, fun v' h => ?_⟩
            · cases h
              simp only [Disk.cells, setSizes]
              rw [ld, f1, f2, f3]
            · cases h
              simp only [Disk.cells, setSizes]
              rw [lv, ← e1, ← e2, ← e3, f1, f2, f3]
              ring

theorem file_ok {s t : Disk} {f : File} (e : s.file f = .ok t) : ∃ g, s.images g f = .ok t := by
  unfold Disk.file at e
  have rest : ∀ g, Disk.file.rest s f g = .ok t → ∃ g, s.images g f = .ok t := by
    intro g e
    unfold Disk.file.rest at e
    split at e
    · split_ifs at e
      exact ⟨_, e⟩
    · exact ⟨_, e⟩
  simp only at e
  split at e
  · split_ifs at e
    exact rest _ e
  · exact rest _ e

theorem call_fits {s t : Disk} {c : Call} (h : Fits s) (e : s.call c = .ok t ∨ ((∀ f, c ≠ .file f) ∧ s.call c = .thrown t)) : Fits t := by
  rcases c with x | x | x | x | x | x | x | x | x | x | x | x | x | x | ⟨l, a, b, c⟩ | ⟨l, a, b, c⟩ | ⟨l, a, b, c⟩ | ⟨l, n⟩ | f
  case copyDensity =>
    have e : s.copyDensity l a b c = .ok t ∨ s.copyDensity l a b c = .thrown t := by
      rcases e with e | ⟨-, e⟩
      · exact .inl e
      · exact .inr e
    unfold Disk.copyDensity at e
    rcases l with _ | l
    · rcases e with e | e <;> cases e
      exact ⟨fun d h => (Option.some_ne_none _ h.symm).elim, h.2⟩
    · simp only at e
      by_cases hd : s.grid.nt ≠ c ∨ s.grid.nphi ≠ b ∨ s.grid.nr ≠ a
      · simp only [if_pos hd] at e
        split_ifs at e
        · rcases e with e | e <;> cases e
          exact ⟨fun d h => (Option.some_ne_none _ h.symm).elim, fun d h => (Option.some_ne_none _ h.symm).elim⟩
        · split at e <;> rcases e with e | e <;> cases e
          rename_i hl
          refine ⟨fun d h => ?_, fun d h => (Option.some_ne_none _ h.symm).elim⟩
          cases h
          rw [copyOf_length hl]
          simp only [Disk.cells]
          ring
      · simp only [if_neg hd] at e
        push Not at hd
        obtain ⟨h1, h2, h3⟩ := hd
        subst h1 h2 h3
        split_ifs at e
        · rcases e with e | e <;> cases e
          exact ⟨fun d h => (Option.some_ne_none _ h.symm).elim, h.2⟩
        · split at e <;> rcases e with e | e <;> cases e
          rename_i hl
          refine ⟨fun d h => ?_, h.2⟩
          cases h
          rw [copyOf_length hl]
          simp only [Disk.cells]
          ring
  case copyVelocity =>
    have e : s.copyVelocity l a b c = .ok t ∨ s.copyVelocity l a b c = .thrown t := by
      rcases e with e | ⟨-, e⟩
      · exact .inl e
      · exact .inr e
    unfold Disk.copyVelocity at e
    rcases l with _ | l
    · rcases e with e | e <;> cases e
      exact ⟨h.1, fun d h => (Option.some_ne_none _ h.symm).elim⟩
    · simp only at e
      split_ifs at e with h1 h2
      · rcases e with e | e <;> cases e
        exact ⟨h.1, fun d h => (Option.some_ne_none _ h.symm).elim⟩
      · rcases e with e | e <;> cases e
        exact ⟨h.1, fun d h => (Option.some_ne_none _ h.symm).elim⟩
      · push Not at h2
        obtain ⟨h1, h2, h3⟩ := h2
        subst h1 h2 h3
        split at e <;> rcases e with e | e <;> cases e
        rename_i hl
        refine ⟨h.1, fun d h => ?_⟩
        cases h
        rw [copyOf_length hl]
        simp only [Disk.cells]
        ring
  case copyBvector =>
    have e : s.copyBvector l a b c = .ok t ∨ s.copyBvector l a b c = .thrown t := by
      rcases e with e | ⟨-, e⟩
      · exact .inl e
      · exact .inr e
    unfold Disk.copyBvector at e
    rcases l with _ | l
    · rcases e with e | e <;> cases e
      exact h
    · simp only at e
      split_ifs at e
      · rcases e with e | e <;> cases e
        exact h
      · rcases e with e | e <;> cases e
        exact h
      · split at e <;> rcases e with e | e <;> cases e
        exact h
  case copyTimeArray =>
    have e : s.copyTimeArray l n = .ok t ∨ s.copyTimeArray l n = .thrown t := by
      rcases e with e | ⟨-, e⟩
      · exact .inl e
      · exact .inr e
    unfold Disk.copyTimeArray at e
    rcases l with _ | l
    · rcases e with e | e <;> cases e
      exact h
    · simp only at e
      split_ifs at e
      · rcases e with e | e <;> cases e
        exact h
      · split at e <;> rcases e with e | e <;> cases e
        exact h
  case timeTranslation =>
    have e : s.timeTranslation x = .ok t ∨ s.timeTranslation x = .thrown t := by
      rcases e with e | ⟨-, e⟩
      · exact .inl e
      · exact .inr e
    unfold Disk.timeTranslation at e
    simp only at e
    split_ifs at e
    · rcases e with e | e <;> cases e
      exact h
    · split at e
      · rcases e with e | e <;> cases e
        exact h
      · split_ifs at e
        · rcases e with e | e <;> cases e
          exact h
        · rcases e with e | e <;> cases e
  case file =>
    rcases e with e | ⟨hc, -⟩
    · obtain ⟨g, e⟩ := file_ok e
      exact images_fits e
    · exact absurd rfl (hc f)
  all_goals
    replace e := e.imp id And.right
    simp only [Disk.call] at e
    try split_ifs at e
    all_goals
      rcases e with e | e <;> cases e
      exact h

/-- C129. Unless a file was refused, the arrays of density and of velocity always have the sizes of the grid. -/
theorem sizes {s : Disk} (h : Tidy s) : Fits s := by
  induction h with
  | new => exact ⟨fun d h => (Option.some_ne_none _ h.symm).elim, fun d h => (Option.some_ne_none _ h.symm).elim⟩
  | ok _ e ih => exact call_fits ih (.inl e)
  | thrown _ hc e ih => exact call_fits ih (.inr ⟨hc, e⟩)

theorem copyArray_eq {n : ℕ} {a : Option (List ℝ)} (h : ∀ l, a = some l → l.length = n) : copyArray n a = some a := by
  rcases a with _ | l
  · rfl
  · have := h l rfl
    simp [copyArray, copyOf, this]

/-- C129. A copy is equal to the original, if the arrays of the field and of the dates have the sizes of the grid as well. -/
theorem copy_eq {s : Disk} (h : Tidy s) (hB : ∀ b, s.field = some b → b.length = 4 * s.cells) (hD : ∀ D, s.times = some D → D.length = s.grid.nt) :
    s.copy = some s := by
  obtain ⟨h1, h2⟩ := sizes h
  unfold Disk.copy
  simp [copyArray_eq h1, copyArray_eq h2, copyArray_eq hB, copyArray_eq hD]

/-- C129 (negation). Where they do not, the copy reads past the end of the array. -/
theorem copy_wrong {s : Disk} {b : List ℝ} (h : s.field = some b) (hl : b.length < 4 * s.cells) : s.copy = none := by
  have : copyArray (4 * s.cells) (some b) = none := by
    simp [copyArray, copyOf]
    omega
  unfold Disk.copy
  rw [h, this]
  rcases copyArray s.cells s.density with _ | d
  · rfl
  · rcases copyArray (2 * s.cells) s.velocity with _ | v <;> rfl

/-! ## Reading a file -/

/-- A file whose parts agree. -/
structure File.Good (f : File) (t0 t1 r0 r1 p0 p1 : ℝ) (nr nphi nt : ℕ) : Prop where
  tmin : f.tmin = some t0
  tmax : f.tmax = some t1
  rmin : f.rmin = some r0
  rmax : f.rmax = some r1
  phimin : f.phimin = some p0
  phimax : f.phimax = some p1
  azimuths : 0 ≤ p0 ∧ p0 < p1 ∧ p1 < 2 * Real.pi
  many : 2 ≤ nr ∧ 2 ≤ nphi ∧ 2 ≤ nt
  density : f.density.nr = nr ∧ f.density.nphi = nphi ∧ f.density.nt = nt ∧ f.density.data.length = nt * nphi * nr
  velocity : f.velocity.nr = nr ∧ f.velocity.nphi = nphi ∧ f.velocity.nt = nt ∧ f.velocity.data.length = nt * nphi * nr * 2
  field : ∀ B, f.field = some B → B.nr = nr ∧ B.nphi = nphi ∧ B.nt = nt ∧ B.data.length = nt * nphi * nr * 4
  times : f.times.length = nt

/-- The regular grid with these limits and sizes. -/
noncomputable def regular (t0 t1 r0 r1 p0 p1 : ℝ) (nr nphi nt : ℕ) : Grid :=
  { phimin := p0, phimax := p1, dphi := (p1 - p0) / ((nphi : ℝ) - 1), tmin := t0, tmax := t1, dt := (t1 - t0) / ((nt : ℝ) - 1), rmin := r0, rmax := r1,
    dr := (r1 - r0) / ((nr : ℝ) - 1), nphi := nphi, nt := nt, nr := nr }

theorem readInto_eq {n : ℕ} {l : List ℝ} (h : l.length = n) : readInto n l = some l := by
  unfold readInto
  rw [if_pos h.le, h]
  simp

variable {s : Disk} {f : File} {t0 t1 r0 r1 p0 p1 : ℝ} {nr nphi nt : ℕ}

/-- C129. Reading such a file takes all of it; the limits of time are moved by the translation, whatever was in the object before. -/
theorem file_loads (h : f.Good t0 t1 r0 r1 p0 p1 nr nphi nt) (s : Disk) : s.file f = .ok { s with
    grid := regular (t0 + s.deltat) (t1 + s.deltat) r0 r1 p0 p1 nr nphi nt
    density := some f.density.data
    velocity := some f.velocity.data
    times := some f.times
    field := match f.field with | some B => some B.data | none => s.field
    flag := s.flag || f.field.isSome } := by
  obtain ⟨a0, a1, a2⟩ := h.azimuths
  obtain ⟨b0, b1, b2⟩ := h.many
  obtain ⟨d1, d2, d3, d4⟩ := h.density
  obtain ⟨v1, v2, v3, v4⟩ := h.velocity
  have hp0 : ¬ Bad p0 := by unfold Bad; push Not; exact ⟨a0, by linarith⟩
  have hp1 : ¬ Bad p1 := by unfold Bad; push Not; exact ⟨by linarith, a2.le⟩
  have n1 : nr > 1 := by omega
  have n2 : nphi > 1 := by omega
  have n3 : nt > 1 := by omega
  have finish : ∀ g : Grid, g.tmin = t0 + s.deltat → g.tmax = t1 + s.deltat → g.rmin = r0 → g.rmax = r1 → g.phimin = p0 → g.phimax = p1 →
      setSizes g nr nphi nt = regular (t0 + s.deltat) (t1 + s.deltat) r0 r1 p0 p1 nr nphi nt := by
    intro g e1 e2 e3 e4 e5 e6
    simp only [setSizes, regular, n1, n2, n3, if_true, e1, e2, e3, e4, e5, e6]
  have again : setSizes (regular (t0 + s.deltat) (t1 + s.deltat) r0 r1 p0 p1 nr nphi nt) nr nphi nt =
      regular (t0 + s.deltat) (t1 + s.deltat) r0 r1 p0 p1 nr nphi nt := finish _ rfl rfl rfl rfl rfl rfl
  unfold Disk.file Disk.file.rest
  simp only [h.phimin, h.phimax, if_neg hp0, if_neg hp1]
  unfold Disk.images
  simp only [d1, d2, d3, v1, v2, v3, readInto_eq d4, readInto_eq v4]
  rw [finish _ (by simp only [Disk.keys, h.tmin, h.tmax, h.rmin, h.rmax]; rfl) (by simp only [Disk.keys, h.tmin, h.tmax, h.rmin, h.rmax]; rfl)
    (by simp only [Disk.keys, h.tmin, h.tmax, h.rmin, h.rmax]; rfl) (by simp only [Disk.keys, h.tmin, h.tmax, h.rmin, h.rmax]; rfl) rfl rfl]
  have ht : readInto (regular (t0 + s.deltat) (t1 + s.deltat) r0 r1 p0 p1 nr nphi nt).nt f.times = some f.times := readInto_eq h.times
  rcases hB : f.field with _ | B
  · simp [ht]
  · obtain ⟨c1, c2, c3, c4⟩ := h.field B hB
    simp only [c1, c2, c3, readInto_eq c4, again, ht]
    simp

/-- C129. If no translation was asked for, the grid is consistent, and the dates are those of the file. -/
theorem loaded (h : f.Good t0 t1 r0 r1 p0 p1 nr nphi nt) (hr : 0 < r0) (hr1 : r0 < r1) (hr2 : r1 < dblMax) (ht0 : -dblMax < t0) (ht : t0 < t1)
    (ht1 : t1 < dblMax) (hn : nr < 2 ^ 31 ∧ nphi < 2 ^ 31 ∧ nt < 2 ^ 31) {date : ℕ → ℝ} (hd : ∀ i < nt, f.times[i]? = some (date i))
    (h0 : date 0 = t0) (h1 : date (nt - 1) = t1) (hinc : ∀ i, i + 1 < nt → date i < date (i + 1)) (hs : s.deltat = 0) :
    ∃ t, s.file f = .ok t ∧ t.grid.Ok Real.pi ∧ t.times = some f.times ∧ t.grid.Dates f.times date ∧ t.density = some f.density.data ∧
      t.velocity = some f.velocity.data := by
  obtain ⟨a0, a1, a2⟩ := h.azimuths
  obtain ⟨b0, b1, b2⟩ := h.many
  refine ⟨_, file_loads h s, ?_, rfl, ?_, rfl, rfl⟩
  · rw [hs, add_zero, add_zero]
    exact ⟨hr, hr2, ⟨b0, hn.1⟩, hr1, rfl, ⟨b1, hn.2.1⟩, a1, rfl, by show p1 < p0 + 2 * Real.pi; linarith, ⟨b2, hn.2.2⟩, ht0, ht1, ht, rfl⟩
  · rw [hs, add_zero, add_zero]
    exact ⟨h.times, hd, h0, h1, hinc⟩

/-- What a translation does, if there are dates. -/
theorem translate_eq {D : List ℝ} (hD : s.times = some D) (hl : D.length = s.grid.nt) (hn : s.grid.nt ≠ 0) (d : ℝ) :
    s.timeTranslation d = .ok { s with
      grid := setTmax (setTmin s.grid (s.grid.tmin - s.deltat + d)) (s.grid.tmax - s.deltat + d), deltat := d, times := some (D.map (· + d)) } := by
  unfold Disk.timeTranslation
  simp only
  rw [if_neg (by exact hn), hD]
  simp only
  rw [if_pos (by show s.grid.nt ≤ _; omega)]
  have : (setTmax (setTmin s.grid (s.grid.tmin - s.deltat + d)) (s.grid.tmax - s.deltat + d)).nt = D.length := hl.symm
  simp [this]

/-- C129 (negation). After a translation the limits of the dates are moved and the dates are not: the first date is not the first limit. This holds
when the same file is read again, and when the translation was refused because no file had been read. -/
theorem reread_wrong (h : f.Good t0 t1 r0 r1 p0 p1 nr nphi nt) {d : ℝ} (hd : d ≠ 0) (h0 : f.times[0]? = some t0) :
    (∃ a b c, Disk.new.file f = .ok a ∧ a.timeTranslation d = .ok b ∧ b.file f = .ok c ∧ c.grid.tmin = t0 + d ∧ c.times = some f.times ∧
      ∀ date, ¬ c.grid.Dates f.times date) ∧
    ∃ b c, Disk.new.timeTranslation d = .thrown b ∧ b.file f = .ok c ∧ c.grid.tmin = t0 + d ∧ c.times = some f.times ∧
      ∀ date, ¬ c.grid.Dates f.times date := by
  obtain ⟨b0, b1, b2⟩ := h.many
  have no : ∀ (c : Disk) date, c.grid.tmin = t0 + d → 0 < c.grid.nt → ¬ c.grid.Dates f.times date := by
    intro c date e hn hD
    have := hD.val 0 hn
    rw [h0, Option.some.injEq] at this
    have := hD.first
    apply hd
    linarith
  constructor
  · refine ⟨_, _, _, file_loads h _, translate_eq (D := f.times) rfl h.times (by show nt ≠ 0; omega) d, file_loads h _, rfl, rfl, fun date => no _ date rfl (by show 0 < nt; omega)⟩
  · have e : Disk.new.timeTranslation d = .thrown { Disk.new with grid := setTmax (setTmin newGrid (newGrid.tmin - 0 + d)) (newGrid.tmax - 0 + d), deltat := d } := by
      unfold Disk.timeTranslation
      exact if_pos rfl
    refine ⟨_, _, e, file_loads h _, rfl, rfl, fun date => no _ date rfl (by show 0 < nt; omega)⟩

theorem setSizes_nt (g : Grid) (a b c : ℕ) : (setSizes g a b c).nt = c := rfl

/-- C129 (negation). A file that holds more dates than images makes `fitsRead` write past the end of an array, though it compares the two numbers;
one that holds less dates is accepted, and the last dates are zero. -/
theorem dates_wrong (h : f.Good t0 t1 r0 r1 p0 p1 nr nphi nt) (hB : f.field = none) (s : Disk) (l : List ℝ) :
    (nt < l.length → s.file { f with times := l } = .ub) ∧
    (l.length < nt → ∃ t D, s.file { f with times := l } = .ok t ∧ t.times = some D ∧ D[nt - 1]? = some 0) := by
  obtain ⟨a0, a1, a2⟩ := h.azimuths
  obtain ⟨b0, b1, b2⟩ := h.many
  obtain ⟨d1, d2, d3, d4⟩ := h.density
  obtain ⟨v1, v2, v3, v4⟩ := h.velocity
  have hp0 : ¬ Bad p0 := by unfold Bad; push Not; exact ⟨a0, by linarith⟩
  have hp1 : ¬ Bad p1 := by unfold Bad; push Not; exact ⟨by linarith, a2.le⟩
  have aux : ∀ w : List ℝ → Disk, (∀ D, (w D).times = some D) → ∃ u : List ℝ → Disk, (∀ D, (u D).times = some D) ∧
      (match readInto nt l with | none => Res.ub | some D => .ok (w D)) = match readInto nt l with | none => .ub | some D => .ok (u D) :=
    fun w hw => ⟨w, hw, rfl⟩
  have key : ∃ u : List ℝ → Disk, (∀ D, (u D).times = some D) ∧
      s.file { f with times := l } = match readInto nt l with | none => .ub | some D => .ok (u D) := by
    unfold Disk.file Disk.file.rest
    simp only [h.phimin, h.phimax, if_neg hp0, if_neg hp1]
    unfold Disk.images
    simp only [d1, d2, d3, v1, v2, v3, readInto_eq d4, readInto_eq v4, hB, ne_eq, not_true_eq_false, or_self, if_false, setSizes_nt]
    exact aux _ (fun D => rfl)
  obtain ⟨u, hu, e⟩ := key
  constructor
  · intro hl
    rw [e, readInto, if_neg (by omega)]
  · intro hl
    rw [e, readInto, if_pos (by omega)]
    refine ⟨_, _, rfl, hu _, ?_⟩
    rw [List.getElem?_append_right (by omega), List.getElem?_replicate, if_pos (by omega)]

/-- C129 (negation). A file without a field, read after one with a field, leaves the field of the first one in use, whatever its size. -/
theorem stale_field_wrong {f' : File} {n : ℕ} (h : f.Good t0 t1 r0 r1 p0 p1 nr nphi nt) (h' : f'.Good t0 t1 r0 r1 p0 p1 nr nphi n) {B : Image}
    (hB : f.field = some B) (hB' : f'.field = none) (hn : nt < n) :
    ∃ s t, Disk.new.file f = .ok s ∧ s.file f' = .ok t ∧ t.flag = true ∧ t.field = some B.data ∧ B.data.length < 4 * t.cells ∧ t.copy = none := by
  obtain ⟨b0, b1, b2⟩ := h.many
  refine ⟨_, _, file_loads h _, file_loads h' _, by simp [hB], by simp [hB, hB'], ?_, ?_⟩
  · rw [(h.field B hB).2.2.2]
    show nt * nphi * nr * 4 < 4 * (n * nphi * nr)
    have : nt * (nphi * nr) < n * (nphi * nr) := Nat.mul_lt_mul_of_pos_right hn (by positivity)
    nlinarith
  · refine copy_wrong (b := B.data) (by simp [hB, hB']) ?_
    rw [(h.field B hB).2.2.2]
    show nt * nphi * nr * 4 < 4 * (n * nphi * nr)
    have : nt * (nphi * nr) < n * (nphi * nr) := Nat.mul_lt_mul_of_pos_right hn (by positivity)
    nlinarith

/-- C129 (negation). A field that is taken away stays in use: the null pointer is followed. -/
theorem null_field_wrong (s : Disk) (hs : s.flag = true) (a b c : ℕ) (t phi r : ℝ) :
    ∃ u, s.call (.copyBvector none a b c) = .ok u ∧ u.flag = true ∧ u.value u.field 0 t phi r = .error .ub :=
  ⟨_, rfl, hs, rfl⟩

/-- C129 (negation). Data given from memory after the limits leave the steps of the grid zero: every interpolation throws. -/
theorem spacing_wrong {data : List ℝ} {a b c : ℕ} (hl : data.length = a * b * c) (hpos : a * b * c ≠ 0) (r0 r1 : ℝ) :
    ∃ s1 s2 s, Disk.new.call (.rmin r0) = .ok s1 ∧ s1.call (.rmax r1) = .ok s2 ∧ s2.call (.copyDensity (some data) a b c) = .ok s ∧
      s.density = some data ∧ ∀ t phi r, s.value s.density 0 t phi r = .error .thrown := by
  have key : ∀ u : Disk, u.grid.dr = 0 → ∃ s, u.copyDensity (some data) a b c = .ok s ∧ s.density = some data ∧ s.grid.dr = 0 := by
    intro u hu
    unfold Disk.copyDensity
    simp only [copyOf, hl, le_refl, if_true, if_neg hpos]
    refine ⟨_, rfl, ?_, ?_⟩
    · simp [hl.symm]
    · show (ite _ _ _ : Disk).grid.dr = 0
      split_ifs <;> exact hu
  obtain ⟨s, e, e1, e2⟩ := key { Disk.new with grid := setRmax (setRmin newGrid r0) r1 } (by simp [setRmax, setRmin, newGrid])
  refine ⟨_, _, s, rfl, rfl, e, e1, fun t phi r => ?_⟩
  simp [Disk.value, e1, Grid.interpolate, Grid.indexR, e2, bind, Except.bind]

/-! ## Translations in time -/

theorem search_eq (x : ℝ) (T : List ℝ) (n i : ℕ) : search x T n i = match T[i]? with
    | none => .error .ub
    | some a => if x > a then
        match T[i + 1]? with
        | none => .error .ub
        | some b => if x > b ∧ (i : Int) < (n : Int) - 1 then search x T n (i + 1) else .ok i
      else .ok i := by
  conv_lhs => rw [search]
  split
  · rename_i h
    simp only [h]
  · rename_i a h
    simp only [h]
    rfl

theorem search_shift (T : List ℝ) (n : ℕ) (x d : ℝ) : ∀ m i, T.length - i ≤ m → search (x + d) (T.map (· + d)) n i = search x T n i := by
  intro m
  induction m with
  | zero =>
    intro i hi
    have h1 : T[i]? = none := List.getElem?_eq_none (by omega)
    rw [search_eq (x + d) (T.map (· + d)) n i, search_eq x T n i]
    simp only [List.getElem?_map, h1, Option.map_none]
  | succ m ih =>
    intro i hi
    rw [search_eq (x + d) (T.map (· + d)) n i, search_eq x T n i]
    rcases h1 : T[i]? with _ | a
    · simp only [List.getElem?_map, h1, Option.map_none]
    · simp only [List.getElem?_map, h1, Option.map_some, gt_iff_lt, add_lt_add_iff_right]
      rcases h3 : T[i + 1]? with _ | c
      · simp only [Option.map_none]
      · simp only [Option.map_some, add_lt_add_iff_right, ih (i + 1) (by omega)]

theorem interpolate_shift {g : Grid} {T : List ℝ} {d dt' : ℝ} (h0 : -dblMax < g.tmin) (h1 : g.tmax < dblMax) (h2 : -dblMax < g.tmin + d)
    (h3 : g.tmax + d < dblMax) (pi t phi r : ℝ) (a : List ℝ) :
    ({ g with tmin := g.tmin + d, tmax := g.tmax + d, dt := dt' } : Grid).interpolate pi (t + d) phi r a (some (T.map (· + d))) =
      g.interpolate pi t phi r a (some T) := by
  have hT : ({ g with tmin := g.tmin + d, tmax := g.tmax + d, dt := dt' } : Grid).indexT (t + d) (some (T.map (· + d))) = g.indexT t (some T) := by
    unfold Grid.indexT
    simp only [gt_iff_lt, h0, h1, h2, h3, and_self, if_true, add_lt_add_iff_right, search_shift T g.nt t d (T.length - 0) 0 le_rfl]
  have hget : ∀ i, Interp.get (T.map (· + d)) i = (Interp.get T i).map (· + d) := by
    intro i
    unfold Interp.get
    rcases h : T[i]? with _ | x <;> simp [h, Except.map]
  have hr : ∀ l u, ratio (t + d) (l + d) (u + d) = ratio t l u := by
    intro l u
    unfold ratio
    rw [show u + d - (l + d) = u - l by ring, show t + d - (l + d) = t - l by ring]
  unfold Grid.interpolate
  rw [hT]
  have hR : ({ g with tmin := g.tmin + d, tmax := g.tmax + d, dt := dt' } : Grid).indexR r = g.indexR r := rfl
  have hP : ({ g with tmin := g.tmin + d, tmax := g.tmax + d, dt := dt' } : Grid).indexPhi phi = g.indexPhi phi := rfl
  have hrows : ∀ i, ({ g with tmin := g.tmin + d, tmax := g.tmax + d, dt := dt' } : Grid).rows pi phi i = g.rows pi phi i := fun _ => rfl
  have hat : ∀ i j k, ({ g with tmin := g.tmin + d, tmax := g.tmax + d, dt := dt' } : Grid).at a i j k = g.at a i j k := fun _ _ _ => rfl
  rw [hR, hP]
  simp only [hrows, hat, ge_iff_le, add_le_add_iff_right, Grid.dates, hget]
  rcases g.indexR r with _ | i2
  · simp only [bind, Except.bind]
  rcases g.indexPhi phi with _ | i1
  · simp only [bind, Except.bind]
  rcases g.indexT t (some T) with _ | i0
  · simp only [bind, Except.bind]
  simp only [bind, Except.bind]
  rcases e1 : Interp.get T i0 with _ | x
  · simp only [Except.map]
  · rcases e2 : Interp.get T (i0 + 1) with _ | y
    · simp only [Except.map]
    · simp only [Except.map, hr]

/-- C129. A translation of a disk that was not translated before moves everything in time: the gas at `t + d` is then what it was at `t` before, at
each place, for each quantity. -/
theorem translation {D : List ℝ} (hs : s.deltat = 0) (hD : s.times = some D) (hl : D.length = s.grid.nt) (hn : s.grid.nt ≠ 0) {d : ℝ}
    (h0 : -dblMax < s.grid.tmin) (h1 : s.grid.tmax < dblMax) (h2 : -dblMax < s.grid.tmin + d) (h3 : s.grid.tmax + d < dblMax) :
    ∃ u, s.timeTranslation d = .ok u ∧ u.grid.tmin = s.grid.tmin + d ∧ u.grid.tmax = s.grid.tmax + d ∧ u.times = some (D.map (· + d)) ∧
      (∀ a k t phi r, u.value a k (t + d) phi r = s.value a k t phi r) ∧
      ∀ kind g (p q : Vec), q 0 = p 0 + d → q 1 = p 1 → q 2 = p 2 → q 3 = p 3 → u.getVelocity kind g q = s.getVelocity kind g p := by
  have e := translate_eq hD hl hn d
  have hv : ∀ a k t phi r, ({ s with
      grid := setTmax (setTmin s.grid (s.grid.tmin - s.deltat + d)) (s.grid.tmax - s.deltat + d), deltat := d, times := some (D.map (· + d)) } : Disk).value
        a k (t + d) phi r = s.value a k t phi r := by
    intro a k t phi r
    unfold Disk.value
    rcases a with _ | a
    · rfl
    · simp only [hD, hs, sub_zero]
      exact interpolate_shift h0 h1 h2 h3 _ _ _ _ _
  refine ⟨_, e, by simp [setTmax, setTmin, hs], by simp [setTmax, setTmin, hs], rfl, hv, ?_⟩
  intro kind g p q q0 q1 q2 q3
  have hrho : rho kind q = rho kind p := by
    rcases kind <;> simp only [rho, q1, q2]
  obtain ⟨u, hu⟩ : ∃ u : Disk, u = { s with
    grid := setTmax (setTmin s.grid (s.grid.tmin - s.deltat + d)) (s.grid.tmax - s.deltat + d), deltat := d, times := some (D.map (· + d)) } := ⟨_, rfl⟩
  rw [← hu] at hv ⊢
  have u1 : u.velocity = s.velocity := by rw [hu]
  have u2 : u.cells = s.cells := by rw [hu]; rfl
  have u3 : u.grid.rmin = s.grid.rmin := by rw [hu]; rfl
  have u4 : u.grid.rmax = s.grid.rmax := by rw [hu]; rfl
  unfold Disk.getVelocity Disk.inGrid
  rw [hrho, q3, q0, u1, u2, u3, u4, hv, hv]

/-- C129 (negation). A second translation replaces the first one in the limits and is added to it in the dates; in particular a translation by zero
does not undo the first one, and the same translation twice moves the dates twice. Shortly after the first limit every interpolation then throws. -/
theorem translation_wrong {D : List ℝ} {date : ℕ → ℝ} (hs : s.deltat = 0) (hD : s.times = some D) (hg : s.grid.Ok Real.pi) (hd : s.grid.Dates D date) (d1 d2 : ℝ) :
    ∃ u v, s.timeTranslation d1 = .ok u ∧ u.timeTranslation d2 = .ok v ∧ v.grid.tmin = s.grid.tmin + d2 ∧ v.grid.tmax = s.grid.tmax + d2 ∧
      v.times = some (D.map (· + d1) |>.map (· + d2)) ∧ (d1 ≠ 0 → ∀ date', ¬ v.grid.Dates (D.map (· + d1) |>.map (· + d2)) date') ∧
      (-dblMax < s.grid.tmin + d2 → s.grid.tmax + d2 < dblMax → ∀ T array, s.grid.Holds T array → ∀ t phi r,
        s.grid.tmin + d2 < t → t < s.grid.tmin + d1 + d2 → t < s.grid.tmax + d2 → s.grid.rmin ≤ r → r < s.grid.rmax →
        s.grid.phimax - 2 * Real.pi ≤ phi → phi ≤ s.grid.phimin + 2 * Real.pi → phi ≠ s.grid.phimax → v.value (some array) 0 t phi r = .error .thrown) := by
  have n2 := hg.nt.1
  have l0 := hd.len
  have e1 := translate_eq hD l0 (by omega) d1
  have e2 := translate_eq (s := { s with
      grid := setTmax (setTmin s.grid (s.grid.tmin - s.deltat + d1)) (s.grid.tmax - s.deltat + d1), deltat := d1, times := some (D.map (· + d1)) })
    (D := D.map (· + d1)) rfl (by rw [List.length_map]; exact l0) (by show s.grid.nt ≠ 0; omega) d2
  have t0 : s.grid.tmin - s.deltat + d1 - d1 + d2 = s.grid.tmin + d2 := by rw [hs]; ring
  have t1 : s.grid.tmax - s.deltat + d1 - d1 + d2 = s.grid.tmax + d2 := by rw [hs]; ring
  have hfirst : D[0]? = some s.grid.tmin := by rw [hd.val 0 (by omega), hd.first]
  refine ⟨_, _, e1, e2, t0, t1, rfl, ?_, ?_⟩
  · intro h date' hd'
    have a := hd'.val 0 (by show 0 < s.grid.nt; omega)
    have b := hd'.first
    have b : date' 0 = s.grid.tmin + d2 := b.trans t0
    rw [b] at a
    simp only [List.getElem?_map, hfirst, Option.map_some, Option.some.injEq] at a
    apply h
    linarith
  · intro u0 u1 T array hT t phi r h0 h1 h2 r0 r1 p0 p1 pne
    obtain ⟨g', hg'⟩ : ∃ g', g' = setTmax (setTmin (setTmax (setTmin s.grid (s.grid.tmin - s.deltat + d1)) (s.grid.tmax - s.deltat + d1))
      (s.grid.tmin - s.deltat + d1 - d1 + d2)) (s.grid.tmax - s.deltat + d1 - d1 + d2) := ⟨_, rfl⟩
    have ok : g'.Ok Real.pi := by
      rw [hg', t0, t1]
      refine ⟨hg.r0, hg.r1, hg.nr, hg.rr, hg.dr, hg.nphi, hg.phi, hg.dphi, hg.turn, hg.nt, u0, u1, ?_, ?_⟩
      · show s.grid.tmin + d2 < s.grid.tmax + d2
        linarith [hg.tt]
      · simp only [setTmax, setTmin]
        exact if_pos (by omega)
    have g0 : g'.tmin = s.grid.tmin + d2 := by rw [hg']; exact t0
    have g1 : g'.tmax = s.grid.tmax + d2 := by rw [hg']; exact t1
    have gn : g'.nt = s.grid.nt := by rw [hg']; rfl
    have hT' : g'.Holds T array := by rw [hg']; exact hT
    obtain ⟨i1, lo, up, plo, pup, p, a1, a2, a3, a4, a5, a6, a7, a8, a9, a10, a11, a12⟩ := Grid.rows_ok ok (phi := phi) (by rw [hg']; exact p0)
      (by rw [hg']; exact p1) (by rw [hg']; exact pne)
    obtain ⟨k, q, b1, b2, b3, b4, b5, b6⟩ := Grid.radius_ok ok (r := r) (by rw [hg']; exact r0) (by rw [hg']; exact r1)
    have hnext : D[1]? = some (date 1) := hd.val 1 (by omega)
    have hlt := hd.incr 0 (by omega)
    rw [hd.first] at hlt
    obtain ⟨D', hD'⟩ : ∃ D', D' = (D.map (· + d1)).map (· + d2) := ⟨_, rfl⟩
    have x0 : D'[0]? = some (s.grid.tmin + d1 + d2) := by simp [hD', hfirst, add_assoc]
    have x1 : D'[0 + 1]? = some (date 1 + d1 + d2) := by simp [hD', hnext, add_assoc]
    have hit : g'.indexT t (some D') = .ok 0 := by
      unfold Grid.indexT
      rw [if_pos (by omega), if_pos ⟨ok.t0, ok.t1⟩, if_neg (by rw [g0]; linarith), if_neg (by rw [g1]; linarith)]
      simp only
      rw [search_eq, x0]
      simp only
      rw [if_neg (by linarith)]
    have hdt : g'.dates (some D') 0 = .ok (s.grid.tmin + d1 + d2, date 1 + d1 + d2) := by
      simp only [Grid.dates, Interp.get, x0, x1, bind, Except.bind]
    have hpos : 0 < date 1 + d1 + d2 - (s.grid.tmin + d1 + d2) := by linarith
    have hs' : ratio t (s.grid.tmin + d1 + d2) (date 1 + d1 + d2) = .ok ((t - (s.grid.tmin + d1 + d2)) / (date 1 + d1 + d2 - (s.grid.tmin + d1 + d2))) := by
      unfold ratio
      rw [if_neg hpos.ne']
    have hneg : (t - (s.grid.tmin + d1 + d2)) / (date 1 + d1 + d2 - (s.grid.tmin + d1 + d2)) < 0 := div_neg_of_neg_of_pos (by linarith) hpos
    have hn : ¬ g'.nphi = 1 := by have := ok.nphi.1; omega
    have hb : ¬ (g'.nt = 1 ∨ t ≤ g'.tmin ∨ t ≥ g'.tmax) := by
      push Not
      exact ⟨by omega, by rw [g0]; exact h0, by rw [g1]; exact h2⟩
    have hk : k < g'.nr := by omega
    have hi : 0 < g'.nt := by omega
    have hi1 : 0 + 1 < g'.nt := by omega
    have main : g'.interpolate Real.pi t phi r array (some D') = .error .thrown := by
      simp only [Grid.interpolate, b1, a1, hit, bind, Except.bind, hn, if_false, a2, hb,
        Grid.at_ok hT' hi a3 hk, Grid.at_ok hT' hi a3 b2, Grid.at_ok hT' hi a4 hk, Grid.at_ok hT' hi a4 b2,
        Grid.at_ok hT' hi1 a3 hk, Grid.at_ok hT' hi1 a3 b2, Grid.at_ok hT' hi1 a4 hk, Grid.at_ok hT' hi1 a4 b2]
      simp only [hdt, hs', a8, b3, if_pos (Or.inl hneg : _ < (0 : ℝ) ∨ p < 0 ∨ q < 0)]
    rw [hg', hD'] at main
    exact main

/-! ## Examples -/

/-- A file with two dates, two azimuths and two radii. -/
noncomputable def smallFile : File :=
  { tmin := some 0, tmax := some 10, rmin := some 6, rmax := some 8, phimin := some 0, phimax := some 3
    density := ⟨2, 2, 2, List.replicate 8 1⟩, velocity := ⟨2, 2, 2, List.replicate 16 0⟩, field := some ⟨2, 2, 2, List.replicate 32 1⟩
    times := [0, 10] }

theorem smallFile_good : smallFile.Good 0 10 6 8 0 3 2 2 2 := by
  have := Real.pi_gt_three
  refine ⟨rfl, rfl, rfl, rfl, rfl, rfl, ⟨le_rfl, by norm_num, by linarith⟩, by norm_num, ⟨rfl, rfl, rfl, rfl⟩, ⟨rfl, rfl, rfl, rfl⟩, ?_, rfl⟩
  intro B hB
  cases hB
  exact ⟨rfl, rfl, rfl, rfl⟩

/-- The disk that is read. -/
noncomputable def smallDisk : Disk := { Disk.new with
  grid := regular 0 10 6 8 0 3 2 2 2, density := some (List.replicate 8 1), velocity := some (List.replicate 16 0), times := some [0, 10]
  field := some (List.replicate 32 1), flag := true }

theorem smallDisk_read : Disk.new.file smallFile = .ok smallDisk := by
  have := file_loads smallFile_good .new
  rw [this]
  simp [smallDisk, smallFile, Disk.new]

theorem big {x : ℝ} (h : x < 2 ^ 10) : x < dblMax := by
  have h1 : (2 : ℝ) ^ 10 ≤ 2 ^ 1023 := pow_le_pow_right₀ (by norm_num) (by norm_num)
  have h2 : (0 : ℝ) < 2 ^ 1023 := by positivity
  unfold dblMax
  generalize (2 : ℝ) ^ 1023 = M at *
  have h3 : (1 : ℝ) ≤ 2 - 1 / 2 ^ 52 := by norm_num
  nlinarith

theorem smallDisk_ok : smallDisk.grid.Ok Real.pi ∧ smallDisk.grid.Dates [0, 10] (fun i => 10 * i) := by
  have hp := Real.pi_gt_three
  have hM : (10 : ℝ) < dblMax := big (by norm_num)
  refine ⟨⟨?_, ?_, ?_, ?_, rfl, ?_, ?_, rfl, ?_, ?_, ?_, ?_, ?_, rfl⟩, ⟨rfl, ?_, ?_, ?_, ?_⟩⟩
  · show (0 : ℝ) < 6; norm_num
  · show (8 : ℝ) < dblMax; linarith
  · show 2 ≤ 2 ∧ 2 < 2 ^ 31; norm_num
  · show (6 : ℝ) < 8; norm_num
  · show 2 ≤ 2 ∧ 2 < 2 ^ 31; norm_num
  · show (0 : ℝ) < 3; norm_num
  · show (3 : ℝ) < 0 + 2 * Real.pi; linarith
  · show 2 ≤ 2 ∧ 2 < 2 ^ 31; norm_num
  · show -dblMax < (0 : ℝ); linarith
  · show (10 : ℝ) < dblMax; exact hM
  · show (0 : ℝ) < 10; norm_num
  · intro i hi
    have : i = 0 ∨ i = 1 := by change i < 2 at hi; omega
    rcases this with rfl | rfl <;> simp
  · show (10 : ℝ) * ((0 : ℕ) : ℝ) = 0; simp
  · show (10 : ℝ) * ((2 - 1 : ℕ) : ℝ) = 10; norm_num
  · intro i hi
    simp

/-- The histories are not empty: a file is read, and the density at the maximum is set. -/
example : ∃ s, Reach s ∧ Tidy s ∧ s.nMax = 1000 ∧ s.density = some (List.replicate 8 1) := by
  have r1 : Reach smallDisk := .ok (c := .file smallFile) .new smallDisk_read
  have r2 : Tidy smallDisk := .ok (c := .file smallFile) .new smallDisk_read
  have e : smallDisk.call (.numberDensityMax (1000 / 1e-6)) = .ok _ := rfl
  exact ⟨_, r1.ok e, r2.ok e, by norm_num, rfl⟩

/-- Moved by 5 twice, the disk has no value at the date 7. -/
example : ∃ u v, smallDisk.timeTranslation 5 = .ok u ∧ u.timeTranslation 5 = .ok v ∧ v.value v.density 0 7 1 7 = .error .thrown := by
  have hp := Real.pi_gt_three
  have hM : (100 : ℝ) < dblMax := big (by norm_num)
  obtain ⟨u, v, e1, e2, -, -, -, -, h⟩ := translation_wrong (s := smallDisk) rfl rfl smallDisk_ok.1 smallDisk_ok.2 5 5
  have hv : v.density = some (List.replicate 8 1) := by
    have a1 := translate_eq (s := smallDisk) (D := [0, 10]) rfl rfl (by show 2 ≠ 0; norm_num) 5
    rw [e1] at a1
    cases a1
    have a2 := translate_eq (s := { smallDisk with
      grid := setTmax (setTmin smallDisk.grid (smallDisk.grid.tmin - smallDisk.deltat + 5)) (smallDisk.grid.tmax - smallDisk.deltat + 5), deltat := 5,
      times := some ([0, 10].map (· + 5)) }) (D := [0, 10].map (· + 5)) rfl rfl (by show 2 ≠ 0; norm_num) 5
    rw [e2] at a2
    cases a2
    rfl
  refine ⟨u, v, e1, e2, ?_⟩
  rw [hv]
  refine h ?_ ?_ (fun _ _ _ => 1) _ ?_ 7 1 7 ?_ ?_ ?_ ?_ ?_ ?_ ?_ ?_
  · show -dblMax < (0 : ℝ) + 5; linarith
  · show (10 : ℝ) + 5 < dblMax; linarith
  · intro it h0 ip h1 ir h2
    change it < 2 at h0
    change ip < 2 at h1
    change ir < 2 at h2
    show (List.replicate 8 (1 : ℝ))[(it * 2 + ip) * 2 + ir]? = some 1
    rw [List.getElem?_replicate, if_pos (by omega)]
  · show (0 : ℝ) + 5 < 7; norm_num
  · show (7 : ℝ) < 0 + 5 + 5; norm_num
  · show (7 : ℝ) < 10 + 5; norm_num
  · show (6 : ℝ) ≤ 7; norm_num
  · show (7 : ℝ) < 8; norm_num
  · show (3 : ℝ) - 2 * Real.pi ≤ 1; linarith
  · show (1 : ℝ) ≤ 0 + 2 * Real.pi; linarith
  · show (1 : ℝ) ≠ 3; norm_num

end Gyoto.Flared
