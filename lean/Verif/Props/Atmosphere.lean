import Verif.Model.Atmosphere
import Verif.Lemmas.DirectionalDisk
import Verif.Props.DirectionalAngle

/-!
# C140: the tables of a neutron star with an atmosphere
-/

namespace Gyoto.Atmosphere

open Gyoto.GridRead Gyoto.GridInterp
open Gyoto.DirectionalDisk (Increasing Decreasing)

/-- The sizes of the arrays are those of the grid. -/
structure Inv (d : Star) : Prop where
  emission : ∀ l, d.emission = some l → l.length = d.nnu * d.ni * d.nsg ∧ 0 < d.nnu ∧ 0 < d.ni ∧ 0 < d.nsg
  surfgrav : ∀ l, d.surfgrav = some l → l.length = d.nsg
  cosi : ∀ l, d.cosi = some l → l.length = d.ni
  freq : ∀ l, d.freq = some l → l.length = d.nnu

/-- A file whose image has the size that it announces. -/
def Sound (f : File) : Prop := ∀ a b c l, f.emission = some (a, b, c, l) → l.length = a * b * c ∧ 0 < a ∧ 0 < b ∧ 0 < c

/-- A file in which all the arrays are there and fit. -/
structure Complete (f : File) (a b c : ℕ) (e fr co sg : List ℝ) : Prop where
  emission : f.emission = some (a, b, c, e)
  freq : f.freq = some fr
  cosi : f.cosi = some co
  surfgrav : f.surfgrav = some sg
  size : e.length = a * b * c ∧ 0 < a ∧ 0 < b ∧ 0 < c
  nfreq : fr.length = a
  ncosi : co.length = b
  ngrav : sg.length = c

/-- The arrays given by the caller have at least the announced size; a file is complete. -/
def Fits : Op → Prop
  | .copyIntensity (some p) a b c => a * b * c ≤ p.length
  | .copyGridSurfgrav (some p) n => n ≤ p.length
  | .copyGridCosi (some p) n => n ≤ p.length
  | .copyGridFreq (some p) n => n ≤ p.length
  | .file _ f => ∃ a b c e fr co sg, Complete f a b c e fr co sg
  | _ => True

/-- The states reached by any sequence of calls. -/
inductive Reachable : Star → Prop
  | init : Reachable Star.new
  | step {d} (op : Op) : Reachable d → Fits op → Reachable (d.step op).1

/-- The states reached by any sequence of calls, with any sound file, complete or not. -/
inductive ReachableAny : Star → Prop
  | init : ReachableAny Star.new
  | step {d} (op : Op) : ReachableAny d → (Fits op ∨ ∃ n f, op = .file n f ∧ Sound f) → ReachableAny (d.step op).1

theorem resize_inv {d : Star} (h : Inv d) (a b c : ℕ) :
    (∀ l, (d.resize a b c).surfgrav = some l → l.length = c) ∧ (∀ l, (d.resize a b c).cosi = some l → l.length = b) ∧
    (∀ l, (d.resize a b c).freq = some l → l.length = a) ∧ (d.resize a b c).emission = d.emission ∧
    (d.resize a b c).nnu = a ∧ (d.resize a b c).ni = b ∧ (d.resize a b c).nsg = c := by
  obtain ⟨-, h2, h3, h4⟩ := h
  unfold Star.resize
  simp only
  by_cases c1 : d.nnu = a <;> by_cases c2 : d.ni = b <;> by_cases c3 : d.nsg = c <;> simp [c1, c2, c3] <;> grind

/-- C140. A complete file gives its arrays, whatever was there before. -/
theorem read_complete {d : Star} {f : File} {a b c : ℕ} {e fr co sg : List ℝ} (h : Complete f a b c e fr co sg) (name : String) :
    d.fitsRead name f = (⟨name, some e, some sg, some co, some fr, a, b, c, d.average⟩, none) := by
  obtain ⟨h1, h2, h3, h4, -, h6, h7, h8⟩ := h
  simp [Star.fitsRead, h1, h2, h3, h4, h6, h7, h8]

/-- C140. One call keeps the sizes in step, and reads no array of the caller beyond its end. -/
theorem step_ok {d : Star} {op : Op} (h : Inv d) (hf : Fits op) : Inv (d.step op).1 ∧ (d.step op).2 ≠ some .ub := by
  have h' := h
  obtain ⟨h1, h2, h3, h4⟩ := h'
  cases op with
  | copyIntensity p a b c =>
    cases p with
    | none => exact ⟨⟨by simp [Star.step, Star.copyIntensity], h2, h3, h4⟩, by simp [Star.step, Star.copyIntensity]⟩
    | some p =>
      have h0 : Inv { d with emission := none } := ⟨by simp, h2, h3, h4⟩
      obtain ⟨r1, r2, r3, r4, r5, r6, r7⟩ := resize_inv h0 a b c
      simp only [Star.step, Star.copyIntensity]
      by_cases hn : a * b * c = 0
      · rw [if_pos hn]
        refine ⟨⟨?_, ?_, ?_, ?_⟩, by simp⟩
        · rw [r4]; simp
        · rw [r7]; exact r1
        · rw [r6]; exact r2
        · rw [r5]; exact r3
      · rw [if_neg hn, memcpy_ok (by exact hf)]
        refine ⟨⟨?_, ?_, ?_, ?_⟩, by simp⟩
        · intro l hl
          simp only [Option.some.injEq] at hl
          rw [← hl, take_len (by exact hf)]
          simp only [r5, r6, r7]
          refine ⟨trivial, Nat.pos_of_ne_zero ?_, Nat.pos_of_ne_zero ?_, Nat.pos_of_ne_zero ?_⟩ <;> rintro rfl <;> simp at hn
        · simp only [r7]; exact r1
        · simp only [r6]; exact r2
        · simp only [r5]; exact r3
  | copyGridSurfgrav p n =>
    cases p with
    | none => exact ⟨⟨h1, by simp [Star.step, Star.copyGridSurfgrav], h3, h4⟩, by simp [Star.step, Star.copyGridSurfgrav]⟩
    | some p =>
      simp only [Star.step, Star.copyGridSurfgrav]
      by_cases c1 : d.emission = none
      · rw [if_pos c1]; exact ⟨⟨h1, by simp, h3, h4⟩, by simp⟩
      rw [if_neg c1]
      by_cases c2 : d.nsg = n
      · have hf' : d.nsg ≤ p.length := by rw [c2]; exact hf
        rw [if_neg (by simpa using c2), memcpy_ok hf']
        refine ⟨⟨h1, fun l hl => ?_, h3, h4⟩, by simp⟩
        simp only [Option.some.injEq] at hl
        rw [← hl, take_len hf']
      · rw [if_pos (by simpa using c2)]; exact ⟨⟨h1, by simp, h3, h4⟩, by simp⟩
  | copyGridCosi p n =>
    cases p with
    | none => exact ⟨⟨h1, h2, by simp [Star.step, Star.copyGridCosi], h4⟩, by simp [Star.step, Star.copyGridCosi]⟩
    | some p =>
      simp only [Star.step, Star.copyGridCosi]
      by_cases c1 : d.emission = none
      · rw [if_pos c1]; exact ⟨⟨h1, h2, by simp, h4⟩, by simp⟩
      rw [if_neg c1]
      by_cases c2 : d.ni = n
      · have hf' : d.ni ≤ p.length := by rw [c2]; exact hf
        rw [if_neg (by simpa using c2), memcpy_ok hf']
        refine ⟨⟨h1, h2, fun l hl => ?_, h4⟩, by simp⟩
        simp only [Option.some.injEq] at hl
        rw [← hl, take_len hf']
      · rw [if_pos (by simpa using c2)]; exact ⟨⟨h1, h2, by simp, h4⟩, by simp⟩
  | copyGridFreq p n =>
    cases p with
    | none => exact ⟨⟨h1, h2, h3, by simp [Star.step, Star.copyGridFreq]⟩, by simp [Star.step, Star.copyGridFreq]⟩
    | some p =>
      simp only [Star.step, Star.copyGridFreq]
      by_cases c1 : d.emission = none
      · rw [if_pos c1]; exact ⟨⟨h1, h2, h3, by simp⟩, by simp⟩
      rw [if_neg c1]
      by_cases c2 : d.nnu = n
      · have hf' : d.nnu ≤ p.length := by rw [c2]; exact hf
        rw [if_neg (by simpa using c2), memcpy_ok hf']
        refine ⟨⟨h1, h2, h3, fun l hl => ?_⟩, by simp⟩
        simp only [Option.some.injEq] at hl
        rw [← hl, take_len hf']
      · rw [if_pos (by simpa using c2)]; exact ⟨⟨h1, h2, h3, by simp⟩, by simp⟩
  | averageOverAngle b => exact ⟨⟨h1, h2, h3, h4⟩, by simp [Star.step]⟩
  | file n f =>
    obtain ⟨a, b, c, e, fr, co, sg, hc⟩ := hf
    have := read_complete (d := d) hc n
    simp only [Star.step, this]
    refine ⟨⟨?_, ?_, ?_, ?_⟩, by simp⟩
    · rintro l ⟨rfl⟩; exact hc.size
    · rintro l ⟨rfl⟩; exact hc.ngrav
    · rintro l ⟨rfl⟩; exact hc.ncosi
    · rintro l ⟨rfl⟩; exact hc.nfreq

/-- C140. Whatever the calls, the arrays have the size of the grid. -/
theorem reachable_partial {d : Star} (h : Reachable d) : Inv d := by
  induction h with
  | init => exact ⟨by simp [Star.new], by simp [Star.new], by simp [Star.new], by simp [Star.new]⟩
  | step op _ hf ih => exact (step_ok ih hf).1

/-- C140. The copy of a star has the same arrays; it forgets the name of the file. -/
theorem clone_partial {d : Star} (h : Inv d) : d.clone = .ok { d with file := "" } := by
  unfold Star.clone
  rw [copyArray_ok (fun l hl => (h.emission l hl).1), copyArray_ok h.freq, copyArray_ok h.cosi, copyArray_ok h.surfgrav]
  rfl

/-- C140. What is written in a file and read back is the same, whatever was there before. -/
theorem write_read {d t : Star} (h : Inv d) {f : File} (hw : d.fitsWrite = some f) (name : String) :
    t.fitsRead name f = ({ d with file := name, average := t.average }, none) := by
  obtain ⟨file, e, sg, co, fr, a, b, c, av⟩ := d
  obtain ⟨h1, h2, h3, h4⟩ := h
  simp only at h1 h2 h3 h4
  rcases e with - | e
  · simp [Star.fitsWrite] at hw
  rcases fr with - | fr
  · simp [Star.fitsWrite] at hw
  rcases co with - | co
  · simp [Star.fitsWrite] at hw
  rcases sg with - | sg
  · simp [Star.fitsWrite] at hw
  simp [Star.fitsWrite] at hw
  subst hw
  exact read_complete ⟨rfl, rfl, rfl, rfl, h1 e rfl, h4 fr rfl, h3 co rfl, h2 sg rfl⟩ name

/-- A small table, then a file with a larger image and nothing else. -/
def small : File := ⟨some (2, 2, 1, [1, 2, 3, 4]), some [2, 1], some [0, 1], some [1]⟩

def bare : File := ⟨some (3, 2, 1, [1, 2, 3, 4, 5, 6]), none, none, none⟩

theorem small_complete : Complete small 2 2 1 [1, 2, 3, 4] [2, 1] [0, 1] [1] :=
  ⟨rfl, rfl, rfl, rfl, by simp, rfl, rfl, rfl⟩

/-- C140 (negation). A file that is refused leaves arrays of other sizes than those of the grid: what follows reads beyond their end, be it a copy, as each
thread makes one, or the emission. -/
theorem refused_wrong : ∃ d : Star, ReachableAny d ∧ ¬ Inv d ∧ d.clone = .error .ub ∧ ∀ sg cosi nu : ℝ, intensity d sg cosi nu = .error .ub := by
  refine ⟨_, .step (.file "b" bare) (.step (.file "a" small) .init (.inl ⟨_, _, _, _, _, _, _, small_complete⟩)) (.inr ⟨_, _, rfl, ?_⟩), ?_, ?_, ?_⟩
  · intro a b c l h
    simp only [bare, Option.some.injEq, Prod.mk.injEq] at h
    obtain ⟨rfl, rfl, rfl, rfl⟩ := h
    simp
  · intro h
    have := h.freq [2, 1] (by simp [Star.step, Star.fitsRead, bare, small, Star.new])
    simp [Star.step, Star.fitsRead, bare] at this
  · simp [Star.step, Star.fitsRead, bare, small, Star.new, Star.clone, copyArray, memcpy]
    rfl
  · intro sg cosi nu
    obtain ⟨d, hd⟩ : ∃ d, d = ((Star.new.step (.file "a" small)).1.step (.file "b" bare)).1 := ⟨_, rfl⟩
    have e1 : d.surfgrav = some [1] := by rw [hd]; simp [Star.step, Star.fitsRead, bare, small, Star.new]
    have e2 : d.cosi = some [0, 1] := by rw [hd]; simp [Star.step, Star.fitsRead, bare, small, Star.new]
    have e3 : d.freq = some [2, 1] := by rw [hd]; simp [Star.step, Star.fitsRead, bare, small, Star.new]
    have e4 : d.nsg = 1 := by rw [hd]; simp [Star.step, Star.fitsRead, bare]
    have e5 : d.ni = 2 := by rw [hd]; simp [Star.step, Star.fitsRead, bare]
    have e6 : d.nnu = 3 := by rw [hd]; simp [Star.step, Star.fitsRead, bare]
    rw [← hd]
    obtain ⟨i1, h1, -⟩ := DirectionalDisk.upIndex_lt (l := [0, 1]) (n := 2) cosi rfl (by norm_num)
    have h0 : DirectionalDisk.freqIndex (some [2, 1]) 3 nu = .error .ub := by
      unfold DirectionalDisk.freqIndex
      rw [if_neg (by simp), read_big (by simp)]
      rfl
    have hg : getIndices d sg cosi nu = .error .ub := by
      unfold getIndices gravIndex
      rw [e1, e2, e3, e4, e5, e6, if_neg (by simp), if_pos rfl, h1, h0]
      rfl
    unfold intensity
    rw [hg]
    rfl

/-- C140 (negation). The copy of a star that was read from a file does not name it: written again, the file is missing. -/
theorem name_wrong : ∃ d t : Star, Reachable d ∧ d.clone = .ok t ∧ d.written = "atm.fits" ∧ t.written = "" := by
  refine ⟨_, _, .step (.file "atm.fits" small) .init ⟨_, _, _, _, _, _, _, small_complete⟩,
    clone_partial (step_ok (op := .file "atm.fits" small) (reachable_partial .init) ⟨_, _, _, _, _, _, _, small_complete⟩).1, ?_, ?_⟩
  · rw [Star.step, read_complete small_complete]
    simp [Star.written]
  · simp [Star.written]

end Gyoto.Atmosphere
