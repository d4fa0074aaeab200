import Verif.Model.Mask
import Mathlib.Tactic.Ring
import Mathlib.Tactic.Linarith

/-! # C42: masks -/

namespace Gyoto.Mask

/-- Histories without undefined behaviour (the caller's arrays are long enough); a call that throws leaves its state. -/
inductive Reach : Screen → List Op → Screen → Prop where
  | refl (s) : Reach s [] s
  | ok {s t u ops} (op : Op) (a) : Reach s ops t → op.run t = .ok u a → Reach s (ops ++ [op]) u
  | throws {s t u ops} (op : Op) : Reach s ops t → op.run t = .throws u → Reach s (ops ++ [op]) u

/-- The mask has the size of the image. -/
def Fits (s : Screen) : Prop := ∀ l, s.mask = some l → l.length = s.npix * s.npix

/-- `setMask` in one step. -/
theorem setMask_eq (s : Screen) (mm : Option (List Rat)) (res n : Nat) (hn : n = if res = 0 then s.npix else res) :
    setMask s mm res = match mm with
      | none => .ok ⟨n, none, if s.mask.isSome then "" else s.filename⟩ ()
      | some l => if l.length < n * n then .ub
        else .ok ⟨n, some (l.take (n * n)), if s.mask.isSome then "" else s.filename⟩ () := by
  subst hn
  rcases s with ⟨p, m, f⟩
  by_cases h0 : res = 0 <;> cases m <;> cases mm <;> simp [setMask, h0]

theorem run_fits {s u : Screen} (op : Op) (h : Fits s) (hr : (∃ a, op.run s = .ok u a) ∨ op.run s = .throws u) : Fits u := by
  cases op with
  | mask mm res =>
    simp only [Op.run, setMask_eq s mm res _ rfl] at hr
    generalize (if res = 0 then s.npix else res) = n at hr
    cases mm with
    | none =>
      simp only [Out.ok.injEq, reduceCtorEq, or_false] at hr
      obtain ⟨-, hr, -⟩ := hr
      rw [← hr]
      intro l hl
      simp at hl
    | some l =>
      by_cases hlen : l.length < n * n
      · simp [hlen] at hr
      · simp only [hlen, if_false, Out.ok.injEq, reduceCtorEq, or_false] at hr
        obtain ⟨-, hr, -⟩ := hr
        rw [← hr]
        intro l' hl'
        simp only [Option.some.injEq] at hl'
        rw [← hl', List.length_take]
        push Not at hlen
        exact min_eq_left hlen
  | resolution n =>
    rcases hr with ⟨a, hr⟩ | hr
    · simp only [Op.run, setResolution, Out.ok.injEq] at hr
      rw [← hr.1]
      intro l hl
      by_cases hm : s.mask.isSome ∧ n ≠ s.npix
      · simp [hm] at hl
      · simp only [hm, if_false] at hl ⊢
        have := h l hl
        simp only [hl, Option.isSome_some, true_and, not_not] at hm
        rw [hm]; exact this
    · simp [Op.run, setResolution] at hr
  | maskFile name f =>
    rcases hr with ⟨a, hr⟩ | hr
    · simp only [Op.run, setMaskFile] at hr
      split at hr
      · cases f with
        | missing => simp only [fitsReadMask, Out.ok.injEq] at hr; rw [← hr.1]; exact h
        | notSquare => simp [fitsReadMask] at hr
        | unreadable n => simp [fitsReadMask] at hr
        | good n l =>
          simp only [fitsReadMask] at hr
          split at hr
          · exact absurd hr (by simp)
          · rename_i hlen
            simp only [Out.ok.injEq] at hr
            rw [← hr.1]
            intro l' hl'
            simp only [Option.some.injEq] at hl'
            rw [← hl', List.length_take]
            push Not at hlen
            exact min_eq_left hlen
      · simp only [Out.ok.injEq] at hr; rw [← hr.1]; exact h
    · simp only [Op.run, setMaskFile] at hr
      split at hr
      · cases f with
        | missing => simp [fitsReadMask] at hr
        | notSquare => simp only [fitsReadMask, Out.throws.injEq] at hr; rw [← hr]; exact h
        | unreadable n =>
          simp only [fitsReadMask, Out.throws.injEq] at hr
          rw [← hr]
          intro l hl
          simp at hl
        | good n l => simp only [fitsReadMask] at hr; split at hr <;> exact absurd hr (by simp)
      · exact absurd hr (by simp)

/-- C42: after any history the mask has the size of the image. -/
theorem mask_fits {s t : Screen} {ops : List Op} (h : Fits s) (hr : Reach s ops t) : Fits t := by
  induction hr with
  | refl => exact h
  | ok op a _ hop ih => exact run_fits op ih (.inl ⟨a, hop⟩)
  | throws op _ hop ih => exact run_fits op ih (.inr hop)

theorem index_lt {n i j : Nat} (hi : 1 ≤ i) (hi' : i ≤ n) (hj : 1 ≤ j) (hj' : j ≤ n) :
    i - 1 + n * (j - 1) < n * n := by
  obtain ⟨j, rfl⟩ := Nat.exists_eq_add_of_le' hj
  have : n * (j + 1) ≤ n * n := Nat.mul_le_mul_left n hj'
  rw [Nat.mul_add] at this
  simp only [Nat.add_sub_cancel]
  omega

/-- C42: after any history from a new camera, a pixel of the image is computed unless the mask is zero there; a pixel outside
is refused; the array is never read out of bounds. Row `j` of the mask is its `j`-th block of `npix` values. -/
theorem mask_query {s : Screen} {ops : List Op} (hr : Reach init ops s) (i j : Nat) :
    (¬(1 ≤ i ∧ i ≤ s.npix ∧ 1 ≤ j ∧ j ≤ s.npix) → query s i j = .throws s) ∧
    (1 ≤ i ∧ i ≤ s.npix ∧ 1 ≤ j ∧ j ≤ s.npix →
      (s.mask = none → query s i j = .ok s true) ∧
      ∀ l, s.mask = some l →
        ∃ v, ((l.drop (s.npix * (j - 1))).take s.npix)[i - 1]? = some v ∧ query s i j = .ok s (decide (v ≠ 0))) := by
  have hf : Fits s := mask_fits (by intro l hl; simp [init] at hl) hr
  constructor
  · intro h
    have : i ≤ 0 ∨ i > s.npix ∨ j > s.npix ∨ j ≤ 0 := by omega
    simp only [query, this, if_true]
  · intro h
    have : ¬(i ≤ 0 ∨ i > s.npix ∨ j > s.npix ∨ j ≤ 0) := by omega
    simp only [query, this, if_false]
    refine ⟨fun h0 => by rw [h0], fun l hl => ?_⟩
    have hlt := index_lt h.1 h.2.1 h.2.2.1 h.2.2.2
    rw [← hf l hl] at hlt
    refine ⟨l[i - 1 + s.npix * (j - 1)], ?_, ?_⟩
    · rw [List.getElem?_take_of_lt (by omega), List.getElem?_drop, Nat.add_comm, List.getElem?_eq_getElem hlt]
    · simp only [hl, List.getElem?_eq_getElem hlt]
      congr 1
      by_cases hv : l[i - 1 + s.npix * (j - 1)] = 0 <;> simp [hv]

/-- C42: changing the resolution drops the mask; setting the same one keeps it. -/
theorem resolution_mask (s : Screen) (n : Nat) :
    ∃ u, setResolution s n = .ok u () ∧ u.npix = n ∧ u.mask = if n = s.npix then s.mask else none := by
  simp only [setResolution]
  refine ⟨_, rfl, rfl, ?_⟩
  by_cases h : n = s.npix <;> cases hm : s.mask <;> simp [h, hm]

/-- C42: loading a mask sets the image size; giving one without a size keeps it. -/
theorem mask_set (s : Screen) (l : List Rat) (res : Nat)
    (hl : (if res = 0 then s.npix else res) * (if res = 0 then s.npix else res) ≤ l.length) :
    ∃ u, setMask s (some l) res = .ok u () ∧ u.npix = (if res = 0 then s.npix else res) ∧
      u.mask = some (l.take (u.npix * u.npix)) := by
  by_cases h0 : res = 0 <;> by_cases hm : s.mask.isSome <;> simp [h0] at hl <;>
    simp [setMask, h0, hm, Nat.not_lt.2 hl]

/-- C42: every mask in use was given by some call of the history. -/
theorem mask_origin {s : Screen} {ops : List Op} (hr : Reach init ops s) {l : List Rat} (hl : s.mask = some l) :
    ∃ op ∈ ops, (∃ mm res, op = .mask (some mm) res ∧ l = mm.take (s.npix * s.npix)) ∨
      (∃ name mm n, op = .maskFile name (.good n mm) ∧ name ≠ "" ∧ n = s.npix ∧ l = mm.take (s.npix * s.npix)) := by
  suffices ∀ {s0 : Screen}, Reach s0 ops s → s0.mask = none →
      ∃ op ∈ ops, (∃ mm res, op = .mask (some mm) res ∧ l = mm.take (s.npix * s.npix)) ∨
      (∃ name mm n, op = .maskFile name (.good n mm) ∧ name ≠ "" ∧ n = s.npix ∧ l = mm.take (s.npix * s.npix)) from
    this hr rfl
  clear hr
  intro s0 hr h0
  induction hr with
  | refl => rw [h0] at hl; cases hl
  | @ok t u ops op a _ hop ih =>
    cases op with
    | mask mm res =>
      cases mm with
      | none =>
        exfalso
        simp only [Op.run, setMask_eq t none res _ rfl, Out.ok.injEq] at hop
        rw [← hop.1] at hl
        simp at hl
      | some m =>
        refine ⟨_, by simp, .inl ⟨m, res, rfl, ?_⟩⟩
        simp only [Op.run, setMask_eq t (some m) res _ rfl] at hop
        generalize (if res = 0 then t.npix else res) = n at hop
        split at hop
        · exact absurd hop (by simp)
        · simp only [Out.ok.injEq] at hop
          rw [← hop.1] at hl ⊢
          simp only [Option.some.injEq] at hl
          exact hl.symm
    | resolution n =>
      obtain ⟨u', hu, hn, hm⟩ := resolution_mask t n
      simp only [Op.run] at hop
      rw [hu] at hop
      simp only [Out.ok.injEq, and_true] at hop
      subst hop
      rw [hm] at hl
      by_cases hh : n = t.npix
      · simp only [hh, if_true] at hl
        obtain ⟨op, hm, ho⟩ := ih hl
        rw [hn, hh]
        exact ⟨op, by simp [hm], ho⟩
      · simp [hh] at hl
    | maskFile name f =>
      simp only [Op.run, setMaskFile] at hop
      split at hop
      · rename_i hname
        cases f with
        | missing =>
          simp only [fitsReadMask, Out.ok.injEq] at hop
          rw [← hop.1] at hl ⊢
          obtain ⟨op, hm, ho⟩ := ih hl
          exact ⟨op, by simp [hm], ho⟩
        | notSquare => simp [fitsReadMask] at hop
        | unreadable n => simp [fitsReadMask] at hop
        | good n m =>
          change (if m.length < n * n then Out.ub else _) = _ at hop
          split at hop
          · exact absurd hop (by simp)
          · simp only [Out.ok.injEq] at hop
            rw [← hop.1] at hl ⊢
            simp only [Option.some.injEq] at hl
            exact ⟨_, by simp, .inr ⟨name, m, n, rfl, hname, rfl, hl.symm⟩⟩
      · simp only [Out.ok.injEq] at hop
        rw [← hop.1] at hl ⊢
        obtain ⟨op, hm, ho⟩ := ih hl
        exact ⟨op, by simp [hm], ho⟩
  | @throws t u ops op _ hop ih =>
    cases op with
    | mask mm res =>
      simp only [Op.run, setMask_eq t mm res _ rfl] at hop
      generalize (if res = 0 then t.npix else res) = n at hop
      cases mm with
      | none => simp at hop
      | some l => simp only at hop; split at hop <;> exact absurd hop (by simp)
    | resolution n => simp [Op.run, setResolution] at hop
    | maskFile name f =>
      simp only [Op.run, setMaskFile] at hop
      split at hop
      · cases f with
        | missing => simp [fitsReadMask] at hop
        | notSquare =>
          simp only [fitsReadMask, Out.throws.injEq] at hop
          rw [← hop] at hl ⊢
          obtain ⟨op, hm, ho⟩ := ih hl
          exact ⟨op, by simp [hm], ho⟩
        | unreadable n =>
          simp only [fitsReadMask, Out.throws.injEq] at hop
          rw [← hop] at hl
          simp at hl
        | good n m =>
          change (if m.length < n * n then Out.ub else _) = _ at hop
          split at hop <;> exact absurd hop (by simp)
      · exact absurd hop (by simp)

/-- C42: a copy of a camera has the same mask (worker threads use copies). -/
theorem mask_copy {s : Screen} {ops : List Op} (hr : Reach init ops s) : copy s = .ok s s := by
  have hf : Fits s := mask_fits (by intro l hl; simp [init] at hl) hr
  rcases s with ⟨n, m, f⟩
  cases m with
  | none => rfl
  | some l =>
    have := hf l rfl
    simp only at this
    simp only [copy, this, lt_irrefl, if_false]
    rw [List.take_of_length_le this.le]

/-- Finding: dropping the mask with the resolution does not forget the file name: the saved camera names a mask it no longer
has (and reading it back restores the old resolution), and a mask given afterwards is saved under the wrong file. -/
theorem mask_name_wrong : ∃ ops s, Reach init ops s ∧ s.mask = none ∧ savedMask s = some "a.fits" := by
  refine ⟨[.maskFile "a.fits" (.good 1 [5]), .resolution 2], ⟨2, none, "a.fits"⟩, ?_, rfl, by decide +kernel⟩
  refine .ok (ops := [.maskFile "a.fits" (.good 1 [5])]) (t := ⟨1, some [5], "a.fits"⟩) _ () ?_ (by decide +kernel)
  exact .ok (ops := []) (t := init) _ () (.refl _) (by decide +kernel)

theorem mask_name_stale_wrong : ∃ ops s, Reach init ops s ∧ s.mask = some [7, 7, 7, 7] ∧ savedMask s = some "a.fits" := by
  refine ⟨[.maskFile "a.fits" (.good 1 [5]), .resolution 2, .mask (some [7, 7, 7, 7]) 0], ⟨2, some [7, 7, 7, 7], "a.fits"⟩, ?_,
    rfl, by decide +kernel⟩
  refine .ok (ops := [.maskFile "a.fits" (.good 1 [5]), .resolution 2]) (t := ⟨2, none, "a.fits"⟩) _ () ?_ (by decide +kernel)
  refine .ok (ops := [.maskFile "a.fits" (.good 1 [5])]) (t := ⟨1, some [5], "a.fits"⟩) _ () ?_ (by decide +kernel)
  exact .ok (ops := []) (t := init) _ () (.refl _) (by decide +kernel)

/-- A 2 × 2 mask hiding its upper right pixel. -/
example : ∃ s, Reach init [.mask (some [1, 1, 1, 0]) 2] s ∧ query s 2 2 = .ok s false ∧ query s 1 2 = .ok s true ∧
    query s 3 1 = .throws s :=
  ⟨⟨2, some [1, 1, 1, 0], ""⟩, .ok (ops := []) _ () (.refl _) rfl, by decide +kernel, by decide +kernel, by decide +kernel⟩

end Gyoto.Mask
