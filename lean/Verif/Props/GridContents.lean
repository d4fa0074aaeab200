import Verif.Props.PatternDisk
import Verif.Props.Disk3D
import Verif.Props.DirectionalDisk

/-!
# What the disks hold is what was copied into them (C89)

A copy that succeeds leaves in the disk the elements of the caller, in their order and as many as the dimensions say; a call leaves alone
what it has no reason to change.
-/

namespace Gyoto.GridRead

theorem memcpy_ok_iff {n : ℕ} {l l' : List ℝ} : memcpy n l = .ok l' ↔ n ≤ l.length ∧ l' = l.take n := by
  unfold memcpy
  split_ifs with h
  · simp [h, eq_comm]
  · simp [h]

/-- `q` holds the first `n` elements found at `p`. -/
def HoldsCopy (n : ℕ) (p : List ℝ) (q : Option (List ℝ)) : Prop :=
  ∃ l, q = some l ∧ l.length = n ∧ ∀ k < n, l[k]? = p[k]?

theorem memcpy_holds {n : ℕ} {p l : List ℝ} (h : memcpy n p = .ok l) : HoldsCopy n p (some l) := by
  obtain ⟨h1, rfl⟩ := memcpy_ok_iff.1 h
  exact ⟨_, rfl, by simp [h1], fun k hk => by rw [List.getElem?_take, if_pos hk]⟩

theorem memcpy_none {n : ℕ} {p : List ℝ} (h : n ≤ p.length) : memcpy n p = .ok (p.take n) := memcpy_ok_iff.2 ⟨h, rfl⟩

end Gyoto.GridRead

/-! ## Flat disks -/

namespace Gyoto.PatternDisk

open Gyoto.GridRead

/-- The arrays, with their dimensions. -/
def arrays (d : Disk) := (d.emission, d.opacity, d.velocity, d.radius, d.nnu, d.nphi, d.nr)

/-- The parameters given by the user. -/
def params (d : Disk) := (d.Omega, d.t0, d.dnu, d.nu0, d.phimin, d.phimax, d.repeatPhi, d.rin, d.rout, d.radtransf, d.dir)

/-- `copyIntensity` succeeds exactly when the dimensions make sense; it then holds the elements of the caller and the other arrays of
unchanged dimensions. -/
theorem copyIntensity_holds {d : Disk} {p : List ℝ} {a b c : ℕ} (hp : a * b * c ≤ p.length) :
    ((step d (.copyIntensity (some p) a b c)).2 = none ↔ a ≠ 0 ∧ b ≠ 0 ∧ 2 ≤ c ∧ d.repeatPhi ≠ 0) ∧
    ((step d (.copyIntensity (some p) a b c)).2 = none →
      let d' := (step d (.copyIntensity (some p) a b c)).1
      HoldsCopy (a * b * c) p d'.emission ∧ (d'.nnu, d'.nphi, d'.nr) = (a, b, c) ∧ params d' = params d ∧
      d'.opacity = (if d.nnu = a ∧ d.nphi = b ∧ d.nr = c then d.opacity else none) ∧
      d'.velocity = (if d.nphi = b ∧ d.nr = c then d.velocity else none) ∧
      d'.radius = (if d.nr = c then d.radius else none)) := by
  have hm := memcpy_none hp
  by_cases h0 : a * b * c = 0
  · constructor
    · simp only [step, copyIntensity, h0, if_true]
      simp only [Nat.mul_eq_zero] at h0
      constructor
      · intro h; cases h
      · rintro ⟨h1, h2, h3, -⟩; omega
    · simp [step, copyIntensity, h0]
  have h0' := h0
  simp only [Nat.mul_eq_zero, not_or] at h0'
  have hnr : ∀ D : Disk, (resize a b c D).nr = c := fun D => rfl
  have hrep : ∀ D : Disk, (resize a b c D).repeatPhi = D.repeatPhi := fun D => by
    unfold resize; simp only; split_ifs <;> rfl
  by_cases h1 : c = 1
  · constructor
    · simp only [step, copyIntensity, if_neg h0, hnr, if_pos h1]
      constructor
      · intro h; cases h
      · rintro ⟨-, -, h3, -⟩; omega
    · simp only [step, copyIntensity, if_neg h0, hnr, if_pos h1]
      intro h; cases h
  by_cases h2 : d.repeatPhi = 0
  · constructor
    · simp only [step, copyIntensity, if_neg h0, hnr, if_neg h1, hrep, if_pos h2]
      constructor
      · intro h; cases h
      · rintro ⟨-, -, -, h4⟩; exact absurd h2 h4
    · simp only [step, copyIntensity, if_neg h0, hnr, if_neg h1, hrep, if_pos h2]
      intro h; cases h
  have key : ∃ X : Disk, step d (.copyIntensity (some p) a b c) = (X, none) ∧ X.emission = some (p.take (a * b * c)) ∧
      (X.nnu, X.nphi, X.nr) = (a, b, c) ∧ params X = params d ∧
      X.opacity = (resize a b c d).opacity ∧ X.velocity = (resize a b c d).velocity ∧ X.radius = (resize a b c d).radius := by
    refine ⟨_, by simp only [step, copyIntensity, if_neg h0, hnr, if_neg h1, hrep, if_neg h2, hm]; rfl, rfl, rfl, ?_, ?_, ?_, ?_⟩
    all_goals simp only [params, resize]
    all_goals split_ifs <;> rfl
  obtain ⟨X, hX, hE, hD, hP, hO, hV, hR⟩ := key
  refine ⟨by rw [hX]; exact ⟨fun _ => ⟨h0'.1.1, h0'.1.2, by omega, h2⟩, fun _ => rfl⟩, fun _ => ?_⟩
  rw [hX]
  refine ⟨hE ▸ memcpy_holds hm, hD, hP, ?_, ?_, ?_⟩
  · rw [hO]
    by_cases e1 : d.nnu = a <;> by_cases e2 : d.nphi = b <;> by_cases e3 : d.nr = c <;> simp [resize, e1, e2, e3]
  · rw [hV]
    by_cases e1 : d.nnu = a <;> by_cases e2 : d.nphi = b <;> by_cases e3 : d.nr = c <;> simp [resize, e1, e2, e3]
  · rw [hR]
    by_cases e1 : d.nnu = a <;> by_cases e2 : d.nphi = b <;> by_cases e3 : d.nr = c <;> simp [resize, e1, e2, e3]

/-- `copyOpacity` succeeds exactly when the dimensions are those of the disk; it then holds the elements of the caller and radiative
transfer is on. -/
theorem copyOpacity_holds {d : Disk} {p : List ℝ} {a b c : ℕ} (hp : a * b * c ≤ p.length) :
    ((step d (.copyOpacity (some p) a b c)).2 = none ↔ (d.nnu, d.nphi, d.nr) = (a, b, c)) ∧
    ((step d (.copyOpacity (some p) a b c)).2 = none →
      let d' := (step d (.copyOpacity (some p) a b c)).1
      HoldsCopy (a * b * c) p d'.opacity ∧ d'.radtransf = true ∧ arrays d' = arrays { d with opacity := d'.opacity } ∧
      params d' = params { d with radtransf := true }) := by
  have hm := memcpy_none hp
  by_cases h : (d.nnu, d.nphi, d.nr) = (a, b, c)
  · simp only [Prod.mk.injEq] at h
    obtain ⟨rfl, rfl, rfl⟩ := h
    have hs : step d (.copyOpacity (some p) d.nnu d.nphi d.nr) =
        ({ d with opacity := some (p.take (d.nnu * d.nphi * d.nr)), radtransf := true }, none) := by
      cases ho : d.opacity <;> simp [step, copyOpacity, ho, hm]
    rw [hs]
    exact ⟨by simp, fun _ => ⟨memcpy_holds hm, rfl, rfl, rfl⟩⟩
  · have hs : (step d (.copyOpacity (some p) a b c)).2 = some .error := by
      have h' : d.nnu ≠ a ∨ d.nphi ≠ b ∨ d.nr ≠ c := by
        by_contra hc; apply h; simp only [not_or, not_not] at hc; rw [hc.1, hc.2.1, hc.2.2]
      cases ho : d.opacity <;> simp only [step, copyOpacity, ho, Option.isSome_none, Option.isSome_some, if_true, if_pos h',
        Bool.false_eq_true, if_false]
    rw [hs]
    exact ⟨⟨(fun hc => by cases hc), fun hc => absurd hc h⟩, (fun hc => by cases hc)⟩

/-- `copyVelocity` succeeds exactly when there is an emission of these dimensions; it then holds the elements of the caller. -/
theorem copyVelocity_holds {d : Disk} {p : List ℝ} {b c : ℕ} (hp : 2 * b * c ≤ p.length) :
    ((step d (.copyVelocity (some p) b c)).2 = none ↔ d.emission ≠ none ∧ (d.nphi, d.nr) = (b, c)) ∧
    ((step d (.copyVelocity (some p) b c)).2 = none →
      let d' := (step d (.copyVelocity (some p) b c)).1
      HoldsCopy (2 * b * c) p d'.velocity ∧ arrays d' = arrays { d with velocity := d'.velocity } ∧ params d' = params d) := by
  have hm := memcpy_none hp
  by_cases he : d.emission = none
  · have hs : (step d (.copyVelocity (some p) b c)).2 = some .error := by simp [step, copyVelocity, he]
    rw [hs]
    exact ⟨⟨(fun hc => by cases hc), fun hc => absurd he hc.1⟩, (fun hc => by cases hc)⟩
  by_cases h : (d.nphi, d.nr) = (b, c)
  · simp only [Prod.mk.injEq] at h
    obtain ⟨rfl, rfl⟩ := h
    have hs : step d (.copyVelocity (some p) d.nphi d.nr) = ({ d with velocity := some (p.take (2 * d.nphi * d.nr)) }, none) := by
      simp [step, copyVelocity, he, hm]
    rw [hs]
    exact ⟨by simp [he], fun _ => ⟨memcpy_holds hm, rfl, rfl⟩⟩
  · have hs : (step d (.copyVelocity (some p) b c)).2 = some .error := by
      have h' : d.nphi ≠ b ∨ d.nr ≠ c := by
        by_contra hc; apply h; simp only [not_or, not_not] at hc; rw [hc.1, hc.2]
      simp only [step, copyVelocity, if_neg he, if_pos h']
    rw [hs]
    exact ⟨⟨(fun hc => by cases hc), fun hc => absurd hc.2 h⟩, (fun hc => by cases hc)⟩

/-- `copyGridRadius` succeeds exactly when there is an emission with as many radii; it then holds the elements of the caller, and the
disk extends from the first to the last. -/
theorem copyGridRadius_holds {d : Disk} {p : List ℝ} {c : ℕ} (hp : c ≤ p.length) (hi : Inv d) :
    ((step d (.copyGridRadius (some p) c)).2 = none ↔ d.emission ≠ none ∧ d.nr = c) ∧
    ((step d (.copyGridRadius (some p) c)).2 = none →
      let d' := (step d (.copyGridRadius (some p) c)).1
      HoldsCopy c p d'.radius ∧ p[0]? = some d'.rin ∧ p[c - 1]? = some d'.rout ∧ arrays d' = arrays { d with radius := d'.radius } ∧
      params d' = params { d with rin := d'.rin, rout := d'.rout }) := by
  have hm := memcpy_none hp
  by_cases he : d.emission = none
  · have hs : (step d (.copyGridRadius (some p) c)).2 = some .error := by simp [step, copyGridRadius, he]
    rw [hs]
    exact ⟨⟨(fun hc => by cases hc), fun hc => absurd he hc.1⟩, (fun hc => by cases hc)⟩
  by_cases h : d.nr = c
  · subst h
    obtain ⟨e, he'⟩ := Option.ne_none_iff_exists'.1 he
    have h2 : 2 ≤ d.nr := (hi.emission e he').2.2.2.1
    have e0 : p[0]? = some p[0] := List.getElem?_eq_getElem (by omega)
    have e1 : p[d.nr - 1]? = some p[d.nr - 1] := List.getElem?_eq_getElem (by omega)
    have r0 : read (some (p.take d.nr)) 0 = .ok p[0] := by
      simp [GridRead.read, show 0 < d.nr by omega, e0]
    have r1 : read (some (p.take d.nr)) ((d.nr : ℤ) - 1) = .ok p[d.nr - 1] := by
      rw [show ((d.nr : ℤ) - 1) = ((d.nr - 1 : ℕ) : ℤ) by omega]
      simp [GridRead.read, show 0 < d.nr by omega, e1]
      omega
    have hs : step d (.copyGridRadius (some p) d.nr) =
        ({ d with radius := some (p.take d.nr), rin := p[0], rout := p[d.nr - 1],
                  dr := (p[d.nr - 1] - p[0]) / ((d.nr - 1 : ℕ) : ℝ) }, none) := by
      simp only [step, copyGridRadius, if_neg he, ne_eq, not_true_eq_false, if_false, hm, r0, r1]
    rw [hs]
    exact ⟨by simp [he], fun _ => ⟨memcpy_holds hm, e0, e1, rfl, rfl⟩⟩
  · have hs : (step d (.copyGridRadius (some p) c)).2 = some .error := by
      simp only [step, copyGridRadius, if_neg he, if_pos (show d.nr ≠ c from h)]
    rw [hs]
    exact ⟨⟨(fun hc => by cases hc), fun hc => absurd hc.2 h⟩, (fun hc => by cases hc)⟩

/-- A grid of two radii and two azimuths, of which there are more elements than needed. -/
example : let d := (step (init 10) (.copyIntensity (some [1, 2, 3, 4, 5]) 1 2 2)).1
    d.emission = some [1, 2, 3, 4] ∧ (d.nnu, d.nphi, d.nr) = (1, 2, 2) := by
  simp [step, copyIntensity, resize, init, memcpy]

/-- Copying from nowhere frees the one array. -/
theorem copyNull (d : Disk) (a b c : ℕ) :
    step d (.copyIntensity none a b c) = ({ d with emission := none }, none) ∧
    (step d (.copyOpacity none a b c)).2 = none ∧
    arrays (step d (.copyOpacity none a b c)).1 = arrays { d with opacity := none } ∧
    step d (.copyVelocity none b c) = ({ d with velocity := none }, none) ∧
    step d (.copyGridRadius none c) = ({ d with radius := none }, none) := by
  refine ⟨rfl, ?_, ?_, rfl, rfl⟩ <;> cases h : d.opacity <;> simp [step, copyOpacity, arrays, h]

/-- What a setter is meant to change. -/
def put (d : Disk) : Op → Disk
  | .repeatPhi n => { d with repeatPhi := n }
  | .phimin x => { d with phimin := x }
  | .phimax x => { d with phimax := x }
  | .innerRadius x => { d with rin := x }
  | .outerRadius x => { d with rout := x }
  | .patternVelocity x => { d with Omega := x }
  | .nu0 x => { d with nu0 := x }
  | .dnu x => { d with dnu := x }
  | .opticallyThin b => { d with radtransf := b }
  | .dir n => { d with dir := n }
  | _ => d

/-- A setter of one parameter. -/
def IsSetter : Op → Prop
  | .copyIntensity .. | .copyOpacity .. | .copyVelocity .. | .copyGridRadius .. => False
  | _ => True

/-- A setter puts its parameter, and leaves the arrays and the other parameters alone. -/
theorem setter_ok {d : Disk} {op : Op} (h : IsSetter op) :
    (step d op).2 = none ∧ arrays (step d op).1 = arrays d ∧ params (step d op).1 = params (put d op) := by
  cases op <;> first | exact h.elim | (refine ⟨?_, ?_, ?_⟩ <;> simp only [step, arrays, params, put] <;> (try split_ifs) <;> rfl)

end Gyoto.PatternDisk

/-! ## Thick disks -/

namespace Gyoto.Disk3D

open Gyoto.GridRead

/-- The arrays, with their dimensions. -/
def arrays (d : Disk) := (d.emissquant, d.opacity, d.velocity, d.nnu, d.nphi, d.nz, d.nr)

/-- The parameters given by the user. -/
def params (d : Disk) := (d.dnu, d.nu0, d.phimin, d.phimax, d.repeatPhi, d.zmin, d.zmax, d.rin, d.rout, d.zsym, d.tPattern,
  d.omegaPattern, d.radtransf)

/-- `copyEmissquant` succeeds exactly when the dimensions make sense; it then holds the elements of the caller, and the velocity if its
dimensions have not changed. -/
theorem copyEmissquant_holds {d : Disk} {p : List ℝ} {a b c e : ℕ} (hp : a * b * c * e ≤ p.length) :
    ((step d (.copyEmissquant (some p) a b c e)).2 = none ↔ a ≠ 0 ∧ 2 ≤ b ∧ 2 ≤ c ∧ 2 ≤ e ∧ d.repeatPhi ≠ 0) ∧
    ((step d (.copyEmissquant (some p) a b c e)).2 = none →
      let d' := (step d (.copyEmissquant (some p) a b c e)).1
      HoldsCopy (a * b * c * e) p d'.emissquant ∧ (d'.nnu, d'.nphi, d'.nz, d'.nr) = (a, b, c, e) ∧ params d' = params d ∧
      d'.opacity = d.opacity ∧ d'.velocity = (if d.nphi = b ∧ d.nz = c ∧ d.nr = e then d.velocity else none)) := by
  have hm := memcpy_none hp
  by_cases h0 : a * b * c * e = 0
  · constructor
    · simp only [step, copyEmissquant, h0, if_true]
      simp only [Nat.mul_eq_zero] at h0
      constructor
      · intro h; cases h
      · rintro ⟨h1, h2, h3, h4, -⟩; omega
    · simp [step, copyEmissquant, h0]
  have h0' := h0
  simp only [Nat.mul_eq_zero, not_or] at h0'
  have hn : ∀ D : Disk, (resize a b c e D).nr = e ∧ (resize a b c e D).nz = c ∧ (resize a b c e D).nphi = b := fun D => ⟨rfl, rfl, rfl⟩
  have hrep : ∀ D : Disk, (resize a b c e D).repeatPhi = D.repeatPhi := fun D => by
    unfold resize; simp only; split_ifs <;> rfl
  by_cases h1 : e = 1 ∨ c = 1 ∨ b = 1
  · constructor
    · simp only [step, copyEmissquant, if_neg h0, (hn _).1, (hn _).2.1, (hn _).2.2, if_pos h1]
      constructor
      · intro h; cases h
      · rintro ⟨-, h3, h4, h5, -⟩; omega
    · simp only [step, copyEmissquant, if_neg h0, (hn _).1, (hn _).2.1, (hn _).2.2, if_pos h1]
      intro h; cases h
  by_cases h2 : d.repeatPhi = 0
  · constructor
    · simp only [step, copyEmissquant, if_neg h0, (hn _).1, (hn _).2.1, (hn _).2.2, if_neg h1, hrep, if_pos h2]
      constructor
      · intro h; cases h
      · rintro ⟨-, -, -, -, h4⟩; exact absurd h2 h4
    · simp only [step, copyEmissquant, if_neg h0, (hn _).1, (hn _).2.1, (hn _).2.2, if_neg h1, hrep, if_pos h2]
      intro h; cases h
  have key : ∃ X : Disk, step d (.copyEmissquant (some p) a b c e) = (X, none) ∧ X.emissquant = some (p.take (a * b * c * e)) ∧
      (X.nnu, X.nphi, X.nz, X.nr) = (a, b, c, e) ∧ params X = params d ∧
      X.opacity = d.opacity ∧ X.velocity = (resize a b c e d).velocity := by
    refine ⟨_, by simp only [step, copyEmissquant, if_neg h0, (hn _).1, (hn _).2.1, (hn _).2.2, if_neg h1, hrep, if_neg h2, hm]; rfl,
      rfl, rfl, ?_, ?_, ?_⟩
    all_goals simp only [params, resize]
    all_goals split_ifs <;> rfl
  obtain ⟨X, hX, hE, hD, hP, hO, hV⟩ := key
  refine ⟨by rw [hX]; exact ⟨fun _ => ⟨by omega, by omega, by omega, by omega, h2⟩, fun _ => rfl⟩, fun _ => ?_⟩
  rw [hX]
  refine ⟨hE ▸ memcpy_holds hm, hD, hP, hO, ?_⟩
  rw [hV]
  by_cases e1 : d.nz = c <;> by_cases e2 : d.nphi = b <;> by_cases e3 : d.nr = e <;> simp [resize, e1, e2, e3]

/-- `copyOpacity` succeeds exactly when the dimensions are those of the disk; it then holds the elements of the caller and radiative
transfer is on. -/
theorem copyOpacity_holds {d : Disk} {p : List ℝ} {a b c e : ℕ} (hp : a * b * c * e ≤ p.length) :
    ((step d (.copyOpacity (some p) a b c e)).2 = none ↔ (d.nnu, d.nphi, d.nz, d.nr) = (a, b, c, e)) ∧
    ((step d (.copyOpacity (some p) a b c e)).2 = none →
      let d' := (step d (.copyOpacity (some p) a b c e)).1
      HoldsCopy (a * b * c * e) p d'.opacity ∧ d'.radtransf = true ∧ arrays d' = arrays { d with opacity := d'.opacity } ∧
      params d' = params { d with radtransf := true }) := by
  have hm := memcpy_none hp
  by_cases h : (d.nnu, d.nphi, d.nz, d.nr) = (a, b, c, e)
  · simp only [Prod.mk.injEq] at h
    obtain ⟨rfl, rfl, rfl, rfl⟩ := h
    have hs : step d (.copyOpacity (some p) d.nnu d.nphi d.nz d.nr) =
        ({ d with opacity := some (p.take (d.nnu * d.nphi * d.nz * d.nr)), radtransf := true }, none) := by
      cases ho : d.opacity <;> simp [step, copyOpacity, ho, hm]
    rw [hs]
    exact ⟨by simp, fun _ => ⟨memcpy_holds hm, rfl, rfl, rfl⟩⟩
  · have hs : (step d (.copyOpacity (some p) a b c e)).2 = some .error := by
      have h' : d.nnu ≠ a ∨ d.nphi ≠ b ∨ d.nz ≠ c ∨ d.nr ≠ e := by
        by_contra hc; apply h; simp only [not_or, not_not] at hc; rw [hc.1, hc.2.1, hc.2.2.1, hc.2.2.2]
      cases ho : d.opacity <;> simp only [step, copyOpacity, ho, Option.isSome_none, Option.isSome_some, if_true, if_pos h',
        Bool.false_eq_true, if_false]
    rw [hs]
    exact ⟨⟨(fun hc => by cases hc), fun hc => absurd hc h⟩, (fun hc => by cases hc)⟩

/-- `copyVelocity` succeeds exactly when there is an emission of these dimensions; it then holds the elements of the caller. -/
theorem copyVelocity_holds {d : Disk} {p : List ℝ} {b c e : ℕ} (hp : 3 * b * c * e ≤ p.length) :
    ((step d (.copyVelocity (some p) b c e)).2 = none ↔ d.emissquant ≠ none ∧ (d.nphi, d.nz, d.nr) = (b, c, e)) ∧
    ((step d (.copyVelocity (some p) b c e)).2 = none →
      let d' := (step d (.copyVelocity (some p) b c e)).1
      HoldsCopy (3 * b * c * e) p d'.velocity ∧ arrays d' = arrays { d with velocity := d'.velocity } ∧ params d' = params d) := by
  have hm := memcpy_none hp
  by_cases he : d.emissquant = none
  · have hs : (step d (.copyVelocity (some p) b c e)).2 = some .error := by simp [step, copyVelocity, he]
    rw [hs]
    exact ⟨⟨(fun hc => by cases hc), fun hc => absurd he hc.1⟩, (fun hc => by cases hc)⟩
  by_cases h : (d.nphi, d.nz, d.nr) = (b, c, e)
  · simp only [Prod.mk.injEq] at h
    obtain ⟨rfl, rfl, rfl⟩ := h
    have hs : step d (.copyVelocity (some p) d.nphi d.nz d.nr) =
        ({ d with velocity := some (p.take (3 * d.nphi * d.nz * d.nr)) }, none) := by
      simp [step, copyVelocity, he, hm]
    rw [hs]
    exact ⟨by simp [he], fun _ => ⟨memcpy_holds hm, rfl, rfl⟩⟩
  · have hs : (step d (.copyVelocity (some p) b c e)).2 = some .error := by
      have h' : d.nphi ≠ b ∨ d.nz ≠ c ∨ d.nr ≠ e := by
        by_contra hc; apply h; simp only [not_or, not_not] at hc; rw [hc.1, hc.2.1, hc.2.2]
      simp only [step, copyVelocity, if_neg he, if_pos h']
    rw [hs]
    exact ⟨⟨(fun hc => by cases hc), fun hc => absurd hc.2 h⟩, (fun hc => by cases hc)⟩

/-- Copying from nowhere frees the one array. -/
theorem copyNull (d : Disk) (a b c e : ℕ) :
    step d (.copyEmissquant none a b c e) = ({ d with emissquant := none }, none) ∧
    (step d (.copyOpacity none a b c e)).2 = none ∧
    arrays (step d (.copyOpacity none a b c e)).1 = arrays { d with opacity := none } ∧
    step d (.copyVelocity none b c e) = ({ d with velocity := none }, none) := by
  refine ⟨rfl, ?_, ?_, rfl⟩ <;> cases h : d.opacity <;> simp [step, copyOpacity, arrays, h]

/-- What a setter is meant to change. -/
def put (d : Disk) : Op → Disk
  | .repeatPhi n => { d with repeatPhi := n }
  | .rin x => { d with rin := x }
  | .rout x => { d with rout := x }
  | .zmin x => { d with zmin := x }
  | .zmax x => { d with zmax := x }
  | .phimin x => { d with phimin := x }
  | .phimax x => { d with phimax := x }
  | .nu0 x => { d with nu0 := x }
  | .dnu x => { d with dnu := x }
  | .zsym b => { d with zsym := b }
  | .tPattern x => { d with tPattern := x }
  | .omegaPattern x => { d with omegaPattern := x }
  | .opticallyThin b => { d with radtransf := b }
  | _ => d

/-- A setter of one parameter. -/
def IsSetter : Op → Prop
  | .copyEmissquant .. | .copyOpacity .. | .copyVelocity .. => False
  | _ => True

/-- A setter puts its parameter, and leaves the arrays and the other parameters alone. -/
theorem setter_ok {d : Disk} {op : Op} (h : IsSetter op) :
    (step d op).2 = none ∧ arrays (step d op).1 = arrays d ∧ params (step d op).1 = params (put d op) := by
  cases op <;> first | exact h.elim | (refine ⟨?_, ?_, ?_⟩ <;> simp only [step, arrays, params, put] <;> (try split_ifs) <;> rfl)

end Gyoto.Disk3D

/-! ## Disks lit by a lamp -/

namespace Gyoto.DirectionalDisk

open Gyoto.GridRead

/-- `copyIntensity` succeeds exactly when no dimension is zero; it then holds the elements of the caller, and keeps the axes as long as
the dimensions allow (the code frees more than it needs to: the frequencies when any dimension changes). -/
theorem copyIntensity_holds {d : Disk} {p : List ℝ} {a b c : ℕ} (hp : a * b * c ≤ p.length) :
    ((step d (.copyIntensity (some p) a b c)).2 = none ↔ a ≠ 0 ∧ b ≠ 0 ∧ c ≠ 0) ∧
    ((step d (.copyIntensity (some p) a b c)).2 = none →
      ∃ e, HoldsCopy (a * b * c) p e ∧ (step d (.copyIntensity (some p) a b c)).1 =
        { d with emission := e, nnu := a, ni := b, nr := c,
                 freq := if d.nnu = a ∧ d.ni = b ∧ d.nr = c then d.freq else none,
                 cosi := if d.ni = b ∧ d.nr = c then d.cosi else none,
                 radius := if d.nr = c then d.radius else none }) := by
  have hm := memcpy_none hp
  by_cases h0 : a * b * c = 0
  · constructor
    · simp only [step, copyIntensity, h0, if_true]
      simp only [Nat.mul_eq_zero] at h0
      constructor
      · intro h; cases h
      · rintro ⟨h1, h2, h3⟩; omega
    · simp only [step, copyIntensity, h0, if_true]
      intro h; cases h
  have h0' := h0
  simp only [Nat.mul_eq_zero, not_or] at h0'
  have hs : step d (.copyIntensity (some p) a b c) =
      ({ resize a b c { d with emission := none } with emission := some (p.take (a * b * c)) }, none) := by
    simp only [step, copyIntensity, if_neg h0, hm]
  rw [hs]
  refine ⟨by simp only [true_iff]; exact ⟨h0'.1.1, h0'.1.2, h0'.2⟩, fun _ => ⟨_, memcpy_holds hm, ?_⟩⟩
  by_cases e1 : d.nnu = a <;> by_cases e2 : d.ni = b <;> by_cases e3 : d.nr = c <;> simp [resize, e1, e2, e3]

/-- The axes: copied exactly when there is an emission with as many elements along them. -/
theorem copyGrid_holds {d : Disk} {p : List ℝ} {n : ℕ} (hp : n ≤ p.length) :
    ((step d (.copyGridRadius (some p) n)).2 = none ↔ d.emission ≠ none ∧ d.nr = n) ∧
    ((step d (.copyGridRadius (some p) n)).2 = none →
      ∃ l, HoldsCopy n p l ∧ (step d (.copyGridRadius (some p) n)).1 = { d with radius := l }) ∧
    ((step d (.copyGridCosi (some p) n)).2 = none ↔ d.emission ≠ none ∧ d.ni = n) ∧
    ((step d (.copyGridCosi (some p) n)).2 = none →
      ∃ l, HoldsCopy n p l ∧ (step d (.copyGridCosi (some p) n)).1 = { d with cosi := l }) ∧
    ((step d (.copyGridFreq (some p) n)).2 = none ↔ d.emission ≠ none ∧ d.nnu = n) ∧
    ((step d (.copyGridFreq (some p) n)).2 = none →
      ∃ l, HoldsCopy n p l ∧ (step d (.copyGridFreq (some p) n)).1 = { d with freq := l }) := by
  have hm := memcpy_none hp
  by_cases he : d.emission = none
  · simp [step, copyGridRadius, copyGridCosi, copyGridFreq, he]
  refine ⟨?_, ?_, ?_, ?_, ?_, ?_⟩
  · by_cases h : d.nr = n
    · subst h; simp [step, copyGridRadius, he, hm]
    · simp [step, copyGridRadius, he, h]
  · by_cases h : d.nr = n
    · subst h
      simp only [step, copyGridRadius, if_neg he, ne_eq, not_true_eq_false, if_false, hm]
      exact fun _ => ⟨_, memcpy_holds hm, rfl⟩
    · simp [step, copyGridRadius, he, h]
  · by_cases h : d.ni = n
    · subst h; simp [step, copyGridCosi, he, hm]
    · simp [step, copyGridCosi, he, h]
  · by_cases h : d.ni = n
    · subst h
      simp only [step, copyGridCosi, if_neg he, ne_eq, not_true_eq_false, if_false, hm]
      exact fun _ => ⟨_, memcpy_holds hm, rfl⟩
    · simp [step, copyGridCosi, he, h]
  · by_cases h : d.nnu = n
    · subst h; simp [step, copyGridFreq, he, hm]
    · simp [step, copyGridFreq, he, h]
  · by_cases h : d.nnu = n
    · subst h
      simp only [step, copyGridFreq, if_neg he, ne_eq, not_true_eq_false, if_false, hm]
      exact fun _ => ⟨_, memcpy_holds hm, rfl⟩
    · simp [step, copyGridFreq, he, h]

/-- Copying from nowhere frees the one array. -/
theorem copyNull (d : Disk) (a b c : ℕ) :
    step d (.copyIntensity none a b c) = ({ d with emission := none }, none) ∧
    step d (.copyGridRadius none c) = ({ d with radius := none }, none) ∧
    step d (.copyGridCosi none b) = ({ d with cosi := none }, none) ∧
    step d (.copyGridFreq none a) = ({ d with freq := none }, none) := ⟨rfl, rfl, rfl, rfl⟩

/-- A copy that is refused leaves no array of the kind it was to copy, and touches no other. -/
theorem refused {d : Disk} {p : Option (List ℝ)} {n : ℕ} :
    ((step d (.copyGridRadius p n)).2 ≠ none → (step d (.copyGridRadius p n)).1 = { d with radius := none }) ∧
    ((step d (.copyGridCosi p n)).2 ≠ none → (step d (.copyGridCosi p n)).1 = { d with cosi := none }) ∧
    ((step d (.copyGridFreq p n)).2 ≠ none → (step d (.copyGridFreq p n)).1 = { d with freq := none }) := by
  refine ⟨?_, ?_, ?_⟩
  all_goals
    cases p with
    | none => intro h; exact absurd rfl h
    | some p =>
      simp only [step, copyGridRadius, copyGridCosi, copyGridFreq]
      split_ifs
      · intro _; rfl
      · intro _; rfl
      · split
        · intro _; rfl
        · intro h; exact absurd rfl h

end Gyoto.DirectionalDisk

/-! ## The nearest frequency -/

namespace Gyoto.GridRead

/-- The index `k` is that of the sample nearest to `nu` among the `n` samples `nu0`, `nu0 + dnu`, … -/
def IsNearest (nu0 dnu nu : ℝ) (n k : ℕ) : Prop := k < n ∧ ∀ j < n, |nu - (nu0 + k * dnu)| ≤ |nu - (nu0 + j * dnu)|

theorem nearest_below {nu0 dnu nu : ℝ} {n : ℕ} (hn : 0 < n) (hd : 0 < dnu) (h : nu ≤ nu0) : IsNearest nu0 dnu nu n 0 := by
  refine ⟨hn, fun j _ => ?_⟩
  have : (0 : ℝ) ≤ j * dnu := mul_nonneg (Nat.cast_nonneg j) hd.le
  rw [abs_of_nonpos (by push_cast; linarith), abs_of_nonpos (by linarith)]
  push_cast; linarith

theorem nearest_round {nu0 dnu nu : ℝ} {n : ℕ} (hn : 0 < n) (hd : 0 < dnu) (h : ¬nu ≤ nu0)
    (hb : (nu - nu0) / dnu + 0.5 < 2 ^ 64) :
    ∃ m, toSize ⌊(nu - nu0) / dnu + 0.5⌋ = .ok m ∧ IsNearest nu0 dnu nu n (if m ≥ n then n - 1 else m) := by
  obtain ⟨y, hy⟩ : ∃ y, y = (nu - nu0) / dnu := ⟨_, rfl⟩
  have hy0 : 0 < y := by rw [hy]; exact div_pos (by linarith) hd
  have hnu : nu = nu0 + y * dnu := by rw [hy]; field_simp; ring
  rw [← hy] at hb ⊢
  have hf0 : 0 ≤ ⌊y + 0.5⌋ := Int.floor_nonneg.2 (by linarith)
  obtain ⟨m, hm⟩ := Int.eq_ofNat_of_zero_le hf0
  have h1 : (m : ℝ) ≤ y + 0.5 := by
    have := Int.floor_le (y + 0.5); rw [hm] at this; exact_mod_cast this
  have h2 : y + 0.5 < m + 1 := by
    have := Int.lt_floor_add_one (y + 0.5); rw [hm] at this; exact_mod_cast this
  have hts : toSize ⌊y + 0.5⌋ = .ok m := by
    unfold toSize
    rw [hm, if_neg]
    · congr 1
      show ⌊((m : ℤ) : ℝ)⌋₊ = m
      rw [Int.cast_natCast]; exact Nat.floor_natCast m
    · rw [not_or, not_le, not_le, Int.cast_natCast]
      exact ⟨by have : (0 : ℝ) ≤ m := Nat.cast_nonneg m
                linarith, by linarith⟩
  refine ⟨m, hts, ?_, fun j hj => ?_⟩
  · split_ifs <;> omega
  have e : ∀ k : ℕ, |nu - (nu0 + k * dnu)| = |y - k| * dnu := fun k => by
    rw [hnu, show nu0 + y * dnu - (nu0 + k * dnu) = (y - k) * dnu by ring, abs_mul, abs_of_pos hd]
  rw [e, e]
  refine mul_le_mul_of_nonneg_right ?_ hd.le
  split_ifs with hc
  · have c1 : (n : ℝ) ≤ m := by exact_mod_cast hc
    have c2 : ((n - 1 : ℕ) : ℝ) = n - 1 := by rw [Nat.cast_sub (by omega)]; norm_num
    have c3 : (j : ℝ) ≤ n - 1 := by rw [← c2]; exact_mod_cast (by omega : j ≤ n - 1)
    rw [c2, abs_of_nonneg (by linarith), abs_of_nonneg (by linarith)]
    linarith
  · have a : |y - m| ≤ 0.5 := abs_le.2 ⟨by linarith, by linarith⟩
    rcases lt_trichotomy j m with hl | rfl | hg
    · have : (j : ℝ) + 1 ≤ m := by exact_mod_cast hl
      refine a.trans (le_trans ?_ (le_abs_self _)); linarith
    · exact le_rfl
    · have : (m : ℝ) + 1 ≤ j := by exact_mod_cast hg
      refine a.trans (le_trans ?_ (neg_le_abs _)); linarith

end Gyoto.GridRead

namespace Gyoto.Disk3D

open Gyoto.GridRead

/-- The frequency used is the nearest of the grid, the first one below and the last one above. -/
theorem freqIndex_nearest {d : Disk} {nu : ℝ} (h0 : 0 < d.nnu) (hd : 0 < d.dnu) (hb : (nu - d.nu0) / d.dnu + 0.5 < 2 ^ 64) :
    ∃ k, freqIndex d nu = .ok k ∧ IsNearest d.nu0 d.dnu nu d.nnu k := by
  unfold freqIndex
  by_cases h : nu ≤ d.nu0
  · exact ⟨0, if_pos h, nearest_below h0 hd h⟩
  · obtain ⟨m, h1, h2⟩ := nearest_round h0 hd h hb
    exact ⟨_, by rw [if_neg h, if_neg hd.ne', h1]; rfl, h2⟩

end Gyoto.Disk3D

namespace Gyoto.PatternDisk

open Gyoto.GridRead

/-- The frequency used is the nearest of the grid, the first one below and the last one above. -/
theorem freqIndex_nearest {d : Disk} {nu : ℝ} (h0 : 0 < d.nnu) (hd : 0 < d.dnu) (hb : (nu - d.nu0) / d.dnu + 0.5 < 2 ^ 64) :
    ∃ k, freqIndex d nu = .ok k ∧ IsNearest d.nu0 d.dnu nu d.nnu k := by
  unfold freqIndex
  by_cases h : nu ≤ d.nu0
  · exact ⟨0, if_pos h, nearest_below h0 hd h⟩
  · obtain ⟨m, h1, h2⟩ := nearest_round h0 hd h hb
    exact ⟨_, by rw [if_neg h, if_neg hd.ne', h1]; rfl, h2⟩

end Gyoto.PatternDisk

/-- Between two samples, and beyond the last one. -/
example : Gyoto.GridRead.IsNearest 10 2 12.5 4 1 ∧ Gyoto.GridRead.IsNearest 10 2 100 4 3 := by
  refine ⟨⟨by norm_num, fun j hj => ?_⟩, ⟨by norm_num, fun j hj => ?_⟩⟩ <;> interval_cases j <;> norm_num [abs_of_nonneg, abs_of_nonpos]
