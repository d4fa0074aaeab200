import Verif.Model.DynDisk3D
import Verif.Props.DynDisk
import Verif.Props.Disk3D
import Verif.Lemmas.MetricAlg

/-!
# C142: thick disks read from a series of grids
-/

namespace Gyoto.DynDisk3D

open Gyoto.GridRead Gyoto.DynDisk Gyoto.Spec.DynDisk

/-! ## The dates -/

/-- What the search and the formula make of a function of the number of the file. -/
theorem inTime_of_search {n : ℕ} {t₀ δ time x : ℝ} {val : ℕ → ℝ} (hn : 0 < n) (hdt : 0 < δ)
    (ht : time ≤ t₀ + ((n : ℝ) - 2) * δ ∨ t₀ + ((n : ℝ) - 1) * δ ≤ time)
    (h1 : (search time δ (n - 1) t₀ 1 = 1 ∨ search time δ (n - 1) t₀ 1 = n) → x = val (search time δ (n - 1) t₀ 1 - 1))
    (h2 : search time δ (n - 1) t₀ 1 ≠ 1 → search time δ (n - 1) t₀ 1 ≠ n → x = val (search time δ (n - 1) t₀ 1 - 2) +
      (val (search time δ (n - 1) t₀ 1 - 1) - val (search time δ (n - 1) t₀ 1 - 2)) / δ *
        (time - (t₀ + ((search time δ (n - 1) t₀ 1 : ℝ) - 2) * δ))) : InTime n t₀ δ val time x := by
  obtain ⟨b1, b2, b3, b4⟩ := search_spec time δ (n - 1) t₀ 1
  generalize search time δ (n - 1) t₀ 1 = j at *
  obtain ⟨m, rfl⟩ : ∃ m, n = m + 1 := ⟨n - 1, by omega⟩
  push_cast at *
  -- comparing an index with the date
  have cmp : ∀ a b : ℝ, t₀ + a * δ < t₀ + b * δ → a < b := fun a b hab => by
    by_contra hc
    have := mul_le_mul_of_nonneg_right (not_lt.mp hc) hdt.le
    linarith
  have cmp' : ∀ a b : ℝ, t₀ + a * δ ≤ t₀ + b * δ → a ≤ b := fun a b hab => by
    by_contra hc
    have := mul_lt_mul_of_pos_right (not_le.mp hc) hdt
    linarith
  refine ⟨fun h0 => ?_, fun h0 => ?_, fun k hk hk1 hk2 => ?_⟩
  · have : j = 1 := by
      by_contra hj
      have h3 := b3 (by omega)
      have h4 : (2 : ℝ) ≤ j := by exact_mod_cast (show 2 ≤ j by omega)
      have := mul_nonneg (show (0 : ℝ) ≤ (j : ℝ) - 1 - 1 by linarith) hdt.le
      linarith
    rw [h1 (.inl this), this]
  · by_cases hj : j = m + 1
    · rw [h1 (.inr hj), hj]
    · have h3 := b4 (by omega)
      have h4 := cmp' _ _ (h0.trans h3)
      push_cast at h4
      have h5 : (j : ℝ) ≤ m := by exact_mod_cast (show j ≤ m by omega)
      linarith
  · -- the interval
    have hkR : (k : ℝ) + 1 ≤ m := by exact_mod_cast (show k + 1 ≤ m by omega)
    by_cases hj : j = 1
    · -- the first date, from the right only
      by_cases hm : 1 < 1 + (m + 1 - 1)
      · have h3 := b4 (by omega)
        rw [hj] at h3
        push_cast at h3
        have hk0 : k = 0 := by
          by_contra hk0
          have : (1 : ℝ) ≤ k := by exact_mod_cast Nat.one_le_iff_ne_zero.mpr hk0
          have := mul_le_mul_of_nonneg_right this hdt.le
          linarith
        subst hk0
        rw [h1 (.inl hj), hj]
        push_cast at *
        have : time = t₀ := by linarith
        rw [this]
        ring
      · omega
    · have h3 := b3 (by omega)
      by_cases hj' : j = m + 1
      · -- beyond the last date
        rw [hj'] at h3
        push_cast at h3
        rcases ht with ht | ht
        · have := cmp _ _ (h3.trans_le (ht.trans (by linarith : t₀ + ((m : ℝ) + 1 - 2) * δ ≤ t₀ + ((m : ℝ) + 1 - 2) * δ)))
          linarith
        · have h6 := cmp' _ _ (ht.trans hk2)
          have h7 : (k : ℝ) + 1 = m := by linarith
          have h8 : k + 1 = m := by exact_mod_cast h7
          have ht' : time = t₀ + ((k : ℝ) + 1) * δ := by
            have : t₀ + ((m : ℝ) + 1 - 1) * δ = t₀ + ((k : ℝ) + 1) * δ := by rw [h7]; ring
            linarith
          rw [h1 (.inr hj'), hj', ht', ← h8]
          simp only [Nat.add_sub_cancel]
          ring
      · have h4 := b4 (by omega)
        have h5 : (j : ℝ) - 1 - 1 < k + 1 := cmp _ _ (h3.trans_le hk2)
        have h6 : (k : ℝ) ≤ j - 1 := cmp' _ _ (hk1.trans h4)
        have h7 : j < k + 3 := by
          have : (j : ℝ) < ((k + 3 : ℕ) : ℝ) := by push_cast; linarith
          exact_mod_cast this
        have h8 : k + 1 ≤ j := by
          have : ((k + 1 : ℕ) : ℝ) ≤ (j : ℝ) := by push_cast; linarith
          exact_mod_cast this
        rw [h2 hj hj']
        by_cases e : j = k + 2
        · rw [e]
          simp only [Nat.add_sub_cancel, show k + 2 - 1 = k + 1 from rfl]
          push_cast
          field_simp
          ring
        · -- on a date: the interval before it
          have e' : j = k + 1 := by omega
          obtain ⟨k', rfl⟩ : ∃ k', k = k' + 1 := ⟨k - 1, by omega⟩
          rw [e'] at h4
          push_cast at h4 hk1
          have ht' : time = t₀ + ((k' : ℝ) + 1) * δ := by linarith
          rw [e', ht']
          simp only [show k' + 1 + 1 - 2 = k' from by omega, show k' + 1 + 1 - 1 = k' + 1 from rfl]
          push_cast
          field_simp
          ring

/-- Whatever the date, the value is a mean of two of the series. -/
theorem between_of_search {n : ℕ} {t₀ δ time x : ℝ} {val : ℕ → ℝ} (hn : 0 < n) (hdt : 0 < δ)
    (h1 : (search time δ (n - 1) t₀ 1 = 1 ∨ search time δ (n - 1) t₀ 1 = n) → x = val (search time δ (n - 1) t₀ 1 - 1))
    (h2 : search time δ (n - 1) t₀ 1 ≠ 1 → search time δ (n - 1) t₀ 1 ≠ n → x = val (search time δ (n - 1) t₀ 1 - 2) +
      (val (search time δ (n - 1) t₀ 1 - 1) - val (search time δ (n - 1) t₀ 1 - 2)) / δ *
        (time - (t₀ + ((search time δ (n - 1) t₀ 1 : ℝ) - 2) * δ))) :
    ∃ i k w, i < n ∧ k < n ∧ 0 ≤ w ∧ w ≤ 1 ∧ x = (1 - w) * val i + w * val k := by
  obtain ⟨b1, b2, b3, b4⟩ := search_spec time δ (n - 1) t₀ 1
  generalize search time δ (n - 1) t₀ 1 = j at *
  by_cases h : j = 1 ∨ j = n
  · exact ⟨j - 1, j - 1, 0, by omega, by omega, le_rfl, zero_le_one, by rw [h1 h]; ring⟩
  · have e1 : j ≠ 1 := fun e => h (.inl e)
    have e2 : j ≠ n := fun e => h (.inr e)
    have h3 := b3 (by omega)
    have h4 := b4 (by omega)
    push_cast at h3 h4
    refine ⟨j - 2, j - 1, (time - (t₀ + ((j : ℝ) - 2) * δ)) / δ, by omega, by omega, ?_, ?_, ?_⟩
    · apply div_nonneg _ hdt.le
      nlinarith
    · rw [div_le_one hdt]
      nlinarith
    · rw [h2 e1 e2]
      field_simp
      ring

/-! ## The series -/

/-- The rows of a series are all there. -/
def Full (n : ℕ) (a : Rows) (r : ℕ → List ℝ) : Prop := ∃ l, a = some l ∧ ∀ i < n, l[i]? = some (some (r i))

/-- The series that a disk has: the values, the opacities if any, the velocities. -/
structure Series (d : Disk) (e : ℕ → List ℝ) (o : Option (ℕ → List ℝ)) (v : ℕ → List ℝ) : Prop where
  nb : 0 < d.nb
  em : Full d.nb d.em e
  noAb : o = none → d.ab = none
  ab : ∀ r, o = some r → Full d.nb d.ab r
  ve : Full d.nb d.ve v

/-- The disk with the arrays of one date. -/
def pointed (d : Disk) (e : ℕ → List ℝ) (o : Option (ℕ → List ℝ)) (v : ℕ → List ℝ) (i : ℕ) : Disk :=
  { d with base := { d.base with emissquant := some (e i), opacity := (match o with | none => d.base.opacity | some r => some (r i)), velocity := some (v i) }, own := some i }

theorem row_ok {n i : ℕ} {a : Rows} {r : ℕ → List ℝ} (h : Full n a r) (hi : i < n) : row a i = .ok (r i) := by
  obtain ⟨l, rfl, hl⟩ := h
  simp only [row, hl i hi]

theorem copy_ok {d : Disk} {e v : ℕ → List ℝ} {o : Option (ℕ → List ℝ)} (h : Series d e o v) {i : ℕ} (h1 : 1 ≤ i) (h2 : i ≤ d.nb) :
    copyQuantities i d = .ok (pointed d e o v (i - 1)) := by
  have hi : i - 1 < d.nb := by omega
  unfold copyQuantities pointed
  rw [if_neg (by omega), row_ok h.em hi, row_ok h.ve hi]
  rcases o with - | r
  · rw [h.noAb rfl]
    rfl
  · have := h.ab r rfl
    rw [row_ok this hi]
    obtain ⟨l, hl, -⟩ := this
    rw [hl]
    rfl

theorem pointed_series {d : Disk} {e v : ℕ → List ℝ} {o : Option (ℕ → List ℝ)} (h : Series d e o v) (i : ℕ) : Series (pointed d e o v i) e o v :=
  ⟨h.nb, h.em, h.noAb, h.ab, h.ve⟩

theorem pointed_pointed (d : Disk) (e v : ℕ → List ℝ) (o : Option (ℕ → List ℝ)) (i j : ℕ) :
    pointed (pointed d e o v i) e o v j = pointed d e o v j := by
  cases o <;> rfl

/-- The value that is answered, and the disk afterwards. -/
theorem dated_holds {d : Disk} {e v : ℕ → List ℝ} {o : Option (ℕ → List ℝ)} (h : Series d e o v) {eval : Disk → M ℝ} {val : ℕ → ℝ}
    (hev : ∀ i < d.nb, eval (pointed d e o v i) = .ok (val i)) (time : ℝ) :
    ∃ x i, dated eval time d = .ok (x, pointed d e o v i) ∧
      ((found d time = 1 ∨ found d time = d.nb) → x = val (found d time - 1)) ∧
      (found d time ≠ 1 → found d time ≠ d.nb → x = val (found d time - 2) +
        (val (found d time - 1) - val (found d time - 2)) / d.dt * (time - (d.tinit + ((found d time : ℝ) - 2) * d.dt))) := by
  have h0 := h.nb
  obtain ⟨b1, b2, -, -⟩ := search_spec time d.dt (d.nb - 1) d.tinit 1
  change 1 ≤ found d time at b1
  change found d time ≤ _ at b2
  unfold dated
  by_cases hf : found d time = 1 ∨ found d time = d.nb
  · refine ⟨val (found d time - 1), found d time - 1, ?_, fun _ => rfl, fun h1 h2 => absurd hf (by tauto)⟩
    simp only
    rw [if_pos hf, copy_ok h b1 (by omega)]
    simp only [bind, Except.bind]
    rw [hev _ (by omega)]
  · have h1 : found d time ≠ 1 := fun h => hf (.inl h)
    have h2 : found d time ≠ d.nb := fun h => hf (.inr h)
    refine ⟨_, found d time - 1, ?_, fun h => absurd h hf, fun _ _ => rfl⟩
    simp only
    rw [if_neg hf, copy_ok h (by omega) (by omega)]
    simp only [bind, Except.bind]
    rw [show found d time - 1 - 1 = found d time - 2 by omega, hev _ (by omega)]
    simp only
    rw [copy_ok (pointed_series h _) b1 (show found d time ≤ d.nb by omega), pointed_pointed]
    simp only
    rw [hev _ (by omega)]
    rfl

/-- C142. Outside of the last interval what is answered, be it the emission, the transmission or a component of the velocity, is interpolated in time between the
dates of the files; it does not depend on what was asked before, and the series is left as it was. -/
theorem dated_inTime_partial {d : Disk} {e v : ℕ → List ℝ} {o : Option (ℕ → List ℝ)} (h : Series d e o v) {eval : Disk → M ℝ} {val : ℕ → ℝ}
    (hev : ∀ i < d.nb, eval (pointed d e o v i) = .ok (val i)) (hdt : 0 < d.dt) {time : ℝ}
    (ht : time ≤ d.tinit + ((d.nb : ℝ) - 2) * d.dt ∨ d.tinit + ((d.nb : ℝ) - 1) * d.dt ≤ time) :
    ∃ x d', dated eval time d = .ok (x, d') ∧ InTime d.nb d.tinit d.dt val time x ∧ Series d' e o v ∧ (d'.nb, d'.tinit, d'.dt) = (d.nb, d.tinit, d.dt) ∧
      ∀ i, pointed d' e o v i = pointed d e o v i := by
  obtain ⟨x, i, hx, h1, h2⟩ := dated_holds h hev time
  exact ⟨x, _, hx, inTime_of_search h.nb hdt ht h1 h2, pointed_series h i, rfl, pointed_pointed d e v o i⟩

/-- C142 (negation). Between the last two dates the value is that of the last file. -/
theorem dated_last_wrong {d : Disk} {e v : ℕ → List ℝ} {o : Option (ℕ → List ℝ)} (h : Series d e o v) {eval : Disk → M ℝ} {val : ℕ → ℝ}
    (hev : ∀ i < d.nb, eval (pointed d e o v i) = .ok (val i)) (hdt : 0 < d.dt) (hn : 2 ≤ d.nb) {time : ℝ}
    (t1 : d.tinit + ((d.nb : ℝ) - 2) * d.dt < time) (t2 : time < d.tinit + ((d.nb : ℝ) - 1) * d.dt) :
    ∃ x d', dated eval time d = .ok (x, d') ∧ x = val (d.nb - 1) ∧ (val (d.nb - 2) ≠ val (d.nb - 1) → ¬ InTime d.nb d.tinit d.dt val time x) := by
  obtain ⟨x, i, hx, h1, h2⟩ := dated_holds h hev time
  obtain ⟨b1, b2, b3, b4⟩ := search_spec time d.dt (d.nb - 1) d.tinit 1
  change found d time ≤ _ at b2
  change found d time < _ → time ≤ d.tinit + ((found d time : ℝ) - (1 : ℕ)) * d.dt at b4
  have hj : found d time = d.nb := by
    by_contra hj
    have h3 := b4 (by omega)
    have h4 : (found d time : ℝ) + 1 ≤ (d.nb : ℝ) := by exact_mod_cast (show found d time + 1 ≤ d.nb by omega)
    push_cast at h3
    nlinarith
  have hxx : x = val (d.nb - 1) := by rw [h1 (.inr hj), hj]
  refine ⟨x, _, hx, hxx, fun hne hi => hne ?_⟩
  have hk : ((d.nb - 2 : ℕ) : ℝ) = (d.nb : ℝ) - 2 := by rw [Nat.cast_sub hn]; norm_num
  have := hi.2.2 (d.nb - 2) (by omega) (by rw [hk]; exact t1.le) (by rw [hk, show (d.nb : ℝ) - 2 + 1 = d.nb - 1 by ring]; exact t2.le)
  rw [hxx, hk, show d.nb - 2 + 1 = d.nb - 1 by omega, show (d.nb : ℝ) - 2 + 1 = d.nb - 1 by ring] at this
  have hpos : d.tinit + ((d.nb : ℝ) - 1) * d.dt - time ≠ 0 := by linarith
  apply mul_left_cancel₀ hpos
  linear_combination -this

/-- Three files, one value each, at the dates 0, 1 and 2. -/
noncomputable def movie : Disk :=
  { init 1 with nb := 3, em := some [some [1], some [3], some [7]], ve := some [some [0], some [0], some [0]], dirname := some "run/" }

theorem movie_series : Series movie (fun i => [[1], [3], [7]].getD i []) none (fun _ => [0]) := by
  refine ⟨by simp [movie], ⟨_, rfl, fun i hi => ?_⟩, fun _ => rfl, by simp, ⟨_, rfl, fun i hi => ?_⟩⟩ <;>
  · obtain rfl | rfl | rfl : i = 0 ∨ i = 1 ∨ i = 2 := by simp only [movie] at hi; omega
    all_goals rfl

/-- Half-way between the first two files the value is the mean; half-way between the last two it is the last. -/
example : (∃ d', dated (fun d => read d.base.emissquant 0) (1 / 2) movie = .ok (2, d')) ∧ ∃ d', dated (fun d => read d.base.emissquant 0) (3 / 2) movie = .ok (7, d') := by
  have hev : ∀ i < movie.nb, (fun d : Disk => read d.base.emissquant 0) (pointed movie (fun i => [[1], [3], [7]].getD i []) none (fun _ => [0]) i) =
      .ok ([1, 3, 7].getD i 0) := by
    intro i hi
    obtain rfl | rfl | rfl : i = 0 ∨ i = 1 ∨ i = 2 := by simp only [movie] at hi; omega
    all_goals rfl
  constructor
  · obtain ⟨x, d', hx, hi, -⟩ := dated_inTime_partial movie_series (eval := fun d : Disk => read d.base.emissquant 0) (val := fun i => [1, 3, 7].getD i 0) hev (by norm_num [movie, init]) (time := 1 / 2) (by norm_num [movie, init])
    have := hi.2.2 0 (by norm_num [movie]) (by norm_num [movie, init]) (by norm_num [movie, init])
    refine ⟨d', ?_⟩
    rw [hx]
    norm_num [movie, init] at this
    rw [show x = 2 by linarith]
  · obtain ⟨x, d', hx, hi, -⟩ := dated_last_wrong movie_series (eval := fun d : Disk => read d.base.emissquant 0) (val := fun i => [1, 3, 7].getD i 0) hev (by norm_num [movie, init]) (by norm_num [movie]) (time := 3 / 2) (by norm_num [movie, init])
      (by norm_num [movie, init])
    refine ⟨d', ?_⟩
    rw [hx, hi]
    rfl

/-! ## The light -/

/-- A place where the methods look the arrays up: between the last stable orbit and the outer radius, with `k` the place in the arrays. -/
structure Looked (d : Disk) (ri : ℝ) (co : ℕ → ℝ) (nu : ℝ) (k : ℤ) : Prop where
  isco : ri ≤ co 1
  out : co 1 * |Real.sin (co 2)| ≤ d.base.rout
  place : place d co nu = .ok k

/-- The place does not depend on the date. -/
theorem place_pointed (d : Disk) (e v : ℕ → List ℝ) (o : Option (ℕ → List ℝ)) (i : ℕ) (co : ℕ → ℝ) (nu : ℝ) : place (pointed d e o v i) co nu = place d co nu := rfl

/-- C142. Each date of a transparent disk of emission and absorption coefficients: the coefficients follow the power laws of electrons of index `p`, those of synchrotron
emission and self-absorption, and the light that crosses a step is that of the absorption along it. -/
theorem thin_ok {d : Disk} {e v r : ℕ → List ℝ} (h : Series d e (some r) v) {ri : ℝ} {co : ℕ → ℝ} {nu dsem unit j a : ℝ} {k : ℤ} (hl : Looked d ri co nu k)
    (hr : d.base.radtransf = true) (ht : d.temperature = false) {i : ℕ} (hj : read (some (e i)) k = .ok j) (ha : read (some (r i)) k = .ok a)
    (bb : ℝ → ℝ → ℝ) :
    emission1date bb unit (some ri) nu dsem co (pointed d e (some r) v i) = .ok (j * nu ^ (-(d.plindex - 1) / 2) * (dsem * unit * 100)) ∧
    transmission1date unit (some ri) nu dsem co (pointed d e (some r) v i) = .ok (Real.exp (-(a * nu ^ (-(d.plindex + 4) / 2) * (dsem * unit * 100)))) := by
  obtain ⟨l, hab, -⟩ := h.ab r rfl
  have hn : ¬ (co 1 * |Real.sin (co 2)| > (pointed d e (some r) v i).base.rout ∨ co 1 < ri) := by
    rintro (hx | hx)
    · exact absurd hl.out (not_le.2 hx)
    · exact absurd hl.isco (not_le.2 hx)
  constructor
  · unfold emission1date
    simp only
    rw [if_neg hn, place_pointed, hl.place]
    simp only [bind, Except.bind, pointed, hj, hr, ht]
    simp
    ring
  · unfold transmission1date
    simp only
    rw [if_neg (by simp [pointed, hr]), if_neg hn, place_pointed, hl.place]
    simp only [bind, Except.bind, pointed, ht, hab, ha]
    simp
    ring

/-- C142. The ratio of the two coefficients, the source function, grows as the power 5/2 of the frequency, whatever the index. -/
theorem source_ok {p j a nu nu' : ℝ} (hnu : 0 < nu) (hnu' : 0 < nu') (ha : a ≠ 0) :
    j * nu' ^ (-(p - 1) / 2) / (a * nu' ^ (-(p + 4) / 2)) = (nu' / nu) ^ ((5 : ℝ) / 2) * (j * nu ^ (-(p - 1) / 2) / (a * nu ^ (-(p + 4) / 2))) := by
  have key : ∀ x : ℝ, 0 < x → x ^ (-(p - 1) / 2) = x ^ ((5 : ℝ) / 2) * x ^ (-(p + 4) / 2) := fun x hx => by
    rw [← Real.rpow_add hx]
    congr 1
    ring
  have h1 : nu ^ (-(p + 4) / 2) ≠ 0 := (Real.rpow_pos_of_pos hnu _).ne'
  have h2 : nu' ^ (-(p + 4) / 2) ≠ 0 := (Real.rpow_pos_of_pos hnu' _).ne'
  have h3 : nu ^ ((5 : ℝ) / 2) ≠ 0 := (Real.rpow_pos_of_pos hnu _).ne'
  rw [key nu hnu, key nu' hnu', Real.div_rpow hnu'.le hnu.le]
  field_simp

/-- C142 (negation). The light that is emitted along a step is not absorbed in the same step: crossing a step in two halves, the light of the first being absorbed in the second,
gives less than crossing it at once, however little, if there is absorption. -/
theorem split_wrong {d : Disk} {e v r : ℕ → List ℝ} (h : Series d e (some r) v) {ri : ℝ} {co : ℕ → ℝ} {nu dsem unit j a : ℝ} {k : ℤ} (hl : Looked d ri co nu k)
    (hr : d.base.radtransf = true) (ht : d.temperature = false) {i : ℕ} (hj : read (some (e i)) k = .ok j) (ha : read (some (r i)) k = .ok a)
    (bb : ℝ → ℝ → ℝ) (hnu : 0 < nu) (hds : 0 < dsem) (hu : 0 < unit) (hj0 : 0 < j) (ha0 : 0 < a) :
    ∃ whole half t, emission1date bb unit (some ri) nu dsem co (pointed d e (some r) v i) = .ok whole ∧
      emission1date bb unit (some ri) nu (dsem / 2) co (pointed d e (some r) v i) = .ok half ∧
      transmission1date unit (some ri) nu (dsem / 2) co (pointed d e (some r) v i) = .ok t ∧ half * t + half < whole := by
  refine ⟨_, _, _, (thin_ok h hl hr ht hj ha bb).1, (thin_ok h hl hr ht hj ha bb).1, (thin_ok h hl hr ht hj ha bb).2, ?_⟩
  have p1 : 0 < j * nu ^ (-(d.plindex - 1) / 2) := mul_pos hj0 (Real.rpow_pos_of_pos hnu _)
  have p2 : 0 < a * nu ^ (-(d.plindex + 4) / 2) := mul_pos ha0 (Real.rpow_pos_of_pos hnu _)
  have p3 : Real.exp (-(a * nu ^ (-(d.plindex + 4) / 2) * (dsem / 2 * unit * 100))) < 1 := by
    rw [Real.exp_lt_one_iff]
    have : 0 < a * nu ^ (-(d.plindex + 4) / 2) * (dsem / 2 * unit * 100) := by positivity
    linarith
  have p4 : 0 < j * nu ^ (-(d.plindex - 1) / 2) * (dsem / 2 * unit * 100) := by positivity
  nlinarith

/-- C142. The transmission is between 0 and 1 at every date, if the opacities are not negative. -/
theorem transmission_range {d : Disk} {e v r : ℕ → List ℝ} (h : Series d e (some r) v) {ri : ℝ} {co : ℕ → ℝ} {nu dsem unit : ℝ} {k : ℤ} (hl : Looked d ri co nu k)
    (hr : d.base.radtransf = true) (ht : d.temperature = false) (hdt : 0 < d.dt) (hds : 0 ≤ dsem) (hu : 0 ≤ unit) (hnu : 0 < nu)
    (hj : ∀ i < d.nb, ∃ j, read (some (e i)) k = .ok j) (ha : ∀ i < d.nb, ∃ a, 0 ≤ a ∧ read (some (r i)) k = .ok a) :
    ∃ x d', transmission unit (some ri) nu dsem co d = .ok (x, d') ∧ 0 < x ∧ x ≤ 1 := by
  choose! j hj using hj
  choose! a ha0 ha using ha
  obtain ⟨x, i, hx, h1, h2⟩ := dated_holds h (eval := transmission1date unit (some ri) nu dsem co)
    (fun i hi => (thin_ok h hl hr ht (hj i hi) (ha i hi) (fun _ _ => 0)).2) (co 0)
  refine ⟨x, _, hx, ?_⟩
  obtain ⟨i, k', w, hi, hk, w0, w1, e⟩ := between_of_search (t₀ := d.tinit) (time := co 0)
    (val := fun i => Real.exp (-(a i * nu ^ (-(d.plindex + 4) / 2) * (dsem * unit * 100)))) h.nb hdt h1 h2
  have bound : ∀ i < d.nb, 0 < Real.exp (-(a i * nu ^ (-(d.plindex + 4) / 2) * (dsem * unit * 100))) ∧
      Real.exp (-(a i * nu ^ (-(d.plindex + 4) / 2) * (dsem * unit * 100))) ≤ 1 := fun i hi => ⟨Real.exp_pos _, by
    rw [Real.exp_le_one_iff]
    have := ha0 i hi
    have := Real.rpow_nonneg hnu.le (-(d.plindex + 4) / 2)
    have : 0 ≤ a i * nu ^ (-(d.plindex + 4) / 2) * (dsem * unit * 100) := by positivity
    linarith⟩
  obtain ⟨a1, a2⟩ := bound i hi
  obtain ⟨c1, c2⟩ := bound k' hk
  rw [e]
  generalize Real.exp (-(a i * nu ^ (-(d.plindex + 4) / 2) * (dsem * unit * 100))) = A at *
  generalize Real.exp (-(a k' * nu ^ (-(d.plindex + 4) / 2) * (dsem * unit * 100))) = B at *
  have w2 : 0 ≤ 1 - w := by linarith
  constructor
  · rcases eq_or_lt_of_le w0 with hw | hw
    · rw [← hw]; linarith
    · have := mul_pos hw c1
      have := mul_nonneg w2 a1.le
      linarith
  · nlinarith

/-- C142. With temperatures a place colder than the floor is transparent and dark, another is opaque and shines as a black body. -/
theorem floor_ok {d : Disk} {e v : ℕ → List ℝ} {o : Option (ℕ → List ℝ)} {ri : ℝ} {co : ℕ → ℝ} {nu dsem unit q : ℝ} {k : ℤ} (hl : Looked d ri co nu k)
    (hr : d.base.radtransf = true) (ht : d.temperature = true) {i : ℕ} (hq : read (some (e i)) k = .ok q) (bb : ℝ → ℝ → ℝ) :
    (q < d.floor → emission1date bb unit (some ri) nu dsem co (pointed d e o v i) = .ok 0 ∧ transmission1date unit (some ri) nu dsem co (pointed d e o v i) = .ok 1) ∧
    (d.floor ≤ q → emission1date bb unit (some ri) nu dsem co (pointed d e o v i) = .ok (bb q nu) ∧
      transmission1date unit (some ri) nu dsem co (pointed d e o v i) = .ok 0) := by
  have hn : ¬ (co 1 * |Real.sin (co 2)| > (pointed d e o v i).base.rout ∨ co 1 < ri) := by
    rintro (hx | hx)
    · exact absurd hl.out (not_le.2 hx)
    · exact absurd hl.isco (not_le.2 hx)
  have h1 : emission1date bb unit (some ri) nu dsem co (pointed d e o v i) = .ok (if q < d.floor then 0 else bb q nu) := by
    unfold emission1date
    simp only
    rw [if_neg hn, place_pointed, hl.place]
    simp only [bind, Except.bind, pointed, hq, hr, ht]
    simp
  have h2 : transmission1date unit (some ri) nu dsem co (pointed d e o v i) = .ok (if q < d.floor then 1 else 0) := by
    unfold transmission1date
    simp only
    rw [if_neg (by simp [pointed, hr]), if_neg hn, place_pointed, hl.place]
    simp only [bind, Except.bind, pointed, ht, hq]
    simp
  rw [h1, h2]
  exact ⟨fun h => by simp [h], fun h => by simp [not_lt.2 h]⟩

/-- C142 (negation). Where nothing is emitted, closer than the last stable orbit or farther than the outer radius, a transparent disk stops all light. -/
theorem opaque_wrong {d : Disk} {e v : ℕ → List ℝ} {o : Option (ℕ → List ℝ)} (h : Series d e o v) {ri : ℝ} {co : ℕ → ℝ}
    (hout : d.base.rout < co 1 * |Real.sin (co 2)| ∨ co 1 < ri) (bb : ℝ → ℝ → ℝ) (unit nu dsem : ℝ) :
    ∃ d1 d2, emission bb unit (some ri) nu dsem co d = .ok (0, d1) ∧ transmission unit (some ri) nu dsem co d = .ok (0, d2) := by
  have zero : ∀ eval : Disk → M ℝ, (∀ i < d.nb, eval (pointed d e o v i) = .ok 0) → ∃ d', dated eval (co 0) d = .ok (0, d') := by
    intro eval hev
    obtain ⟨x, i, hx, h1, h2⟩ := dated_holds h (val := fun _ => 0) hev (co 0)
    have : x = 0 := by
      by_cases hf : found d (co 0) = 1 ∨ found d (co 0) = d.nb
      · exact h1 hf
      · rw [h2 (fun e => hf (.inl e)) (fun e => hf (.inr e))]
        ring
    exact ⟨_, by rw [hx, this]⟩
  obtain ⟨d1, e1⟩ := zero (emission1date bb unit (some ri) nu dsem co) (fun i _ => by unfold emission1date; exact if_pos hout)
  obtain ⟨d2, e2⟩ := zero (transmission1date unit (some ri) nu dsem co) (fun i _ => by
    unfold transmission1date
    by_cases hx : (pointed d e o v i).base.radtransf = false
    · rw [if_pos hx]
    · rw [if_neg hx]
      exact if_pos hout)
  exact ⟨d1, d2, e1, e2⟩

/-! ## The velocity -/

open Gyoto.MetricAlg in
/-- C142. What the interpolation between two unit velocities has for norm; it is a unit vector strictly between two dates only if their scalar product is -1. -/
theorem velocity_norm (g : Tensor) (hg : g.IsSymm) (u1 u2 : Vec) (w : ℝ) (h1 : sp g u1 u1 = -1) (h2 : sp g u2 u2 = -1) :
    sp g (fun i => u1 i + (u2 i - u1 i) * w) (fun i => u1 i + (u2 i - u1 i) * w) = -1 + 2 * w * (1 - w) * (1 + sp g u1 u2) ∧
    (0 < w → w < 1 → (sp g (fun i => u1 i + (u2 i - u1 i) * w) (fun i => u1 i + (u2 i - u1 i) * w) = -1 ↔ sp g u1 u2 = -1)) := by
  have e : sp g (fun i => u1 i + (u2 i - u1 i) * w) (fun i => u1 i + (u2 i - u1 i) * w) = -1 + 2 * w * (1 - w) * (1 + sp g u1 u2) := by
    have hv : (fun i => u1 i + (u2 i - u1 i) * w) = u1 + w • (u2 - u1) := by
      funext i
      simp only [Pi.add_apply, Pi.smul_apply, Pi.sub_apply, smul_eq_mul]
      ring
    rw [hv, sp_add_left, sp_add_right, sp_add_right, sp_smul_left, sp_smul_left, sp_smul_right, sp_smul_right, sp_sub_left, sp_sub_left, sp_sub_right, sp_sub_right,
      sp_comm hg u2 u1, h1, h2]
    ring
  refine ⟨e, fun w0 w1 => ?_⟩
  rw [e]
  have hw : 2 * w * (1 - w) ≠ 0 := by
    have := mul_pos w0 (sub_pos.2 w1)
    nlinarith
  constructor
  · intro h
    have : 2 * w * (1 - w) * (1 + sp g u1 u2) = 0 := by linarith
    rcases mul_eq_zero.1 this with h | h
    · exact absurd h hw
    · linarith
  · intro h
    rw [h]; ring

open Gyoto.MetricAlg in
/-- C142 (negation). Strictly between two dates the velocity of the matter is not a unit vector, unless the two velocities have a scalar product of -1. -/
theorem velocity_wrong {d : Disk} {e v : ℕ → List ℝ} {o : Option (ℕ → List ℝ)} (h : Series d e o v) {eval : Fin 4 → Disk → M ℝ} {U : ℕ → Vec}
    (hev : ∀ i, ∀ k < d.nb, eval i (pointed d e o v k) = .ok (U k i)) (hdt : 0 < d.dt) (hnv : d.novel = false) {ri : ℝ} {pos : ℕ → ℝ} (hri : ri ≤ pos 1)
    {k : ℕ} (hk : k + 2 < d.nb) (t1 : d.tinit + k * d.dt < pos 0) (t2 : pos 0 < d.tinit + (k + 1) * d.dt) {g : Tensor} (hg : g.IsSymm)
    (u1 : sp g (U k) (U k) = -1) (u2 : sp g (U (k + 1)) (U (k + 1)) = -1) :
    ∃ X : Vec, (∀ i, ∃ d', getVelocity eval (some ri) pos i d = .ok (X i, d')) ∧ (sp g X X = -1 ↔ sp g (U k) (U (k + 1)) = -1) := by
  have hfound : found d (pos 0) = k + 2 := by
    obtain ⟨b1, b2, b3, b4⟩ := search_spec (pos 0) d.dt (d.nb - 1) d.tinit 1
    change 1 ≤ found d (pos 0) at b1
    change found d (pos 0) ≤ _ at b2
    change 1 < found d (pos 0) → d.tinit + ((found d (pos 0) : ℝ) - (1 : ℕ) - 1) * d.dt < pos 0 at b3
    change found d (pos 0) < _ → pos 0 ≤ d.tinit + ((found d (pos 0) : ℝ) - (1 : ℕ)) * d.dt at b4
    generalize found d (pos 0) = j at *
    push_cast at b3 b4
    have hkR : (0 : ℝ) ≤ k := Nat.cast_nonneg k
    have l1 : k + 2 ≤ j := by
      by_contra hx
      have h3 := b4 (by omega)
      have : (j : ℝ) ≤ k + 1 := by exact_mod_cast (show j ≤ k + 1 by omega)
      nlinarith
    have l2 : j ≤ k + 2 := by
      by_contra hx
      have h3 := b3 (by omega)
      have : (k : ℝ) + 3 ≤ j := by exact_mod_cast (show k + 3 ≤ j by omega)
      nlinarith
    omega
  refine ⟨fun i => U k i + (U (k + 1) i - U k i) * ((pos 0 - (d.tinit + k * d.dt)) / d.dt), fun i => ?_, ?_⟩
  · obtain ⟨x, m, hx, -, h2⟩ := dated_holds h (hev i) (pos 0)
    rw [hfound] at h2
    have := h2 (by omega) (by omega)
    refine ⟨pointed d e o v m, ?_⟩
    unfold getVelocity
    rw [if_neg (by simp [hnv])]
    simp only
    rw [if_neg (not_lt.2 hri), hx, this]
    simp only [Nat.add_sub_cancel, show k + 2 - 1 = k + 1 from rfl]
    push_cast
    rw [show ((k : ℝ) + 2 - 2) = k by ring]
    congr 2
    field_simp
  · apply (velocity_norm g hg (U k) (U (k + 1)) ((pos 0 - (d.tinit + k * d.dt)) / d.dt) u1 u2).2
    · exact div_pos (by linarith) hdt
    · rw [div_lt_one hdt]
      linarith

/-! ## What is not set, and what is freed -/

/-- C142 (negation). A disk that was not given a directory has no file in its series but counts one: its emission at any date, like the name of the directory, is not defined. -/
theorem unset_wrong (big : ℝ) (bb : ℝ → ℝ → ℝ) (unit : ℝ) (risco : Option ℝ) (nu dsem : ℝ) (co : ℕ → ℝ) :
    emission bb unit risco nu dsem co (init big) = .error .ub ∧ fileName (init big) = .error .ub := by
  refine ⟨?_, rfl⟩
  unfold emission dated
  have : found (init big) (co 0) = 1 := rfl
  simp only
  rw [this, if_pos (.inl rfl)]
  unfold copyQuantities
  rw [if_neg (by simp [init])]
  rfl

/-- C142 (negation). Once a disk was used, giving it a new grid frees one of the arrays of the series: the next use at that date is undefined. -/
theorem freed_wrong {d : Disk} {e v : ℕ → List ℝ} {o : Option (ℕ → List ℝ)} (h : Series d e o v) {eval : Disk → M ℝ} {val : ℕ → ℝ}
    (hev : ∀ i < d.nb, eval (pointed d e o v i) = .ok (val i)) {time : ℝ} (htime : time ≤ d.tinit) (p : Option (List ℝ)) (a b c f : ℕ) :
    ∃ x d', dated eval time d = .ok (x, d') ∧ dated eval time (copyEmissquant p a b c f d').1 = .error .ub := by
  have hf : ∀ n, DynDisk.search time d.dt n d.tinit 1 = 1 := fun n => by
    cases n with
    | zero => rfl
    | succ n => rw [DynDisk.search, if_neg (not_lt.2 htime)]
  have h0 := h.nb
  have h1 : dated eval time d = .ok (val 0, pointed d e o v 0) := by
    unfold dated
    simp only
    rw [show found d time = 1 from hf _, if_pos (.inl rfl), copy_ok h le_rfl (by omega)]
    simp only [bind, Except.bind]
    rw [show 1 - 1 = 0 from rfl, hev 0 h0]
  refine ⟨_, _, h1, ?_⟩
  obtain ⟨l, hl, hr⟩ := h.em
  have hlen : 0 < l.length := by
    by_contra hx
    have := hr 0 h0
    rw [List.getElem?_eq_none (by omega)] at this
    cases this
  have e1 : ((copyEmissquant p a b c f (pointed d e o v 0)).1).em = free d.em 0 := rfl
  have e2 : ((copyEmissquant p a b c f (pointed d e o v 0)).1).nb = d.nb := rfl
  unfold dated
  simp only
  rw [show found (copyEmissquant p a b c f (pointed d e o v 0)).1 time = 1 from hf _, if_pos (.inl rfl)]
  unfold copyQuantities
  rw [if_neg (by rw [e2]; omega), e1, hl]
  simp only [free, Option.map, row, Nat.sub_self, List.getElem?_set_self hlen]
  rfl

end Gyoto.DynDisk3D
