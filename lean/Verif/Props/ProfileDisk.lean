import Verif.Model.ProfileDisk
import Mathlib.Tactic.Ring
import Mathlib.Tactic.Linarith
import Mathlib.Tactic.NormNum
import Mathlib.Tactic.FinCases

/-!
# What a hit on `ThinDiskProfile` and `StochasticThinDisk` adds to the requested quantities
-/

namespace Gyoto.ProfileDisk

open Gyoto.Transfer Gyoto.HitQ

/-! ### C102: what is added -/

/-- The ratio of the frequency observed to the frequency emitted. -/
noncomputable def shift (s : Setup) (h : Hit) : ℝ := 1 / h.ggredm1 s.noredshift

/-- The two disks. -/
inductive Which where
  | profile
  | stoch

noncomputable def Which.hit : Which → Setup → Hit → State → Out State
  | .profile => profileHit
  | .stoch => stochHit

variable {s : Setup} {p : Spectro} {nu : ℝ}

theorem nb_one (hs : s.spr = some p) (hp : p.mid = [nu]) : s.nb = 1 := by
  unfold Setup.nb; rw [hs]; simp [hp]

theorem hit_spectrum (w : Which) (hs : s.spr = some p) (hp : p.mid = [nu]) (h : Hit) (r : Ray) (d : Data) (S : Nat → ℝ) (h4 : d.user4 = none)
    (hS : d.spectrum = some S) : w.hit s h (r, some d) = .ok (r, some { d with spectrum := some (Function.update S 0 (S 0 + r.freqobs * (h.emission (nu / shift s h) (h.dsem s.noredshift) * shift s h ^ 3))) }) := by
  have e : spectrum s h r d S = .ok (r, some { d with spectrum := some (Function.update S 0 (S 0 + r.freqobs * (h.emission (nu / shift s h) (h.dsem s.noredshift) * shift s h ^ 3))) }) := by
    unfold spectrum Setup.nuem
    rw [hs]
    simp only [hp, List.map_cons, List.map_nil, spectrumLoop, getTransmission, if_true, Out.bind]
    have e1 : nu / shift s h = nu * h.ggredm1 s.noredshift := by unfold shift; rw [div_div_eq_mul_div, div_one]
    rw [e1]
    unfold shift
    congr 4
    congr 2
    ring
  rw [← e]
  cases w
  · simp only [Which.hit, profileHit, nb_one hs hp, h4, hS, ne_eq, not_true, if_false]
  · simp only [Which.hit, stochHit, nb_one hs hp, h4, hS, ne_eq, not_true, if_false]

/-- C102. The spectrum: with a spectrometer of one channel, every hit along the ray adds what is emitted at the emitted frequency times
the cube of the redshift, whatever lies in front of it; the other elements of the array are left as they are. -/
theorem spectrum_total (w : Which) (hs : s.spr = some p) (hp : p.mid = [nu]) (l : List Hit) (r : Ray) (d : Data) (S : Nat → ℝ) (h4 : d.user4 = none)
    (hS : d.spectrum = some S) : hits (w.hit s) l (r, some d) = .ok (r, some { d with spectrum := some (Function.update S 0 (S 0 + r.freqobs * (l.map fun h => h.emission (nu / shift s h) (h.dsem s.noredshift) * shift s h ^ 3).sum)) }) := by
  induction l generalizing d S with
  | nil => simp [hits, hS.symm]
  | cons h hs' ih =>
    simp only [hits]
    rw [hit_spectrum w hs hp h r d S h4 hS]
    simp only [Out.bind]
    rw [ih _ (Function.update S 0 (S 0 + r.freqobs * (h.emission (nu / shift s h) (h.dsem s.noredshift) * shift s h ^ 3)))]
    · simp only [Function.update_self, Function.update_idem, List.map_cons, List.sum_cons]
      congr 5
      ring_nf
    · exact h4
    · rfl

theorem hit_user4 (w : Which) (hn : s.nb = 1) (h : Hit) (r : Ray) (d : Data) (v : ℝ) (h4 : d.user4 = some v) :
    w.hit s h (r, some d) = .ok (r, some { d with user4 := some (v + r.freqobs * (h.emission (1 / shift s h) (h.dsem s.noredshift) * shift s h ^ 4)) }) := by
  have e : user4 s h r d v = .ok (r, some { d with user4 := some (v + r.freqobs * (h.emission (1 / shift s h) (h.dsem s.noredshift) * shift s h ^ 4)) }) := by
    unfold user4
    simp only [getTransmission, if_true, Out.bind]
    have e1 : 1 / shift s h = h.ggredm1 s.noredshift := by unfold shift; rw [one_div_one_div]
    rw [e1]
    unfold shift
    congr 5
    ring
  cases w
  · simp only [Which.hit, profileHit, hn, h4]
    exact e
  · simp only [Which.hit, stochHit, hn, h4]
    exact e

/-- C102. The fourth user quantity: every hit adds the emission times the fourth power of the redshift; the frequency given to the
emission is the ratio of the frequencies, not a frequency. -/
theorem user4_total (w : Which) (hn : s.nb = 1) (l : List Hit) (r : Ray) (d : Data) (v : ℝ) (h4 : d.user4 = some v) :
    hits (w.hit s) l (r, some d) = .ok (r, some { d with user4 := some (v + r.freqobs * (l.map fun h => h.emission (1 / shift s h) (h.dsem s.noredshift) * shift s h ^ 4).sum) }) := by
  induction l generalizing d v with
  | nil => simp [hits, h4.symm]
  | cons h hs' ih =>
    simp only [hits]
    rw [hit_user4 w hn h r d v h4]
    simp only [Out.bind]
    rw [ih _ (v + r.freqobs * (h.emission (1 / shift s h) (h.dsem s.noredshift) * shift s h ^ 4)) rfl]
    simp only [List.map_cons, List.sum_cons]
    congr 5
    ring

/-- C102. The redshift, when it is the first quantity requested that these disks know, is that of the last hit. -/
theorem redshift_last (w : Which) (hn : s.nb = 1) (l : List Hit) (h : Hit) (r : Ray) (d : Data) (z : ℝ) (h4 : d.user4 = none) (hS : d.spectrum = none)
    (hz : d.redshift = some z) : hits (w.hit s) (l ++ [h]) (r, some d) = .ok (r, some { d with redshift := some (shift s h) }) := by
  have one : ∀ (h : Hit) (d : Data), d.user4 = none → d.spectrum = none → (∃ z, d.redshift = some z) →
      w.hit s h (r, some d) = .ok (r, some { d with redshift := some (shift s h) }) := by
    intro h d h4 hS ⟨z, hz⟩
    cases w
    · simp only [Which.hit, profileHit, hn, h4, hS, hz]; rfl
    · simp only [Which.hit, stochHit, hn, h4, hS, hz]; rfl
  induction l generalizing d z with
  | nil =>
    simp only [List.nil_append, hits]
    rw [one h d h4 hS ⟨z, hz⟩]
    rfl
  | cons a as ih =>
    simp only [List.cons_append, hits]
    rw [one a d h4 hS ⟨z, hz⟩]
    exact ih { d with redshift := some (shift s a) } (shift s a) h4 hS rfl

/-- C102. `StochasticThinDisk` gives the coordinates of the last hit, when nothing before them in the order of the tests is requested. -/
theorem impact_last (hn : s.nb = 1) (l : List Hit) (h : Hit) (r : Ray) (d : Data) (v : Fin 16 → ℝ) (h4 : d.user4 = none) (hS : d.spectrum = none)
    (hz : d.redshift = none) (hi : d.impact = some v) (h8 : ∀ a ∈ l ++ [h], a.size ≤ 8) :
    hits (stochHit s) (l ++ [h]) (r, some d) = .ok (r, some { d with impact := some h.impact }) := by
  have one : ∀ (h : Hit) (d : Data), d.user4 = none → d.spectrum = none → d.redshift = none → (∃ z, d.impact = some z) → h.size ≤ 8 →
      stochHit s h (r, some d) = .ok (r, some { d with impact := some h.impact }) := by
    intro h d h4 hS hz ⟨v, hv⟩ h8
    simp only [stochHit, hn, h4, hS, hz, hv, not_lt.2 h8, if_false]
    rfl
  induction l generalizing d v with
  | nil =>
    simp only [List.nil_append, hits]
    rw [one h d h4 hS hz ⟨v, hi⟩ (h8 h (by simp))]
    rfl
  | cons a as ih =>
    simp only [List.cons_append, hits]
    rw [one a d h4 hS hz ⟨v, hi⟩ (h8 a (by simp))]
    exact ih { d with impact := some a.impact } a.impact h4 hS hz rfl (fun b hb => h8 b (by simp at hb ⊢; tauto))

theorem user4_ray {r : Ray} {d : Data} {v : ℝ} {h : Hit} {y : State} (e : user4 s h r d v = .ok y) : y.1 = r := by
  unfold user4 at e
  simp only [getTransmission, if_true, Out.bind] at e
  injection e with e
  rw [← e]

theorem spectrum_ray {r : Ray} {d : Data} {S : Nat → ℝ} {h : Hit} {y : State} (e : spectrum s h r d S = .ok y) : y.1 = r := by
  unfold spectrum at e
  simp only [getTransmission, if_true, Out.bind] at e
  injection e with e
  rw [← e]

theorem hit_ray (w : Which) (h : Hit) (x y : State) (e : w.hit s h x = .ok y) : y.1 = x.1 := by
  obtain ⟨r, d⟩ := x
  cases w
  · simp only [Which.hit, profileHit] at e
    split at e
    · cases e
    · rcases d with _ | ⟨_ | v, _ | S, _ | z, i⟩ <;> simp only at e <;>
        first
        | exact user4_ray e
        | exact spectrum_ray e
        | (injection e with e; rw [← e])
        | cases e
  · simp only [Which.hit, stochHit] at e
    split at e
    · cases e
    · rcases d with _ | ⟨_ | v, _ | S, _ | z, _ | i⟩ <;> simp only at e <;>
        first
        | exact user4_ray e
        | exact spectrum_ray e
        | (injection e with e; rw [← e])
        | (split at e <;> cases e <;> rfl)
        | cases e

/-- C102. These disks never absorb: they leave the transmission of the ray as it was, even when the object is said to be optically thick. -/
theorem never_absorbs (w : Which) (l : List Hit) (x y : State) (e : hits (w.hit s) l x = .ok y) : y.1 = x.1 := by
  induction l generalizing x with
  | nil => simp only [hits] at e; injection e with e; rw [e]
  | cons h hs ih =>
    simp only [hits] at e
    rcases e' : w.hit s h x with z | _ | _
    · rw [e'] at e
      rw [ih z e, hit_ray w h x z e']
    · rw [e'] at e; cases e
    · rw [e'] at e; cases e

/-! ### What is refused, and what goes wrong -/

/-- C102. A spectrometer without exactly one channel is refused, whatever is requested. -/
theorem refused (w : Which) (hn : s.nb ≠ 1) (h : Hit) (x : State) : w.hit s h x = .throws := by
  cases w <;> simp only [Which.hit, profileHit, stochHit, if_pos hn]

/-- Finding: `Complex::Impact` first calls its elements with a null `data` (`lib/ComplexAstrobj.C:149`), which `ThinDiskProfile` then
dereferences. `StochasticThinDisk` does not. -/
theorem null_data_wrong (hn : s.nb = 1) (h : Hit) (r : Ray) : profileHit s h (r, none) = .ub ∧ stochHit s h (r, none) = .ok (r, none) := by
  simp only [profileHit, stochHit, hn]
  exact ⟨rfl, rfl⟩

/-- Finding: `ThinDiskProfile` throws when only the coordinates of the impact are requested. -/
theorem impact_refused_wrong (hn : s.nb = 1) (h : Hit) (r : Ray) (d : Data) (h4 : d.user4 = none) (hS : d.spectrum = none) (hz : d.redshift = none) :
    profileHit s h (r, some d) = .throws := by
  simp only [profileHit, hn, h4, hS, hz]
  rfl

/-- C102. With at least one quantity that it knows, and a spectrometer of one channel, the call returns. -/
theorem served (w : Which) (hn : s.nb = 1) (h : Hit) (r : Ray) (d : Data) (hd : d.user4 ≠ none ∨ d.spectrum ≠ none ∨ d.redshift ≠ none) :
    ∃ y, w.hit s h (r, some d) = .ok y := by
  rcases d with ⟨_ | v, _ | S, _ | z, i⟩ <;> cases w <;> simp only [Which.hit, profileHit, stochHit, hn] <;>
    first
    | exact ⟨_, rfl⟩
    | (simp at hd)

/-- Finding: a requested quantity is filled only if none before it (user4, spectrum, redshift, coordinates) is requested: the
redshift requested with the spectrum keeps the value it had. -/
theorem redshift_lost_wrong (w : Which) (hs : s.spr = some p) (hp : p.mid = [nu]) (l : List Hit) (r : Ray) (S : Nat → ℝ) (z : ℝ) (i : Option (Fin 16 → ℝ)) :
    ∃ d', hits (w.hit s) l (r, some ⟨none, some S, some z, i⟩) = .ok (r, some d') ∧ d'.redshift = some z ∧ d'.impact = i :=
  ⟨_, spectrum_total w hs hp l r ⟨none, some S, some z, i⟩ S rfl rfl, rfl, rfl⟩

/-- Finding: so does the spectrum requested with the fourth user quantity. -/
theorem spectrum_lost_wrong (w : Which) (hn : s.nb = 1) (l : List Hit) (r : Ray) (v : ℝ) (S : Option (Nat → ℝ)) (z : Option ℝ) (i : Option (Fin 16 → ℝ)) :
    ∃ d', hits (w.hit s) l (r, some ⟨some v, S, z, i⟩) = .ok (r, some d') ∧ d'.spectrum = S ∧ d'.redshift = z ∧ d'.impact = i :=
  ⟨_, user4_total w hn l r ⟨some v, S, z, i⟩ v rfl, rfl, rfl, rfl⟩

/-! ### The profile and its parameters -/

/-- C102. With the indices 0 and 3, at 230 GHz and across the magnetic field, the profile is `norm exp(-zeta r / rin)`. -/
theorem emission_simple {zeta rin norm rr : ℝ} (hr : 0 < rr) (hi : 0 < rin) :
    emission [zeta, rin, norm, 0, 3] 230e9 rr (Real.pi / 2) = some (norm * Real.exp (-zeta * rr / rin)) := by
  unfold emission
  simp only [List.getD_cons_zero, List.getD_cons_succ, Real.sin_pi_div_two]
  rw [if_pos ⟨hr, hi, by norm_num, by norm_num⟩]
  have e1 : (230e9 : ℝ) * 1e-9 = 230 := by norm_num
  have e2 : (230 : ℝ) ^ (-1 / 3 : ℝ) * (230 : ℝ) ^ (1 / 3 : ℝ) = 1 := by
    rw [← Real.rpow_add (by norm_num)]
    norm_num
  rw [e1, neg_zero, Real.rpow_zero, Real.one_rpow, div_self (by norm_num : (3 : ℝ) ≠ 0), Real.rpow_one]
  congr 2
  · norm_num; ring
  · congr 1
    linear_combination (-zeta * (rr / rin)) * e2

/-- C102. The profile is positive, grows with the angle to the magnetic field up to a right angle. -/
theorem emission_angle {zeta rin norm i1 i2 nu rr a b : ℝ} (hz : 0 ≤ zeta) (hn : 0 < norm) (hi : 0 < rin) (hnu : 0 < nu) (hr : 0 < rr)
    (ha : 0 < a) (hab : a ≤ b) (hb : b ≤ Real.pi / 2) : ∃ x y, emission [zeta, rin, norm, i1, i2] nu rr a = some x ∧
      emission [zeta, rin, norm, i1, i2] nu rr b = some y ∧ 0 < x ∧ x ≤ y := by
  have hsa : 0 < Real.sin a := Real.sin_pos_of_pos_of_lt_pi ha (by linarith [Real.pi_pos])
  have hab' : Real.sin a ≤ Real.sin b := Real.sin_le_sin_of_le_of_le_pi_div_two (by linarith [Real.pi_pos]) hb hab
  unfold emission
  simp only [List.getD_cons_zero, List.getD_cons_succ]
  rw [if_pos ⟨hr, hi, hnu, hsa⟩, if_pos ⟨hr, hi, hnu, by linarith⟩]
  have hp : 0 < norm * nu * 1e-9 / 230 * rr ^ (-i1) := by positivity
  refine ⟨_, _, rfl, rfl, mul_pos hp (Real.exp_pos _), ?_⟩
  refine mul_le_mul_of_nonneg_left (Real.exp_le_exp.2 ?_) hp.le
  have hs : Real.sin b ^ (-1 / 3 : ℝ) ≤ Real.sin a ^ (-1 / 3 : ℝ) := Real.rpow_le_rpow_of_nonpos hsa hab' (by norm_num)
  have hk : 0 ≤ zeta * (230 : ℝ) ^ (-1 / 3 : ℝ) * (nu * 1e-9) ^ (1 / 3 : ℝ) * (rr / rin) ^ (i2 / 3) := by positivity
  have := mul_le_mul_of_nonneg_left hs hk
  linarith

/-- C102. The parameters given replace the first ones, the others are kept, and more than ten are refused. -/
theorem param_kept {q v q' : List ℝ} (hq : q.length = 10) (e : setParam q v = some q') :
    q'.length = 10 ∧ (∀ i, i < v.length → q'.getD i 0 = v.getD i 0) ∧ (∀ i, v.length ≤ i → q'.getD i 0 = q.getD i 0) := by
  unfold setParam at e
  split at e
  · cases e
  · next hl =>
    injection e with e
    subst e
    refine ⟨by simp; omega, fun i hi => ?_, fun i hi => ?_⟩
    · simp [List.getD_eq_getElem?_getD, List.getElem?_append_left hi]
    · simp only [List.getD_eq_getElem?_getD, List.getElem?_append_right hi, List.getElem?_drop]
      rw [Nat.add_sub_of_le hi]

theorem param_refused (q v : List ℝ) : setParam q v = none ↔ 10 < v.length := by
  unfold setParam
  split <;> simp_all

/-- C102. The names of the motions: what was set is read back, what is read can be set. -/
theorem kind_names : (∀ k i, kindOf k = some i → kindName i = k) ∧ ∀ i, kindOf (kindName i) = some i := by
  constructor
  · intro k i h
    unfold kindOf at h
    split at h
    · next e => cases h; exact e.symm
    · split at h
      · next e => cases h; exact e.symm
      · split at h
        · next e => cases h; exact e.symm
        · cases h
  · intro i
    fin_cases i <;> simp [kindOf, kindName]

/-! ### Examples -/

/-- C102, on an example: a disk hit twice, at two redshifts. -/
example (r : Ray) (h1 h2 : Hit) (e1 : h1.emission = fun nu _ => nu) (e2 : h2.emission = fun nu _ => 2 * nu) (hr : r.freqobs = 1) (h0 : ℝ) :
    hits (profileHit ⟨true, h0, false, some ⟨[3], [2, 4]⟩⟩) [h1, h2] (r, some ⟨none, some fun _ => 5, none, none⟩) =
      .ok (r, some ⟨none, some (Function.update (fun _ => 5) 0 14), none, none⟩) := by
  have := spectrum_total .profile (s := ⟨true, h0, false, some ⟨[3], [2, 4]⟩⟩) rfl rfl [h1, h2] r ⟨none, some fun _ => 5, none, none⟩ (fun _ => 5) rfl rfl
  simp only [Which.hit] at this
  rw [this]
  simp [e1, e2, hr, shift, Hit.ggredm1]
  norm_num

end Gyoto.ProfileDisk
