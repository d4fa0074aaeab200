import Verif.Model.KerrAdaptive
import Verif.Lemmas.Rk4Limit
import Verif.Props.KerrRk4
import Verif.Props.Adaptive

/-!
# The adaptive integrator of the Kerr metric
-/

namespace Gyoto.KerrBL

open Gyoto.MetricAlg Topology Asymptotics Filter

/-- What the inner loop leaves. -/
theorem zLoop_ok {rk : ℝ → Vec × Vec → StepRes} {coor : Vec × Vec} {hinit : ℝ} (fuel : Nat) {h0 hbis h0' hbis' : ℝ} {z z' : Bool}
    {c1 c2 : Vec × Vec} (hb : hbis = 0.5 * h0) (h : zLoop rk coor hinit fuel h0 hbis z = some (.ok h0' hbis' c1 c2 z')) :
    hbis' = 0.5 * h0' ∧ (∃ half : Vec × Vec, rk h0' coor = .ok c1.1 c1.2 ∧ rk hbis' coor = .ok half.1 half.2 ∧
      rk hbis' half = .ok c2.1 c2.2) ∧ (∃ k : Nat, h0' = h0 * 1.1 ^ k) ∧ (z' = true ∨ (z = z' ∧ h0' = h0)) := by
  induction fuel generalizing h0 hbis z with
  | zero => cases h
  | succ fuel ih =>
    have again : ∀ c : Nat, (if c = 2 then some ZRes.failed else if h0 * 1.1 / hinit > 1e3 then some .failed
        else zLoop rk coor hinit fuel (h0 * 1.1) (hbis * 1.1) true) = some (.ok h0' hbis' c1 c2 z') →
        hbis' = 0.5 * h0' ∧ (∃ half : Vec × Vec, rk h0' coor = .ok c1.1 c1.2 ∧ rk hbis' coor = .ok half.1 half.2 ∧
          rk hbis' half = .ok c2.1 c2.2) ∧ (∃ k : Nat, h0' = h0 * 1.1 ^ k) ∧ (z' = true ∨ (z = z' ∧ h0' = h0)) := by
      intro c hc
      by_cases e1 : c = 2
      · rw [if_pos e1] at hc; cases hc
      rw [if_neg e1] at hc
      by_cases e2 : h0 * 1.1 / hinit > 1e3
      · rw [if_pos e2] at hc; cases hc
      rw [if_neg e2] at hc
      obtain ⟨q1, q2, ⟨k, q3⟩, q4⟩ := ih (by rw [hb]; ring) hc
      refine ⟨q1, q2, ⟨k + 1, by rw [q3]; ring⟩, Or.inl ?_⟩
      rcases q4 with q4 | q4
      · exact q4
      · exact q4.1.symm
    unfold zLoop at h
    dsimp only at h
    split at h
    · cases h
    · exact again _ h
    rename_i x1 p1 e1
    split at h
    · cases h
    · exact again _ h
    rename_i xh ph e2
    split at h
    · cases h
    · exact again _ h
    rename_i x2 p2 e3
    simp only [Option.some.injEq, ZRes.ok.injEq] at h
    obtain ⟨rfl, rfl, rfl, rfl, rfl⟩ := h
    exact ⟨hb, ⟨(xh, ph), e1, e2, e3⟩, ⟨0, by ring⟩, Or.inr ⟨rfl, rfl⟩⟩

theorem nextStep_ok {deltaMin h1max h0 err : ℝ} (hm : 0 ≤ deltaMin) (hM : 0 ≤ h1max) (h0n : h0 ≠ 0) :
    |nextStep deltaMin h1max h0 err| ≤ h1max ∧ (deltaMin ≤ h1max → deltaMin ≤ |nextStep deltaMin h1max h0 err|) ∧
      0 ≤ nextStep deltaMin h1max h0 err * h0 := by
  unfold nextStep
  dsimp only
  obtain ⟨k, hk⟩ : ∃ k, k = (if err > 1e-6 then 0.9 * h0 * err ^ (-0.2 : ℝ) else 4 * h0) := ⟨_, rfl⟩
  have ks : 0 < k * h0 := by
    have h2 : 0 < h0 * h0 := mul_self_pos.2 h0n
    rw [hk]
    split_ifs with h
    · have : 0 < err ^ (-0.2 : ℝ) := Real.rpow_pos_of_pos (by linarith [show (0 : ℝ) < 1e-6 by norm_num]) _
      have h2 : 0.9 * h0 * err ^ (-0.2 : ℝ) * h0 = 0.9 * (h0 * h0) * err ^ (-0.2 : ℝ) := by ring
      rw [h2]
      positivity
    · nlinarith
  rw [← hk]
  clear hk
  have sgn : ∀ k : ℝ, 0 < k * h0 → ∀ c : ℝ, 0 ≤ c → |if k > 0 then c else -c| = c ∧ 0 ≤ (if k > 0 then c else -c) * h0 := by
    intro k ks c hc
    split_ifs with h
    · exact ⟨abs_of_nonneg hc, mul_nonneg hc (nonneg_of_mul_nonneg_right ks.le h)⟩
    · rw [abs_neg, abs_of_nonneg hc]
      refine ⟨rfl, ?_⟩
      have : h0 < 0 := by
        by_contra hh
        have := mul_nonpos_of_nonpos_of_nonneg (not_lt.1 h) (not_lt.1 hh)
        linarith
      exact mul_nonneg_of_nonpos_of_nonpos (by linarith) this.le
  have s1 := sgn k ks deltaMin hm
  by_cases c1 : |k| < deltaMin
  · rw [if_pos c1]
    have dpos : 0 < deltaMin := lt_of_le_of_lt (abs_nonneg _) c1
    have ks2 : 0 < (if k > 0 then deltaMin else -deltaMin) * h0 := by
      refine lt_of_le_of_ne s1.2 (Ne.symm (mul_ne_zero ?_ h0n))
      intro h; rw [h, abs_zero] at s1; linarith [s1.1]
    have s2 := sgn _ ks2 h1max hM
    by_cases c2 : |if k > 0 then deltaMin else -deltaMin| > h1max
    · rw [if_pos c2, s2.1]
      exact ⟨le_refl _, id, s2.2⟩
    · rw [if_neg c2]
      exact ⟨not_lt.1 c2, fun _ => s1.1.ge, s1.2⟩
  · rw [if_neg c1]
    have s2 := sgn k ks h1max hM
    by_cases c2 : |k| > h1max
    · rw [if_pos c2, s2.1]
      exact ⟨le_refl _, id, s2.2⟩
    · rw [if_neg c2]
      exact ⟨not_lt.1 c2, fun _ => not_lt.1 c1, ks.le⟩

/-- What the outer loop returns, apart from errors and failures: the end of the function applied to a step which two half steps
confirm. -/
theorem loop_ok {rk : ℝ → Vec × Vec → StepRes} {fin : Vec × Vec → ℝ → AdRes} {coor : Vec × Vec} {delta0 : Nat → ℝ}
    {deltaMin h1max : ℝ} {inner : Nat} (hd : ∀ i, 0 < delta0 i) (fuel : Nat) {count : Nat} {z : Bool} {h0 hbis : ℝ} (hb : hbis = 0.5 * h0)
    {out : AdRes} (h : adaptiveLoop rk fin coor delta0 deltaMin h1max inner fuel count z h0 hbis = some out) :
    out = .error ∨ out = .failed ∨ ∃ (c : ℝ) (new half two : Vec × Vec) (e : ℝ), 0 < c ∧ rk (c * h0) coor = .ok new.1 new.2 ∧
      rk (c * h0 / 2) coor = .ok half.1 half.2 ∧ rk (c * h0 / 2) half = .ok two.1 two.2 ∧
      (∀ i < 8, |elems two i - elems new i| ≤ delta0 i) ∧ out = fin new (nextStep deltaMin h1max (c * h0) e) := by
  induction fuel generalizing count z h0 hbis with
  | zero => cases h
  | succ fuel ih =>
    unfold adaptiveLoop at h
    cases hz : zLoop rk coor h0 inner h0 hbis z with
    | none => rw [hz] at h; cases h
    | some r =>
      rw [hz] at h
      cases r with
      | error => left; simpa using h.symm
      | failed => right; left; simpa using h.symm
      | ok h0' hbis' c1 c2 z' =>
        dsimp only at h
        obtain ⟨q1, ⟨half, r1, r2, r3⟩, ⟨k, q3⟩, -⟩ := zLoop_ok inner hb hz
        have kp : (0 : ℝ) < 1.1 ^ k := by positivity
        by_cases e1 : count + 1 > 50 ∧ z' = true
        · rw [if_pos e1] at h; right; left; simpa using h.symm
        rw [if_neg e1] at h
        by_cases e2 : GenericMotion.errOf delta0 (elems c1) (elems c2) > 1
        · rw [if_pos e2] at h
          have ep : (0 : ℝ) < GenericMotion.errOf delta0 (elems c1) (elems c2) ^ (-0.25 : ℝ) := Real.rpow_pos_of_pos (by linarith) _
          generalize GenericMotion.errOf delta0 (elems c1) (elems c2) ^ (-0.25 : ℝ) = q at *
          rcases ih rfl h with h1 | h1 | ⟨c, new, hf, two, e, p0, p1, p2, p3, p4, p5⟩
          · exact Or.inl h1
          · exact Or.inr (Or.inl h1)
          · have hc : c * (0.9 * h0' * q) = (c * (0.9 * q) * 1.1 ^ k) * h0 := by rw [q3]; ring
            rw [hc] at p1 p2 p3 p5
            exact Or.inr (Or.inr ⟨c * (0.9 * q) * 1.1 ^ k, new, hf, two, e, by positivity, p1, p2, p3, p4, p5⟩)
        · rw [if_neg e2] at h
          rw [Option.some.injEq] at h
          refine Or.inr (Or.inr ⟨1.1 ^ k, c1, half, c2, GenericMotion.errOf delta0 (elems c1) (elems c2), kp, ?_, ?_, ?_, ?_, ?_⟩)
          · rw [mul_comm, ← q3]; exact r1
          · rw [mul_comm, ← q3, show h0' / 2 = hbis' by rw [q1]; ring]; exact r2
          · rw [mul_comm, ← q3, show h0' / 2 = hbis' by rw [q1]; ring]; exact r3
          · exact (GenericMotion.errOf_le hd).1 (not_lt.1 e2)
          · rw [mul_comm, ← q3]; exact h.symm

theorem not_tooFar {difftol old new : ℝ} (h : ¬tooFar difftol old new) : |old - new| ≤ difftol * |old| := by
  unfold tooFar at h
  by_cases h0 : old = 0
  · rw [if_neg (not_not.2 h0)] at h
    by_cases h1 : new = 0
    · rw [h0, h1]; simp
    · rw [if_pos h1] at h; exact absurd trivial h
  · rw [if_pos h0, not_lt, div_le_iff₀ (abs_pos.2 h0)] at h
    exact h

/-- C78. What the adaptive integrator returns when it succeeds: its position is that of one step in the proposed direction, which two
steps of half the length confirm within the tolerance; its momenta are those of that step or what `CheckCons` made of them, with a
relative change of at most `difftol`; energy and angular momentum are exactly those in `cst`; the next step is in the same direction and
within the allowed range. -/
theorem adaptive_ok {a rsink difftol deltaMin h1max h0 : ℝ} {cst : Cst} {nearAxis : Vec → Bool} {x v x' v' dx dp : Vec} {h1 : ℝ}
    {inner fuel : Nat} (hdiff : diff a rsink cst x (makeMomentum a cst x v) = .ok dx dp) (hm : 0 ≤ deltaMin) (hM : 0 ≤ h1max)
    (ht : 0 ≤ difftol) (hh : h0 ≠ 0) (h : adaptive a rsink cst nearAxis difftol deltaMin h1max x v h0 inner fuel = some (.ok x' v' h1)) :
    (∃ (k : ℝ) (new half two : Vec × Vec), 0 < k * h0 ∧ myrk4Internal a rsink cst k x (makeMomentum a cst x v) = .ok new.1 new.2 ∧
      myrk4Internal a rsink cst (k / 2) x (makeMomentum a cst x v) = .ok half.1 half.2 ∧
      myrk4Internal a rsink cst (k / 2) half.1 half.2 = .ok two.1 two.2 ∧
      (∀ i, |two.1 i - new.1 i| ≤ 1e-15 + 1e-4 * |h0 * dx i| ∧ |two.2 i - new.2 i| ≤ 1e-15 + 1e-4 * |h0 * dp i|) ∧ x' = new.1 ∧
      ∃ p, v' = makeCoord a cst new.1 p ∧ (p = new.2 ∨ checkCons a cst (nearAxis new.1) new.1 new.2 = .ok p) ∧
        ∀ i, |new.2 i - p i| ≤ difftol * |new.2 i|) ∧
    (Regular a x' → (computeCst a x' v').E = cst.E ∧ (computeCst a x' v').L = cst.L) ∧
    |h1| ≤ h1max ∧ (deltaMin ≤ h1max → deltaMin ≤ |h1|) ∧ 0 ≤ h1 * h0 := by
  unfold adaptive at h
  dsimp only at h
  rw [hdiff] at h
  dsimp only at h
  have hd : ∀ i, (0 : ℝ) < 1e-15 + 0.0001 * |h0 * elems (dx, dp) i| := fun i => by positivity
  rcases loop_ok hd fuel rfl h with h2 | h2 | ⟨c, new, half, two, e, p0, p1, p2, p3, p4, p5⟩
  · cases h2
  · cases h2
  have cn : c * h0 ≠ 0 := mul_ne_zero p0.ne' hh
  obtain ⟨n1, n2, n3⟩ := nextStep_ok (err := e) hm hM cn
  have n4 : 0 ≤ nextStep deltaMin h1max (c * h0) e * h0 := by
    have : nextStep deltaMin h1max (c * h0) e * (c * h0) = c * (nextStep deltaMin h1max (c * h0) e * h0) := by ring
    rw [this] at n3
    exact nonneg_of_mul_nonneg_right n3 p0
  have cst1 : new.2 0 = -cst.E ∧ new.2 3 = cst.L := by
    have hp := p1
    unfold myrk4Internal at hp
    exact rk4_constants (fun x p dx dp e => diff_energy (stageInternal_ok e)) hp
  have hx : x' = new.1 ∧ h1 = nextStep deltaMin h1max (c * h0) e ∧ ∃ p, v' = makeCoord a cst new.1 p ∧
      (p = new.2 ∨ checkCons a cst (nearAxis new.1) new.1 new.2 = .ok p) ∧ (∀ i, |new.2 i - p i| ≤ difftol * |new.2 i|) ∧
      p 0 = -cst.E ∧ p 3 = cst.L := by
    have same : ∀ i, |new.2 i - new.2 i| ≤ difftol * |new.2 i| := by
      intro i
      rw [sub_self, abs_zero]
      positivity
    unfold finish at p5
    split at p5
    · cases p5
    · cases p5
    · rw [AdRes.ok.injEq] at p5
      exact ⟨p5.1, p5.2.2, _, p5.2.1, Or.inl rfl, same, cst1.1, cst1.2⟩
    · rename_i p hp
      have hpc : p 0 = -cst.E ∧ p 3 = cst.L := by
        unfold checkCons at hp
        dsimp only at hp
        split at hp
        · cases hp
        · cases hp
        split at hp
        · cases hp
        · cases hp
        rw [ConsRes.ok.injEq] at hp
        rw [← hp]
        exact ⟨rfl, rfl⟩
      split_ifs at p5
      · rw [AdRes.ok.injEq] at p5
        exact ⟨p5.1, p5.2.2, _, p5.2.1, Or.inl rfl, same, cst1.1, cst1.2⟩
      · rename_i hfar
        rw [not_or] at hfar
        rw [AdRes.ok.injEq] at p5
        refine ⟨p5.1, p5.2.2, _, p5.2.1, Or.inr hp, ?_, hpc.1, hpc.2⟩
        intro i
        match i with
        | 0 => rw [cst1.1, hpc.1, sub_self, abs_zero]; positivity
        | 1 => exact not_tooFar hfar.1
        | 2 => exact not_tooFar hfar.2
        | 3 => rw [cst1.2, hpc.2, sub_self, abs_zero]; positivity
  obtain ⟨rfl, rfl, p, rfl, hpp, hpd, e0, e3⟩ := hx
  refine ⟨⟨c * h0, new, half, two, ?_, p1, p2, p3, ?_, rfl, p, rfl, hpp, hpd⟩, ?_, n1, n2, n4⟩
  · have : c * h0 * h0 = c * (h0 * h0) := by ring
    rw [this]
    exact mul_pos p0 (mul_self_pos.2 hh)
  · intro i
    have hi := i.2
    have a1 := p4 i (by omega)
    have a2 := p4 (4 + i) (by omega)
    have o1 : Fin.ofNat 4 (i : Nat) = i := Fin.ext (by simp only [Fin.ofNat]; omega)
    have o2 : Fin.ofNat 4 (4 + (i : Nat)) = i := Fin.ext (by simp only [Fin.ofNat]; omega)
    unfold elems at a1 a2
    simp only [if_pos hi, o1] at a1
    simp only [if_neg (show ¬(4 + (i : Nat) < 4) by omega), o2] at a2
    rw [show (1e-4 : ℝ) = 0.0001 by norm_num]
    exact ⟨a1, a2⟩
  · intro hreg
    have := cst_coord hreg e0 e3
    exact ⟨this.1, this.2.1⟩

/-- The inner loop ends: each turn lengthens the step by a tenth, until it is a thousand times the first. -/
theorem zLoop_ends {rk : ℝ → Vec × Vec → StepRes} {coor : Vec × Vec} {hinit : ℝ} (fuel : Nat) {h0 hbis : ℝ} {z : Bool}
    (hr : 0 < h0 / hinit) (h : 1e3 < h0 / hinit * 1.1 ^ (fuel + 1)) : (zLoop rk coor hinit (fuel + 1) h0 hbis z).isSome := by
  induction fuel generalizing h0 hbis z with
  | zero =>
    have hlong : h0 * 1.1 / hinit > 1e3 := by
      rw [show h0 * 1.1 / hinit = h0 / hinit * 1.1 ^ (0 + 1) by ring]
      exact h
    unfold zLoop
    dsimp only
    simp only [if_pos hlong]
    split
    · rfl
    · split_ifs <;> rfl
    split
    · rfl
    · split_ifs <;> rfl
    split
    · rfl
    · split_ifs <;> rfl
    · rfl
  | succ fuel ih =>
    have e : h0 * 1.1 / hinit = h0 / hinit * 1.1 := by ring
    have again : ∀ c : Nat, (if c = 2 then some ZRes.failed else if h0 * 1.1 / hinit > 1e3 then some .failed
        else zLoop rk coor hinit (fuel + 1) (h0 * 1.1) (hbis * 1.1) true).isSome := by
      intro c
      by_cases e1 : c = 2
      · exact Option.isSome_iff_exists.2 ⟨_, if_pos e1⟩
      rw [if_neg e1]
      by_cases e2 : h0 * 1.1 / hinit > 1e3
      · exact Option.isSome_iff_exists.2 ⟨_, if_pos e2⟩
      rw [if_neg e2]
      refine ih (by rw [e]; positivity) ?_
      rw [e]
      rw [show h0 / hinit * 1.1 * 1.1 ^ (fuel + 1) = h0 / hinit * 1.1 ^ (fuel + 1 + 1) by ring]
      exact h
    unfold zLoop
    dsimp only
    split
    · rfl
    · exact again _
    split
    · rfl
    · exact again _
    split
    · rfl
    · exact again _
    · rfl

theorem zLoop_some {rk : ℝ → Vec × Vec → StepRes} {coor : Vec × Vec} {inner : Nat} (hi : 74 ≤ inner) {h0 hbis : ℝ} (hh : h0 ≠ 0)
    {z : Bool} : ∃ r, zLoop rk coor h0 inner h0 hbis z = some r := by
  obtain ⟨k, rfl⟩ : ∃ k, inner = k + 74 := ⟨inner - 74, by omega⟩
  refine Option.isSome_iff_exists.1 (zLoop_ends (k + 73) (by rw [div_self hh]; norm_num) ?_)
  rw [div_self hh, one_mul, show k + 73 + 1 = k + 74 by omega, pow_add]
  have h1 : (1 : ℝ) ≤ 1.1 ^ k := one_le_pow₀ (by norm_num)
  have h2 : (1e3 : ℝ) < 1.1 ^ 74 := by norm_num
  nlinarith

/-- Once the axis has been met, the outer loop ends within fifty turns. -/
theorem loop_axis {rk : ℝ → Vec × Vec → StepRes} {fin : Vec × Vec → ℝ → AdRes} {coor : Vec × Vec} {delta0 : Nat → ℝ}
    {deltaMin h1max : ℝ} {inner : Nat} (hi : 74 ≤ inner) (fuel : Nat) {count : Nat} {h0 : ℝ} (hh : h0 ≠ 0)
    (hc : 50 ≤ fuel + count) :
    (adaptiveLoop rk fin coor delta0 deltaMin h1max inner (fuel + 1) count true h0 (0.5 * h0)).isSome := by
  induction fuel generalizing count h0 with
  | zero =>
    obtain ⟨r, hz⟩ := zLoop_some (rk := rk) (coor := coor) (hbis := 0.5 * h0) (z := true) hi hh
    unfold adaptiveLoop
    rw [hz]
    cases r with
    | error => rfl
    | failed => rfl
    | ok h0' hbis' c1 c2 z' =>
      dsimp only
      have hz' : z' = true := by
        rcases (zLoop_ok inner rfl hz).2.2.2 with h | h
        · exact h
        · exact h.1.symm
      exact Option.isSome_iff_exists.2 ⟨_, if_pos ⟨by omega, hz'⟩⟩
  | succ fuel ih =>
    obtain ⟨r, hz⟩ := zLoop_some (rk := rk) (coor := coor) (hbis := 0.5 * h0) (z := true) hi hh
    unfold adaptiveLoop
    rw [hz]
    cases r with
    | error => rfl
    | failed => rfl
    | ok h0' hbis' c1 c2 z' =>
      dsimp only
      obtain ⟨-, -, ⟨k, q3⟩, q4⟩ := zLoop_ok inner rfl hz
      have hz' : z' = true := by
        rcases q4 with h | h
        · exact h
        · exact h.1.symm
      subst hz'
      by_cases e1 : count + 1 > 50 ∧ true = true
      · exact Option.isSome_iff_exists.2 ⟨_, if_pos e1⟩
      rw [if_neg e1]
      by_cases e2 : GenericMotion.errOf delta0 (elems c1) (elems c2) > 1
      · rw [if_pos e2]
        have ep : (0 : ℝ) < GenericMotion.errOf delta0 (elems c1) (elems c2) ^ (-0.25 : ℝ) := Real.rpow_pos_of_pos (by linarith) _
        refine ih ?_ (by omega)
        rw [q3]
        have : (1.1 : ℝ) ^ k ≠ 0 := pow_ne_zero _ (by norm_num)
        exact mul_ne_zero (mul_ne_zero (by norm_num) (mul_ne_zero hh this)) ep.ne'
      · exact Option.isSome_iff_exists.2 ⟨_, if_neg e2⟩

/-- The outer loop ends when short steps that succeed are precise enough. -/
theorem loop_ends {rk : ℝ → Vec × Vec → StepRes} {fin : Vec × Vec → ℝ → AdRes} {coor : Vec × Vec} {delta0 : Nat → ℝ}
    {deltaMin h1max η : ℝ} {inner : Nat} (hi : 74 ≤ inner)
    (hη : ∀ (h : ℝ) (new half two : Vec × Vec), |h| < η → rk h coor = .ok new.1 new.2 → rk (0.5 * h) coor = .ok half.1 half.2 →
      rk (0.5 * h) half = .ok two.1 two.2 → GenericMotion.errOf delta0 (elems new) (elems two) ≤ 1)
    (N : Nat) {fuel count : Nat} {h0 : ℝ} (hf : N + 52 ≤ fuel) (hh : h0 ≠ 0) (hN : |h0| * 0.9 ^ N < η) :
    (adaptiveLoop rk fin coor delta0 deltaMin h1max inner fuel count false h0 (0.5 * h0)).isSome := by
  induction N generalizing fuel count h0 with
  | zero =>
    obtain ⟨m, rfl⟩ : ∃ m, fuel = m + 1 + 1 := ⟨fuel - 2, by omega⟩
    obtain ⟨r, hz⟩ := zLoop_some (rk := rk) (coor := coor) (hbis := 0.5 * h0) (z := false) hi hh
    unfold adaptiveLoop
    rw [hz]
    cases r with
    | error => rfl
    | failed => rfl
    | ok h0' hbis' c1 c2 z' =>
      dsimp only
      obtain ⟨q1, ⟨half, r1, r2, r3⟩, ⟨k, q3⟩, q4⟩ := zLoop_ok inner rfl hz
      by_cases e1 : count + 1 > 50 ∧ z' = true
      · exact Option.isSome_iff_exists.2 ⟨_, if_pos e1⟩
      rw [if_neg e1]
      by_cases e2 : GenericMotion.errOf delta0 (elems c1) (elems c2) > 1
      · rw [if_pos e2]
        rcases q4 with q4 | q4
        · subst q4
          have ep : (0 : ℝ) < GenericMotion.errOf delta0 (elems c1) (elems c2) ^ (-0.25 : ℝ) := Real.rpow_pos_of_pos (by linarith) _
          refine loop_axis hi m ?_ (by omega)
          rw [q3]
          have : (1.1 : ℝ) ^ k ≠ 0 := pow_ne_zero _ (by norm_num)
          exact mul_ne_zero (mul_ne_zero (by norm_num) (mul_ne_zero hh this)) ep.ne'
        · rw [q4.2] at q1 r1
          rw [q1] at r2 r3
          rw [pow_zero, mul_one] at hN
          exact absurd (hη h0 c1 half c2 hN r1 r2 r3) (not_le.2 e2)
      · exact Option.isSome_iff_exists.2 ⟨_, if_neg e2⟩
  | succ N ih =>
    obtain ⟨m, rfl⟩ : ∃ m, fuel = m + 1 + 1 := ⟨fuel - 2, by omega⟩
    obtain ⟨r, hz⟩ := zLoop_some (rk := rk) (coor := coor) (hbis := 0.5 * h0) (z := false) hi hh
    unfold adaptiveLoop
    rw [hz]
    cases r with
    | error => rfl
    | failed => rfl
    | ok h0' hbis' c1 c2 z' =>
      dsimp only
      obtain ⟨-, -, ⟨k, q3⟩, q4⟩ := zLoop_ok inner rfl hz
      by_cases e1 : count + 1 > 50 ∧ z' = true
      · exact Option.isSome_iff_exists.2 ⟨_, if_pos e1⟩
      rw [if_neg e1]
      by_cases e2 : GenericMotion.errOf delta0 (elems c1) (elems c2) > 1
      · rw [if_pos e2]
        have ep : (0 : ℝ) < GenericMotion.errOf delta0 (elems c1) (elems c2) ^ (-0.25 : ℝ) := Real.rpow_pos_of_pos (by linarith) _
        have e1' : GenericMotion.errOf delta0 (elems c1) (elems c2) ^ (-0.25 : ℝ) ≤ 1 :=
          Real.rpow_le_one_of_one_le_of_nonpos e2.le (by norm_num)
        have hk : (1.1 : ℝ) ^ k ≠ 0 := pow_ne_zero _ (by norm_num)
        generalize GenericMotion.errOf delta0 (elems c1) (elems c2) ^ (-0.25 : ℝ) = w at *
        have hne : 0.9 * h0' * w ≠ 0 := by
          rw [q3]
          exact mul_ne_zero (mul_ne_zero (by norm_num) (mul_ne_zero hh hk)) ep.ne'
        rcases q4 with q4 | q4
        · subst q4
          exact loop_axis hi m hne (by omega)
        · rw [← q4.1]
          refine ih (by omega) hne ?_
          rw [q4.2, abs_mul, abs_mul, abs_of_pos ep, abs_of_pos (show (0 : ℝ) < 0.9 by norm_num)]
          have h9 : (0 : ℝ) < 0.9 ^ N := by positivity
          have h10 : 0 ≤ |h0| * 0.9 ^ (N + 1) := by positivity
          have h11 : 0.9 * |h0| * w * 0.9 ^ N = |h0| * 0.9 ^ (N + 1) * w := by ring
          rw [h11]
          nlinarith
      · exact Option.isSome_iff_exists.2 ⟨_, if_neg e2⟩

/-- A successful step is the Runge-Kutta step of the vector field that the successful stages return. -/
theorem rk4_val {stage : Vec → Vec → StepRes} {F : Vec × Vec → Vec × Vec} {h : ℝ} {q r : Vec × Vec}
    (h1 : ∀ dx dp, stage q.1 q.2 = .ok dx dp → (dx, dp) = F q)
    (h2 : ∀ q2, q2 = q + (h / 2) • F q → ∀ dx dp, stage q2.1 q2.2 = .ok dx dp → (dx, dp) = F q2)
    (h3 : ∀ q3, q3 = q + (h / 2) • Rk4.stage2 F q h → ∀ dx dp, stage q3.1 q3.2 = .ok dx dp → (dx, dp) = F q3)
    (h4 : ∀ q4, q4 = q + h • Rk4.stage3 F q h → ∀ dx dp, stage q4.1 q4.2 = .ok dx dp → (dx, dp) = F q4)
    (hr : rk4 stage h q.1 q.2 = .ok r.1 r.2) : r = Rk4.step F (q, h) := by
  have pt : ∀ (d : Vec × Vec), ((fun i => q.1 i + 0.5 * (h * d.1 i), fun i => q.2 i + 0.5 * (h * d.2 i)) : Vec × Vec) =
      q + (h / 2) • d := by
    intro d
    refine Prod.ext (funext fun i => ?_) (funext fun i => ?_) <;>
      simp only [Prod.fst_add, Prod.snd_add, Prod.smul_fst, Prod.smul_snd, Pi.add_apply, Pi.smul_apply, smul_eq_mul] <;> ring
  have pt1 : ∀ (d : Vec × Vec), ((fun i => q.1 i + (h * d.1 i), fun i => q.2 i + (h * d.2 i)) : Vec × Vec) = q + h • d := by
    intro d
    refine Prod.ext (funext fun i => ?_) (funext fun i => ?_) <;>
      simp only [Prod.fst_add, Prod.snd_add, Prod.smul_fst, Prod.smul_snd, Pi.add_apply, Pi.smul_apply, smul_eq_mul]
  unfold rk4 at hr
  split at hr
  · cases hr
  · cases hr
  rename_i dx1 dp1 e1
  dsimp only at hr
  split at hr
  · cases hr
  · cases hr
  rename_i dx2 dp2 e2
  split at hr
  · cases hr
  · cases hr
  rename_i dx3 dp3 e3
  split at hr
  · cases hr
  · cases hr
  rename_i dx4 dp4 e4
  rw [StepRes.ok.injEq] at hr
  have f1 := h1 _ _ e1
  have b2 := pt (dx1, dp1)
  have f2 := h2 _ (b2.trans (by rw [f1])) _ _ e2
  rw [b2, f1] at f2
  change _ = Rk4.stage2 F q h at f2
  have b3 := pt (dx2, dp2)
  have f3 := h3 _ (b3.trans (by rw [f2])) _ _ e3
  rw [b3, f2] at f3
  change _ = Rk4.stage3 F q h at f3
  have b4 := pt1 (dx3, dp3)
  have f4 := h4 _ (b4.trans (by rw [f3])) _ _ e4
  rw [b4, f3] at f4
  change _ = Rk4.stage4 F q h at f4
  unfold Rk4.step
  rw [← f1, ← f2, ← f3, ← f4]
  refine Prod.ext ?_ ?_
  · rw [← hr.1]
    funext i
    simp only [Prod.fst_add, Prod.snd_add, Prod.smul_fst, Prod.smul_snd, Pi.add_apply, Pi.smul_apply, smul_eq_mul]
    ring
  · rw [← hr.2]
    funext i
    simp only [Prod.fst_add, Prod.snd_add, Prod.smul_fst, Prod.smul_snd, Pi.add_apply, Pi.smul_apply, smul_eq_mul]
    ring

/-- Near a regular point, a short step that succeeds is the Runge-Kutta step of the equations of motion. -/
theorem internal_val {a rsink : ℝ} {cst : Cst} {q0 : Vec × Vec} (h0 : Inside a rsink q0) :
    ∀ᶠ w : (Vec × Vec) × ℝ in 𝓝 (q0, 0), ∀ r : Vec × Vec, myrk4Internal a rsink cst w.2 w.1.1 w.1.2 = .ok r.1 r.2 →
      r = Rk4.step (kerrField a cst) w := by
  have hF : ContinuousAt (kerrField a cst) q0 := (kerrField_analytic h0).continuousAt
  obtain ⟨t2, t3, t4, -⟩ := Rk4.step_limits hF
  have ho : ∀ᶠ q in 𝓝 q0, Inside a rsink q := (inside_open a rsink).mem_nhds h0
  have t1 : Tendsto (fun q : (Vec × Vec) × ℝ => q.1) (𝓝 (q0, 0)) (𝓝 q0) := continuous_fst.tendsto (q0, (0 : ℝ))
  have val : ∀ (axis : Bool) (derlim : ℝ) (q : Vec × Vec), Inside a rsink q → ∀ dx dp,
      stageInternal a rsink cst axis derlim q.1 q.2 = .ok dx dp → (dx, dp) = kerrField a cst q := by
    intro axis derlim q hq dx dp e
    have e2 := stageInternal_ok e
    rw [diff_inside hq, DiffRes.ok.injEq] at e2
    exact Prod.ext e2.1.symm e2.2.symm
  filter_upwards [t1.eventually ho, t2.eventually ho, t3.eventually ho, t4.eventually ho] with w i1 i2 i3 i4 r hr
  unfold myrk4Internal at hr
  exact rk4_val (fun dx dp => val _ _ _ i1 dx dp) (fun q e => val _ _ q (e ▸ i2)) (fun q e => val _ _ q (e ▸ i3))
    (fun q e => val _ _ q (e ▸ i4)) hr

/-- C78. From a regular point outside the sink radius, and with a step other than 0, the integrator ends, whatever the constants of
motion. -/
theorem adaptive_terminates {a rsink : ℝ} {cst : Cst} {nearAxis : Vec → Bool} {x v : Vec} {h0 : ℝ}
    (hin : Inside a rsink (x, makeMomentum a cst x v)) (hh : h0 ≠ 0) (difftol deltaMin h1max : ℝ) :
    ∃ N, ∀ inner fuel, N ≤ inner → N ≤ fuel →
      (adaptive a rsink cst nearAxis difftol deltaMin h1max x v h0 inner fuel).isSome := by
  obtain ⟨q0, hq0⟩ : ∃ q0 : Vec × Vec, q0 = (x, makeMomentum a cst x v) := ⟨_, rfl⟩
  rw [← hq0] at hin
  have hF : ContinuousAt (kerrField a cst) q0 := (kerrField_analytic hin).continuousAt
  have hval := internal_val (cst := cst) hin
  have htend := (Rk4.step_limits hF).2.2.2
  generalize kerrField a cst = F at hval htend
  have tq : Tendsto (fun h : ℝ => (q0, h)) (𝓝 0) (𝓝 (q0, 0)) := (Continuous.prodMk_right q0).tendsto 0
  have th2 : Tendsto (fun h : ℝ => 0.5 * h) (𝓝 0) (𝓝 0) := by
    have := (tendsto_id (α := ℝ) (x := 𝓝 0)).const_mul 0.5
    simpa using this
  have tqh : Tendsto (fun h : ℝ => (q0, 0.5 * h)) (𝓝 0) (𝓝 (q0, 0)) := tq.comp th2
  have tw : Tendsto (fun h : ℝ => (Rk4.step F (q0, 0.5 * h), 0.5 * h)) (𝓝 0) (𝓝 (q0, 0)) := (htend.comp tqh).prodMk_nhds th2
  have tdiff : Tendsto (fun h : ℝ => Rk4.step F (Rk4.step F (q0, 0.5 * h), 0.5 * h) - Rk4.step F (q0, h)) (𝓝 0) (𝓝 0) := by
    have := (htend.comp tw).sub (htend.comp tq)
    rwa [sub_self] at this
  have hsmall : ∀ᶠ h : ℝ in 𝓝 0, ‖Rk4.step F (Rk4.step F (q0, 0.5 * h), 0.5 * h) - Rk4.step F (q0, h)‖ < 1e-15 := by
    have := tdiff.norm
    rw [norm_zero] at this
    exact this.eventually (gt_mem_nhds (by norm_num))
  have hev := (tq.eventually hval).and ((tqh.eventually hval).and ((tw.eventually hval).and hsmall))
  obtain ⟨η, hη, hall⟩ := Metric.eventually_nhds_iff.1 hev
  obtain ⟨N, hN⟩ : ∃ N : Nat, |h0| * 0.9 ^ N < η := by
    have hp : 0 < |h0| := abs_pos.2 hh
    obtain ⟨N, hN⟩ := exists_pow_lt_of_lt_one (div_pos hη hp) (show (0.9 : ℝ) < 1 by norm_num)
    exact ⟨N, by rwa [lt_div_iff₀ hp, mul_comm] at hN⟩
  refine ⟨N + 74, fun inner fuel hi hf => ?_⟩
  unfold adaptive
  dsimp only
  subst hq0
  cases hd : diff a rsink cst x (makeMomentum a cst x v) with
  | error => rfl
  | stop => rfl
  | ok dx dp =>
    dsimp only
    refine loop_ends (by omega) ?_ N (by omega) hh hN
    intro h new half two hh1 r1 r2 r3
    obtain ⟨v1, v2, v3, v4⟩ := hall (y := h) (by rw [Real.dist_eq, sub_zero]; exact hh1)
    have w1 := v1 new r1
    have w2 := v2 half r2
    rw [← w2] at v3 v4
    have w3 := v3 two r3
    rw [← w3, ← w1] at v4
    rw [GenericMotion.errOf_le fun i => by positivity]
    intro i hi8
    have b : ∀ c : ℝ, |c| ≤ ‖two - new‖ → |c| ≤ 1e-15 + 0.0001 * |h0 * elems (dx, dp) i| := by
      intro c hc
      have : 0 ≤ 0.0001 * |h0 * elems (dx, dp) i| := by positivity
      linarith
    by_cases h4 : i < 4
    · have e : elems two i - elems new i = (two - new).1 (Fin.ofNat 4 i) := by
        unfold elems
        simp only [if_pos h4, Prod.fst_sub, Pi.sub_apply]
      rw [e]
      exact b _ ((norm_le_pi_norm (two - new).1 (Fin.ofNat 4 i)).trans (norm_fst_le (two - new)))
    · have e : elems two i - elems new i = (two - new).2 (Fin.ofNat 4 i) := by
        unfold elems
        simp only [if_neg h4, Prod.snd_sub, Pi.sub_apply]
      rw [e]
      exact b _ ((norm_le_pi_norm (two - new).2 (Fin.ofNat 4 i)).trans (norm_snd_le (two - new)))

/-- On the circular orbit of radius 4 the step follows the orbit. -/
theorem orbit_internal (h t : ℝ) : myrk4Internal 0 2 ⟨1, 1, 4, 0, 1⟩ h ![2 * t, 4, Real.pi / 2, t / 4] ![-1, 0, 0, 4] =
    .ok ![2 * (t + h), 4, Real.pi / 2, (t + h) / 4] ![-1, 0, 0, 4] := by
  have st : ∀ axis derlim, 0 < derlim → ∀ x p : Vec, (∃ t : ℝ, x = ![2 * t, 4, Real.pi / 2, t / 4]) → p = ![-1, 0, 0, 4] →
      stageInternal 0 2 ⟨1, 1, 4, 0, 1⟩ axis derlim x p = .ok ![2, 0, 0, 1 / 4] ![0, 0, 0, 0] := by
    rintro axis derlim hd x p ⟨t, rfl⟩ rfl
    unfold stageInternal
    rw [orbit_diff]
    dsimp only
    rw [if_neg]
    rintro ⟨-, h | h⟩
    · simp at h; linarith
    · simp at h; linarith
  unfold myrk4Internal
  dsimp only
  generalize (decide (thetaCompare _ < _)) = axis
  have hd : (0 : ℝ) < (if (if (1 : ℝ) - 0 * 0 < 0 then false else decide ((![2 * t, 4, Real.pi / 2, t / 4] : Vec) 1 < 5 * (1 + √(1 - 0 * 0)))) = true
      then 1e4 else 1e6) := by split_ifs <;> norm_num
  generalize (if (if (1 : ℝ) - 0 * 0 < 0 then false else decide ((![2 * t, 4, Real.pi / 2, t / 4] : Vec) 1 < 5 * (1 + √(1 - 0 * 0)))) = true
      then (1e4 : ℝ) else 1e6) = derlim at hd
  have pm : ∀ c : ℝ, (fun i => (![-1, 0, 0, 4] : Vec) i + c * (h * (![0, 0, 0, 0] : Vec) i)) = ![-1, 0, 0, 4] := by
    intro c; funext i; fin_cases i <;> simp
  have pm1 : (fun i => (![-1, 0, 0, 4] : Vec) i + h * (![0, 0, 0, 0] : Vec) i) = ![-1, 0, 0, 4] := by
    funext i; fin_cases i <;> simp
  have px : ∃ s : ℝ, (fun i => (![2 * t, 4, Real.pi / 2, t / 4] : Vec) i + 0.5 * (h * (![2, 0, 0, 1 / 4] : Vec) i)) =
      ![2 * s, 4, Real.pi / 2, s / 4] := by
    refine ⟨t + 0.5 * h, ?_⟩
    funext i
    match i with
    | 0 => show 2 * t + 0.5 * (h * 2) = 2 * (t + 0.5 * h); ring
    | 1 => show 4 + 0.5 * (h * 0) = (4 : ℝ); ring
    | 2 => show Real.pi / 2 + 0.5 * (h * 0) = Real.pi / 2; ring
    | 3 => show t / 4 + 0.5 * (h * (1 / 4)) = (t + 0.5 * h) / 4; ring
  have px1 : ∃ s : ℝ, (fun i => (![2 * t, 4, Real.pi / 2, t / 4] : Vec) i + h * (![2, 0, 0, 1 / 4] : Vec) i) =
      ![2 * s, 4, Real.pi / 2, s / 4] := by
    refine ⟨t + h, ?_⟩
    funext i
    match i with
    | 0 => show 2 * t + h * 2 = 2 * (t + h); ring
    | 1 => show 4 + h * 0 = (4 : ℝ); ring
    | 2 => show Real.pi / 2 + h * 0 = Real.pi / 2; ring
    | 3 => show t / 4 + h * (1 / 4) = (t + h) / 4; ring
  unfold rk4
  simp only [st axis derlim hd _ _ ⟨t, rfl⟩ rfl, st axis derlim hd _ _ px (pm _), st axis derlim hd _ _ px1 pm1]
  congr 1
  · funext i
    match i with
    | 0 => show 2 * t + 1 / 6 * (h * 2) + 1 / 3 * (h * 2) + 1 / 3 * (h * 2) + 1 / 6 * (h * 2) = 2 * (t + h); ring
    | 1 => show 4 + 1 / 6 * (h * 0) + 1 / 3 * (h * 0) + 1 / 3 * (h * 0) + 1 / 6 * (h * 0) = (4 : ℝ); ring
    | 2 => show Real.pi / 2 + 1 / 6 * (h * 0) + 1 / 3 * (h * 0) + 1 / 3 * (h * 0) + 1 / 6 * (h * 0) = Real.pi / 2; ring
    | 3 =>
      show t / 4 + 1 / 6 * (h * (1 / 4)) + 1 / 3 * (h * (1 / 4)) + 1 / 3 * (h * (1 / 4)) + 1 / 6 * (h * (1 / 4)) = (t + h) / 4
      ring
  · funext i
    fin_cases i <;> simp

/-- One call on that orbit, with a step of 1: the next one is four times as long. -/
example : ∃ v', adaptive 0 2 ⟨1, 1, 4, 0, 1⟩ (fun _ => false) 0.01 0.001 100 ![0, 4, Real.pi / 2, 0] ![2, 0, 0, 1 / 4] 1 1 1 =
    some (.ok ![2, 4, Real.pi / 2, 1 / 4] v' 4) := by
  have hm : makeMomentum 0 ⟨1, 1, 4, 0, 1⟩ ![0, 4, Real.pi / 2, 0] ![2, 0, 0, 1 / 4] = ![-1, 0, 0, 4] := by
    funext i
    match i with
    | 0 => rfl
    | 1 => show gmunu 0 _ 1 1 * 0 = 0; ring
    | 2 => show gmunu 0 _ 2 2 * 0 = 0; ring
    | 3 => rfl
  have e0 := orbit_diff 0
  have r1 := orbit_internal 1 0
  have r2 := orbit_internal (0.5 * 1) 0
  have r3 := orbit_internal (0.5 * 1) (0 + 0.5 * 1)
  simp only [mul_zero, zero_div] at e0 r1 r2 r3
  have h1 : (![2 * (0 + 1), 4, Real.pi / 2, (0 + 1) / 4] : Vec) = ![2, 4, Real.pi / 2, 1 / 4] := by norm_num
  have h2 : (![2 * (0 + 0.5 * 1 + 0.5 * 1), 4, Real.pi / 2, (0 + 0.5 * 1 + 0.5 * 1) / 4] : Vec) = ![2, 4, Real.pi / 2, 1 / 4] := by
    norm_num
  rw [h1] at r1
  rw [h2] at r3
  unfold adaptive
  dsimp only
  rw [hm, e0]
  dsimp only
  unfold adaptiveLoop zLoop
  simp only [r1, r2, r3]
  have err0 : ∀ d q, GenericMotion.errOf d q q = 0 := by
    intro d q
    unfold GenericMotion.errOf
    simp [List.range, List.range.loop]
  rw [err0]
  have hn : nextStep 0.001 100 1 0 = 4 := by
    unfold nextStep
    norm_num
  rw [hn]
  have hc : makeCoord 0 ⟨1, 1, 4, 0, 1⟩ ![2, 4, Real.pi / 2, 1 / 4] ![-1, 0, 0, 4] = ![2, 0, 0, 1 / 4] := by
    unfold makeCoord
    simp only [gmunu_00, gmunu_33, gmunu_03, Matrix.cons_val, Real.sin_pi_div_two, Real.cos_pi_div_two]
    norm_num
  have hcarter : checkCarter 0 ⟨1, 1, 4, 0, 1⟩ false ![2, 4, Real.pi / 2, 1 / 4] ![2, 0, 0, 1 / 4] = .ok 0 := by
    unfold checkCarter
    simp only [Matrix.cons_val, Real.sin_pi_div_two, Real.cos_pi_div_two]
    norm_num
  have hnorm := normalize_id (a := 0) (mass := 1) (x := ![2, 4, Real.pi / 2, 1 / 4]) (v := ![2, 0, 0, 1 / 4]) (Or.inr rfl) (by simp)
    (by simp; norm_num) (by
      rw [sp_eq, gmunu_00, gmunu_11, gmunu_22, gmunu_33, gmunu_03]
      simp only [Matrix.cons_val, Real.sin_pi_div_two, Real.cos_pi_div_two]
      norm_num)
  have hn0 : normalize4v 0 1 ![2, 4, Real.pi / 2, 1 / 4] ![2, 0, 0, 1 / 4] = .ok 0 := by simpa using hnorm
  have hcons : ∃ p, checkCons 0 ⟨1, 1, 4, 0, 1⟩ false ![2, 4, Real.pi / 2, 1 / 4] ![-1, 0, 0, 4] = .ok p := by
    unfold checkCons
    dsimp only
    rw [hc, hcarter]
    dsimp only
    have hv : (![(![2, 0, 0, 1 / 4] : Vec) 0, (![2, 0, 0, 1 / 4] : Vec) 1, 0, (![2, 0, 0, 1 / 4] : Vec) 3] : Vec) = ![2, 0, 0, 1 / 4] := rfl
    rw [hv, hn0]
    exact ⟨_, rfl⟩
  obtain ⟨p, hp⟩ := hcons
  simp only [finish, hp]
  norm_num
  by_cases hf : tooFar 0.01 0 (p 1) ∨ tooFar 0.01 0 (p 2)
  · exact ⟨_, by rw [if_pos (by simpa using hf)]⟩
  · exact ⟨_, by rw [if_neg (by simpa using hf)]⟩

end Gyoto.KerrBL
