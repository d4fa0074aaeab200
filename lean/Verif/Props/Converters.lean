import Verif.Model.Converters
import Mathlib.Tactic.FieldSimp
import Mathlib.Tactic.Ring
import Mathlib.Tactic.Positivity
import Mathlib.Tactic.Linarith
import Mathlib.Tactic.FinCases

/-!
# Converting to a unit and back (C37)

* `kilograms_*`, `seconds_*`, `herz_*`, `metres_*_partial`, `geometrical_*_partial`,
  `geometricalTime_*`: a conversion followed by the opposite one gives the value back, in both
  orders, with and without libudunits2, for every unit known to the library.
* `metres_list`, `seconds_list`, `kilograms_list`: the built-in lists have the SI values of the
  units; `metres_physical`, `seconds_physical`: with libudunits2, a length, time or frequency
  unit is converted through `c t` and `c / f`.
* Findings: `metres_second_wrong` and `metres_hertz_wrong` (`FromMeters` multiplies by `c` where it
  should divide, so lengths expressed as a time or a frequency come back multiplied by `c²`
  or `1/c²`), `herz_list_wrong` (without libudunits2 `FromHerz` returns 0 for every unit, hertz
  included), `geometricalTime_geometrical_wrong` (the unit "geometrical" is refused although a
  metric is given).
-/

namespace Gyoto.Conv

/-! ### Specification: SI values of the units of the built-in lists -/

/-- SI value, in metres, of the named units of length. -/
def siMetres : List (String × ℚ) :=
  [("cm", 1 / 100), ("km", 1000), ("sunradius", 695500000),
   ("astronomicalunit", 149597870700), ("astronomical_unit", 149597870700),
   ("AU", 149597870700), ("au", 149597870700), ("ua", 149597870700),
   -- a light-year is what light covers in a Julian year (365.25 days of 86400 seconds)
   ("ly", 299792458 * (36525 / 100) * 86400),
   ("pc", 30856802500000000), ("kpc", 1000 * 30856802500000000),
   ("Mpc", 1000000 * 30856802500000000)]

/-- SI value, in seconds, of the named units of time. -/
def siSeconds : List (String × ℚ) :=
  [("min", 60), ("h", 60 * 60), ("d", 24 * 60 * 60), ("yr", (36525 / 100) * 24 * 60 * 60),
   ("kyr", 1000 * (36525 / 100) * 24 * 60 * 60)]

/-- SI value, in kilograms, of the named units of mass. -/
def siKilograms : List (String × ℚ) := [("sunmass", 1988430000000000000000000000000), ("g", 1 / 1000)]

/-! ### Helper lemmas -/

theorem c_ne : c ≠ 0 := by norm_num [c]
theorem eV2Hz_ne : eV2Hz ≠ 0 := by norm_num [eV2Hz]

theorem fdiv_ok {x y z : ℝ} : fdiv x y = .ok z ↔ y ≠ 0 ∧ z = x / y := by
  unfold fdiv
  split_ifs with h
  · simp [h]
  · simp [h, eq_comm]

theorem bind_ok {α β : Type} {x : Except Fail α} {f : α → Except Fail β} {b : β} :
    x.bind f = .ok b ↔ ∃ a, x = .ok a ∧ f a = .ok b := by
  cases x <;> simp [Except.bind]

theorem bind_ok' {α β : Type} {x : Except Fail α} {f : α → Except Fail β} {b : β} :
    (x >>= f) = .ok b ↔ ∃ a, x = .ok a ∧ f a = .ok b := bind_ok

theorem map_ok {α β : Type} {x : Except Fail α} {f : α → β} {b : β} :
    x.map f = .ok b ↔ ∃ a, x = .ok a ∧ f a = b := by
  cases x <;> simp [Except.map]

theorem unit_ok {s : SI} {name : String} {u : Unit} :
    s.unit name = .ok u ↔ s.parse name = some u := by
  unfold SI.unit
  cases s.parse name <;> simp

theorem toBase_fromBase (u : Unit) (y : ℝ) : u.toBase (u.fromBase y) = y := by
  have := u.slope_ne
  unfold Unit.toBase Unit.fromBase
  field_simp
  ring

theorem fromBase_toBase (u : Unit) (x : ℝ) : u.fromBase (u.toBase x) = x := by
  have := u.slope_ne
  unfold Unit.toBase Unit.fromBase
  field_simp
  ring

/-- A conversion of libudunits2 followed by the opposite one is the identity. -/
theorem convert_back {u v : Unit} {x y : ℝ} (h : convert u v x = .ok y) : convert v u y = .ok x := by
  unfold convert at h ⊢
  split_ifs at h with h1 h2
  · rw [if_pos h1.symm]
    cases h
    rw [toBase_fromBase, fromBase_toBase]
  · rw [map_ok] at h
    obtain ⟨a, ha, rfl⟩ := h
    rw [fdiv_ok] at ha
    obtain ⟨h0, rfl⟩ := ha
    rw [if_neg (fun e => h1 e.symm), if_pos (by rw [h2, neg_neg]), map_ok]
    refine ⟨u.toBase x, ?_, fromBase_toBase u x⟩
    rw [toBase_fromBase, fdiv_ok]
    exact ⟨by positivity, by field_simp⟩

/-! ### Masses -/

/-- **C37**, masses: what `ToKilograms` accepts, `FromKilograms` converts back. -/
theorem kilograms_to_from (ud : Option SI) (unit : String) (v w : ℝ)
    (h : toKilograms ud v unit = .ok w) : fromKilograms ud w unit = .ok v := by
  unfold toKilograms at h
  unfold fromKilograms
  by_cases h1 : unit = "" ∨ unit = "kg"
  · rw [if_pos h1] at h ⊢; cases h; rfl
  · rw [if_neg h1] at h ⊢
    cases ud with
    | some s =>
      rw [bind_ok'] at h
      obtain ⟨u, hu, h⟩ := h
      exact bind_ok'.2 ⟨u, hu, convert_back h⟩
    | none =>
      dsimp only at h ⊢
      split_ifs at h ⊢ <;> cases h
      · norm_num [sunMass]
      · congr 1; ring

/-- **C37**, masses, in the other order. -/
theorem kilograms_from_to (ud : Option SI) (unit : String) (v w : ℝ)
    (h : fromKilograms ud v unit = .ok w) : toKilograms ud w unit = .ok v := by
  unfold fromKilograms at h
  unfold toKilograms
  by_cases h1 : unit = "" ∨ unit = "kg"
  · rw [if_pos h1] at h ⊢; cases h; rfl
  · rw [if_neg h1] at h ⊢
    cases ud with
    | some s =>
      rw [bind_ok'] at h
      obtain ⟨u, hu, h⟩ := h
      exact bind_ok'.2 ⟨u, hu, convert_back h⟩
    | none =>
      dsimp only at h ⊢
      split_ifs at h ⊢ <;> cases h
      · norm_num [sunMass]
      · congr 1; ring

/-- The built-in masses have their SI values, and no other name is accepted. -/
theorem kilograms_list (unit : String) (v w : ℝ) (h : unit ≠ "" ∧ unit ≠ "kg") :
    toKilograms none v unit = .ok w ↔ ∃ k, (unit, k) ∈ siKilograms ∧ w = v * (k : ℝ) := by
  unfold toKilograms siKilograms
  rw [if_neg (by tauto)]
  dsimp only
  split_ifs with h1 h2
  all_goals simp [*, sunMass]
  all_goals constructor <;> intro e <;> norm_num at e ⊢ <;> linarith

/-! ### Times -/

theorem listSeconds_to_from {unit : String} {v w : ℝ} (h : listToSeconds v unit = .ok w) :
    listFromSeconds w unit = .ok v := by
  unfold listToSeconds at h
  unfold listFromSeconds
  split_ifs at h ⊢ <;> cases h <;> congr 1 <;> norm_num

theorem listSeconds_from_to {unit : String} {v w : ℝ} (h : listFromSeconds v unit = .ok w) :
    listToSeconds w unit = .ok v := by
  unfold listFromSeconds at h
  unfold listToSeconds
  split_ifs at h ⊢ <;> cases h <;> congr 1 <;> norm_num

/-- **C37**, times: what `ToSeconds` accepts, `FromSeconds` converts back; the mass of the metric is
not zero. -/
theorem seconds_to_from (ud : Option SI) (unit : String) (gg : Option Metric) (v w : ℝ)
    (hm : ∀ g, gg = some g → g.mass ≠ 0)
    (h : toSeconds ud v unit gg = .ok w) : fromSeconds ud w unit gg = .ok v := by
  unfold toSeconds at h
  unfold fromSeconds
  by_cases h1 : unit = "" ∨ unit = "s"
  · rw [if_pos h1] at h ⊢; cases h; rfl
  rw [if_neg h1] at h ⊢
  by_cases h2 : unit = "geometrical_time" ∨ unit = "geometrical"
  · rw [if_pos h2] at h ⊢
    cases gg with
    | none => simp at h
    | some g =>
      dsimp only at h ⊢
      cases h
      have hl : g.unitLength ≠ 0 := mul_ne_zero (hm g rfl) (by norm_num [gOverC2])
      have := c_ne
      rw [map_ok]
      exact ⟨_, fdiv_ok.2 ⟨hl, rfl⟩, by field_simp⟩
  · rw [if_neg h2] at h ⊢
    cases ud with
    | some s =>
      rw [bind_ok'] at h
      obtain ⟨u, hu, h⟩ := h
      refine bind_ok'.2 ⟨u, hu, ?_⟩
      split_ifs at h ⊢ with h3
      · rw [map_ok] at h
        obtain ⟨a, ha, rfl⟩ := h
        rw [div_mul_cancel₀ _ c_ne]
        exact convert_back ha
      · exact convert_back h
    | none => exact listSeconds_to_from h

/-- **C37**, times, in the other order. -/
theorem seconds_from_to (ud : Option SI) (unit : String) (gg : Option Metric) (v w : ℝ)
    (h : fromSeconds ud v unit gg = .ok w) : toSeconds ud w unit gg = .ok v := by
  unfold fromSeconds at h
  unfold toSeconds
  by_cases h1 : unit = "" ∨ unit = "s"
  · rw [if_pos h1] at h ⊢; cases h; rfl
  rw [if_neg h1] at h ⊢
  by_cases h2 : unit = "geometrical_time" ∨ unit = "geometrical"
  · rw [if_pos h2] at h ⊢
    cases gg with
    | none => simp at h
    | some g =>
      dsimp only at h ⊢
      rw [map_ok] at h
      obtain ⟨a, ha, rfl⟩ := h
      obtain ⟨h0, rfl⟩ := fdiv_ok.1 ha
      have := c_ne
      congr 1
      field_simp
  · rw [if_neg h2] at h ⊢
    cases ud with
    | some s =>
      rw [bind_ok'] at h
      obtain ⟨u, hu, h⟩ := h
      refine bind_ok'.2 ⟨u, hu, ?_⟩
      split_ifs at h ⊢ with h3
      · rw [convert_back h]
        simp [Except.map, c_ne]
      · exact convert_back h
    | none => exact listSeconds_from_to h

/-- The built-in times have their SI values, and no other name is accepted. -/
theorem seconds_list (unit : String) (gg : Option Metric) (v w : ℝ)
    (h : unit ≠ "" ∧ unit ≠ "s" ∧ unit ≠ "geometrical_time" ∧ unit ≠ "geometrical") :
    toSeconds none v unit gg = .ok w ↔ ∃ k, (unit, k) ∈ siSeconds ∧ w = v * (k : ℝ) := by
  unfold toSeconds siSeconds
  rw [if_neg (by tauto), if_neg (by tauto)]
  dsimp only [listToSeconds]
  split_ifs with h1 h2 h3 h4 h5
  all_goals simp [*]
  all_goals constructor <;> intro e <;> norm_num at e ⊢ <;> linarith

/-- With libudunits2, a time unit gives its SI value and a length unit the time light takes. -/
theorem seconds_physical (s : SI) (unit : String) (u : Unit) (gg : Option Metric) (v : ℝ)
    (hu : s.parse unit = some u)
    (h : unit ≠ "" ∧ unit ≠ "s" ∧ unit ≠ "geometrical_time" ∧ unit ≠ "geometrical") :
    (u.dim = second.dim → toSeconds (some s) v unit gg = .ok (u.toBase v)) ∧
      (u.dim = metre.dim → toSeconds (some s) v unit gg = .ok (u.toBase v / 299792458)) := by
  unfold toSeconds
  rw [if_neg (by tauto), if_neg (by tauto)]
  constructor <;> intro hd <;> dsimp only <;> rw [bind_ok'] <;>
    refine ⟨u, unit_ok.2 hu, ?_⟩
  · rw [if_neg, convert, if_pos hd]
    · simp [Unit.fromBase, second]
    · rintro (e | e) <;> rw [hd] at e <;> have := congrFun e 0 <;> simp [second, metre] at this
  · rw [if_pos (show areConvertible u metre from Or.inl hd), convert, if_pos hd]
    simp [Unit.fromBase, metre, Except.map, c]

/-! ### Frequencies -/

/-- **C37**, frequencies, with libudunits2: what `ToHerz` accepts, `FromHerz` converts back. -/
theorem herz_to_from (s : SI) (unit : String) (v w : ℝ)
    (h : toHerz (some s) v unit = .ok w) : fromHerz (some s) w unit = .ok v := by
  unfold toHerz at h
  unfold fromHerz
  dsimp only
  by_cases h1 : unit = "" ∨ unit = "Hz"
  · rw [if_pos h1] at h ⊢; cases h; rfl
  · rw [if_neg h1] at h ⊢
    rw [bind_ok'] at h
    obtain ⟨u, hu, h⟩ := h
    refine bind_ok'.2 ⟨u, hu, ?_⟩
    split_ifs at h ⊢ with h3 h4 h5
    · exact convert_back h
    · rw [bind_ok] at h
      obtain ⟨a, ha, h⟩ := h
      obtain ⟨h0, rfl⟩ := fdiv_ok.1 h
      rw [bind_ok]
      refine ⟨a, fdiv_ok.2 ⟨div_ne_zero c_ne h0, ?_⟩, convert_back ha⟩
      have := c_ne
      field_simp
    · rw [map_ok] at h
      obtain ⟨a, ha, rfl⟩ := h
      rw [mul_div_cancel_right₀ _ eV2Hz_ne]
      exact convert_back ha

/-- **C37**, frequencies, with libudunits2, in the other order. -/
theorem herz_from_to (s : SI) (unit : String) (v w : ℝ)
    (h : fromHerz (some s) v unit = .ok w) : toHerz (some s) w unit = .ok v := by
  unfold fromHerz at h
  unfold toHerz
  dsimp only at h
  by_cases h1 : unit = "" ∨ unit = "Hz"
  · rw [if_pos h1] at h ⊢; cases h; rfl
  · rw [if_neg h1] at h ⊢
    rw [bind_ok'] at h
    obtain ⟨u, hu, h⟩ := h
    refine bind_ok'.2 ⟨u, hu, ?_⟩
    split_ifs at h ⊢ with h3 h4 h5
    · exact convert_back h
    · rw [bind_ok] at h
      obtain ⟨a, ha, h⟩ := h
      obtain ⟨h0, rfl⟩ := fdiv_ok.1 ha
      rw [bind_ok]
      refine ⟨_, convert_back h, fdiv_ok.2 ⟨div_ne_zero c_ne h0, ?_⟩⟩
      have := c_ne
      field_simp
    · rw [convert_back h]
      simp [Except.map, eV2Hz_ne]

/-- Finding: without libudunits2, `FromHerz` returns 0 whatever the unit, even hertz. -/
theorem herz_list_wrong (v : ℝ) : toHerz none v "Hz" = .ok v ∧ fromHerz none v "Hz" = .ok 0 :=
  ⟨by simp [toHerz], rfl⟩

/-! ### Lengths -/

theorem listMeters_to_from {unit : String} {v w : ℝ} (h : listToMeters v unit = .ok w) :
    listFromMeters w unit = .ok v := by
  unfold listToMeters at h
  unfold listFromMeters
  split_ifs at h ⊢ <;> cases h <;> congr 1 <;> norm_num [sunRadius, au, ly, kpc] <;> ring

theorem listMeters_from_to {unit : String} {v w : ℝ} (h : listFromMeters v unit = .ok w) :
    listToMeters w unit = .ok v := by
  unfold listFromMeters at h
  unfold listToMeters
  split_ifs at h ⊢ <;> cases h <;> congr 1 <;> norm_num [sunRadius, au, ly, kpc] <;> ring

/-- The unit is not a time, nor a frequency, in the data base of libudunits2. -/
def NotTime (ud : Option SI) (unit : String) : Prop :=
  ∀ s u, ud = some s → s.parse unit = some u → ¬ areConvertible u second

/-- **C37**, lengths: what `ToMeters` accepts, `FromMeters` converts back.

Partial: units of time and frequency have to be excluded (with libudunits2), see
`metres_second_wrong`. -/
theorem metres_to_from_partial (ud : Option SI) (unit : String) (gg : Option Metric) (v w : ℝ)
    (hm : ∀ g, gg = some g → g.mass ≠ 0) (ht : NotTime ud unit)
    (h : toMeters ud v unit gg = .ok w) : fromMeters ud w unit gg = .ok v := by
  unfold toMeters at h
  unfold fromMeters
  by_cases h1 : unit = "" ∨ unit = "m"
  · rw [if_pos h1] at h ⊢; cases h; rfl
  rw [if_neg h1] at h ⊢
  by_cases h2 : unit = "geometrical"
  · rw [if_pos h2] at h ⊢
    cases gg with
    | none => simp at h
    | some g =>
      dsimp only at h ⊢
      cases h
      have hl : g.unitLength ≠ 0 := mul_ne_zero (hm g rfl) (by norm_num [gOverC2])
      exact fdiv_ok.2 ⟨hl, by field_simp⟩
  · rw [if_neg h2] at h ⊢
    cases ud with
    | some s =>
      rw [bind_ok'] at h
      obtain ⟨u, hu, h⟩ := h
      have hn := ht s u rfl (unit_ok.1 hu)
      refine bind_ok'.2 ⟨u, hu, ?_⟩
      split_ifs at h ⊢ with h3
      · exact convert_back h
      · rw [bind_ok] at h
        obtain ⟨a, ha, h⟩ := h
        obtain ⟨h0, rfl⟩ := fdiv_ok.1 h
        rw [bind_ok]
        refine ⟨a, fdiv_ok.2 ⟨div_ne_zero c_ne h0, ?_⟩, herz_to_from s unit v a ha⟩
        have := c_ne
        field_simp
    | none => exact listMeters_to_from h

/-- **C37**, lengths, in the other order.  Partial for the same reason. -/
theorem metres_from_to_partial (ud : Option SI) (unit : String) (gg : Option Metric) (v w : ℝ)
    (ht : NotTime ud unit)
    (h : fromMeters ud v unit gg = .ok w) : toMeters ud w unit gg = .ok v := by
  unfold fromMeters at h
  unfold toMeters
  by_cases h1 : unit = "" ∨ unit = "m"
  · rw [if_pos h1] at h ⊢; cases h; rfl
  rw [if_neg h1] at h ⊢
  by_cases h2 : unit = "geometrical"
  · rw [if_pos h2] at h ⊢
    cases gg with
    | none => simp at h
    | some g =>
      dsimp only at h ⊢
      obtain ⟨h0, rfl⟩ := fdiv_ok.1 h
      rw [div_mul_cancel₀ _ h0]
  · rw [if_neg h2] at h ⊢
    cases ud with
    | some s =>
      rw [bind_ok'] at h
      obtain ⟨u, hu, h⟩ := h
      have hn := ht s u rfl (unit_ok.1 hu)
      refine bind_ok'.2 ⟨u, hu, ?_⟩
      split_ifs at h ⊢ with h3
      · exact convert_back h
      · rw [bind_ok] at h
        obtain ⟨a, ha, h⟩ := h
        obtain ⟨h0, rfl⟩ := fdiv_ok.1 ha
        rw [bind_ok]
        refine ⟨_, herz_from_to s unit _ w h, fdiv_ok.2 ⟨div_ne_zero c_ne h0, ?_⟩⟩
        have := c_ne
        field_simp
    | none => exact listMeters_from_to h

/-- The built-in lengths have their SI values, and no other name is accepted. -/
theorem metres_list (unit : String) (gg : Option Metric) (v w : ℝ)
    (h : unit ≠ "" ∧ unit ≠ "m" ∧ unit ≠ "geometrical") :
    toMeters none v unit gg = .ok w ↔ ∃ k, (unit, k) ∈ siMetres ∧ w = v * (k : ℝ) := by
  unfold toMeters siMetres
  rw [if_neg (by tauto), if_neg (by tauto)]
  dsimp only [listToMeters]
  split_ifs with h1 h2 h3 h4 h5 h6 h7 h8
  on_goal 4 => rcases h4 with rfl | rfl | rfl | rfl | rfl
  all_goals try simp only [not_or] at h4
  all_goals simp [*, sunRadius, au, ly, kpc]
  all_goals constructor <;> intro e <;> norm_num at e ⊢ <;> linarith

/-- With libudunits2, a length unit gives its SI value, a time `t` the distance `c t`, a frequency
`f` the wavelength `c / f`. -/
theorem metres_physical (s : SI) (unit : String) (u : Unit) (gg : Option Metric) (v : ℝ)
    (hu : s.parse unit = some u) (h : unit ≠ "" ∧ unit ≠ "m" ∧ unit ≠ "geometrical") :
    (u.dim = metre.dim → toMeters (some s) v unit gg = .ok (u.toBase v)) ∧
      (u.dim = second.dim → toMeters (some s) v unit gg = .ok (299792458 * u.toBase v)) ∧
      (u.dim = hertz.dim → u.toBase v ≠ 0 →
        toMeters (some s) v unit gg = .ok (299792458 / u.toBase v)) := by
  have e1 : second.dim ≠ metre.dim := fun e => by have := congrFun e 0; simp [second, metre] at this
  have e2 : second.dim ≠ -metre.dim := fun e => by
    have := congrFun e 0; simp [second, metre] at this
  have e3 : hertz.dim = -second.dim := by
    funext i; fin_cases i <;> simp [second, hertz]
  have e4 : hertz.dim ≠ metre.dim := fun e => by have := congrFun e 0; simp [hertz, metre] at this
  have e5 : hertz.dim ≠ -metre.dim := fun e => by
    have := congrFun e 0; simp [hertz, metre] at this
  have e6 : hertz.dim ≠ second.dim := fun e => by
    have := congrFun e 2; simp [hertz, second] at this
  unfold toMeters
  rw [if_neg (by tauto), if_neg (by tauto)]
  dsimp only
  refine ⟨fun hd => bind_ok'.2 ⟨u, unit_ok.2 hu, ?_⟩, fun hd => bind_ok'.2 ⟨u, unit_ok.2 hu, ?_⟩,
    fun hd h0 => bind_ok'.2 ⟨u, unit_ok.2 hu, ?_⟩⟩
  · rw [if_pos (show areConvertible u metre from Or.inl hd), convert, if_pos hd]
    simp [Unit.fromBase, metre]
  · rw [if_neg (by rw [areConvertible, hd]; tauto), 
      if_pos (show areConvertible u second from Or.inl hd), convert, if_pos hd]
    simp [Unit.fromBase, second, Except.map, c, mul_comm]
  · rw [if_neg (by rw [areConvertible, hd]; tauto), 
      if_pos (show areConvertible u second from Or.inr (hd.trans e3)), convert,
      if_neg (by rw [hd]; exact e6), if_pos (hd.trans e3), map_ok]
    exact ⟨1 / u.toBase v, map_ok.2 ⟨_, fdiv_ok.2 ⟨h0, rfl⟩, by simp [Unit.fromBase, second]⟩,
      by simp only [c]; ring⟩

/-! ### Geometrical units -/

/-- **C37**, geometrical lengths: what `ToGeometrical` accepts, `FromGeometrical` converts back.
Partial: units of time and frequency are excluded, see `metres_second_wrong`. -/
theorem geometrical_to_from_partial (ud : Option SI) (unit : String) (gg : Option Metric) (v w : ℝ)
    (ht : NotTime ud unit)
    (h : toGeometrical ud v unit gg = .ok w) : fromGeometrical ud w unit gg = .ok v := by
  unfold toGeometrical at h
  unfold fromGeometrical
  by_cases h1 : unit = "" ∨ unit = "geometrical"
  · rw [if_pos h1] at h ⊢; cases h; rfl
  rw [if_neg h1] at h ⊢
  cases gg with
  | none => simp at h
  | some g =>
    dsimp only at h ⊢
    obtain ⟨a, ha, h⟩ := bind_ok.1 h
    obtain ⟨h0, rfl⟩ := fdiv_ok.1 h
    rw [div_mul_cancel₀ _ h0]
    exact metres_to_from_partial ud unit none v a (by simp) ht ha

/-- **C37**, geometrical lengths, in the other order.  Partial for the same reason. -/
theorem geometrical_from_to_partial (ud : Option SI) (unit : String) (gg : Option Metric) (v w : ℝ)
    (hm : ∀ g, gg = some g → g.mass ≠ 0) (ht : NotTime ud unit)
    (h : fromGeometrical ud v unit gg = .ok w) : toGeometrical ud w unit gg = .ok v := by
  unfold fromGeometrical at h
  unfold toGeometrical
  by_cases h1 : unit = "" ∨ unit = "geometrical"
  · rw [if_pos h1] at h ⊢; cases h; rfl
  rw [if_neg h1] at h ⊢
  cases gg with
  | none => simp at h
  | some g =>
    dsimp only at h ⊢
    have hl : g.unitLength ≠ 0 := mul_ne_zero (hm g rfl) (by norm_num [gOverC2])
    exact bind_ok.2 ⟨_, metres_from_to_partial ud unit none _ w ht h,
      fdiv_ok.2 ⟨hl, by field_simp⟩⟩

/-- **C37**, geometrical times: what `ToGeometricalTime` accepts, `FromGeometricalTime` converts
back. -/
theorem geometricalTime_to_from (ud : Option SI) (unit : String) (gg : Option Metric) (v w : ℝ)
    (h : toGeometricalTime ud v unit gg = .ok w) : fromGeometricalTime ud w unit gg = .ok v := by
  unfold toGeometricalTime at h
  unfold fromGeometricalTime
  by_cases h1 : unit = "" ∨ unit = "geometrical_time"
  · rw [if_pos h1] at h ⊢; cases h; rfl
  rw [if_neg h1] at h ⊢
  cases gg with
  | none => simp at h
  | some g =>
    dsimp only at h ⊢
    obtain ⟨a, ha, h⟩ := bind_ok.1 h
    obtain ⟨b, hb, rfl⟩ := map_ok.1 h
    obtain ⟨h0, rfl⟩ := fdiv_ok.1 hb
    have e : a / g.unitLength * c * g.unitLength / c = a := by
      have := c_ne
      field_simp
    rw [e]
    exact seconds_to_from ud unit none v a (by simp) ha

/-- **C37**, geometrical times, in the other order. -/
theorem geometricalTime_from_to (ud : Option SI) (unit : String) (gg : Option Metric) (v w : ℝ)
    (hm : ∀ g, gg = some g → g.mass ≠ 0)
    (h : fromGeometricalTime ud v unit gg = .ok w) : toGeometricalTime ud w unit gg = .ok v := by
  unfold fromGeometricalTime at h
  unfold toGeometricalTime
  by_cases h1 : unit = "" ∨ unit = "geometrical_time"
  · rw [if_pos h1] at h ⊢; cases h; rfl
  rw [if_neg h1] at h ⊢
  cases gg with
  | none => simp at h
  | some g =>
    dsimp only at h ⊢
    have hl : g.unitLength ≠ 0 := mul_ne_zero (hm g rfl) (by norm_num [gOverC2])
    refine bind_ok.2 ⟨_, seconds_from_to ud unit none _ w h,
      map_ok.2 ⟨_, fdiv_ok.2 ⟨hl, rfl⟩, ?_⟩⟩
    have := c_ne
    field_simp

/-- The geometrical unit of length is `G M / c²` for the mass of the metric, the two conversions
agree on it, and the unit of time is the time light takes to cover it. -/
theorem geometrical_unit (ud : Option SI) (g : Metric) (v : ℝ) :
    toMeters ud v "geometrical" (some g) = .ok (v * g.unitLength) ∧
      toGeometrical ud (v * g.unitLength) "m" (some g) =
        (if g.mass = 0 then .error .notFinite else .ok v) ∧
      toSeconds ud v "geometrical_time" (some g) = .ok (v * g.unitLength / 299792458) ∧
      |g.unitLength - 6.67428e-11 * g.mass / 299792458 ^ 2| ≤ 2e-44 * |g.mass| := by
  refine ⟨by simp [toMeters], ?_, by simp [toSeconds, c, mul_div_assoc], ?_⟩
  · simp only [toGeometrical, toMeters]
    norm_num [Except.bind, fdiv]
    have hg : gOverC2 ≠ 0 := by norm_num [gOverC2]
    by_cases hm : g.mass = 0
    · simp [Metric.unitLength, hm]
    · have hl : g.unitLength ≠ 0 := mul_ne_zero hm hg
      simp [hm, hl]
  · have e : g.unitLength - 6.67428e-11 * g.mass / 299792458 ^ 2 =
        (gOverC2 - 6.67428e-11 / 299792458 ^ 2) * g.mass := by
      unfold Metric.unitLength; ring
    rw [e, abs_mul]
    apply mul_le_mul_of_nonneg_right _ (abs_nonneg _)
    rw [abs_le]
    constructor <;> norm_num [gOverC2]

/-! ### Findings -/

/-- Finding: a length expressed in a unit of time comes back multiplied by `c²`: `FromMeters`
multiplies by `c` a length it should divide by `c`. -/
theorem metres_second_wrong (s : SI) (unit : String) (u : Unit) (gg : Option Metric) (v : ℝ)
    (hu : s.parse unit = some u) (h : unit ≠ "" ∧ unit ≠ "m" ∧ unit ≠ "geometrical")
    (hd : u.dim = second.dim) (ho : u.offset = 0) :
    ∃ w, toMeters (some s) v unit gg = .ok w ∧
      fromMeters (some s) w unit gg = .ok (v * 299792458 ^ 2) := by
  refine ⟨_, (metres_physical s unit u gg v hu h).2.1 hd, ?_⟩
  have e1 : ¬ areConvertible u metre := by
    rintro (e | e) <;> rw [hd] at e <;> have := congrFun e 0 <;> simp [second, metre] at this
  have := u.slope_ne
  unfold fromMeters
  rw [if_neg (by tauto), if_neg (by tauto)]
  refine bind_ok'.2 ⟨u, unit_ok.2 hu, ?_⟩
  rw [if_neg e1, if_pos (show areConvertible u second from Or.inl hd), convert, if_pos hd.symm]
  simp only [Unit.fromBase, Unit.toBase, second, ho, c]
  congr 1
  field_simp
  ring

/-- Finding: a length expressed in a unit of frequency comes back divided by `c²`. -/
theorem metres_hertz_wrong (s : SI) (unit : String) (u : Unit) (gg : Option Metric) (v : ℝ)
    (hu : s.parse unit = some u) (h : unit ≠ "" ∧ unit ≠ "m" ∧ unit ≠ "geometrical")
    (hd : u.dim = hertz.dim) (ho : u.offset = 0) (hv : v ≠ 0) :
    ∃ w, toMeters (some s) v unit gg = .ok w ∧
      fromMeters (some s) w unit gg = .ok (v / 299792458 ^ 2) := by
  have hs := u.slope_ne
  have h0 : u.toBase v ≠ 0 := by simp [Unit.toBase, ho, hs, hv]
  refine ⟨_, (metres_physical s unit u gg v hu h).2.2 hd h0, ?_⟩
  have e1 : ¬ areConvertible u metre := by
    rintro (e | e) <;> rw [hd] at e <;> have := congrFun e 0 <;> simp [hertz, metre] at this
  have e3 : u.dim = -second.dim := by
    rw [hd]; funext i; fin_cases i <;> simp [second, hertz]
  have e4 : second.dim ≠ u.dim := fun e => by
    rw [hd] at e; have := congrFun e 2; simp [hertz, second] at this
  unfold fromMeters
  rw [if_neg (by tauto), if_neg (by tauto)]
  refine bind_ok'.2 ⟨u, unit_ok.2 hu, ?_⟩
  rw [if_neg e1, if_pos (show areConvertible u second from Or.inr e3), convert, if_neg e4,
    if_pos (by rw [e3, neg_neg]), map_ok]
  refine ⟨_, fdiv_ok.2 ⟨?_, rfl⟩, ?_⟩
  · simp only [second, Unit.toBase, c] at h0 ⊢
    simp [h0]
  · simp only [Unit.fromBase, Unit.toBase, second, ho, c]
    field_simp
    ring

/-- Finding: `ToGeometricalTime` and `FromGeometricalTime` refuse the unit "geometrical", which
`ToSeconds` and `FromSeconds` accept with the same metric. -/
theorem geometricalTime_geometrical_wrong (ud : Option SI) (g : Metric) (v : ℝ) :
    toGeometricalTime ud v "geometrical" (some g) = .error .thrown ∧
      fromGeometricalTime ud v "geometrical" (some g) = .error .thrown ∧
      ∃ w, toSeconds ud v "geometrical" (some g) = .ok w := by
  refine ⟨?_, ?_, ?_⟩
  · simp [toGeometricalTime, toSeconds, Except.bind]
  · simp [fromGeometricalTime, fromSeconds]
  · simp [toSeconds]

/-! ### Examples -/

/-- A small data base. -/
noncomputable def demo : SI where
  parse := fun
    | "km" => some ⟨metre.dim, 1000, 0, by norm_num⟩
    | "min" => some ⟨second.dim, 60, 0, by norm_num⟩
    | "GHz" => some ⟨hertz.dim, 1e9, 0, by norm_num⟩
    | "keV" => some ⟨energyDim, 1000, 0, by norm_num⟩
    | "g" => some ⟨kilogram.dim, 1 / 1000, 0, by norm_num⟩
    | _ => none
  eV := ⟨energyDim, 1, 0, one_ne_zero⟩
  eV_dim := rfl

/-- 3 km are 3000 m and come back as 3 km. -/
example : toMeters (some demo) 3 "km" none = .ok 3000 ∧
    fromMeters (some demo) 3000 "km" none = .ok 3 := by
  have h := (metres_physical demo "km" ⟨metre.dim, 1000, 0, by norm_num⟩ none 3 rfl
    ⟨by decide, by decide, by decide⟩).1 rfl
  have e : toMeters (some demo) 3 "km" none = .ok 3000 := by
    rw [h]; norm_num [Unit.toBase]
  refine ⟨e, metres_to_from_partial _ _ _ _ _ (by simp) ?_ e⟩
  intro s u hs hp
  cases hs
  cases hp
  rintro (e | e) <;> have := congrFun e 0 <;> simp [second, metre] at this

/-- Without libudunits2: two kiloparsecs, in a metric of ten solar masses, there and back. -/
example : ∃ w, toGeometrical none 2 "kpc" (some ⟨10 * sunMass⟩) = .ok w ∧
    fromGeometrical none w "kpc" (some ⟨10 * sunMass⟩) = .ok 2 := by
  have hm : toMeters none 2 "kpc" none = .ok (2 * ((1000 * 30856802500000000 : ℚ) : ℝ)) :=
    (metres_list "kpc" none 2 _ ⟨by decide, by decide, by decide⟩).2 ⟨_, by simp [siMetres], rfl⟩
  have hl : (⟨10 * sunMass⟩ : Metric).unitLength ≠ 0 := by
    norm_num [Metric.unitLength, sunMass, gOverC2]
  have e : toGeometrical none 2 "kpc" (some ⟨10 * sunMass⟩) =
      .ok (2 * ((1000 * 30856802500000000 : ℚ) : ℝ) / (⟨10 * sunMass⟩ : Metric).unitLength) := by
    unfold toGeometrical
    rw [if_neg (by decide)]
    exact bind_ok.2 ⟨_, hm, fdiv_ok.2 ⟨hl, rfl⟩⟩
  exact ⟨_, e, geometrical_to_from_partial _ _ _ _ _ (by intro s u h; simp at h) e⟩

/-- The finding on a concrete value: one minute as a length does not come back as one minute. -/
example : ∃ w, toMeters (some demo) 1 "min" none = .ok w ∧
    fromMeters (some demo) w "min" none = .ok (299792458 ^ 2) := by
  simpa using metres_second_wrong demo "min" ⟨second.dim, 60, 0, by norm_num⟩ none 1 rfl
    ⟨by decide, by decide, by decide⟩ rfl rfl

/-- A frequency: 5 GHz is 5·10⁹ Hz, and comes back. -/
example : fromHerz (some demo) 5e9 "GHz" = .ok 5 := by
  refine herz_to_from demo "GHz" 5 5e9 ?_
  have e : areConvertible (⟨hertz.dim, 1e9, 0, by norm_num⟩ : Unit) hertz := Or.inl rfl
  unfold toHerz
  rw [if_neg (by decide)]
  refine bind_ok'.2 ⟨⟨hertz.dim, 1e9, 0, by norm_num⟩, rfl, ?_⟩
  rw [if_pos e, convert, if_pos rfl]
  norm_num [Unit.fromBase, Unit.toBase, hertz]

end Gyoto.Conv
