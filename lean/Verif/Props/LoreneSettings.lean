import Verif.Model.LoreneSettings
import Mathlib.Tactic.NormNum

/-!
# C150: the settings and the copy of numerical metrics
-/

namespace Gyoto.LoreneSettings

/-- Calls one after the other, and whether one of them has thrown. -/
def calls : Metric → List Call → Metric × Bool
  | m, [] => (m, false)
  | m, c :: cs => ((calls (call m c).1 cs).1, (call m c).2 || (calls (call m c).1 cs).2)

/-- The tables in memory are those of the settings that the object shows. -/
def Coherent (m : Metric) : Prop := m.tables = m.directory.map fun d => (d, m.flags)

/-- **C150.** After any sequence of calls of which none throws, the tables in memory are those of the settings shown. -/
theorem coherent_partial (m : Metric) (h : Coherent m) (cs : List Call) (hc : (calls m cs).2 = false) : Coherent (calls m cs).1 := by
  induction cs generalizing m with
  | nil => exact h
  | cons c cs ih =>
    simp only [calls, Bool.or_eq_false_iff] at hc ⊢
    refine ih _ ?_ hc.2
    have hl : ∀ f, (late m f).2 = false → Coherent (late m f).1 := by
      intro f hf
      simp only [late, Option.isSome_eq_false_iff, Option.isNone_iff_eq_none] at hf ⊢
      unfold Coherent at h ⊢
      simp only [hf, Option.map_none] at h ⊢
      exact h
    cases c with
    | mapEt b => exact hl _ hc.1
    | surface b => exact hl _ hc.1
    | acceleration b => exact hl _ hc.1
    | marginal b => exact hl _ hc.1
    | directory d => rfl
    | _ => exact h

/-- **C150, wrong.** A call that throws changes the setting: from a coherent object, the setting shown is no more that of the tables. -/
theorem late_wrong {m : Metric} (h : Coherent m) {d : String} (hd : m.directory = some d) {b : Bool} (hb : m.flags.surface ≠ b) :
    (call m (.surface b)).2 = true ∧ (call m (.surface b)).1.flags.surface = b ∧ ¬ Coherent (call m (.surface b)).1 := by
  refine ⟨by simp [call, late, hd], rfl, ?_⟩
  unfold Coherent at h ⊢
  simp only [call, late, hd, Option.map_some] at h ⊢
  rw [h]
  intro e
  have e := congrArg Flags.surface (Prod.mk.inj (Option.some.inj e)).2
  exact hb e

/-- **C150.** The copy of a coherent object has all its own settings and its tables; it is the same object when the settings of all metrics have
their first values. -/
theorem clone_partial {m : Metric} (h : Coherent m) (dmin dmax dover : ℝ) :
    { clone dmin dmax dover m with base := m.base } = m ∧ Coherent (clone dmin dmax dover m) ∧
      (clone dmin dmax dover m = m ↔ m.base = Base.init dmin dmax dover) := by
  have e : { clone dmin dmax dover m with base := m.base } = m := Metric.ext rfl rfl rfl rfl rfl rfl rfl rfl h.symm
  refine ⟨e, rfl, fun h' => ?_, fun h' => ?_⟩
  · rw [← h']
    rfl
  · rw [h'] at e
    exact e

/-- **C150, wrong.** The copy has the mass `1` and the first steps, whatever the calls on the object before. -/
theorem clone_wrong (m : Metric) (dmin dmax dover : ℝ) : (clone dmin dmax dover m).base.mass = 1 ∧
    (∀ x, x ≠ 1 → clone dmin dmax dover (call m (.mass x)).1 ≠ (call m (.mass x)).1) ∧
    (∀ x, x ≠ dmax → clone dmin dmax dover (call m (.deltaMax x)).1 ≠ (call m (.deltaMax x)).1) := by
  refine ⟨rfl, fun x hx h => hx ?_, fun x hx h => hx ?_⟩
  · exact (congrArg (fun m => m.base.mass) h).symm
  · exact (congrArg (fun m => m.base.deltaMax) h).symm

/-- A metric as it is made, then filled in the order that the messages ask for. -/
example : Coherent (calls ⟨Base.init 0 1 1, none, ⟨true, false, false, false⟩, false, false, 0, 0, 0, none⟩
    [.surface true, .mass 2, .directory "star", .horizon 1]).1 := by
  refine coherent_partial _ ?_ _ rfl
  rfl

end Gyoto.LoreneSettings
