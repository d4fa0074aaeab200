import Verif.Model.Hooks
import Mathlib.Data.List.Basic
import Mathlib.Data.List.Nodup
import Mathlib.Data.Fintype.Card

namespace Gyoto.Hooks

/-- The items met from pointer `p` are exactly `l`, ending on a null pointer. -/
def chain (mem : Addr → Option Item) : Option Addr → List (Addr × Listener) → Prop
  | p, [] => p = none
  | p, (a, x) :: t => p = some a ∧ ∃ q, mem a = some ⟨x, q⟩ ∧ chain mem q t

theorem chain_congr {mem mem' : Addr → Option Item} {p l} (h : ∀ x ∈ l, mem' x.1 = mem x.1)
    (hc : chain mem p l) : chain mem' p l := by
  induction l generalizing p with
  | nil => exact hc
  | cons y t ih =>
    obtain ⟨a, x⟩ := y
    obtain ⟨h1, q, h2, h3⟩ := hc
    refine ⟨h1, q, ?_, ih (fun z hz => h z (by simp [hz])) h3⟩
    rw [h (a, x) (by simp)]; exact h2

/-- Representation: the teller's memory holds exactly the items of `l`, linked in order. -/
structure Rep (t : Teller) (l : List (Addr × Listener)) : Prop where
  chain : chain t.mem t.head l
  nodup : (l.map Prod.fst).Nodup
  lt : ∀ x ∈ l, x.1 < t.fresh
  live : ∀ a, t.mem a ≠ none → a ∈ l.map Prod.fst

theorem Rep.length_le {t l} (h : Rep t l) : l.length ≤ t.fresh := by
  have h1 : (l.map Prod.fst).toFinset ⊆ Finset.range t.fresh := by
    intro a ha
    simp only [List.mem_toFinset, List.mem_map] at ha
    obtain ⟨x, hx, rfl⟩ := ha
    exact Finset.mem_range.2 (h.lt x hx)
  have h2 := Finset.card_le_card h1
  rw [List.toFinset_card_of_nodup h.nodup] at h2
  simpa using h2

theorem rep_new : Rep Teller.new [] := ⟨rfl, by simp, by simp, by simp [Teller.new]⟩

theorem rep_hook {t l} (h : Rep t l) (x : Listener) : Rep (t.hook x) ((t.fresh, x) :: l) := by
  have hne : ∀ y ∈ l, y.1 ≠ t.fresh := fun y hy => Nat.ne_of_lt (h.lt y hy)
  refine ⟨⟨rfl, t.head, by simp [Teller.hook, setMem], ?_⟩, ?_, ?_, ?_⟩
  · exact chain_congr (fun y hy => by simp [Teller.hook, setMem, hne y hy]) h.chain
  · simp only [List.map_cons, List.nodup_cons]
    refine ⟨?_, h.nodup⟩
    intro hm
    obtain ⟨y, hy, hy2⟩ := List.mem_map.1 hm
    exact hne y hy hy2
  · intro y hy
    rcases List.mem_cons.1 hy with rfl | hy
    · simp [Teller.hook]
    · have := h.lt y hy
      exact Nat.lt_succ_of_lt this
  · intro a ha
    simp only [Teller.hook, setMem] at ha
    split at ha
    · simp_all
    · simp only [List.map_cons, List.mem_cons]
      exact Or.inr (h.live a ha)

/-- Where `parent` points when the items of `pre` have been kept. -/
def parentOf (pre : List (Addr × Listener)) : Parent :=
  match pre.getLast? with
  | none => .head
  | some x => .nextOf x.1

theorem chain_split {mem p pre rest} (h : chain mem p (pre ++ rest)) : ∃ q, chain mem q rest := by
  induction pre generalizing p with
  | nil => exact ⟨p, h⟩
  | cons y t ih =>
    obtain ⟨_, q, _, h3⟩ := h
    exact ih h3

/-- Replacing what follows the last item of a non-empty prefix. -/
theorem chain_relink {mem : Addr → Option Item} {p : Option Addr} {pre : List (Addr × Listener)}
    {b : Addr} {y : Listener} {rest rest' : List (Addr × Listener)} {q : Option Addr}
    {mem' : Addr → Option Item}
    (hc : chain mem p (pre ++ (b, y) :: rest))
    (hpre : ∀ x ∈ pre, mem' x.1 = mem x.1) (hb' : mem' b = some ⟨y, q⟩)
    (hrest : chain mem' q rest') : chain mem' p (pre ++ (b, y) :: rest') := by
  induction pre generalizing p with
  | nil =>
    obtain ⟨h1, _⟩ := hc
    exact ⟨h1, q, hb', hrest⟩
  | cons z t ih =>
    obtain ⟨a, x⟩ := z
    obtain ⟨h1, s, h2, h3⟩ := hc
    refine ⟨h1, s, ?_, ih h3 (fun w hw => hpre w (by simp [hw]))⟩
    rw [hpre (a, x) (by simp)]; exact h2

theorem chain_mem {mem p pre b y rest} (hc : chain mem p (pre ++ (b, y) :: rest)) :
    ∃ r, mem b = some ⟨y, r⟩ ∧ chain mem r rest := by
  induction pre generalizing p with
  | nil => obtain ⟨_, q, h2, h3⟩ := hc; exact ⟨q, h2, h3⟩
  | cons z t ih => obtain ⟨_, q, _, h3⟩ := hc; exact ih h3

theorem unhookLoop_spec (hear : Listener) (fuel : Nat) (t : Teller)
    (pre rest : List (Addr × Listener)) (item : Option Addr)
    (hr : Rep t (pre ++ rest)) (hitem : chain t.mem item rest) (hf : rest.length < fuel) :
    ∃ t', unhookLoop hear fuel t item (parentOf pre) = some t' ∧ t'.fresh = t.fresh ∧
      Rep t' (pre ++ rest.filter (fun x => x.2 ≠ hear)) := by
  induction fuel generalizing t pre rest item with
  | zero => omega
  | succ fuel ih =>
    cases rest with
    | nil =>
      simp only [chain] at hitem
      subst hitem
      exact ⟨t, rfl, rfl, by simpa using hr⟩
    | cons z rest =>
      obtain ⟨a, x⟩ := z
      obtain ⟨rfl, q, hmem, hq⟩ := hitem
      simp only [unhookLoop, hmem]
      have hnd := hr.nodup
      simp only [List.map_append, List.map_cons] at hnd
      have hapre : ∀ w ∈ pre, w.1 ≠ a := by
        intro w hw e
        have := (List.nodup_append.1 hnd).2.2 w.1 (List.mem_map.2 ⟨w, hw, rfl⟩) a (by simp)
        exact this e
      have harest : ∀ w ∈ rest, w.1 ≠ a := by
        intro w hw e
        have h2 := (List.nodup_append.1 hnd).2.1
        rw [List.nodup_cons] at h2
        exact h2.1 (List.mem_map.2 ⟨w, hw, e⟩)
      have hnd' : ((pre ++ rest).map Prod.fst).Nodup := by
        rw [List.map_append]
        rw [List.nodup_append] at hnd ⊢
        refine ⟨hnd.1, (List.nodup_cons.1 hnd.2.1).2, fun u hu v hv => ?_⟩
        exact hnd.2.2 u hu v (by simp [hv])
      have hlt' : ∀ w ∈ pre ++ rest, w.1 < t.fresh := by
        intro w hw
        apply hr.lt w
        simp only [List.mem_append, List.mem_cons] at hw ⊢
        tauto
      by_cases hx : x = hear
      · subst hx
        simp only [if_true]
        -- rewire the predecessor
        rcases List.eq_nil_or_concat pre with hp | ⟨pre', ⟨b, y⟩, hp⟩
        · subst hp
          have hpar : parentOf ([] : List (Addr × Listener)) = .head := rfl
          simp only [hpar, setParent]
          have hrep : Rep { t with head := q, mem := setMem t.mem a none } ([] ++ rest) := by
            refine ⟨?_, hnd', hlt', ?_⟩
            · exact chain_congr (fun w hw => by simp [setMem, harest w hw]) hq
            · intro c hc
              simp only [setMem] at hc
              split at hc
              · simp at hc
              · rename_i hca
                have := hr.live c hc
                simp at this
                rcases this with e | e
                · exact absurd e hca
                · simpa using e
          obtain ⟨t', h1, h2, h3⟩ := ih _ [] rest q hrep hrep.chain (by simp at hf; omega)
          refine ⟨t', h1, h2, ?_⟩
          simpa using h3
        · rw [List.concat_eq_append] at hp
          subst hp
          have hpar : parentOf (pre' ++ [(b, y)]) = .nextOf b := by simp [parentOf]
          have hch : chain t.mem t.head (pre' ++ (b, y) :: (a, x) :: rest) := by
            have := hr.chain; simpa using this
          obtain ⟨r, hb, hrr⟩ := chain_mem hch
          have hba : b ≠ a := hapre (b, y) (by simp)
          simp only [hpar, setParent, hb]
          have hnd2 := hnd
          simp only [List.map_append, List.map_cons, List.map_nil] at hnd2
          have hbpre : ∀ w ∈ pre', w.1 ≠ b := by
            intro w hw e
            have h3 := (List.nodup_append.1 hnd2).1
            exact (List.nodup_append.1 h3).2.2 w.1 (List.mem_map.2 ⟨w, hw, rfl⟩) b (by simp) e
          have hbrest : ∀ w ∈ rest, w.1 ≠ b := by
            intro w hw e
            exact (List.nodup_append.1 hnd2).2.2 b (by simp) w.1
              (by simp only [List.mem_cons]; exact Or.inr (List.mem_map.2 ⟨w, hw, rfl⟩)) e.symm
          have hrep : Rep { t with mem := setMem (setMem t.mem b (some ⟨y, q⟩)) a none }
              ((pre' ++ [(b, y)]) ++ rest) := by
            refine ⟨?_, hnd', hlt', ?_⟩
            · have := chain_relink (mem' := setMem (setMem t.mem b (some ⟨y, q⟩)) a none)
                (q := q) (rest' := rest) hch
                (fun w hw => by
                  have : w.1 ≠ a := hapre w (by simp [hw])
                  simp [setMem, this, hbpre w hw])
                (by simp [setMem, hba])
                (chain_congr (fun w hw => by simp [setMem, harest w hw, hbrest w hw]) hq)
              simpa using this
            · intro c hc
              simp only [setMem] at hc
              split at hc
              · simp at hc
              · rename_i hca
                split at hc
                · rename_i hcb; subst hcb; simp
                · have := hr.live c hc
                  simp only [List.map_append, List.map_cons, List.mem_append, List.mem_cons] at this ⊢
                  tauto
          obtain ⟨t', h1, h2, h3⟩ := ih _ (pre' ++ [(b, y)]) rest q hrep
            (chain_congr (fun w hw => by simp [setMem, harest w hw, hbrest w hw]) hq)
            (by simp at hf; omega)
          rw [hpar] at h1
          refine ⟨t', h1, h2, ?_⟩
          simpa using h3
      · rw [if_neg hx]
        have hpar : parentOf (pre ++ [(a, x)]) = .nextOf a := by simp [parentOf]
        obtain ⟨t', h1, h2, h3⟩ := ih t (pre ++ [(a, x)]) rest q (by simpa using hr) hq
          (by simp at hf; omega)
        rw [hpar] at h1
        refine ⟨t', h1, h2, ?_⟩
        simpa [hx] using h3

theorem rep_unhook {t l} (h : Rep t l) (x : Listener) :
    ∃ t', t.unhook x = some t' ∧ Rep t' (l.filter (fun y => y.2 ≠ x)) := by
  obtain ⟨t', h1, _, h3⟩ := unhookLoop_spec x (t.fresh + 1) t [] l t.head h h.chain
    (by have := h.length_le; omega)
  exact ⟨t', h1, h3⟩

theorem tellFrom_chain {mem p l fuel} (h : chain mem p l) (hf : l.length < fuel) :
    tellFrom mem fuel p = some (l.map Prod.snd) := by
  induction l generalizing p fuel with
  | nil =>
    cases fuel with
    | zero => omega
    | succ n => simp only [chain] at h; subst h; rfl
  | cons y t ih =>
    obtain ⟨a, x⟩ := y
    obtain ⟨rfl, q, h2, h3⟩ := h
    cases fuel with
    | zero => omega
    | succ n => simp [tellFrom, h2, ih h3 (by simpa using hf)]

theorem deleteFrom_chain {mem p l fuel} (h : chain mem p l) (hf : l.length < fuel) :
    ∃ m, deleteFrom fuel mem p = some m ∧
      ∀ a, m a = if a ∈ l.map Prod.fst then none else mem a := by
  induction l generalizing p fuel with
  | nil =>
    cases fuel with
    | zero => omega
    | succ n => simp only [chain] at h; subst h; exact ⟨mem, rfl, by simp⟩
  | cons y t ih =>
    obtain ⟨a, x⟩ := y
    obtain ⟨rfl, q, h2, h3⟩ := h
    cases fuel with
    | zero => omega
    | succ n =>
      obtain ⟨m, hm, hm2⟩ := ih h3 (fuel := n) (by simpa using hf)
      refine ⟨setMem m a none, by simp [deleteFrom, h2, hm], fun b => ?_⟩
      simp only [setMem, List.map_cons, List.mem_cons, hm2]
      by_cases hb : b = a
      · simp [hb]
      · simp only [hb, if_false, false_or]

end Gyoto.Hooks
