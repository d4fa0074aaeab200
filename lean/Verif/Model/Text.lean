/-!
# Model of `Gyoto::split`, `Gyoto::debug` and `Gyoto::verbose`

Sources: `lib/Utils.C` lines 36-44, 61-75 (`debug`, `verbose`), 170-181 (`split`).
-/

namespace Gyoto.Text

/-! ### `split` -/

/-- `src.find_first_of(delim, pos)`: `none` is `string::npos`. -/
def findFirstOf (delim : List Char) (pos : Nat) : List Char → Option Nat
  | [] => none
  | c :: cs => if delim.contains c then some pos else findFirstOf delim (pos + 1) cs

theorem findFirstOf_ge {delim : List Char} : ∀ {s : List Char} {pos f : Nat}, findFirstOf delim pos s = some f → pos ≤ f := by
  intro s
  induction s with
  | nil => intro pos f h; simp [findFirstOf] at h
  | cons c s ih =>
    intro pos f h
    unfold findFirstOf at h
    split at h
    · simp only [Option.some.injEq] at h; omega
    · have := ih h; omega

/-- The loop of `Gyoto::split` (`lib/Utils.C:174-179`).  When no delimiter is left, `substr(pos, npos-pos)` is the rest of the text,
and the loop ends because `fpos` is `npos`. -/
def splitLoop (src delim : List Char) (pos : Nat) (res : List (List Char)) : List (List Char) :=
  if pos < src.length then
    match _h : findFirstOf delim pos (src.drop pos) with
    | some fpos =>
      if fpos = pos then splitLoop src delim (pos + 1) res
      else splitLoop src delim (fpos + 1) (res ++ [(src.drop pos).take (fpos - pos)])
    | none => res ++ [src.drop pos]
  else res
termination_by src.length - pos
decreasing_by
  · omega
  · have := findFirstOf_ge _h; omega

/-- `Gyoto::split` (`lib/Utils.C:170-181`). -/
def split (src delim : List Char) : List (List Char) := splitLoop src delim 0 []

/-! ### `debug` and `verbose` -/

/-- `GYOTO_DEBUG_VERBOSITY` (`include/GyotoDefs.h:201`). -/
def debugVerbosity : Int := 3000

/-- The three static variables of `lib/Utils.C:36-44`. -/
structure Log where
  debug : Int
  verbosity : Int
  prev : Int
deriving DecidableEq, Repr

/-- Calls. -/
inductive Call where
  | debug (mode : Int)
  | verbose (level : Int)
deriving DecidableEq, Repr

/-- `Gyoto::debug(int)` (`lib/Utils.C:61-71`) and `Gyoto::verbose(int)` (`lib/Utils.C:74`). -/
def step (s : Log) : Call → Log
  | .verbose l => { s with verbosity := l }
  | .debug mode =>
    if mode ≠ s.debug then
      if mode ≠ 0 then ⟨mode, debugVerbosity, s.verbosity⟩ else ⟨mode, s.prev, s.prev⟩
    else s

/-- A history of calls. -/
def run (s : Log) (cs : List Call) : Log := cs.foldl step s

end Gyoto.Text
