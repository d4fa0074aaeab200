/-!
# Model of the requested quantities: words, names, arrays, message layout

Sources: `include/GyotoDefs.h` lines 80-126 (bits); `lib/Scenery.C` lines 809-901 (`setRequestedQuantities`,
`requestedQuantitiesString(string)`, `getRequestedQuantities`), 950-974 (`requestedQuantitiesString()`), 976-1018
(`getScalarQuantitiesCount`, `getSpectralQuantitiesCount`), 406-493 (layout of the message);
`lib/Astrobj.C` lines 1916-2056 (`Astrobj::Properties`).

Simplifications: a set of quantities is a `Nat` read bit by bit; strings are lists of characters without NUL;
`strtok` is replaced by its specification (maximal runs of non-delimiters); unit converters are not modelled
(without UDUNITS the unit is ignored with a warning).  The blocks of 17 similar statements are modelled by one
table each.
-/

namespace Gyoto.Quant

/-- The seventeen quantities. -/
inductive Q where
  | intensity | time | distance | firstDmin | redshift | impactcoords | spectrum | stokesQ | stokesU
  | stokesV | binspectrum | nbcross | user1 | user2 | user3 | user4 | user5
deriving DecidableEq, Repr

/-- Bit numbers (`include/GyotoDefs.h:83-122`). -/
def bit : Q → Nat
  | .intensity => 0 | .time => 1 | .distance => 2 | .firstDmin => 3 | .redshift => 4
  | .impactcoords => 5 | .spectrum => 6 | .stokesQ => 7 | .stokesU => 8 | .stokesV => 9
  | .binspectrum => 10 | .nbcross => 11 | .user1 => 31 | .user2 => 30 | .user3 => 29
  | .user4 => 28 | .user5 => 27

/-- `quantities & GYOTO_QUANTITY_…` -/
def has (w : Nat) (q : Q) : Bool := (w &&& (1 <<< bit q)) != 0

/-- Order and names in `requestedQuantitiesString()` (`lib/Scenery.C:954-970`). -/
def names : List (Q × String) :=
  [(.intensity, "Intensity"), (.time, "EmissionTime"), (.distance, "MinDistance"),
   (.firstDmin, "FirstDistMin"), (.redshift, "Redshift"), (.nbcross, "NbCrossEqPlane"),
   (.impactcoords, "ImpactCoords"), (.spectrum, "Spectrum"), (.stokesQ, "SpectrumStokesQ"),
   (.stokesU, "SpectrumStokesU"), (.stokesV, "SpectrumStokesV"), (.binspectrum, "BinSpectrum"),
   (.user1, "User1"), (.user2, "User2"), (.user3, "User3"), (.user4, "User4"), (.user5, "User5")]

/-- The effective set of quantities (`lib/Scenery.C:899-901,952-953`): the requested ones, else those of the
astrobj (`none`: no astrobj). -/
def effective (quantities : Nat) (dflt : Option Nat) : Nat :=
  if quantities ≠ 0 then quantities else dflt.getD 0

/-- `requestedQuantitiesString() const` (`lib/Scenery.C:950-974`). -/
def print (w : Nat) : List Char :=
  names.flatMap fun (q, n) => if has w q then n.toList ++ [' '] else []

/-- Delimiters of `strtok`. -/
def isDelim (c : Char) : Bool := c == ' ' || c == '\t' || c == '\n'

/-- `strtok(…, " \t\n")` called until it returns `NULL` (`lib/Scenery.C:818,884`); `acc` is the current
token, reversed. -/
def tokens (acc : List Char) : List Char → List (List Char)
  | [] => if acc.isEmpty then [] else [acc.reverse]
  | c :: cs =>
    if isDelim c then (if acc.isEmpty then tokens [] cs else acc.reverse :: tokens [] cs)
    else tokens (c :: acc) cs

/-- Name without the unit (`lib/Scenery.C:827-836`): `first` is the place of the first bracket. -/
def quantOf (tkk : List Char) : List Char :=
  match tkk.findIdx? (· == '[') with
  | some first => if first < tkk.length - 1 then tkk.take first else tkk
  | none => tkk

/-- Unit in brackets (same lines). -/
def unitOf (tkk : List Char) : List Char :=
  match tkk.findIdx? (· == '[') with
  | some first => if first < tkk.length - 1 then (tkk.drop (first + 1)).take (tkk.length - 1 - first - 1)
    else []
  | none => []

/-- The chain of `strcmp` (`lib/Scenery.C:842-883`): names in the order of the comparisons, with the bits set. -/
def strcmpTable : List (String × Nat) :=
  [("Intensity", 1 <<< 0), ("EmissionTime", 1 <<< 1), ("MinDistance", 1 <<< 2), ("FirstDistMin", 1 <<< 3),
   ("Redshift", 1 <<< 4), ("NbCrossEqPlane", 1 <<< 11), ("ImpactCoords", 1 <<< 5),
   ("SpectrumStokesQ", 1 <<< 7), ("SpectrumStokesU", 1 <<< 8), ("SpectrumStokesV", 1 <<< 9),
   ("Spectrum", 1 <<< 6), ("SpectrumStokes", 1 <<< 6 ||| 1 <<< 7 ||| 1 <<< 8 ||| 1 <<< 9),
   ("BinSpectrum", 1 <<< 10), ("User1", 1 <<< 31), ("User2", 1 <<< 30), ("User3", 1 <<< 29),
   ("User4", 1 <<< 28), ("User5", 1 <<< 27)]

/-- Result of the first comparison that succeeds; `none`: `GYOTO_ERROR("… unknown quantity")`. -/
def bitsOf (quant : List Char) : Option Nat :=
  (strcmpTable.find? fun x => x.1.toList == quant).map (·.2)

/-- Result of the setter: the new word; whether an error was thrown (the word then holds what had been
read before); whether parallel transport was switched on. -/
structure ParseRes where
  w : Nat
  err : Bool
  transport : Bool
deriving DecidableEq, Repr

/-- The loop of `requestedQuantitiesString(string)`. -/
def parseLoop (w : Nat) : List (List Char) → Nat × Bool
  | [] => (w, false)
  | t :: ts =>
    match bitsOf (quantOf t) with
    | some b => parseLoop (w ||| b) ts
    | none => (w, true)

/-- `Scenery::requestedQuantitiesString(string)` (`lib/Scenery.C:816-898`). `pt`: former value of parallel
transport. -/
def parse (pt : Bool) (s : List Char) : ParseRes :=
  let (w, err) := parseLoop 0 (tokens [] s)
  ⟨w, err, pt || (!err && (has w .stokesQ || has w .stokesU || has w .stokesV))⟩

/-! ### Counting and the message -/

/-- `getScalarQuantitiesCount` (`lib/Scenery.C:976-1001`). -/
def scalars : List Q := [.intensity, .time, .distance, .firstDmin, .redshift, .nbcross, .user1, .user2,
  .user3, .user4, .user5]
def scalarCount (w : Nat) : Nat := (scalars.filter (has w)).length

/-- `getSpectralQuantitiesCount` (`lib/Scenery.C:1003-1018`). -/
def spectrals : List Q := [.spectrum, .stokesQ, .stokesU, .stokesV, .binspectrum]
def spectralCount (w : Nat) : Nat := (spectrals.filter (has w)).length

/-- Length of the message (`lib/Scenery.C:419-421`). -/
def nelt (w nbnuobs : Nat) : Nat :=
  scalarCount w + nbnuobs * spectralCount w + (if has w .impactcoords then 16 else 0)

/-- Order in which the blocks of the message are placed (`lib/Scenery.C:438-493`). -/
def layoutOrder : List Q := [.intensity, .time, .distance, .firstDmin, .redshift, .nbcross,
  .impactcoords, .user1, .user2, .user3, .user4, .user5, .spectrum, .stokesQ, .stokesU, .stokesV,
  .binspectrum]

/-- By how much `curquant` is increased after each (same lines): `curquant++`, or `curquant+=16`. -/
def advance : Q → Nat
  | .impactcoords => 16
  | _ => 1

/-- Beginning of each block. -/
def layoutFrom (w : Nat) (cur : Nat) : List Q → List (Q × Nat)
  | [] => []
  | q :: qs => if has w q then (q, cur) :: layoutFrom w (cur + advance q) qs else layoutFrom w cur qs

def layout (w : Nat) : List (Q × Nat) := layoutFrom w 0 layoutOrder

/-- Number of elements read and written through each pointer by the workers and by the manager
(`lib/Scenery.C:538-611`, `lib/Astrobj.C:1944-1963`). -/
def width (nbnuobs : Nat) : Q → Nat
  | .impactcoords => 16
  | .spectrum => nbnuobs
  | .stokesQ => nbnuobs
  | .stokesU => nbnuobs
  | .stokesV => nbnuobs
  | .binspectrum => nbnuobs
  | _ => 1

/-! ### `Astrobj::Properties` -/

/-- The pointers (`none` is `NULL`; addresses count `double`s) and the stride of spectra. -/
structure Props where
  ptr : Q → Option Nat
  offset : Nat

/-- Factor of the offset in `Properties::operator+=` for each pointer (`lib/Astrobj.C:1997-2016`). -/
def moveStep : Q → Nat
  | .impactcoords => 16
  | _ => 1

/-- `Properties::operator+=` (`lib/Astrobj.C:1997-2016`), for an offset `≥ 0`. -/
def Props.add (p : Props) (n : Nat) : Props :=
  { p with ptr := fun q => (p.ptr q).map fun a => a + moveStep q * n }

/-- `Properties::operator++` (`lib/Astrobj.C:2018-2021`). -/
def Props.inc (p : Props) : Props := p.add 1

/-- `Properties::operator Quantity_t` (`lib/Astrobj.C:2023-2047`): order of the statements. -/
def Props.toWord (p : Props) : Nat :=
  [Q.intensity, .time, .distance, .firstDmin, .redshift, .nbcross, .spectrum, .stokesQ, .stokesU, .stokesV,
   .binspectrum, .impactcoords, .user1, .user2, .user3, .user4, .user5].foldl
    (fun w q => if (p.ptr q).isSome then w ||| (1 <<< bit q) else w) 0


/-- Addresses `a, a+s, …, a+(n-1)s` set to `v`. -/
def fillMem (m : Nat → Int) (a s n : Nat) (v : Int) : Nat → Int :=
  (List.range n).foldl (fun m i => fun x => if x = a + i * s then v else m x) m

/-- `DBL_MAX`, represented by a distinguished integer. -/
def dblMax : Int := -1

/-- Initial value of each quantity (`lib/Astrobj.C:1944-1963`). -/
def initVal : Q → Int
  | .time => dblMax
  | .distance => dblMax
  | .firstDmin => dblMax
  | .impactcoords => dblMax
  | _ => 0

/-- `Properties::init` (`lib/Astrobj.C:1944-1963`): the cells written through each pointer. -/
def Props.init (p : Props) (nbnuobs : Nat) (m : Nat → Int) : Nat → Int :=
  [Q.intensity, .time, .distance, .firstDmin, .redshift, .nbcross, .spectrum, .stokesQ, .stokesU, .stokesV,
   .binspectrum, .impactcoords, .user1, .user2, .user3, .user4, .user5].foldl
    (fun m q => match p.ptr q with
      | none => m
      | some a => match q with
        | .impactcoords => fillMem m a 1 16 (initVal q)
        | .spectrum | .stokesQ | .stokesU | .stokesV | .binspectrum =>
          fillMem m a p.offset nbnuobs (initVal q)
        | _ => fillMem m a 1 1 (initVal q)) m

end Gyoto.Quant
