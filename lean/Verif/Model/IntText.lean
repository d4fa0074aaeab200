import Verif.Model.Quantities

/-!
# Model of writing and reading integers as text

Sources: `lib/Factory.C` lines 57, 794-824, 870-890 (writing: `sprintf` with `" %i "`, `" %u "`, `" %li "`, `" %lu "`,
`operator<<` for vectors), `lib/Object.C` lines 485-495 (reading: `strtol`, `strtoul` in base 0),
`lib/Factory.C` lines 1114-1134 (`parseArrayULong`: `strtok` then `atol`).

The functions of the C library are modelled from the C standard (N1570 7.22.1.2-4, 7.21.6.1, "C" locale, 64-bit `long`).
Storing the text in the XML document and extracting it is taken to be the identity.
-/

namespace Gyoto.IntText

/-- `dvalLength` (`lib/Factory.C:57`). -/
def dvalLength : Nat := 30

/-- The character of a decimal digit. -/
def digitChar (d : Nat) : Char := Char.ofNat ('0'.toNat + d)

/-- Decimal representation of a natural number: conversion `%lu` of `sprintf`. -/
def printNat (n : Nat) : List Char :=
  if n < 10 then [digitChar n] else printNat (n / 10) ++ [digitChar (n % 10)]
termination_by n
decreasing_by omega

/-- Conversion `%li`. -/
def printInt (i : Int) : List Char :=
  if i < 0 then '-' :: printNat i.natAbs else printNat i.natAbs

/-- The text of an integer parameter (`lib/Factory.C:814,822`). -/
def paramLong (i : Int) : List Char := ' ' :: printInt i ++ [' ']
def paramULong (n : Nat) : List Char := ' ' :: printNat n ++ [' ']

/-- The text of a vector of unsigned integers (`lib/Factory.C:877-885`). -/
def paramVector : List Nat → List Char
  | [] => []
  | n :: ns => printNat n ++ ns.flatMap fun k => ' ' :: printNat k

/-- `isspace` in the "C" locale. -/
def isSpace (c : Char) : Bool := c == ' ' || c == '\t' || c == '\n' || c == '\x0b' || c == '\x0c' || c == '\r'

/-- Value of a digit in bases up to 36. -/
def digitVal (c : Char) : Option Nat :=
  if '0' ≤ c ∧ c ≤ '9' then some (c.toNat - '0'.toNat)
  else if 'a' ≤ c ∧ c ≤ 'z' then some (c.toNat - 'a'.toNat + 10)
  else if 'A' ≤ c ∧ c ≤ 'Z' then some (c.toNat - 'A'.toNat + 10)
  else none

/-- Digits of a base up to the first other character. -/
def readDigits (base : Nat) (acc : Nat) : List Char → Nat
  | [] => acc
  | c :: cs =>
    match digitVal c with
    | some d => if d < base then readDigits base (acc * base + d) cs else acc
    | none => acc

/-- The subject sequence after the sign, for base 0: prefixes `0x` and `0`. -/
def readBase0 : List Char → Nat
  | '0' :: 'x' :: cs => readDigits 16 0 cs
  | '0' :: 'X' :: cs => readDigits 16 0 cs
  | '0' :: cs => readDigits 8 0 cs
  | cs => readDigits 10 0 cs

/-- Sign and magnitude, after skipping spaces. -/
def readSigned (magnitude : List Char → Nat) (s : List Char) : Bool × Nat :=
  match s.dropWhile isSpace with
  | '-' :: cs => (true, magnitude cs)
  | '+' :: cs => (false, magnitude cs)
  | cs => (false, magnitude cs)

/-- `strtol(s, NULL, 0)`: clamped to the range of `long`. -/
def strtol0 (s : List Char) : Int :=
  let (neg, m) := readSigned readBase0 s
  if neg then max (-(m : Int)) (-2 ^ 63) else min (m : Int) (2 ^ 63 - 1)

/-- `strtoul(s, NULL, 0)`: clamped to `ULONG_MAX`; a minus sign negates modulo `2^64`. -/
def strtoul0 (s : List Char) : Nat :=
  let (neg, m) := readSigned readBase0 s
  if 2 ^ 64 ≤ m then 2 ^ 64 - 1 else if neg then (2 ^ 64 - m) % 2 ^ 64 else m

/-- `atol`: base 10; the behaviour is undefined if the value is not representable (`none`). -/
def atol (s : List Char) : Option Int :=
  let (neg, m) := readSigned (readDigits 10 0) s
  let v := if neg then -(m : Int) else m
  if -2 ^ 63 ≤ v ∧ v < 2 ^ 63 then some v else none

/-- Items of `parseArrayULong` (`lib/Factory.C:1127-1130`): `push_back(atol(sub))`, converted to `unsigned long`. -/
def readItems : List (List Char) → Option (List Nat)
  | [] => some []
  | t :: ts => (atol t).bind fun i => (readItems ts).map ((i % 2 ^ 64).toNat :: ·)

/-- `FactoryMessenger::parseArrayULong` (`lib/Factory.C:1114-1134`). -/
def parseArrayULong (s : List Char) : Option (List Nat) := readItems (Gyoto.Quant.tokens [] s)

end Gyoto.IntText
