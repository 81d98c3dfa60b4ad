import Verif.Str.Model
/-
Model of options/internal/include/mlibc/strtol.hpp: stringToInteger<Return, Char>, the common
implementation of strtol, strtoul, strtoll, strtoull, strtoimax, strtoumax and their wcs* variants.

Characters are their codes (`Nat`), for `char` and `wchar_t` alike. `isSpace` is the locale's isspace.
Simplification: isdigit/isupper/islower/isxdigit are the ASCII classes (C/POSIX locale).
-/
namespace Mlibc.Strtol
open Mlibc Mlibc.Str

/-- `Return`: its width in bits and its signedness (`long`: 64/32 signed, ...). strtol.hpp:15-39. -/
structure IntType where
  w : Nat
  signed : Bool

/-- `int_limits<Return>::max()`. strtol.hpp:19, 25, 31, 37. -/
def IntType.max (t : IntType) : Int := if t.signed then 2 ^ (t.w - 1) - 1 else 2 ^ t.w - 1

/-- `int_limits<Return>::min()`. strtol.hpp:20, 26, 32, 38. -/
def IntType.min (t : IntType) : Int := if t.signed then -(2 ^ (t.w - 1)) else 0

/-- Conversion of an `UnsignedReturn` (a number below `2^w`) to `Return`. -/
def IntType.ofBits (t : IntType) (v : Nat) : Int :=
  if t.signed ∧ v ≥ 2 ^ (t.w - 1) then (v : Int) - 2 ^ t.w else v

def isDigit (c : Nat) : Bool := 48 ≤ c && c ≤ 57
def isUpper (c : Nat) : Bool := 65 ≤ c && c ≤ 90
def isLower (c : Nat) : Bool := 97 ≤ c && c ≤ 122
def isHexDigit (c : Nat) : Bool := isDigit c || (65 ≤ c && c ≤ 70) || (97 ≤ c && c ≤ 102)

/-- strtol.hpp:76-77 `while (isSpace(*s)) s++;`: number of characters skipped and the remaining object. -/
def skipSpace (isSpace : Nat → Bool) : List Nat → Res (Nat × List Nat)
  | [] => .ub
  | c :: s =>
    if isSpace c then do
      let (n, r) ← skipSpace isSpace s
      return (n + 1, r)
    else .ok (0, c :: s)

/-- State of the digit loop: totalValue, convertedAny, outOfRange. -/
structure Acc where
  total : Nat
  any : Bool
  oor : Bool
  deriving DecidableEq, Repr

/-- strtol.hpp:123-147, the digit loop. `W = 2^w` is the modulus of `UnsignedReturn`.
Returns the number of characters consumed. -/
def digitLoop (W base cutoff cutlim : Nat) : List Nat → Acc → Res (Nat × Acc)
  | [], _ => .ub
  | c :: s, a =>
    if c = 0 then .ok (0, a)
    else
      -- digitValue, or `break`
      let dv : Option Nat :=
        if isDigit c then some (c - 48)
        else if isUpper c then some (c - 65 + 10)
        else if isLower c then some (c - 97 + 10)
        else none
      match dv with
      | none => .ok (0, a)
      | some digitValue =>
        if digitValue ≥ base then .ok (0, a)
        else
          let a' :=
            if a.oor then a
            else if a.total > cutoff ∨ (a.total = cutoff ∧ digitValue > cutlim) then
              { a with oor := true }
            else { a with total := (a.total * base + digitValue) % W, any := true }
          do
            let (n, r) ← digitLoop W base cutoff cutlim s a'
            return (n + 1, r)

/-- strtol.hpp:88-106: the characters skipped as prefix and the resulting base (`base = 0`: automatic). -/
def prefixOf (base : Nat) (s : List Nat) : Res (Nat × Nat) := do
  let s0 ← rd s 0
  let hasOctalPrefix := s0 = 48
  let s1 ← if hasOctalPrefix then rd s 1 else .ok 0
  let hasHexPrefix := hasOctalPrefix ∧ (s1 = 120 ∨ s1 = 88)
  let hasBinPrefix := hasOctalPrefix ∧ (s1 = 98 ∨ s1 = 66)
  let s2 ← if (base = 0 ∨ base = 16) ∧ hasHexPrefix then rd s 2 else .ok 0
  if (base = 0 ∨ base = 16) ∧ hasHexPrefix ∧ isHexDigit s2 then return (2, 16)
  else if (base = 0 ∨ base = 2) ∧ hasBinPrefix then return (2, 2)
  else if (base = 0 ∨ base = 8) ∧ hasOctalPrefix then return (0, 8)
  else if base = 0 then return (0, 10)
  else return (0, base)

/-- strtol.hpp:108-118: the overflow limits. C++ division truncates towards zero. -/
def cutoffs (t : IntType) (negative : Bool) (base : Nat) : Nat × Nat :=
  if t.signed then
    let co : Int := if negative then t.min else t.max
    let cutlim : Int := if negative then -(co.tmod base) else co.tmod base
    let cutoff : Int := if negative then co.tdiv (-(base : Int)) else co.tdiv base
    (cutoff.toNat, cutlim.toNat)
  else ((t.max.tdiv base).toNat, (t.max.tmod base).toNat)

/-- strtol.hpp:63-163 `stringToInteger`. Returns (value, offset stored in `*endptr`, errno set to ERANGE).
Simplification: the base is a natural number (a negative base returns 0 for the signed types and is outside
the property). -/
def stringToInteger (t : IntType) (isSpace : Nat → Bool) (nptr : List Nat) (base : Nat) :
    Res (Int × Nat × Bool) := do
  if base = 1 then return (0, 0, false)
  let (n1, s) ← skipSpace isSpace nptr
  let c ← rd s 0
  let negative := c = 45
  let n2 := if c = 45 ∨ c = 43 then 1 else 0
  let s := s.drop n2
  let (n3, base) ← prefixOf base s
  let s := s.drop n3
  let (cutoff, cutlim) := cutoffs t negative base
  let (n4, a) ← digitLoop (2 ^ t.w) base cutoff cutlim s ⟨0, false, false⟩
  let endp := if a.any then n1 + n2 + n3 + n4 else 0
  if a.oor then
    if t.signed then return (if negative then t.min else t.max, endp, true)
    else return (t.max, endp, true)
  else
    return (t.ofBits (if negative then (2 ^ t.w - a.total) % 2 ^ t.w else a.total), endp, false)

end Mlibc.Strtol
