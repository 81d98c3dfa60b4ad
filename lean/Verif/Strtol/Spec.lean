/-
Specification of the strtol family, after ISO C (7.24.1.4, with the C23 binary prefix).
-/
namespace Mlibc.Strtol.Spec

/-- Value of a digit or letter used as a digit. -/
def digitOf (c : Nat) : Option Nat :=
  if 48 ≤ c ∧ c ≤ 57 then some (c - 48)
  else if 65 ≤ c ∧ c ≤ 90 then some (c - 55)
  else if 97 ≤ c ∧ c ≤ 122 then some (c - 87)
  else none

/-- `c` is a digit in base `b`. -/
def isDigitIn (b c : Nat) : Bool :=
  match digitOf c with
  | some v => v < b
  | none => false

/-- The effective base and the length of the base prefix of the text after the sign. -/
def baseAndPrefix (base : Nat) (t : List Nat) : Nat × Nat :=
  match t with
  | 48 :: x :: h :: _ =>
    if (base = 0 ∨ base = 16) ∧ (x = 120 ∨ x = 88) ∧ isDigitIn 16 h then (16, 2)
    else if (base = 0 ∨ base = 2) ∧ (x = 98 ∨ x = 66) ∧ isDigitIn 2 h then (2, 2)
    else (if base = 0 then 8 else base, 0)
  | 48 :: _ => (if base = 0 then 8 else base, 0)
  | _ => (if base = 0 then 10 else base, 0)

/-- The number written by digits in base `b` (most significant first). -/
def valueOf (b : Nat) (ds : List Nat) : Nat := ds.foldl (fun acc c => acc * b + (digitOf c).getD 0) 0

/-- The text after leading space and an optional sign. -/
def afterSign (isSpace : Nat → Bool) (s : List Nat) : List Nat :=
  let t := s.drop (s.takeWhile isSpace).length
  t.drop (if t.head? = some 45 ∨ t.head? = some 43 then 1 else 0)

/-- What strtol must make of the string `s`: `none` if there is no number, otherwise the number of
characters of the subject (with leading space), its sign, and its magnitude. -/
def parse (isSpace : Nat → Bool) (base : Nat) (s : List Nat) : Option (Nat × Bool × Nat) :=
  let ws := s.takeWhile isSpace
  let t := s.drop ws.length
  let neg := t.head? = some 45
  let signLen := if t.head? = some 45 ∨ t.head? = some 43 then 1 else 0
  let u := t.drop signLen
  let (b, pl) := baseAndPrefix base u
  let ds := (u.drop pl).takeWhile (isDigitIn b)
  if ds = [] then none else some (ws.length + signLen + pl + ds.length, neg, valueOf b ds)

/-- The result for a signed type with range `[lo, hi]`: value and whether ERANGE is set. -/
def signedResult (lo hi : Int) (neg : Bool) (mag : Nat) : Int × Bool :=
  let v : Int := if neg then -mag else mag
  if v < lo then (lo, true) else if v > hi then (hi, true) else (v, false)

/-- The result for an unsigned type with maximum `hi`: negation is modulo `hi + 1`. -/
def unsignedResult (hi : Nat) (neg : Bool) (mag : Nat) : Int × Bool :=
  if mag > hi then (hi, true)
  else (if neg ∧ mag ≠ 0 then (hi : Int) + 1 - mag else mag, false)

end Mlibc.Strtol.Spec
