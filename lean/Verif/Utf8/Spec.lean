/-
Specification of UTF-8: Unicode Standard, Table 3-7 (Well-Formed UTF-8 Byte Sequences) and Table 3-6 (bit
distribution).
-/
namespace Mlibc.Utf8

/-- A continuation byte 80..BF. -/
abbrev isCont (b : Nat) : Prop := 0x80 ≤ b ∧ b ≤ 0xBF

/-- The scalar value encoded by a single well-formed UTF-8 sequence; `none` if it is not one.
Row by row Table 3-7. -/
def scalarN : List Nat → Option Nat
  | [a] => if a ≤ 0x7F then some a else none
  | [a, b] => if 0xC2 ≤ a ∧ a ≤ 0xDF ∧ isCont b then some ((a - 0xC0) * 64 + (b - 0x80)) else none
  | [a, b, c] =>
    if ((a = 0xE0 ∧ 0xA0 ≤ b ∧ b ≤ 0xBF) ∨
        (0xE1 ≤ a ∧ a ≤ 0xEC ∧ isCont b) ∨
        (a = 0xED ∧ 0x80 ≤ b ∧ b ≤ 0x9F) ∨
        (0xEE ≤ a ∧ a ≤ 0xEF ∧ isCont b)) ∧ isCont c
    then some ((a - 0xE0) * 4096 + (b - 0x80) * 64 + (c - 0x80)) else none
  | [a, b, c, d] =>
    if ((a = 0xF0 ∧ 0x90 ≤ b ∧ b ≤ 0xBF) ∨
        (0xF1 ≤ a ∧ a ≤ 0xF3 ∧ isCont b) ∨
        (a = 0xF4 ∧ 0x80 ≤ b ∧ b ≤ 0x8F)) ∧ isCont c ∧ isCont d
    then some ((a - 0xF0) * 262144 + (b - 0x80) * 4096 + (c - 0x80) * 64 + (d - 0x80)) else none
  | _ => none

/-- `bs` is the well-formed encoding of the scalar value `c`. -/
def Encodes (bs : List UInt8) (c : Nat) : Prop := scalarN (bs.map UInt8.toNat) = some c

/-- `bs` is a nonempty, incomplete character: more bytes are needed and can make it well-formed. -/
def Incomplete (bs : List UInt8) : Prop :=
  bs ≠ [] ∧ ∃ q c, q ≠ [] ∧ Encodes (bs ++ q) c

/-- `bs` is the concatenation of the well-formed encodings of the characters `cs`. -/
inductive EncodesStr : List UInt8 → List Nat → Prop
  | nil : EncodesStr [] []
  | cons {b c bs cs} : Encodes b c → EncodesStr bs cs → EncodesStr (b ++ bs) (c :: cs)

/-- Unicode scalar values. -/
def isScalar (c : Nat) : Prop := c ≤ 0xD7FF ∨ (0xE000 ≤ c ∧ c ≤ 0x10FFFF)

end Mlibc.Utf8
