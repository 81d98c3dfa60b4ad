import Verif.Base
/-!
# strtod, strtof, strtold and their wide forms

`mlibc::strtofp` (`options/internal/include/mlibc/strtofp.hpp` L80-257) is the one function behind
`strtod`, `strtof`, `strtold` (`options/ansi/generic/stdlib.cpp`) and `wcstod` and friends.  The
model is parametric in the arithmetic of the floating type (`Arith`), so that the same code is run
once with exact rational numbers (what the algorithm computes when nothing is rounded) and once
with binary64 numbers (`Verif/Strtod/Ieee.lean`).

Simplifications.  A string is the list of its characters before the terminating null; every read in
the code is at most one character past a character already seen to be non-null, so the code never
reads beyond the terminator and the list carries all it looks at.  `isdigit_l` and `isxdigit_l` are
the ten and twenty-two characters the C standard fixes for every locale; `isspace_l` is a parameter.
The decimal point of the locale is a parameter, a string for `strtod`, one character for `wcstod`.
The end pointer is the suffix of the string it points to.
-/

namespace Mlibc.Strtod


/-- The operations of the floating type `T` that strtofp.hpp L137-L254 use: the conversion from
`int`, the three binary operations, the negation, and the two builtins at L95-L99, L113-L117. -/
structure Arith (T : Type) where
  ofInt : Int → T
  add : T → T → T
  mul : T → T → T
  div : T → T → T
  neg : T → T
  inf : T
  nan : T

/-- `Type::is_digit` (strtofp.hpp L34-L36, L64-L70). -/
def isDigit (c : Nat) : Bool := 48 ≤ c && c ≤ 57

/-- `isxdigit_l` (used at strtofp.hpp L151, L176). -/
def isXdigit (c : Nat) : Bool :=
  (48 ≤ c && c ≤ 57) || (65 ≤ c && c ≤ 70) || (97 ≤ c && c ≤ 102)

/-- `tolower_l` on the characters that reach strtofp.hpp L154, L178. -/
def lower (c : Nat) : Nat := if 65 ≤ c ∧ c ≤ 90 then c + 32 else c

/-- The digit test and the digit's value in the two bases: strtofp.hpp L143-L146 (also L166-L168)
for base ten, L151-L154 (also L176-L178) for base sixteen. -/
def digit (hex : Bool) (c : Nat) : Option Int :=
  if hex then
    if isXdigit c then some (if c ≤ 57 then (c : Int) - 48 else (lower c : Int) - 97 + 10) else none
  else
    if isDigit c then some ((c : Int) - 48) else none

/-- The base of the digits: the constants at strtofp.hpp L145, L163, L169 and L153, L173, L179. -/
def base (hex : Bool) : Int := if hex then 16 else 10

/-- The base of the exponent: the constants at strtofp.hpp L208, L212 and L240, L244. -/
def expBase (hex : Bool) : Int := if hex then 2 else 10

section
variable {T : Type} (ar : Arith T)

/-- The loops over the digits before the decimal point (strtofp.hpp L142-L148, L150-L156). -/
def intLoop (hex : Bool) : List Nat → T → T × List Nat
  | [], r => (r, [])
  | c :: s, r =>
    match digit hex c with
    | none => (r, c :: s)
    | some v => intLoop hex s (ar.add (ar.mul r (ar.ofInt (base hex))) (ar.ofInt v))

/-- The loops over the digits after the decimal point (strtofp.hpp L165-L171, L175-L181). -/
def fracLoop (hex : Bool) : List Nat → T → T → T × List Nat
  | [], r, _ => (r, [])
  | c :: s, r, d =>
    match digit hex c with
    | none => (r, c :: s)
    | some v => fracLoop hex s (ar.add r (ar.div (ar.ofInt v) d)) (ar.mul d (ar.ofInt (base hex)))

/-- The loop reading the exponent into an `int` (strtofp.hpp L197-L204, L229-L236); overflow of the
`int` is undefined. -/
def expLoop : List Nat → Int → Res (Int × List Nat)
  | [], e => .ok (e, [])
  | c :: s, e =>
    if isDigit c then
      if e * 10 ≤ 2147483647 then
        if e * 10 + ((c : Int) - 48) ≤ 2147483647 then expLoop s (e * 10 + ((c : Int) - 48)) else .ub
      else .ub
    else .ok (e, c :: s)

/-- The loops applying the exponent (strtofp.hpp L206-L214, L238-L246), `n` steps of them. -/
def scale (hex neg : Bool) : Nat → T → T
  | 0, r => r
  | n + 1, r =>
    scale hex neg n (if neg then ar.div r (ar.ofInt (expBase hex)) else ar.mul r (ar.ofInt (expBase hex)))

/-- The letter that begins an exponent (strtofp.hpp L186, L218). -/
def isExpLetter (hex : Bool) (c : Nat) : Bool :=
  if hex then c == 112 || c == 80 else c == 101 || c == 69

/-- One optional sign is skipped (strtofp.hpp L88-L89, L191-L192, L223-L224). -/
def dropSign : List Nat → List Nat
  | [] => []
  | c :: s => if c = 43 ∨ c = 45 then s else c :: s

/-- The exponent (strtofp.hpp L185-L249). -/
def expPart (hex : Bool) (r : T) : List Nat → Res (T × List Nat)
  | [] => .ok (r, [])
  | c :: s =>
    if isExpLetter hex c then
      match dropSign s with
      | [] => .ok (r, c :: s)
      | d :: t =>
        if isDigit d then
          (expLoop (d :: t) 0).bind fun p =>
            .ok (scale ar hex (s.head? == some 45) p.1.toNat r, p.2)
        else .ok (r, c :: s)
    else .ok (r, c :: s)

/-- The decimal point and the fraction (strtofp.hpp L159-L183). -/
def fracPart (hex : Bool) (dp : List Nat) (r : T) (s : List Nat) : T × List Nat :=
  if dp.isPrefixOf s then fracLoop ar hex (s.drop dp.length) r (ar.ofInt (base hex)) else (r, s)

/-- The number after the hexadecimal prefix, if any (strtofp.hpp L137-L256). -/
def number (hex neg : Bool) (dp : List Nat) (s : List Nat) : Res (T × List Nat) :=
  let p := intLoop ar hex s (ar.ofInt 0)
  let q := fracPart ar hex dp p.1 p.2
  (expPart ar hex q.1 q.2).bind fun x => .ok (if neg then ar.neg x.1 else x.1, x.2)

/-- `*str == '0' && (*(str + 1) == 'x' || *(str + 1) == 'X')` (strtofp.hpp L132). -/
def hexPrefix : List Nat → Bool
  | 48 :: 120 :: _ => true
  | 48 :: 88 :: _ => true
  | _ => false

/-- The characters of a string literal. -/
def txt (s : String) : List Nat := s.toList.map Char.toNat

/-- `strtofp` (strtofp.hpp L80-L257).  `strcmp(str, "inf") == 0` (L91, L100) holds exactly when the
whole remaining string is the word; `strncmp(str, "nan", 3) == 0` (L109) when it begins with it. -/
def strtofp (space : Nat → Bool) (dp : List Nat) (str : List Nat) : Res (T × List Nat) :=
  let s := str.dropWhile space
  let neg := s.head? == some 45
  let s := dropSign s
  if s = txt "INF" ∨ s = txt "inf" then
    .ok (if neg then ar.neg ar.inf else ar.inf, s.drop 3)
  else if s = txt "INFINITY" ∨ s = txt "infinity" then
    .ok (if neg then ar.neg ar.inf else ar.inf, s.drop 8)
  else if (txt "NAN").isPrefixOf s ∨ (txt "nan").isPrefixOf s then
    .ok (if neg then ar.neg ar.nan else ar.nan, s.drop 3)
  else if hexPrefix s then number ar true neg dp (s.drop 2)
  else number ar false neg dp s

end

/-! ## Specification: the numerals of C (7.24.1.5) -/

/-- What the C standard calls a decimal or hexadecimal floating numeral, cut into its parts. -/
structure Numeral where
  /-- hexadecimal (`0x…`) or decimal -/
  hex : Bool
  /-- nothing, `+` or `-` -/
  sign : List Nat
  /-- the characters of `0x` or `0X`, or nothing -/
  pre : List Nat
  /-- the digits before the point -/
  int : List Nat
  /-- the digits after the point, when there is a point -/
  frac : Option (List Nat)
  /-- the exponent: its letter, its sign, its digits -/
  exp : Option (Nat × List Nat × List Nat)

/-- The characters '0' to '9'. -/
def DecDigit (c : Nat) : Prop := 48 ≤ c ∧ c ≤ 57

/-- The digits of the two bases. -/
def Digit (hex : Bool) (c : Nat) : Prop :=
  DecDigit c ∨ (hex = true ∧ ((97 ≤ c ∧ c ≤ 102) ∨ (65 ≤ c ∧ c ≤ 70)))

def SignText (s : List Nat) : Prop := s = [] ∨ s = [43] ∨ s = [45]

/-- The letters of the exponent: `e`, `E` for decimal, `p`, `P` for hexadecimal numerals. -/
def ExpLetter (hex : Bool) (c : Nat) : Prop :=
  (hex = false ∧ (c = 101 ∨ c = 69)) ∨ (hex = true ∧ (c = 112 ∨ c = 80))

/-- The grammar. -/
structure Numeral.WF (n : Numeral) : Prop where
  sign : SignText n.sign
  pre : (n.hex = false ∧ n.pre = []) ∨ (n.hex = true ∧ (n.pre = [48, 120] ∨ n.pre = [48, 88]))
  int : ∀ c ∈ n.int, Digit n.hex c
  frac : ∀ f, n.frac = some f → ∀ c ∈ f, Digit n.hex c
  digits : n.int ≠ [] ∨ ∃ c f, n.frac = some (c :: f)
  exp : ∀ l s ds, n.exp = some (l, s, ds) →
    ExpLetter n.hex l ∧ SignText s ∧ ds ≠ [] ∧ ∀ c ∈ ds, DecDigit c

/-- The point and the digits after it. -/
def fracText (dp : List Nat) : Option (List Nat) → List Nat
  | none => []
  | some f => dp ++ f

/-- The exponent. -/
def expText : Option (Nat × List Nat × List Nat) → List Nat
  | none => []
  | some (l, s, ds) => l :: (s ++ ds)

/-- How a numeral is written, `dp` being the decimal point. -/
def Numeral.text (dp : List Nat) (n : Numeral) : List Nat :=
  n.sign ++ n.pre ++ n.int ++ fracText dp n.frac ++ expText n.exp

/-- The value of one digit. -/
def digitValue (c : Nat) : Nat := if c ≤ 57 then c - 48 else if c ≤ 70 then c - 65 + 10 else c - 97 + 10

/-- The value of digits in base `b`, most significant first. -/
def digitsValue (b : Nat) (ds : List Nat) : Nat := ds.foldl (fun v c => v * b + digitValue c) 0

/-- The number the exponent is, without its sign. -/
def expAbs : Option (Nat × List Nat × List Nat) → Nat
  | none => 0
  | some (_, _, ds) => digitsValue 10 ds

/-- `s` begins with an exponent. -/
def BeginsExponent (hex : Bool) (s : List Nat) : Prop :=
  ∃ l sg d r, s = l :: (sg ++ d :: r) ∧ ExpLetter hex l ∧ SignText sg ∧ DecDigit d

/-- `rest` does not go on with the numeral: the numeral is the longest one at its place. -/
structure Numeral.Ends (dp : List Nat) (n : Numeral) (rest : List Nat) : Prop where
  exp : n.exp ≠ none → ∀ c, rest.head? = some c → ¬ DecDigit c
  digit : n.exp = none → ∀ c, rest.head? = some c → ¬ Digit n.hex c
  noexp : n.exp = none → ¬ BeginsExponent n.hex rest
  nofrac : n.exp = none → n.frac = none → ¬ dp <+: rest
  nohex : n.hex = false → n.int = [48] → n.exp = none → n.frac = none →
    ∀ c, rest.head? = some c → c ≠ 120 ∧ c ≠ 88

/-- A decimal point: at least one character, and the first is no letter, digit or sign. -/
def GoodPoint (dp : List Nat) : Prop :=
  ∃ c r, dp = c :: r ∧ ¬ (48 ≤ c ∧ c ≤ 57) ∧ ¬ (65 ≤ c ∧ c ≤ 90) ∧ ¬ (97 ≤ c ∧ c ≤ 122) ∧
    c ≠ 43 ∧ c ≠ 45

/-- White space contains no letter, digit, sign or decimal point. -/
def GoodSpace (space : Nat → Bool) (dp : List Nat) : Prop :=
  ∀ c, space c = true → ¬ (48 ≤ c ∧ c ≤ 57) ∧ ¬ (65 ≤ c ∧ c ≤ 90) ∧ ¬ (97 ≤ c ∧ c ≤ 122) ∧
    c ≠ 43 ∧ c ≠ 45 ∧ dp.head? ≠ some c

/-- The white space of the C locale. -/
def cspace (c : Nat) : Bool := c == 32 || (9 ≤ c && c ≤ 13)

example : GoodPoint (txt ".") ∧ GoodSpace cspace (txt ".") := by
  refine ⟨⟨46, [], by decide, by omega, by omega, by omega, by omega, by omega⟩, fun c hc => ?_⟩
  have hd : (txt ".").head? = some 46 := by decide
  rw [hd]
  have : c = 32 ∨ (9 ≤ c ∧ c ≤ 13) := by
    simpa [cspace] using hc
  refine ⟨by omega, by omega, by omega, by omega, by omega, ?_⟩
  intro h; injection h; omega

end Mlibc.Strtod
