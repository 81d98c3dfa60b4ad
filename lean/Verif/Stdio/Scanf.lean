import Verif.Strtol.Props

/-!
C65: `do_scanf` for `char` (`sscanf`, `fscanf`, `scanf`).

Characters are their codes, 0 to 255. The handler is the list of characters still to be read; looking ahead
at its end gives 0. Destinations are not NULL, and what is stored through them is recorded in order.
Not modelled: floating point, `%m`, `%ls`, `%lc`, `%l[` and `%[` on characters above 127
(the model answers `ub`), and the wide functions.
`isSpace` is the locale's isspace.
-/

namespace Mlibc.Scanf

open Strtol (isDigit)

/-! ### The code -/

/-- The handler: what is left and `num_consumed`. options/ansi/generic/stdio.cpp L1772-1793, L1848-1860 -/
structure In where
  rest : List Nat
  used : Nat
  deriving DecidableEq, Repr

/-- `look_ahead`. options/ansi/generic/stdio.cpp L1773-1780, L1849-1851 -/
def In.look (i : In) : Nat := i.rest.headD 0

/-- `consume`. At the end, `sscanf` steps over the terminator; that happens only just before returning.
options/ansi/generic/stdio.cpp L1782-1789, L1853-1856 -/
def In.next (i : In) : In :=
  match i.rest with
  | [] => i
  | _ :: s => ⟨s, i.used + 1⟩

/-- What is stored: `n` bits of an integer, a pointer, a string with its terminator, characters, or nothing
although a destination was taken. -/
inductive Store where
  | int (w : Nat) (bits : Nat)
  | ptr (v : Nat)
  | str (s : List Nat)
  | chars (s : List Nat)
  | nothing
  deriving DecidableEq, Repr

/-- SCANF_TYPE_... options/ansi/generic/stdio.cpp L882-891 -/
inductive Ty where
  | char | short | intmax | l | ll | ptrdiff | size | int
  deriving DecidableEq, Repr

/-- The width of the object that `store_int` writes. options/ansi/generic/stdio.cpp L893-922 -/
def Ty.bits : Ty → Nat
  | .char => 8
  | .short => 16
  | .int => 32
  | _ => 64

/-- `store_int`. options/ansi/generic/stdio.cpp L893-922 -/
def storeInt (t : Ty) (v : Nat) : Store := .int t.bits (v % 2 ^ t.bits)

/-- The end of a conversion. -/
inductive Out where
  | eof | nomatch (i : In)
  | ok (i : In) (s : Store)
  deriving DecidableEq, Repr

/-- `while (isspace(handler.look_ahead())) handler.consume();`
options/ansi/generic/stdio.cpp L946-947, L1087-1090 -/
def skipSpace (isSpace : Nat → Bool) : List Nat → Nat → In
  | [], n => ⟨[], n⟩
  | c :: s, n => if isSpace c then skipSpace isSpace s (n + 1) else ⟨c :: s, n⟩

/-- The tests for digits in each base. options/ansi/generic/stdio.cpp L1128, L1136-1147, L1154, L1163 -/
def digitOf (base : Nat) (c : Nat) : Option Nat :=
  if base = 16 then
    if 48 ≤ c ∧ c ≤ 57 then some (c - 48)
    else if 97 ≤ c ∧ c ≤ 102 then some (c - 97 + 10)
    else if 65 ≤ c ∧ c ≤ 70 then some (c - 65 + 10)
    else none
  else if base = 8 then if 48 ≤ c ∧ c ≤ 55 then some (c - 48) else none
  else if base = 2 then if c = 48 ∨ c = 49 then some (c - 48) else none
  else if 48 ≤ c ∧ c ≤ 57 then some (c - 48) else none

/-- The loops over digits: value, number of digits, rest. `left` is what the width still allows; only `%x`
looks at it. `res` is an `unsigned long long`.
options/ansi/generic/stdio.cpp L1127-1132, L1135-1151, L1154-1158, L1162-1167, L1192-1197, L1239-1256 -/
def digitLoop (base : Nat) : Option Nat → List Nat → Nat → Nat → Nat → In × Nat × Nat
  | _, [], used, res, count => (⟨[], used⟩, res, count)
  | left, c :: s, used, res, count =>
    if left = some 0 then (⟨c :: s, used⟩, res, count)
    else match digitOf base c with
      | some d => digitLoop base (left.map (· - 1)) s (used + 1) ((res * base + d) % 2 ^ 64) (count + 1)
      | none => (⟨c :: s, used⟩, res, count)

/-- The optional sign. options/ansi/generic/stdio.cpp L1103-1107, L1185-1189, L1216-1223, L1273-1280 -/
def sign (i : In) : Bool × In :=
  if i.look = 45 then (true, i.next)
  else if i.look = 43 then (false, i.next)
  else (false, i)

/-- `if(is_negative) store_int(dest, type, -res)` on `unsigned long long`.
options/ansi/generic/stdio.cpp L1171-1176, L1199-1204, L1258-1263 -/
def storeSigned (t : Ty) (neg : Bool) (res : Nat) : Store :=
  storeInt t (if neg then (2 ^ 64 - res) % 2 ^ 64 else res)

/-- The base, with `%i` after its prefix. options/ansi/generic/stdio.cpp L1109-1121 -/
def prefixI (isI : Bool) (i : In) : Nat × In :=
  if isI ∧ i.look = 48 then
    let i := i.next
    if i.look = 120 ∨ i.look = 88 then (16, i.next)
    else if i.look = 98 ∨ i.look = 66 then (2, i.next)
    else (8, i)
  else (10, i)

/-- `%d`, `%u` and `%i`. options/ansi/generic/stdio.cpp L1093-1178 -/
def convD (t : Ty) (isI : Bool) (i : In) : Out :=
  if i.look = 0 then .eof
  else
    let (neg, i) := sign i
    let (base, i) := prefixI isI i
    let r := digitLoop base none i.rest i.used 0 0
    if r.2.2 = 0 ∧ base ≠ 8 then .nomatch r.1
    else .ok r.1 (storeSigned t neg r.2.1)

/-- `%o`. options/ansi/generic/stdio.cpp L1179-1206 -/
def convO (t : Ty) (i : In) : Out :=
  if i.look = 0 then .eof
  else
    let (neg, i) := sign i
    let r := digitLoop 8 none i.rest i.used 0 0
    if r.2.2 = 0 then .nomatch r.1 else .ok r.1 (storeSigned t neg r.2.1)

/-- What `!width || consumed < width` still allows after `consumed` characters.
options/ansi/generic/stdio.cpp L1226, L1230, L1239 -/
def leftX (width consumed : Nat) : Option Nat := if width = 0 then none else some (width - consumed)

/-- The prefix of `%x`, read by a conversion that began at `start`: the number of digits in it.
options/ansi/generic/stdio.cpp L1225-1237 -/
def prefixX (width start : Nat) (i : In) : Nat × In :=
  if i.look = 48 ∧ leftX width (i.used - start) ≠ some 0 then
    let i := i.next
    if (i.look = 120 ∨ i.look = 88) ∧ leftX width (i.used - start) ≠ some 0 then (0, i.next) else (1, i)
  else (0, i)

/-- `%x` and `%X`; a width of 0 is none. options/ansi/generic/stdio.cpp L1207-1265 -/
def convX (t : Ty) (width : Nat) (i : In) : Out :=
  if i.look = 0 then .eof
  else
    let start := i.used
    let (neg, i) := sign i
    let (count, i) := prefixX width start i
    let r := digitLoop 16 (leftX width (i.used - start)) i.rest i.used 0 count
    if r.2.2 = 0 then .nomatch r.1 else .ok r.1 (storeSigned t neg r.2.1)

/-- `%b`: a first 0 is not counted. options/ansi/generic/stdio.cpp L1266-1309 -/
def convB (t : Ty) (i : In) : Out :=
  if i.look = 0 then .eof
  else
    let (neg, i) := sign i
    let i :=
      if i.look = 48 then
        let i := i.next
        if i.look = 98 ∨ i.look = 66 then i.next else i
      else i
    let r := digitLoop 2 none i.rest i.used 0 0
    if r.2.2 = 0 then .nomatch r.1 else .ok r.1 (storeSigned t neg r.2.1)

/-- `%p`: a first 0 is not counted. options/ansi/generic/stdio.cpp L1446-1482 -/
def convP (i : In) : Out :=
  if i.look = 0 then .eof
  else
    let i :=
      if i.look = 48 then
        let i := i.next
        if i.look = 120 ∨ i.look = 88 then i.next else i
      else i
    let r := digitLoop 16 none i.rest i.used 0 0
    if r.2.2 = 0 then .nomatch r.1 else .ok r.1 (.ptr r.2.1)

/-- `append_to_buffer` of a `char`: one that is negative becomes a negative `wchar_t`, which `wcrtomb` refuses;
`__ensure` fails then. options/ansi/generic/stdio.cpp L977-1000 -/
def append (buf : List Nat) (c : Nat) : Res (List Nat) := if c < 128 then .ok (buf ++ [c]) else .panic

/-- The loop of `%s`. options/ansi/generic/stdio.cpp L1313-1324 -/
def strLoop (isSpace : Nat → Bool) (width : Nat) : List Nat → Nat → List Nat → Res (In × List Nat)
  | [], used, buf => .ok (⟨[], used⟩, buf)
  | c :: s, used, buf =>
    if c = 0 ∨ isSpace c then .ok (⟨c :: s, used⟩, buf)
    else
      (append buf c).bind fun buf =>
      if width ≠ 0 ∧ buf.length ≥ width then .ok (⟨s, used + 1⟩, buf)
      else strLoop isSpace width s (used + 1) buf

/-- `%s`. options/ansi/generic/stdio.cpp L1310-1333 -/
def convS (isSpace : Nat → Bool) (width : Nat) (i : In) : Res Out :=
  if i.look = 0 then .ok .eof
  else
    (strLoop isSpace width i.rest i.used []).bind fun (i, buf) =>
    if buf.length = 0 then .ok (.nomatch i) else .ok (.ok i (.str (buf ++ [0])))

/-- The loop of `%c`. options/ansi/generic/stdio.cpp L1339-1348 -/
def charLoop (width : Nat) : List Nat → Nat → List Nat → Res (In × List Nat)
  | [], used, buf => .ok (⟨[], used⟩, buf)
  | c :: s, used, buf =>
    if c ≠ 0 ∧ buf.length < width then
      (append buf c).bind fun buf => charLoop width s (used + 1) buf
    else .ok (⟨c :: s, used⟩, buf)

/-- `%c`. options/ansi/generic/stdio.cpp L1334-1350 -/
def convC (width : Nat) (i : In) : Res Out :=
  if i.look = 0 then .ok .eof
  else
    (charLoop (if width = 0 then 1 else width) i.rest i.used []).bind fun (i, buf) => .ok (.ok i (.chars buf))

/-- `inScanset`, for a set of characters below 128; the list is the part of the set from `off`.
options/ansi/generic/stdio.cpp L1375-1399 -/
def inSet (inv : Bool) (c : Nat) : List Nat → Bool
  | [] => inv
  | [f] => if f = c then !inv else inv
  | [f, g] =>
    if f = c then !inv
    else if g = 45 then (if c = 45 then !inv else inv)
    else if g = c then !inv else inv
  | f :: g :: s :: v =>
    if f = c then !inv
    else if g = 45 ∧ c > f then (if c ≤ s then !inv else inSet inv c v)
    else inSet inv c (g :: s :: v)

/-- `remaining.find_first(']', …)`. options/ansi/generic/stdio.cpp L1371 -/
def findClose : List Nat → Option Nat
  | [] => none
  | c :: s => if c = 93 then some 0 else (findClose s).map (· + 1)

/-- The length of the set; a first `]` belongs to it. options/ansi/generic/stdio.cpp L1369-1372 -/
def setLength : List Nat → Option Nat
  | 93 :: s => (findClose s).map (· + 1)
  | s => findClose s

/-- The loop of `%[`. options/ansi/generic/stdio.cpp L1423-1436 -/
def setLoop (inv : Bool) (set : List Nat) (width : Nat) : List Nat → Nat → List Nat → Res (In × List Nat)
  | [], used, buf => .ok (⟨[], used⟩, buf)
  | c :: s, used, buf =>
    if c ≥ 128 then .ub
    else if c ≠ 0 ∧ (width = 0 ∨ buf.length < width) then
      if inSet inv c set then (append buf c).bind fun buf => setLoop inv set width s (used + 1) buf
      else .ok (⟨c :: s, used⟩, buf)
    else .ok (⟨c :: s, used⟩, buf)

/-- `%[` after its set. options/ansi/generic/stdio.cpp L1423-1445 -/
def convSet (inv : Bool) (set : List Nat) (width : Nat) (i : In) : Res Out :=
  if i.look = 0 then .ok .eof
  else
    (setLoop inv set width i.rest i.used []).bind fun (i, buf) =>
    if buf.length = 0 then .ok (.nomatch i) else .ok (.ok i (.str (buf ++ [0])))

/-- The digits of the width. `int` arithmetic, overflow not modelled.
options/ansi/generic/stdio.cpp L1025-1033 -/
def widthLoop : List Nat → Nat → Nat × List Nat
  | [], w => (w, [])
  | c :: s, w => if isDigit c then widthLoop s (w * 10 + (c - 48)) else (w, c :: s)

/-- The length modifiers. options/ansi/generic/stdio.cpp L1035-1084 -/
def lengthMod : List Nat → Ty × List Nat
  | 104 :: 104 :: s => (.char, s)
  | 104 :: s => (.short, s)
  | 106 :: s => (.intmax, s)
  | 108 :: 108 :: s => (.ll, s)
  | 108 :: s => (.l, s)
  | 76 :: s => (.ll, s)
  | 113 :: s => (.ll, s)
  | 116 :: s => (.ptrdiff, s)
  | 122 :: s => (.size, s)
  | s => (.int, s)

structure Result where
  ret : Int
  stores : List Store
  left : In
  deriving DecidableEq, Repr

/-- `match_count ? match_count : EOF`. options/ansi/generic/stdio.cpp L941 -/
def eofRet (count : Nat) : Int := if count ≠ 0 then count else -1

/-- The `switch` over the conversion character; characters that are no conversion do nothing.
options/ansi/generic/stdio.cpp L1092-1672 -/
def convert (isSpace : Nat → Bool) (t : Ty) (width : Nat) (c : Nat) (i : In) : Res Out :=
  if c = 100 ∨ c = 117 then .ok (convD t false i)
  else if c = 105 then .ok (convD t true i)
  else if c = 111 then .ok (convO t i)
  else if c = 120 ∨ c = 88 then .ok (convX t width i)
  else if c = 98 then .ok (convB t i)
  else if c = 115 then if t = .l then .ub else convS isSpace width i
  else if c = 99 then if t = .l then .ub else convC width i
  else if c = 112 then .ok (convP i)
  else if c ∈ [97, 65, 101, 69, 102, 70, 103, 71] then .ub
  else .ok (.ok i .nothing)

/-- `do_scanf`; the number bounds the iterations over the format.
options/ansi/generic/stdio.cpp L938-1695 -/
def doScanf (isSpace : Nat → Bool) : Nat → List Nat → In → Nat → List Store → Res Result
  | 0, _, _, _, _ => .ub
  | _ + 1, [], i, count, st => .ok ⟨count, st, i⟩
  | n + 1, f :: fmt, i, count, st =>
    if isSpace f then
      doScanf isSpace n (fmt.dropWhile isSpace) (skipSpace isSpace i.rest i.used) count st
    else if f ≠ 37 ∨ fmt.head? = some 37 then
      let (f, fmt) := if f = 37 then (37, fmt.tail) else (f, fmt)
      let c := i.look
      if c = 0 then .ok ⟨eofRet count, st, i.next⟩
      else if c ≠ f then .ok ⟨count, st, i.next⟩
      else doScanf isSpace n fmt i.next count st
    else
      let dest := fmt.head? ≠ some 42
      if fmt.head? = some 39 then
        if fmt.length = 1 then .ub else doScanf isSpace n (fmt.drop 2) i count st
      else if fmt.head? = some 109 then .ub
      else
        let (width, fmt) := if fmt.head? = some 42 then (0, fmt.tail) else widthLoop fmt 0
        let (t, fmt) := lengthMod fmt
        match fmt with
        | [] => .ub
        | c :: fmt =>
          let i := if c ≠ 99 ∧ c ≠ 91 ∧ c ≠ 110 then skipSpace isSpace i.rest i.used else i
          if c = 110 then
            doScanf isSpace n fmt i count (if dest then st ++ [storeInt t i.used] else st)
          else if c = 91 then
            if t = .l then .ub
            else
              let inv := fmt.head? == some 94
              let fmt := if inv then fmt.tail else fmt
              match setLength fmt with
              | none => .ok ⟨eofRet count, st, i⟩
              | some len =>
                if (fmt.take len).any (fun c => decide (c ≥ 128)) then .ub
                else
                  (convSet inv (fmt.take len) width i).bind fun
                    | .eof => .ok ⟨eofRet count, st, i⟩
                    | .nomatch i => .ok ⟨count, st, i⟩
                    | .ok i s =>
                      if dest then doScanf isSpace n (fmt.drop (len + 1)) i (count + 1) (st ++ [s])
                      else doScanf isSpace n (fmt.drop (len + 1)) i count st
          else
            (convert isSpace t width c i).bind fun
              | .eof => .ok ⟨eofRet count, st, i⟩
              | .nomatch i => .ok ⟨count, st, i⟩
              | .ok i s =>
                if dest then doScanf isSpace n fmt i (count + 1) (st ++ [s])
                else doScanf isSpace n fmt i count st

/-- `sscanf` and `fscanf` of a text. -/
def scanf (isSpace : Nat → Bool) (fmt text : List Nat) : Res Result :=
  doScanf isSpace (fmt.length + 1) fmt ⟨text, 0⟩ 0 []

/-! ### Specification -/

namespace Spec

inductive Conv where
  | d | u | i | o | x | X
  deriving DecidableEq, Repr

def Conv.text : Conv → Nat
  | .d => 100 | .u => 117 | .i => 105 | .o => 111 | .x => 120 | .X => 88

/-- The length modifiers hh, h, j, l, ll, t, z and none. -/
def lengthText : Ty → List Nat
  | .char => [104, 104] | .short => [104] | .intmax => [106] | .l => [108] | .ll => [108, 108]
  | .ptrdiff => [116] | .size => [122] | .int => []

/-- A member of a scan set: a character, or the characters from one to another. -/
inductive Item where
  | one (c : Nat)
  | range (lo hi : Nat)
  deriving DecidableEq, Repr

def Item.text : Item → List Nat
  | .one c => [c]
  | .range lo hi => [lo, 45, hi]

def Item.has (c : Nat) : Item → Bool
  | .one d => decide (c = d)
  | .range lo hi => decide (lo ≤ c ∧ c ≤ hi)

/-- The directives; a width of 0 is none. -/
inductive Dir where
  | space (c : Nat)
  | lit (c : Nat)
  | int (suppress : Bool) (width : Nat) (t : Ty) (cv : Conv)
  | str (suppress : Bool) (width : Nat)
  | chars (suppress : Bool) (width : Nat)
  | set (suppress : Bool) (width : Nat) (inv : Bool) (items : List Item)
  | count (t : Ty)
  deriving DecidableEq, Repr

def widthText (w : Nat) : List Nat := if w = 0 then [] else Strtol.decimal w

/-- The text of a directive in the format. -/
def Dir.text : Dir → List Nat
  | .space c => [c]
  | .lit c => [c]
  | .int sup w t cv => 37 :: (if sup then [42] else []) ++ widthText w ++ lengthText t ++ [cv.text]
  | .str sup w => 37 :: (if sup then [42] else []) ++ widthText w ++ [115]
  | .chars sup w => 37 :: (if sup then [42] else []) ++ widthText w ++ [99]
  | .set sup w inv items => 37 :: (if sup then [42] else []) ++ widthText w ++ 91 :: (if inv then [94] else []) ++
      items.flatMap Item.text ++ [93]
  | .count t => 37 :: lengthText t ++ [110]

def format (ds : List Dir) : List Nat := ds.flatMap Dir.text

/-- The value of an alphanumeric character as a digit. -/
def value (c : Nat) : Nat := if c ≤ 57 then c - 48 else if c ≤ 90 then c - 65 + 10 else c - 97 + 10

def alnum (c : Nat) : Bool := (48 ≤ c && c ≤ 57) || (65 ≤ c && c ≤ 90) || (97 ≤ c && c ≤ 122)

/-- A digit of the base. -/
def digit (base c : Nat) : Bool := alnum c && decide (value c < base)

/-- The number that digits denote. -/
def number (base : Nat) (ds : List Nat) : Nat := ds.foldl (fun v c => v * base + value c) 0

/-- An optional sign, and what follows. -/
def signed : List Nat → Bool × List Nat
  | 45 :: s => (true, s)
  | 43 :: s => (false, s)
  | s => (false, s)

/-- The base, and what follows its prefix. -/
def base (cv : Conv) (s : List Nat) : Nat × List Nat :=
  match cv with
  | .d | .u => (10, s)
  | .o => (8, s)
  | .x | .X => match s with
    | 48 :: 120 :: r => (16, r)
    | 48 :: 88 :: r => (16, r)
    | _ => (16, s)
  | .i => match s with
    | 48 :: 120 :: r => (16, r)
    | 48 :: 88 :: r => (16, r)
    | 48 :: 98 :: r => (2, r)
    | 48 :: 66 :: r => (2, r)
    | 48 :: _ => (8, s)
    | _ => (10, s)

/-- The end of a directive. -/
inductive Step where
  | inputFailure
  | matchFailure (rest : List Nat)
  | done (s : Store) (rest : List Nat)

/-- An integer: after white space, within the width, a sign, a prefix, and the longest run of digits. -/
def int (isSpace : Nat → Bool) (w : Nat) (t : Ty) (cv : Conv) (inp : List Nat) : Step :=
  let s := inp.dropWhile isSpace
  if s = [] then .inputFailure
  else
    let window := if w = 0 then s else s.take w
    let (neg, a) := signed window
    let (b, a) := base cv a
    let ds := a.takeWhile (digit b)
    let rest := s.drop (window.length - a.length + ds.length)
    if ds = [] then .matchFailure rest
    else .done (.int t.bits (((if neg then -(number b ds : Int) else number b ds) % 2 ^ t.bits).toNat)) rest

/-- A word: after white space, the longest run of other characters within the width. -/
def str (isSpace : Nat → Bool) (w : Nat) (inp : List Nat) : Step :=
  let s := inp.dropWhile isSpace
  if s = [] then .inputFailure
  else
    let item := (if w = 0 then s else s.take w).takeWhile (fun c => !isSpace c)
    .done (.str (item ++ [0])) (s.drop item.length)

/-- As many characters as the width says, without one a single character; fewer at the end of the input. -/
def chars (w : Nat) (s : List Nat) : Step :=
  if s = [] then .inputFailure else .done (.chars (s.take (max w 1))) (s.drop (max w 1))

/-- The longest run of characters of the set (or outside it) within the width. -/
def set (w : Nat) (inv : Bool) (items : List Item) (s : List Nat) : Step :=
  if s = [] then .inputFailure
  else
    let item := (if w = 0 then s else s.take w).takeWhile (fun c => items.any (Item.has c) != inv)
    if item = [] then .matchFailure s else .done (.str (item ++ [0])) (s.drop item.length)

structure Outcome where
  ret : Int
  stores : List Store
  rest : List Nat
  deriving DecidableEq, Repr

/-- After a failure: the number of assignments, or EOF if input is missing before the first one. -/
def eofRet (n : Nat) : Int := if n = 0 then -1 else n

/-- What the directives do, one after the other: `n` assignments so far. -/
def run (isSpace : Nat → Bool) (total : Nat) : List Dir → List Nat → Nat → List Store → Outcome
  | [], s, n, st => ⟨n, st, s⟩
  | .space _ :: ds, s, n, st => run isSpace total ds (s.dropWhile isSpace) n st
  | .lit c :: ds, s, n, st =>
    match s with
    | [] => ⟨eofRet n, st, []⟩
    | x :: s => if x = c then run isSpace total ds s n st else ⟨n, st, x :: s⟩
  | .count t :: ds, s, n, st =>
    run isSpace total ds s n (st ++ [.int t.bits ((total - s.length) % 2 ^ t.bits)])
  | .int sup w t cv :: ds, s, n, st =>
    match int isSpace w t cv s with
    | .inputFailure => ⟨eofRet n, st, []⟩
    | .matchFailure r => ⟨n, st, r⟩
    | .done x r => if sup then run isSpace total ds r n st else run isSpace total ds r (n + 1) (st ++ [x])
  | .str sup w :: ds, s, n, st =>
    match str isSpace w s with
    | .inputFailure => ⟨eofRet n, st, []⟩
    | .matchFailure r => ⟨n, st, r⟩
    | .done x r => if sup then run isSpace total ds r n st else run isSpace total ds r (n + 1) (st ++ [x])
  | .chars sup w :: ds, s, n, st =>
    match chars w s with
    | .inputFailure => ⟨eofRet n, st, []⟩
    | .matchFailure r => ⟨n, st, r⟩
    | .done x r => if sup then run isSpace total ds r n st else run isSpace total ds r (n + 1) (st ++ [x])
  | .set sup w inv items :: ds, s, n, st =>
    match set w inv items s with
    | .inputFailure => ⟨eofRet n, st, []⟩
    | .matchFailure r => ⟨n, st, r⟩
    | .done x r => if sup then run isSpace total ds r n st else run isSpace total ds r (n + 1) (st ++ [x])

/-- What a reading of `text` by the directives stores and returns, and what it leaves. -/
def scan (isSpace : Nat → Bool) (ds : List Dir) (text : List Nat) : Outcome :=
  run isSpace text.length ds text 0 []

/-- An ASCII character other than `-` and `]`. -/
def plain (c : Nat) : Prop := c ≠ 0 ∧ c < 128 ∧ c ≠ 45 ∧ c ≠ 93

def Item.Plain : Item → Prop
  | .one c => plain c
  | .range lo hi => plain lo ∧ plain hi ∧ lo ≤ hi

/-- The directives of this theorem: literals are neither white space nor `%`; a width appears with `%x`, `%s`,
`%c` and `%[` only, and not together with `*`; a scan set has no `-` or `]` as a member. -/
def Dir.Covered (isSpace : Nat → Bool) : Dir → Prop
  | .space c => isSpace c = true
  | .lit c => isSpace c = false ∧ c ≠ 37 ∧ c ≠ 0
  | .int sup w _ cv => w = 0 ∨ (sup = false ∧ (cv = .x ∨ cv = .X))
  | .str sup w => w = 0 ∨ sup = false
  | .chars sup w => w = 0 ∨ sup = false
  | .set sup w inv items => (w = 0 ∨ sup = false) ∧ items ≠ [] ∧
      (∀ i ∈ items, i.Plain) ∧
      (inv = false → items.head? ≠ some (.one 94) ∧ ∀ hi, items.head? ≠ some (.range 94 hi))
  | .count _ => True

/-- The directive reads text. -/
def Dir.textual : Dir → Prop
  | .str .. | .chars .. | .set .. => True
  | _ => False

/-- The directive has a range in its scan set. -/
def Dir.ranged : Dir → Prop
  | .set _ _ _ items => ∃ lo hi, .range lo hi ∈ items
  | _ => False

end Spec

/-! ### Proofs: digits -/

open Spec

theorem digitOf_spec {b : Nat} (hb : b = 10 ∨ b = 16 ∨ b = 8 ∨ b = 2) (c : Nat) :
    digitOf b c = if digit b c then some (value c) else none := by
  have key : digit b c = true ↔
      ((48 ≤ c ∧ c ≤ 57) ∨ (65 ≤ c ∧ c ≤ 90) ∨ (97 ≤ c ∧ c ≤ 122)) ∧ value c < b := by
    unfold digit alnum
    simp only [Bool.and_eq_true, Bool.or_eq_true, decide_eq_true_eq, or_assoc]
  by_cases h : digit b c = true
  · rw [if_pos h]
    rw [key] at h
    unfold value at h ⊢
    rcases hb with rfl | rfl | rfl | rfl <;> simp only [digitOf, Nat.reduceEqDiff, if_true,
      if_false] <;> repeat' split at h
    all_goals (repeat' split) <;> first | rfl | (exfalso; omega) | (congr 1; omega)
  · rw [if_neg h]
    rw [key] at h
    unfold value at h
    rcases hb with rfl | rfl | rfl | rfl <;> simp only [digitOf, Nat.reduceEqDiff, if_true,
      if_false] <;> repeat' split at h
    all_goals (repeat' split) <;> first | rfl | (exfalso; omega)

/-- The characters that a limit allows. -/
def lim (left : Option Nat) (s : List Nat) : List Nat :=
  match left with
  | none => s
  | some k => s.take k

theorem lim_cons {left : Option Nat} (h : left ≠ some 0) (c : Nat) (s : List Nat) :
    lim left (c :: s) = c :: lim (left.map (· - 1)) s := by
  cases left with
  | none => rfl
  | some k =>
    cases k with
    | zero => exact absurd rfl h
    | succ k => rfl

theorem lim_nil (left : Option Nat) : lim left [] = [] := by
  cases left <;> simp [lim]

theorem lim_zero (s : List Nat) : lim (some 0) s = [] := by simp [lim]

theorem digitLoop_spec {b : Nat} (hb : b = 10 ∨ b = 16 ∨ b = 8 ∨ b = 2) (s : List Nat) :
    ∀ (left : Option Nat) (used res count : Nat), digitLoop b left s used res count =
      (⟨s.drop ((lim left s).takeWhile (digit b)).length, used + ((lim left s).takeWhile (digit b)).length⟩,
        ((lim left s).takeWhile (digit b)).foldl (fun v c => (v * b + value c) % 2 ^ 64) res,
        count + ((lim left s).takeWhile (digit b)).length) := by
  induction s with
  | nil => intro left used res count; rw [lim_nil]; rfl
  | cons c s ih =>
    intro left used res count
    rw [digitLoop]
    by_cases h0 : left = some 0
    · rw [if_pos h0, h0, lim_zero]
      rfl
    · rw [if_neg h0, lim_cons h0, digitOf_spec hb]
      by_cases hd : digit b c = true
      · rw [if_pos hd, List.takeWhile_cons_of_pos hd]
        simp only []
        rw [ih]
        simp only [List.length_cons, List.drop_succ_cons, List.foldl_cons]
        rw [Nat.add_right_comm used, Nat.add_right_comm count]
        rfl
      · rw [if_neg hd, List.takeWhile_cons_of_neg hd]
        rfl

theorem foldl_mod (b M : Nat) (ds : List Nat) (v : Nat) :
    ds.foldl (fun v c => (v * b + value c) % M) (v % M) = (ds.foldl (fun v c => v * b + value c) v) % M := by
  induction ds generalizing v with
  | nil => rfl
  | cons c ds ih =>
    simp only [List.foldl_cons]
    rw [← ih]
    congr 1
    rw [Nat.add_mod, Nat.mul_mod, Nat.mod_mod, ← Nat.mul_mod, ← Nat.add_mod]

theorem foldl_number (b : Nat) (ds : List Nat) :
    ds.foldl (fun v c => (v * b + value c) % 2 ^ 64) 0 = number b ds % 2 ^ 64 := foldl_mod b _ ds 0

theorem Ty.bits_dvd (t : Ty) : 2 ^ t.bits ∣ 2 ^ 64 := by
  cases t <;> exact Nat.pow_dvd_pow 2 (by decide)

theorem store_spec (t : Ty) (neg : Bool) (v : Nat) :
    storeSigned t neg (v % 2 ^ 64) =
      .int t.bits (((if neg then -(v : Int) else v) % 2 ^ t.bits).toNat) := by
  unfold storeSigned storeInt
  congr 1
  have hd := t.bits_dvd
  generalize hM : 2 ^ t.bits = M at hd
  have hK : 0 < 2 ^ 64 := by decide
  generalize 2 ^ 64 = K at hd hK
  have hMi : ((2 : Int) ^ t.bits) = (M : Int) := by rw [← hM]; simp
  rw [hMi]
  cases neg with
  | false =>
    simp only [Bool.false_eq_true, if_false]
    rw [Nat.mod_mod_of_dvd _ hd, ← Int.natCast_emod, Int.toNat_natCast]
  | true =>
    simp only [if_true]
    rw [Nat.mod_mod_of_dvd _ hd]
    have h1 : (((K - v % K : Nat) : Int)) % (M : Int) = (-(v : Int)) % (M : Int) := by
      rw [Int.emod_eq_emod_iff_emod_sub_eq_zero]
      apply Int.emod_eq_zero_of_dvd
      have h2 : (((K - v % K : Nat) : Int)) - -(v : Int) = (((K - v % K) + v : Nat) : Int) := by omega
      rw [h2]
      apply Int.natCast_dvd_natCast.2
      have h3 : (K - v % K) + v = K * (1 + v / K) := by
        have := Nat.mod_add_div v K
        have := Nat.mod_lt v hK
        rw [Nat.mul_add]
        omega
      rw [h3]
      exact Nat.dvd_trans hd ⟨_, rfl⟩
    rw [← h1, ← Int.natCast_emod, Int.toNat_natCast]

/-! ### Proofs: integers -/

/-- The end of a conversion in the code is the one the specification asks for. -/
def Agrees (total : Nat) : Out → Step → Prop
  | .eof, .inputFailure => True
  | .nomatch i, .matchFailure r => i.rest = r
  | .ok i x, .done y r => x = y ∧ i.rest = r ∧ i.used + i.rest.length = total
  | _, _ => False

/-- The last part of an integer: digits after a sign and a prefix of together `k` characters. -/
def digitsEnd (s : List Nat) (k : Nat) (a : List Nat) (t : Ty) (neg : Bool) (b : Nat) : Step :=
  let ds := a.takeWhile (digit b)
  if ds = [] then .matchFailure (s.drop (k + ds.length))
  else .done (.int t.bits (((if neg then -(number b ds : Int) else number b ds) % 2 ^ t.bits).toNat))
    (s.drop (k + ds.length))

theorem int_eq {isSpace : Nat → Bool} {w : Nat} {t : Ty} {cv : Conv} {inp s : List Nat}
    (hs : inp.dropWhile isSpace = s) (hne : s ≠ []) {left : Option Nat}
    (hl : left = if w = 0 then none else some w) {neg : Bool} {a a' : List Nat} {b k : Nat}
    (h1 : signed (lim left s) = (neg, a)) (h2 : base cv a = (b, a')) (hk : (lim left s).length = k + a'.length) :
    int isSpace w t cv inp = digitsEnd s k a' t neg b := by
  have hwin : (if w = 0 then s else s.take w) = lim left s := by
    rw [hl]
    split <;> rfl
  unfold int digitsEnd
  simp only [hs, if_neg hne, hwin, h1, h2, hk, Nat.add_sub_cancel]

theorem digits_agree {b : Nat} (hb : b = 10 ∨ b = 16 ∨ b = 8 ∨ b = 2) (s : List Nat) (k : Nat)
    (left : Option Nat) (t : Ty) (neg : Bool) (used total : Nat) (hk : k ≤ s.length)
    (hu : used + s.length = total) :
    Agrees total
      (let r := digitLoop b left (s.drop k) (used + k) 0 0
       if r.2.2 = 0 then .nomatch r.1 else .ok r.1 (storeSigned t neg r.2.1))
      (digitsEnd s k (lim left (s.drop k)) t neg b) := by
  simp only [digitLoop_spec hb, digitsEnd, foldl_number, store_spec, List.drop_drop, Nat.zero_add]
  have hlen : ((lim left (s.drop k)).takeWhile (digit b)).length ≤ s.length - k := by
    refine Nat.le_trans (List.takeWhile_sublist _).length_le ?_
    cases left with
    | none => simp [lim]
    | some w => simp [lim]; omega
  by_cases h : (lim left (s.drop k)).takeWhile (digit b) = []
  · rw [if_pos (by rw [h]; rfl), if_pos h]
    exact rfl
  · rw [if_neg (by simpa using h), if_neg h]
    refine ⟨rfl, rfl, ?_⟩
    simp only [List.length_drop]
    omega

/-- The sign, within a limit that allows a character. -/
theorem sign_spec {s : List Nat} (hne : s ≠ []) {left : Option Nat} (hl : left ≠ some 0) (used : Nat) :
    ∃ neg k, k ≤ 1 ∧ sign ⟨s, used⟩ = (neg, ⟨s.drop k, used + k⟩) ∧
      signed (lim left s) = (neg, lim (left.map (· - k)) (s.drop k)) ∧
      (lim left s).length = k + (lim (left.map (· - k)) (s.drop k)).length := by
  match s, hne with
  | c :: r, _ =>
    rw [lim_cons hl]
    by_cases h1 : c = 45
    · subst h1
      exact ⟨true, 1, by omega, rfl, rfl, by simp; omega⟩
    · by_cases h2 : c = 43
      · subst h2
        exact ⟨false, 1, by omega, rfl, rfl, by simp; omega⟩
      · refine ⟨false, 0, by omega, ?_, ?_, ?_⟩
        · unfold sign
          simp [In.look, h1, h2]
        · have : left.map (· - 0) = left := by cases left <;> rfl
          rw [this, List.drop_zero, lim_cons hl]
          unfold signed
          split
          · next h => simp at h; omega
          · next h => simp at h; omega
          · rfl
        · have : left.map (· - 0) = left := by cases left <;> rfl
          rw [this, List.drop_zero, lim_cons hl]
          simp

theorem look_ne {s : List Nat} (hne : s ≠ []) (h0 : ∀ c ∈ s, c ≠ 0) (u : Nat) : (⟨s, u⟩ : In).look ≠ 0 := by
  match s, hne with
  | c :: r, _ => exact h0 c (by simp)

theorem convO_agrees {isSpace : Nat → Bool} {t : Ty} {inp s : List Nat} (hs : inp.dropWhile isSpace = s)
    (hne : s ≠ []) (h0 : ∀ c ∈ s, c ≠ 0) (used total : Nat) (hu : used + s.length = total) :
    Agrees total (convO t ⟨s, used⟩) (int isSpace 0 t .o inp) := by
  obtain ⟨neg, k, hk, h1, h2, h3⟩ := sign_spec hne (left := none) (by simp) used
  unfold convO
  rw [if_neg (look_ne hne h0 used), h1]
  rw [int_eq hs hne (left := none) rfl h2 (by rfl : base .o _ = (8, _)) h3]
  have hkl : k ≤ s.length := by
    have : 0 < s.length := List.length_pos_iff.2 hne
    omega
  exact digits_agree (by simp) s k none t neg used total hkl hu

theorem convD_agrees {isSpace : Nat → Bool} {t : Ty} {inp s : List Nat} (hs : inp.dropWhile isSpace = s)
    (hne : s ≠ []) (h0 : ∀ c ∈ s, c ≠ 0) (used total : Nat) (hu : used + s.length = total) {cv : Conv}
    (hcv : cv = .d ∨ cv = .u) :
    Agrees total (convD t false ⟨s, used⟩) (int isSpace 0 t cv inp) := by
  obtain ⟨neg, k, hk, h1, h2, h3⟩ := sign_spec hne (left := none) (by simp) used
  unfold convD
  rw [if_neg (look_ne hne h0 used), h1]
  rw [int_eq hs hne (left := none) rfl h2 (by rcases hcv with rfl | rfl <;> rfl : base cv _ = (10, _)) h3]
  have hkl : k ≤ s.length := by
    have : 0 < s.length := List.length_pos_iff.2 hne
    omega
  have := digits_agree (b := 10) (by simp) s k none t neg used total hkl hu
  simp only [prefixI, Bool.false_eq_true, false_and, if_false, ne_eq, Nat.reduceEqDiff, not_false_eq_true, and_true]
  exact this

/-- A leading zero is a digit that changes nothing. -/
theorem zero_end {b : Nat} (hb : b = 16 ∨ b = 8) (s : List Nat) (k : Nat) (t : Ty) (neg : Bool) (r : List Nat) :
    digitsEnd s k (48 :: r) t neg b =
      .done (.int t.bits (((if neg then -(number b (r.takeWhile (digit b)) : Int)
        else number b (r.takeWhile (digit b))) % 2 ^ t.bits).toNat))
        (s.drop (k + 1 + (r.takeWhile (digit b)).length)) := by
  have hd : digit b 48 = true := by rcases hb with rfl | rfl <;> decide
  unfold digitsEnd
  simp only []
  rw [List.takeWhile_cons_of_pos hd, if_neg (by simp)]
  have hn : number b (48 :: r.takeWhile (digit b)) = number b (r.takeWhile (digit b)) := by
    unfold number
    rw [List.foldl_cons]
    congr 1
    simp [value]
  rw [hn, List.length_cons]
  congr 2
  omega

theorem zero_agree {b : Nat} (hb : b = 16 ∨ b = 8) {s r : List Nat} {k : Nat} (hr : s.drop k = 48 :: r)
    (left : Option Nat) (t : Ty) (neg : Bool) (used total count : Nat) (hu : used + s.length = total)
    {i : In} (hi : i = ⟨r, used + k + 1⟩) :
    Agrees total
      (.ok (digitLoop b left i.rest i.used 0 count).1
        (storeSigned t neg (digitLoop b left i.rest i.used 0 count).2.1))
      (digitsEnd s k (48 :: lim left r) t neg b) := by
  subst hi
  rw [zero_end hb]
  have hlen : ((lim left r).takeWhile (digit b)).length ≤ r.length := by
    refine Nat.le_trans (List.takeWhile_sublist _).length_le ?_
    cases left with
    | none => simp [lim]
    | some w => simp [lim]; omega
  have hd : r = s.drop (k + 1) := by
    rw [← List.drop_drop, hr]
    rfl
  have hsl : s.length = k + 1 + r.length := by
    have h1 : (s.drop k).length = r.length + 1 := by rw [hr]; rfl
    rw [List.length_drop] at h1
    omega
  simp only [digitLoop_spec (by omega : b = 10 ∨ b = 16 ∨ b = 8 ∨ b = 2), foldl_number, store_spec]
  refine ⟨rfl, ?_, ?_⟩
  · simp only []
    rw [← List.drop_drop, ← hd]
  · simp only [List.length_drop]
    omega

theorem convI_agrees {isSpace : Nat → Bool} {t : Ty} {inp s : List Nat} (hs : inp.dropWhile isSpace = s)
    (hne : s ≠ []) (h0 : ∀ c ∈ s, c ≠ 0) (used total : Nat) (hu : used + s.length = total) :
    Agrees total (convD t true ⟨s, used⟩) (int isSpace 0 t .i inp) := by
  obtain ⟨neg, k, hk, h1, h2, h3⟩ := sign_spec hne (left := none) (by simp) used
  have hkl : k ≤ s.length := by
    have : 0 < s.length := List.length_pos_iff.2 hne
    omega
  unfold convD
  rw [if_neg (look_ne hne h0 used), h1]
  simp only []
  have h2 : signed (lim none s) = (neg, s.drop k) := h2
  have h3 : (lim none s).length = k + (s.drop k).length := h3
  have hls : (lim none s).length = s.length := rfl
  -- a prefix of two characters
  have two : ∀ b (hb : b = 16 ∨ b = 2) c r, s.drop k = 48 :: c :: r → base .i (48 :: c :: r) = (b, r) →
      Agrees total
        (let r' := digitLoop b none r (used + k + 1 + 1) 0 0
         if r'.2.2 = 0 ∧ b ≠ 8 then .nomatch r'.1 else .ok r'.1 (storeSigned t neg r'.2.1))
        (int isSpace 0 t .i inp) := by
    intro b hb c r hr hbase
    rw [hr] at h2 h3
    have hlen : (lim none s).length = k + 2 + r.length := by simp only [List.length_cons] at h3; omega
    rw [int_eq hs hne (left := none) rfl h2 hbase hlen]
    have hd : r = s.drop (k + 2) := by
      rw [← List.drop_drop, hr]
      rfl
    have := digits_agree (b := b) (by omega) s (k + 2) none t neg used total (by omega) hu
    rw [← hd] at this
    have h8 : b ≠ 8 := by omega
    simp only [h8, ne_eq, not_false_eq_true, and_true]
    exact this
  -- base 8
  have eight : ∀ r, s.drop k = 48 :: r → base .i (48 :: r) = (8, 48 :: r) →
      Agrees total
        (let r' := digitLoop 8 none r (used + k + 1) 0 0
         if r'.2.2 = 0 ∧ 8 ≠ 8 then .nomatch r'.1 else .ok r'.1 (storeSigned t neg r'.2.1))
        (int isSpace 0 t .i inp) := by
    intro r hr hbase
    rw [hr] at h2 h3
    rw [int_eq hs hne (left := none) rfl h2 hbase h3]
    simp only [ne_eq, not_true_eq_false, and_false, if_false]
    exact zero_agree (.inr rfl) hr none t neg used total 0 hu rfl
  -- base 10
  have ten : base .i (s.drop k) = (10, s.drop k) →
      Agrees total
        (let r' := digitLoop 10 none (s.drop k) (used + k) 0 0
         if r'.2.2 = 0 ∧ 10 ≠ 8 then .nomatch r'.1 else .ok r'.1 (storeSigned t neg r'.2.1))
        (int isSpace 0 t .i inp) := by
    intro hbase
    rw [int_eq hs hne (left := none) rfl h2 hbase h3]
    have := digits_agree (b := 10) (by omega) s k none t neg used total (by omega) hu
    simp only [ne_eq, Nat.reduceEqDiff, not_false_eq_true, and_true]
    exact this
  cases hr : s.drop k with
  | nil =>
    rw [hr] at ten
    rw [show prefixI true ⟨[], used + k⟩ = (10, ⟨[], used + k⟩) by simp [prefixI, In.look]]
    exact ten rfl
  | cons c r =>
    by_cases hc : c = 48
    · subst hc
      cases hr2 : r with
      | nil =>
        rw [show prefixI true ⟨[48], used + k⟩ = (8, ⟨[], used + k + 1⟩) by simp [prefixI, In.look, In.next]]
        exact eight [] (by rw [hr, hr2]) rfl
      | cons d r =>
        subst hr2
        by_cases h1 : d = 120 ∨ d = 88
        · rw [show prefixI true ⟨48 :: d :: r, used + k⟩ = (16, ⟨r, used + k + 1 + 1⟩) by
            simp [prefixI, In.look, In.next, h1]]
          exact two 16 (.inl rfl) d r hr (by rcases h1 with rfl | rfl <;> rfl)
        · by_cases h2 : d = 98 ∨ d = 66
          · rw [show prefixI true ⟨48 :: d :: r, used + k⟩ = (2, ⟨r, used + k + 1 + 1⟩) by
              simp [prefixI, In.look, In.next, h1, h2]]
            exact two 2 (.inr rfl) d r hr (by rcases h2 with rfl | rfl <;> rfl)
          · rw [show prefixI true ⟨48 :: d :: r, used + k⟩ = (8, ⟨d :: r, used + k + 1⟩) by
              simp [prefixI, In.look, In.next, h1, h2]]
            refine eight (d :: r) hr ?_
            unfold base
            simp only []
            split
            · next h => simp at h; omega
            · next h => simp at h; omega
            · next h => simp at h; omega
            · next h => simp at h; omega
            · rfl
            · next h => exact absurd rfl (h _)
    · rw [hr] at ten
      rw [show prefixI true ⟨c :: r, used + k⟩ = (10, ⟨c :: r, used + k⟩) by simp [prefixI, In.look, hc]]
      refine ten ?_
      unfold base
      simp only []
      split
      · next h => simp at h; omega
      · next h => simp at h; omega
      · next h => simp at h; omega
      · next h => simp at h; omega
      · next h => simp at h; omega
      · rfl

theorem convX_agrees {isSpace : Nat → Bool} {t : Ty} {inp s : List Nat} (hs : inp.dropWhile isSpace = s)
    (hne : s ≠ []) (h0 : ∀ c ∈ s, c ≠ 0) (used total : Nat) (hu : used + s.length = total) {cv : Conv}
    (hcv : cv = .x ∨ cv = .X) (w : Nat) :
    Agrees total (convX t w ⟨s, used⟩) (int isSpace w t cv inp) := by
  have hleft : ∃ left : Option Nat, left = if w = 0 then none else some w := ⟨_, rfl⟩
  obtain ⟨left, hl⟩ := hleft
  have hl0 : left ≠ some 0 := by rw [hl]; split <;> simp [*]
  obtain ⟨neg, k, hk, h1, h2, h3⟩ := sign_spec hne hl0 used
  have hkl : k ≤ s.length := by
    have : 0 < s.length := List.length_pos_iff.2 hne
    omega
  -- what is left of the width
  have hlk : ∀ j, leftX w (used + j - used) = left.map (· - j) := by
    intro j
    rw [hl, Nat.add_sub_cancel_left]
    unfold leftX
    split <;> rfl
  have hstep : ∀ j, left.map (· - (j + 1)) = (left.map (· - j)).map (· - 1) := by
    intro j
    cases left with
    | none => rfl
    | some w => simp only [Option.map_some]; congr 1
  unfold convX
  rw [if_neg (look_ne hne h0 used), h1]
  simp only []
  -- the hexadecimal digits start after the sign
  have plain : base cv (lim (left.map (· - k)) (s.drop k)) = (16, lim (left.map (· - k)) (s.drop k)) →
      Agrees total
        (let r := digitLoop 16 (left.map (· - k)) (s.drop k) (used + k) 0 0
         if r.2.2 = 0 then .nomatch r.1 else .ok r.1 (storeSigned t neg r.2.1)) (int isSpace w t cv inp) := by
    intro hbase
    rw [int_eq hs hne hl h2 hbase h3]
    exact digits_agree (by simp) s k _ t neg used total hkl hu
  have hbase16 : ∀ a : List Nat, (∀ r, a ≠ 48 :: 120 :: r) → (∀ r, a ≠ 48 :: 88 :: r) → base cv a = (16, a) := by
    intro a ha hb
    rcases hcv with rfl | rfl <;> unfold base <;> simp only [] <;> split
    all_goals first
      | rfl
      | exact absurd rfl (ha _)
      | exact absurd rfl (hb _)
  by_cases hz : (s.drop k).headD 0 = 48 ∧ left.map (· - k) ≠ some 0
  · obtain ⟨r, hr⟩ : ∃ r, s.drop k = 48 :: r := by
      cases h : s.drop k with
      | nil => rw [h] at hz; simp at hz
      | cons c r => rw [h] at hz; simp at hz; exact ⟨r, by rw [hz.1]⟩
    have hsl : s.length = k + 1 + r.length := by
      have h1 : (s.drop k).length = r.length + 1 := by rw [hr]; rfl
      rw [List.length_drop] at h1
      omega
    rw [hr, lim_cons hz.2, ← hstep] at h2 h3
    rw [hr] at hz ⊢
    by_cases hx : (r.headD 0 = 120 ∨ r.headD 0 = 88) ∧ left.map (· - (k + 1)) ≠ some 0
    · obtain ⟨c, r', hr'⟩ : ∃ c r', r = c :: r' := by
        cases r with
        | nil => simp at hx
        | cons c r' => exact ⟨c, r', rfl⟩
      subst hr'
      have hp : prefixX w used ⟨48 :: c :: r', used + k⟩ = (0, ⟨r', used + (k + 1 + 1)⟩) := by
        unfold prefixX
        rw [if_pos (by rw [hlk]; exact hz)]
        have hx' : ((c :: r').headD 0 = 120 ∨ (c :: r').headD 0 = 88) ∧ leftX w (used + k + 1 - used) ≠ some 0 := by
          rw [Nat.add_assoc used k 1, hlk]
          exact hx
        exact if_pos hx'
      rw [hp]
      simp only [List.headD_cons] at hx ⊢
      rw [hlk]
      rw [lim_cons hx.2, ← hstep] at h2 h3
      have hbase : base cv (48 :: c :: lim (left.map (· - (k + 1 + 1))) r') =
          (16, lim (left.map (· - (k + 1 + 1))) r') := by
        rcases hcv with rfl | rfl <;> rcases hx.1 with rfl | rfl <;> rfl
      have hd : r' = s.drop (k + 1 + 1) := by
        rw [Nat.add_assoc, ← List.drop_drop, hr]
        rfl
      rw [int_eq (k := k + 1 + 1) hs hne hl h2 hbase (by rw [h3]; simp only [List.length_cons]; omega)]
      have := digits_agree (b := 16) (by simp) s (k + 1 + 1) (left.map (· - (k + 1 + 1))) t neg used total
        (by simp only [List.length_cons] at hsl; omega) hu
      rw [← hd] at this
      exact this
    · have hp : prefixX w used ⟨48 :: r, used + k⟩ = (1, ⟨r, used + (k + 1)⟩) := by
        unfold prefixX
        rw [if_pos (by rw [hlk]; exact hz)]
        have hx' : ¬ ((r.headD 0 = 120 ∨ r.headD 0 = 88) ∧ leftX w (used + k + 1 - used) ≠ some 0) := by
          rw [Nat.add_assoc used k 1, hlk]
          exact hx
        exact if_neg hx'
      rw [hp]
      simp only []
      rw [hlk]
      have hB : ∀ c r'', lim (left.map (· - (k + 1))) r = c :: r'' → c ≠ 120 ∧ c ≠ 88 := by
        intro c r'' h
        cases r with
        | nil => rw [lim_nil] at h; simp at h
        | cons c' r' =>
          by_cases hl1 : left.map (· - (k + 1)) = some 0
          · rw [hl1, lim_zero] at h; simp at h
          · rw [lim_cons hl1] at h
            have hc : c' = c := by simp at h; exact h.1
            subst hc
            simp only [List.headD_cons] at hx
            constructor
            · intro e; exact hx ⟨.inl e, hl1⟩
            · intro e; exact hx ⟨.inr e, hl1⟩
      have hbase := hbase16 (48 :: lim (left.map (· - (k + 1))) r)
        (fun r'' h => (hB 120 r'' (by simpa using h)).1 rfl) (fun r'' h => (hB 88 r'' (by simpa using h)).2 rfl)
      rw [int_eq hs hne hl h2 hbase h3]
      have hcount : (digitLoop 16 (left.map (· - (k + 1))) r (used + (k + 1)) 0 1).2.2 ≠ 0 := by
        rw [digitLoop_spec (by simp)]
        simp only []
        omega
      rw [if_neg hcount]
      exact zero_agree (.inl rfl) hr _ t neg used total 1 hu (i := ⟨r, used + (k + 1)⟩) rfl
  · have hp : prefixX w used ⟨s.drop k, used + k⟩ = (0, ⟨s.drop k, used + k⟩) := by
      unfold prefixX
      rw [if_neg (by rw [hlk]; exact hz)]
    rw [hp]
    simp only []
    rw [hlk]
    refine plain (hbase16 _ ?_ ?_)
    all_goals
      intro r h
      cases hd : s.drop k with
      | nil => rw [hd, lim_nil] at h; simp at h
      | cons c r' =>
        rw [hd] at h hz
        by_cases hlz : left.map (· - k) = some 0
        · rw [hlz, lim_zero] at h; simp at h
        · rw [lim_cons hlz] at h
          simp at h
          exact hz ⟨by simp [h.1], hlz⟩

/-! ### Proofs: strings and characters -/

theorem strLoop_spec {isSpace : Nat → Bool} (w : Nat) (s : List Nat) (h0 : ∀ c ∈ s, c ≠ 0)
    (h7 : ∀ c ∈ s, c < 128) : ∀ (used : Nat) (buf : List Nat) (item : List Nat), (w = 0 ∨ buf.length < w) →
    item = (if w = 0 then s else s.take (w - buf.length)).takeWhile (fun c => !isSpace c) →
    strLoop isSpace w s used buf = .ok (⟨s.drop item.length, used + item.length⟩, buf ++ item) := by
  induction s with
  | nil => intro used buf item _ hi; subst hi; simp [strLoop]
  | cons c s ih =>
    intro used buf item hw hi
    rw [strLoop]
    by_cases hs : isSpace c = true
    · rw [if_pos (.inr hs)]
      have : item = [] := by
        rw [hi]
        split
        · rw [List.takeWhile_cons_of_neg (by simp [hs])]
        · next hw0 =>
          obtain ⟨m, hm⟩ : ∃ m, w - buf.length = m + 1 := ⟨w - buf.length - 1, by omega⟩
          rw [hm, List.take_succ_cons, List.takeWhile_cons_of_neg (by simp [hs])]
      rw [this]
      simp
    · rw [if_neg (by simp [hs, h0 c (by simp)])]
      unfold append
      rw [if_pos (h7 c (by simp))]
      simp only [Res.bind, List.length_append, List.length_singleton]
      by_cases hlim : w ≠ 0 ∧ buf.length + 1 ≥ w
      · rw [if_pos hlim]
        have : item = [c] := by
          rw [hi, if_neg hlim.1]
          have hm : w - buf.length = 1 := by omega
          rw [hm, List.take_succ_cons, List.take_zero, List.takeWhile_cons_of_pos (by simp [hs])]
          rfl
        rw [this]
        rfl
      · rw [if_neg hlim]
        have hi' : item = c :: (if w = 0 then s else s.take (w - (buf ++ [c]).length)).takeWhile
            (fun c => !isSpace c) := by
          rw [hi]
          split
          · rw [List.takeWhile_cons_of_pos (by simp [hs])]
          · next hw0 =>
            have hm : w - buf.length = (w - (buf ++ [c]).length) + 1 := by simp; omega
            rw [hm, List.take_succ_cons, List.takeWhile_cons_of_pos (by simp [hs])]
        rw [ih (fun x hx => h0 x (by simp [hx])) (fun x hx => h7 x (by simp [hx])) (used + 1) (buf ++ [c]) _
          (by simp; omega) rfl, hi']
        simp only [List.length_cons, List.drop_succ_cons, List.append_assoc, List.singleton_append]
        rw [Nat.add_right_comm used]
        rfl

theorem charLoop_spec (w : Nat) (s : List Nat) (h0 : ∀ c ∈ s, c ≠ 0) (h7 : ∀ c ∈ s, c < 128) :
    ∀ (used : Nat) (buf : List Nat) (m : Nat), m = w - buf.length →
    charLoop w s used buf = .ok (⟨s.drop m, used + (s.take m).length⟩, buf ++ s.take m) := by
  induction s with
  | nil => intro used buf m _; simp [charLoop]
  | cons c s ih =>
    intro used buf m hm
    rw [charLoop]
    by_cases hl : buf.length < w
    · rw [if_pos ⟨h0 c (by simp), hl⟩]
      unfold append
      rw [if_pos (h7 c (by simp))]
      simp only [Res.bind]
      obtain ⟨m', rfl⟩ : ∃ m', m = m' + 1 := ⟨m - 1, by omega⟩
      rw [ih (fun x hx => h0 x (by simp [hx])) (fun x hx => h7 x (by simp [hx])) (used + 1) (buf ++ [c]) m'
        (by simp; omega)]
      simp only [List.take_succ_cons, List.drop_succ_cons, List.length_cons, List.append_assoc,
        List.singleton_append]
      rw [Nat.add_right_comm used]
      rfl
    · rw [if_neg (fun h => hl h.2)]
      have : m = 0 := by omega
      subst this
      simp

theorem convS_agrees {isSpace : Nat → Bool} {inp s : List Nat} (hs : inp.dropWhile isSpace = s)
    (hne : s ≠ []) (h0 : ∀ c ∈ s, c ≠ 0) (h7 : ∀ c ∈ s, c < 128) (used total : Nat)
    (hu : used + s.length = total) (w : Nat) :
    ∃ o, convS isSpace w ⟨s, used⟩ = .ok o ∧ Agrees total o (str isSpace w inp) := by
  unfold convS
  rw [if_neg (look_ne hne h0 used)]
  simp only []
  rw [strLoop_spec w s h0 h7 used [] _ (by simp; omega) rfl]
  simp only [Res.bind, List.nil_append, List.length_nil, Nat.sub_zero]
  unfold str
  simp only [hs, if_neg hne]
  have hitem : (if w = 0 then s else s.take w).takeWhile (fun c => !isSpace c) ≠ [] := by
    match s, hne, hs with
    | c :: r, _, hs =>
      have hc : isSpace c = false := by
        have := List.head_dropWhile_not isSpace (l := inp) (by rw [hs]; simp)
        simp only [hs, List.head_cons] at this
        exact this
      split
      · rw [List.takeWhile_cons_of_pos (by simp [hc])]; simp
      · next hw =>
        obtain ⟨m, rfl⟩ : ∃ m, w = m + 1 := ⟨w - 1, by omega⟩
        rw [List.take_succ_cons, List.takeWhile_cons_of_pos (by simp [hc])]
        simp
  rw [if_neg (by simpa using hitem)]
  refine ⟨_, rfl, rfl, rfl, ?_⟩
  have hlen : ((if w = 0 then s else s.take w).takeWhile (fun c => !isSpace c)).length ≤ s.length := by
    refine Nat.le_trans (List.takeWhile_sublist _).length_le ?_
    split
    · exact Nat.le_refl _
    · simp; omega
  simp only [List.length_drop]
  omega

theorem convC_agrees {s : List Nat} (hne : s ≠ []) (h0 : ∀ c ∈ s, c ≠ 0) (h7 : ∀ c ∈ s, c < 128)
    (used total : Nat) (hu : used + s.length = total) (w : Nat) :
    ∃ o, convC w ⟨s, used⟩ = .ok o ∧ Agrees total o (chars w s) := by
  unfold convC chars
  rw [if_neg (look_ne hne h0 used), if_neg hne]
  simp only []
  have hm : max w 1 = (if w = 0 then 1 else w) - ([] : List Nat).length := by
    simp only [List.length_nil]
    split <;> omega
  rw [charLoop_spec _ s h0 h7 used [] (max w 1) hm]
  simp only [Res.bind, List.nil_append]
  refine ⟨_, rfl, rfl, rfl, ?_⟩
  simp only [List.length_take, List.length_drop]
  omega

/-! ### Proofs: the format -/

theorem skipSpace_spec (isSpace : Nat → Bool) (s : List Nat) (n : Nat) :
    ∃ k, skipSpace isSpace s n = ⟨s.dropWhile isSpace, n + k⟩ ∧ s.length = k + (s.dropWhile isSpace).length := by
  induction s generalizing n with
  | nil => exact ⟨0, rfl, rfl⟩
  | cons c s ih =>
    rw [skipSpace]
    by_cases h : isSpace c = true
    · obtain ⟨k, h1, h2⟩ := ih (n + 1)
      rw [if_pos h, h1, List.dropWhile_cons_of_pos h]
      exact ⟨k + 1, by congr 1; omega, by simp only [List.length_cons]; omega⟩
    · rw [if_neg h, List.dropWhile_cons_of_neg h]
      exact ⟨0, rfl, by simp⟩

theorem widthLoop_digits (ds : List Nat) (hd : ∀ c ∈ ds, 48 ≤ c ∧ c ≤ 57) (x : List Nat)
    (hx : ∀ c, x.head? = some c → isDigit c = false) (v : Nat) :
    widthLoop (ds ++ x) v = (ds.foldl (fun a c => a * 10 + (c - 48)) v, x) := by
  induction ds generalizing v with
  | nil =>
    cases x with
    | nil => rfl
    | cons c x =>
      rw [List.nil_append, widthLoop, hx c rfl]
      rfl
  | cons c ds ih =>
    have hc := hd c (by simp)
    have : isDigit c = true := by simp [isDigit]; omega
    rw [List.cons_append, widthLoop, this]
    simp only [if_true, List.foldl_cons]
    exact ih (fun c' h => hd c' (by simp [h])) _

theorem decimal_value (w : Nat) : (Strtol.decimal w).foldl (fun a c => a * 10 + (c - 48)) 0 = w := by
  induction w using Strtol.decimal.induct with
  | case1 n h => unfold Strtol.decimal; simp [h]
  | case2 n h ih =>
    unfold Strtol.decimal
    rw [if_neg h, List.foldl_append, ih]
    simp
    omega

theorem widthLoop_spec (w : Nat) (x : List Nat) (hx : ∀ c, x.head? = some c → isDigit c = false) :
    widthLoop (widthText w ++ x) 0 = (w, x) := by
  unfold widthText
  by_cases h : w = 0
  · subst h
    rw [if_pos rfl]
    exact widthLoop_digits [] (by simp) x hx 0
  · rw [if_neg h, widthLoop_digits _ (Strtol.decimal_digits w) x hx 0, decimal_value]

/-- The conversion characters of the theorem. -/
def isConv (c : Nat) : Prop :=
  c = 100 ∨ c = 117 ∨ c = 105 ∨ c = 111 ∨ c = 120 ∨ c = 88 ∨ c = 115 ∨ c = 99 ∨ c = 110 ∨ c = 91

theorem lengthMod_spec (t : Ty) {c : Nat} (hc : isConv c) (x : List Nat) :
    lengthMod (lengthText t ++ c :: x) = (t, c :: x) := by
  unfold isConv at hc
  rcases hc with rfl | rfl | rfl | rfl | rfl | rfl | rfl | rfl | rfl | rfl <;> cases t <;> rfl

/-- How the text after `%` and a width begins. -/
theorem length_head (t : Ty) {c : Nat} (hc : isConv c) (x : List Nat) :
    ∃ h tl, lengthText t ++ c :: x = h :: tl ∧ h ≠ 37 ∧ h ≠ 42 ∧ h ≠ 39 ∧ h ≠ 109 ∧ isDigit h = false := by
  unfold isConv at hc
  cases t with
  | int =>
    refine ⟨c, x, rfl, by omega, by omega, by omega, by omega, ?_⟩
    simp [isDigit]
    omega
  | _ => exact ⟨_, _, rfl, by decide, by decide, by decide, by decide, by decide⟩

theorem width_head (w : Nat) (t : Ty) {c : Nat} (hc : isConv c) (x : List Nat) :
    ∃ h tl, widthText w ++ (lengthText t ++ c :: x) = h :: tl ∧ h ≠ 37 ∧ h ≠ 42 ∧ h ≠ 39 ∧ h ≠ 109 := by
  obtain ⟨h, tl, h1, h2, h3, h4, h5, -⟩ := length_head t hc x
  unfold widthText
  split
  · exact ⟨h, tl, h1, h2, h3, h4, h5⟩
  · cases hd : Strtol.decimal w with
    | nil =>
      exfalso
      rw [Strtol.decimal] at hd
      split at hd <;> simp at hd
    | cons d ds =>
      have := Strtol.decimal_digits w d (by rw [hd]; simp)
      exact ⟨d, _, rfl, by omega, by omega, by omega, by omega⟩

/-- What `doScanf` does at a directive. -/
def afterConv (isSpace : Nat → Bool) (n : Nat) (fmt : List Nat) (dest : Bool) (count : Nat) (st : List Store)
    (i : In) : Out → Res Result
  | .eof => .ok ⟨eofRet count, st, i⟩
  | .nomatch i => .ok ⟨count, st, i⟩
  | .ok i s =>
    if dest then doScanf isSpace n fmt i (count + 1) (st ++ [s]) else doScanf isSpace n fmt i count st

theorem dir_step {isSpace : Nat → Bool} (h37 : isSpace 37 = false) (n : Nat) (sup : Bool) (w : Nat) (t : Ty)
    {c : Nat} (hc : isConv c) (hn : c ≠ 110) (hc91 : c ≠ 91) (hw : sup = true → w = 0) (x : List Nat) (i : In) (count : Nat)
    (st : List Store) :
    doScanf isSpace (n + 1) (37 :: (if sup then [42] else []) ++ widthText w ++ lengthText t ++ [c] ++ x) i count
      st = (let i := if c ≠ 99 then skipSpace isSpace i.rest i.used else i
        (convert isSpace t w c i).bind (afterConv isSpace n x (!sup) count st i)) := by
  have e : (37 :: (if sup then [42] else []) ++ widthText w ++ lengthText t ++ [c] ++ x) =
      37 :: ((if sup then [42] else []) ++ (widthText w ++ (lengthText t ++ c :: x))) := by simp
  rw [e, doScanf.eq_def]
  simp only [h37, Bool.false_eq_true, if_false]
  cases sup with
  | true =>
    have := hw rfl
    subst this
    simp [widthText, lengthMod_spec t hc, hn, hc91]
    rfl
  | false =>
    obtain ⟨h, tl, h1, h2, h3, h4, h5⟩ := width_head w t hc x
    have hwl : widthLoop (h :: tl) 0 = (w, lengthText t ++ c :: x) := by
      rw [← h1]
      refine widthLoop_spec w _ ?_
      intro d hd
      obtain ⟨h', tl', e1, -, -, -, -, e2⟩ := length_head t hc x
      rw [e1] at hd
      simp at hd
      rw [← hd]
      exact e2
    simp only [Bool.false_eq_true, if_false, List.nil_append, h1]
    simp [h2, h3, h4, h5, hwl, lengthMod_spec t hc, hn, hc91]
    rfl

theorem count_step {isSpace : Nat → Bool} (h37 : isSpace 37 = false) (n : Nat) (t : Ty) (x : List Nat) (i : In)
    (count : Nat) (st : List Store) :
    doScanf isSpace (n + 1) (37 :: lengthText t ++ [110] ++ x) i count st =
      doScanf isSpace n x i count (st ++ [storeInt t i.used]) := by
  have hc : isConv 110 := by unfold isConv; omega
  have e : (37 :: lengthText t ++ [110] ++ x) = 37 :: (lengthText t ++ 110 :: x) := by simp
  rw [e, doScanf.eq_def]
  simp only [h37, Bool.false_eq_true, if_false]
  obtain ⟨h, tl, h1, h2, h3, h4, h5, h6⟩ := length_head t hc x
  have hwl : widthLoop (h :: tl) 0 = (0, lengthText t ++ 110 :: x) := by
    rw [← h1]
    refine widthLoop_spec 0 (lengthText t ++ 110 :: x) ?_
    intro d hd
    rw [h1] at hd
    simp at hd
    rw [← hd]
    exact h6
  rw [h1]
  simp [h2, h3, h4, h5, hwl, lengthMod_spec t hc]

/-! ### Proofs: scan sets -/

theorem inSet_skip {inv : Bool} {c f : Nat} (hf : f ≠ c) (v : List Nat) (hv : v.head? ≠ some 45) :
    inSet inv c (f :: v) = inSet inv c v := by
  match v, hv with
  | [], _ => simp [inSet, hf]
  | [g], hv =>
    have : g ≠ 45 := fun h => hv (by simp [h])
    simp [inSet, hf, this]
  | g :: s :: v, hv =>
    have : g ≠ 45 := fun h => hv (by simp [h])
    rw [inSet, if_neg hf, if_neg (fun h => this h.1)]

theorem items_head {items : List Item} (hp : ∀ i ∈ items, i.Plain) :
    (items.flatMap Item.text).head? ≠ some 45 := by
  match items, hp with
  | [], _ => simp
  | .one c :: r, hp =>
    have : c ≠ 45 := (hp (.one c) (by simp)).2.2.1
    simpa [Item.text] using this
  | .range lo hi :: r, hp =>
    have : lo ≠ 45 := (hp (.range lo hi) (by simp)).1.2.2.1
    simpa [Item.text] using this

/-- A character belongs to a scan set exactly if a member says so — unless it is `-` and the set has a range. -/
theorem scanset_exact_partial {inv : Bool} {c : Nat} (items : List Item) (hp : ∀ i ∈ items, i.Plain)
    (hc : (∃ lo hi, Item.range lo hi ∈ items) → c ≠ 45) :
    inSet inv c (items.flatMap Item.text) = (items.any (Item.has c) != inv) := by
  induction items with
  | nil => cases inv <;> rfl
  | cons it items ih =>
    have ih := ih (fun i h => hp i (by simp [h]))
      (fun ⟨lo, hi, h⟩ => hc ⟨lo, hi, by simp [h]⟩)
    have hh := items_head (fun i h => hp i (List.mem_cons_of_mem it h))
    rw [List.flatMap_cons, List.any_cons]
    cases it with
    | one d =>
      by_cases h : d = c
      · subst h
        simp only [Item.text, Item.has, List.singleton_append, decide_true, Bool.true_or]
        generalize items.flatMap Item.text = v
        match v with
        | [] => cases inv <;> simp [inSet]
        | [g] => cases inv <;> simp [inSet]
        | g :: s :: v => cases inv <;> simp [inSet]
      · have h' : ¬ c = d := fun e => h e.symm
        simp only [Item.text, Item.has, List.singleton_append, h', decide_false, Bool.false_or]
        rw [inSet_skip h _ hh, ih]
    | range lo hi =>
      obtain ⟨h1, h2, h3⟩ := hp _ (List.mem_cons_self ..)
      have hc45 := hc ⟨lo, hi, by simp⟩
      simp only [Item.text, Item.has, List.cons_append, List.nil_append]
      rw [inSet]
      by_cases e : lo = c
      · subst e
        rw [if_pos rfl]
        cases inv <;> simp [h3]
      · rw [if_neg e]
        by_cases hgt : c > lo
        · rw [if_pos ⟨rfl, hgt⟩]
          by_cases hle : c ≤ hi
          · rw [if_pos hle]
            have : lo ≤ c := by omega
            cases inv <;> simp [this, hle]
          · rw [if_neg hle, ih]
            simp [hle]
        · rw [if_neg (fun h => hgt h.2), inSet_skip (by omega) _ (by simpa using h2.2.2.1),
            inSet_skip (by omega) _ hh, ih]
          have : ¬ lo ≤ c := by omega
          simp [this]

theorem setLoop_spec {inv : Bool} {set : List Nat} (w : Nat) (s : List Nat) (h0 : ∀ c ∈ s, c ≠ 0)
    (h7 : ∀ c ∈ s, c < 128) : ∀ (used : Nat) (buf : List Nat) (item : List Nat), (w = 0 ∨ buf.length ≤ w) →
    item = (if w = 0 then s else s.take (w - buf.length)).takeWhile (fun c => inSet inv c set) →
    setLoop inv set w s used buf = .ok (⟨s.drop item.length, used + item.length⟩, buf ++ item) := by
  induction s with
  | nil => intro used buf item _ hi; subst hi; simp [setLoop]
  | cons c s ih =>
    intro used buf item hw hi
    rw [setLoop, if_neg (by have := h7 c (by simp); omega)]
    by_cases hl : w = 0 ∨ buf.length < w
    · rw [if_pos ⟨h0 c (by simp), hl⟩]
      have hwin : (if w = 0 then c :: s else (c :: s).take (w - buf.length)) =
          c :: (if w = 0 then s else s.take (w - (buf ++ [c]).length)) := by
        split
        · rfl
        · obtain ⟨m, hm⟩ : ∃ m, w - buf.length = m + 1 := ⟨w - buf.length - 1, by omega⟩
          have : w - (buf ++ [c]).length = m := by simp; omega
          rw [hm, this, List.take_succ_cons]
      rw [hwin] at hi
      by_cases hs : inSet inv c set = true
      · rw [if_pos hs]
        rw [List.takeWhile_cons_of_pos (p := fun c => inSet inv c set) hs] at hi
        unfold append
        rw [if_pos (h7 c (by simp))]
        simp only [Res.bind]
        rw [ih (fun x hx => h0 x (by simp [hx])) (fun x hx => h7 x (by simp [hx])) (used + 1) (buf ++ [c]) _
          (by simp; omega) rfl, hi]
        simp only [List.length_cons, List.drop_succ_cons, List.append_assoc, List.singleton_append]
        rw [Nat.add_right_comm used]
        rfl
      · rw [if_neg hs]
        rw [List.takeWhile_cons_of_neg (p := fun c => inSet inv c set) hs] at hi
        rw [hi]
        simp
    · rw [if_neg (fun h => hl h.2)]
      have : item = [] := by
        rw [hi, if_neg (by omega), show w - buf.length = 0 by omega]
        rfl
      rw [this]
      simp

theorem convSet_agrees {items : List Item} (hp : ∀ i ∈ items, i.Plain) {s : List Nat} (hne : s ≠ [])
    (h0 : ∀ c ∈ s, c ≠ 0) (h7 : ∀ c ∈ s, c < 128)
    (hr : (∃ lo hi, Item.range lo hi ∈ items) → ∀ c ∈ s, c ≠ 45) (used total : Nat)
    (hu : used + s.length = total) (w : Nat) (inv : Bool) :
    ∃ o, convSet inv (items.flatMap Item.text) w ⟨s, used⟩ = .ok o ∧ Agrees total o (Spec.set w inv items s) := by
  unfold convSet Spec.set
  rw [if_neg (look_ne hne h0 used), if_neg hne]
  simp only []
  rw [setLoop_spec w s h0 h7 used [] _ (by simp) rfl]
  simp only [Res.bind, List.nil_append, List.length_nil, Nat.sub_zero]
  have heq : (if w = 0 then s else s.take w).takeWhile (fun c => inSet inv c (items.flatMap Item.text)) =
      (if w = 0 then s else s.take w).takeWhile (fun c => items.any (Item.has c) != inv) := by
    have hsub : ∀ c ∈ (if w = 0 then s else s.take w), c ∈ s := by
      intro c hc
      split at hc
      · exact hc
      · exact List.mem_of_mem_take hc
    generalize (if w = 0 then s else s.take w) = l at hsub
    induction l with
    | nil => rfl
    | cons c l ih =>
      have hc := scanset_exact_partial (inv := inv) (c := c) items hp
        (fun h => hr h c (hsub c (by simp)))
      rw [List.takeWhile_cons, List.takeWhile_cons, hc, ih (fun c' h => hsub c' (by simp [h]))]
  rw [heq]
  generalize hit : (if w = 0 then s else s.take w).takeWhile (fun c => items.any (Item.has c) != inv) = item
  have hlen : item.length ≤ s.length := by
    rw [← hit]
    refine Nat.le_trans (List.takeWhile_sublist _).length_le ?_
    split
    · exact Nat.le_refl _
    · simp; omega
  by_cases h : item = []
  · rw [if_pos (by rw [h]; rfl), if_pos h, h]
    exact ⟨_, rfl, rfl⟩
  · rw [if_neg (by simpa using h), if_neg h]
    refine ⟨_, rfl, rfl, rfl, ?_⟩
    simp only [List.length_drop]
    omega

theorem findClose_spec (body x : List Nat) (h : ∀ c ∈ body, c ≠ 93) :
    findClose (body ++ 93 :: x) = some body.length := by
  induction body with
  | nil => rfl
  | cons c b ih =>
    rw [List.cons_append, findClose, if_neg (h c (by simp)), ih (fun c' h' => h c' (by simp [h']))]
    rfl

theorem setLength_spec (body x : List Nat) (hne : body ≠ []) (h : ∀ c ∈ body, c ≠ 93) :
    setLength (body ++ 93 :: x) = some body.length := by
  match body, hne with
  | c :: b, _ =>
    rw [← findClose_spec (c :: b) x h]
    unfold setLength
    split
    · next s e =>
      simp at e
      exact absurd e.1 (h c (by simp))
    · rfl

theorem set_step {isSpace : Nat → Bool} (h37 : isSpace 37 = false) (n : Nat) (sup : Bool) (w : Nat) (inv : Bool)
    (body : List Nat) (hne : body ≠ []) (h93 : ∀ c ∈ body, c ≠ 93) (h7 : ∀ c ∈ body, c < 128)
    (h94 : inv = false → body.head? ≠ some 94) (hw : sup = true → w = 0) (x : List Nat) (i : In) (count : Nat)
    (st : List Store) :
    doScanf isSpace (n + 1) (37 :: (if sup then [42] else []) ++ widthText w ++ 91 :: (if inv then [94] else []) ++
      body ++ [93] ++ x) i count st =
      (convSet inv body w i).bind (afterConv isSpace n x (!sup) count st i) := by
  have hc : isConv 91 := by unfold isConv; omega
  have e : (37 :: (if sup then [42] else []) ++ widthText w ++ 91 :: (if inv then [94] else []) ++
      body ++ [93] ++ x) = 37 :: ((if sup then [42] else []) ++ (widthText w ++ (lengthText .int ++ 91 ::
        ((if inv then [94] else []) ++ (body ++ 93 :: x))))) := by simp [lengthText]
  have hinv : (((if inv then [94] else []) ++ (body ++ 93 :: x)).head? == some 94) = inv := by
    cases inv with
    | true => rfl
    | false =>
      match body, hne with
      | c :: b, _ =>
        have := h94 rfl
        simpa using this
  have htl : (if inv = true then ((if inv then [94] else []) ++ (body ++ 93 :: x)).tail else
      ((if inv then [94] else []) ++ (body ++ 93 :: x))) = body ++ 93 :: x := by
    cases inv <;> rfl
  have htake : (body ++ 93 :: x).take body.length = body := by simp
  have hdrop : (body ++ 93 :: x).drop (body.length + 1) = x := by
    rw [← List.drop_drop]
    simp
  rw [e, doScanf.eq_def]
  simp only [h37, Bool.false_eq_true, if_false]
  generalize hy : ((if inv then [94] else []) ++ (body ++ 93 :: x)) = y at *
  have htl' : (if y.head? = some 94 then y.tail else y) = body ++ 93 :: x := by
    rw [← htl, ← hinv]
    simp
  have hex : ¬ ∃ c, c ∈ body ∧ 128 ≤ c := fun ⟨c, hc, h⟩ => by
    have := h7 c hc
    omega
  cases sup with
  | true =>
    have := hw rfl
    subst this
    have hlm : lengthMod (91 :: y) = (.int, 91 :: y) := lengthMod_spec .int hc y
    simp [widthText, lengthText, hlm]
    simp only [htl', setLength_spec body x hne h93, htake, hdrop]
    rw [if_neg hex, hinv]
    rfl
  | false =>
    obtain ⟨h, tl, h1, h2, h3, h4, h5⟩ := width_head w .int hc y
    have hwl : widthLoop (h :: tl) 0 = (w, lengthText .int ++ 91 :: y) := by
      rw [← h1]
      refine widthLoop_spec w (lengthText .int ++ 91 :: y) ?_
      intro d hd
      obtain ⟨h', tl', e1, -, -, -, -, e2⟩ := length_head .int hc y
      rw [e1] at hd
      simp at hd
      rw [← hd]
      exact e2
    simp only [Bool.false_eq_true, if_false, List.nil_append, h1]
    simp [h2, h3, h4, h5, hwl, lengthMod_spec .int hc]
    simp only [htl', setLength_spec body x hne h93, htake, hdrop]
    rw [if_neg hex, hinv]
    rfl

/-! ### Proofs: whole formats -/

/-- The result is the specified one; after a literal that does not match, the character that did not is lost. -/
def Good (ds : List Dir) (o : Outcome) (r : Result) : Prop :=
  r.ret = o.ret ∧ r.stores = o.stores ∧
    (r.left.rest = o.rest ∨ ((∃ c, .lit c ∈ ds) ∧ ∃ x, o.rest = x :: r.left.rest))

theorem eofRet_eq (n : Nat) : Scanf.eofRet n = Spec.eofRet n := by
  unfold Scanf.eofRet Spec.eofRet
  by_cases h : n = 0 <;> simp [h]

/-- How the specification goes on after a step. -/
def cont (isSpace : Nat → Bool) (total : Nat) (ds : List Dir) (sup : Bool) (n : Nat) (st : List Store) :
    Step → Outcome
  | .inputFailure => ⟨Spec.eofRet n, st, []⟩
  | .matchFailure r => ⟨n, st, r⟩
  | .done x r => if sup then run isSpace total ds r n st else run isSpace total ds r (n + 1) (st ++ [x])

/-- What a step leaves is a part of its input, and it fails for lack of input only if none is left. -/
def Step.Within (s i : List Nat) : Step → Prop
  | .inputFailure => i = []
  | .matchFailure _ => True
  | .done _ r => ∀ c ∈ r, c ∈ s

theorem int_within (isSpace : Nat → Bool) (w : Nat) (t : Ty) (cv : Conv) (s : List Nat) :
    Step.Within s (s.dropWhile isSpace) (int isSpace w t cv s) := by
  unfold int
  simp only []
  by_cases h : s.dropWhile isSpace = []
  · rw [if_pos h]
    exact h
  · rw [if_neg h]
    refine iteInduction (motive := Step.Within s _) (fun _ => trivial) fun _ => ?_
    · exact fun c hc => (List.dropWhile_sublist _).subset (List.mem_of_mem_drop hc)

theorem str_within (isSpace : Nat → Bool) (w : Nat) (s : List Nat) :
    Step.Within s (s.dropWhile isSpace) (str isSpace w s) := by
  unfold str
  simp only []
  by_cases h : s.dropWhile isSpace = []
  · rw [if_pos h]
    exact h
  · rw [if_neg h]
    exact fun c hc => (List.dropWhile_sublist _).subset (List.mem_of_mem_drop hc)

theorem chars_within (w : Nat) (s : List Nat) : Step.Within s s (chars w s) := by
  unfold chars
  by_cases h : s = []
  · rw [if_pos h]
    exact h
  · rw [if_neg h]
    exact fun c hc => List.mem_of_mem_drop hc

theorem set_within (w : Nat) (inv : Bool) (items : List Item) (s : List Nat) :
    Step.Within s s (Spec.set w inv items s) := by
  unfold Spec.set
  simp only []
  by_cases h : s = []
  · rw [if_pos h]
    exact h
  · rw [if_neg h]
    refine iteInduction (motive := Step.Within s s) (fun _ => trivial) fun _ => ?_
    · exact fun c hc => List.mem_of_mem_drop hc

theorem finish {isSpace : Nat → Bool} {total n : Nat} {ds : List Dir} {P : List Nat → Prop}
    (ih : ∀ (i : In) (count : Nat) (st : List Store), i.used + i.rest.length = total → P i.rest →
      ∃ r, doScanf isSpace n (format ds) i count st = .ok r ∧ Good ds (run isSpace total ds i.rest count st) r)
    {s : List Nat} (hP : ∀ r : List Nat, (∀ c ∈ r, c ∈ s) → P r) {i : In} {o : Out} {step : Step}
    (ha : Agrees total o step) (hw : Step.Within s i.rest step) (d : Dir) (sup : Bool) (count : Nat)
    (st : List Store) :
    ∃ r, (Res.ok o).bind (afterConv isSpace n (format ds) (!sup) count st i) = .ok r ∧
      Good (d :: ds) (cont isSpace total ds sup count st step) r := by
  have weak : ∀ {o r}, Good ds o r → Good (d :: ds) o r := by
    rintro o r ⟨h1, h2, h3⟩
    refine ⟨h1, h2, ?_⟩
    rcases h3 with h3 | ⟨⟨c, h3⟩, h4⟩
    · exact .inl h3
    · exact .inr ⟨⟨c, by simp [h3]⟩, h4⟩
  simp only [Res.bind]
  match o, step, ha, hw with
  | .eof, .inputFailure, _, hw =>
    exact ⟨_, rfl, eofRet_eq _, rfl, .inl hw⟩
  | .nomatch i', .matchFailure r, ha, _ =>
    exact ⟨_, rfl, rfl, rfl, .inl ha⟩
  | .ok i' x, .done y r, ha, hw =>
    obtain ⟨h1, h2, h3⟩ := ha
    subst h1 h2
    cases sup with
    | true =>
      obtain ⟨r, e, g⟩ := ih i' count st h3 (hP _ hw)
      exact ⟨r, e, weak g⟩
    | false =>
      obtain ⟨r, e, g⟩ := ih i' (count + 1) (st ++ [x]) h3 (hP _ hw)
      exact ⟨r, e, weak g⟩

theorem dropWhile_idem (p : Nat → Bool) (s : List Nat) : (s.dropWhile p).dropWhile p = s.dropWhile p := by
  induction s with
  | nil => rfl
  | cons c s ih =>
    by_cases h : p c = true
    · rw [List.dropWhile_cons_of_pos h, ih]
    · rw [List.dropWhile_cons_of_neg h, List.dropWhile_cons_of_neg h]

theorem text_head {isSpace : Nat → Bool} (h37 : isSpace 37 = false) {d : Dir} (hd : d.Covered isSpace)
    (hns : ∀ c, d ≠ .space c) : ∃ c tl, d.text = c :: tl ∧ isSpace c = false := by
  cases d with
  | space c => exact absurd rfl (hns c)
  | lit c => exact ⟨c, [], rfl, hd.1⟩
  | _ => exact ⟨37, _, rfl, h37⟩

theorem drop_spaces {isSpace : Nat → Bool} (h37 : isSpace 37 = false) (total : Nat) (ds : List Dir)
    (hc : ∀ d ∈ ds, d.Covered isSpace) :
    ∃ ds', (∀ d ∈ ds', d ∈ ds) ∧ ds'.length ≤ ds.length ∧ format ds' = (format ds).dropWhile isSpace ∧
      ∀ (s : List Nat) n st, run isSpace total ds (s.dropWhile isSpace) n st =
        run isSpace total ds' (s.dropWhile isSpace) n st := by
  induction ds with
  | nil => exact ⟨[], by simp, by simp, rfl, fun _ _ _ => rfl⟩
  | cons d ds ih =>
    by_cases hsp : ∃ c, d = .space c
    · obtain ⟨c, rfl⟩ := hsp
      obtain ⟨ds', h1, h2, h3, h4⟩ := ih (fun d h => hc d (by simp [h]))
      refine ⟨ds', fun d h => by simp [h1 d h], by simp; omega, ?_, ?_⟩
      · rw [h3]
        have : isSpace c = true := hc (.space c) (by simp)
        show _ = (c :: format ds).dropWhile isSpace
        rw [List.dropWhile_cons_of_pos this]
      · intro s n st
        rw [run, dropWhile_idem]
        exact h4 s n st
    · refine ⟨d :: ds, by simp, by simp, ?_, fun _ _ _ => rfl⟩
      obtain ⟨c, tl, e, h⟩ := text_head h37 (hc d (by simp)) (fun c e => hsp ⟨c, e⟩)
      show _ = (d.text ++ format ds).dropWhile isSpace
      rw [e, List.cons_append, List.dropWhile_cons_of_neg (by simp [h])]
      show d.text ++ format ds = _
      rw [e]
      rfl

/-- What is asked of the text that is left. -/
def TextOk (ds : List Dir) (s : List Nat) : Prop :=
  (∀ c ∈ s, c ≠ 0) ∧ ((∃ d ∈ ds, d.textual) → ∀ c ∈ s, c < 128) ∧ ((∃ d ∈ ds, d.ranged) → ∀ c ∈ s, c ≠ 45)

theorem TextOk.sub {ds ds' : List Dir} {s s' : List Nat} (h : TextOk ds s) (hd : ∀ d ∈ ds', d ∈ ds)
    (hs : ∀ c ∈ s', c ∈ s) : TextOk ds' s' :=
  ⟨fun c hc => h.1 c (hs c hc), fun ⟨d, hm, ht⟩ c hc => h.2.1 ⟨d, hd d hm, ht⟩ c (hs c hc),
    fun ⟨d, hm, ht⟩ c hc => h.2.2 ⟨d, hd d hm, ht⟩ c (hs c hc)⟩

theorem items_plain {items : List Item} (hp : ∀ i ∈ items, i.Plain) :
    ∀ c ∈ items.flatMap Item.text, c < 128 ∧ c ≠ 93 := by
  intro c hc
  obtain ⟨it, h1, h2⟩ := List.mem_flatMap.1 hc
  have := hp it h1
  cases it with
  | one d =>
    simp [Item.text] at h2
    subst h2
    exact ⟨this.2.1, this.2.2.2⟩
  | range lo hi =>
    obtain ⟨a, b, -⟩ := this
    simp [Item.text] at h2
    rcases h2 with rfl | rfl | rfl
    · exact ⟨a.2.1, a.2.2.2⟩
    · omega
    · exact ⟨b.2.1, b.2.2.2⟩

theorem doScanf_good {isSpace : Nat → Bool} (h37 : isSpace 37 = false) (total : Nat) :
    ∀ (n : Nat) (ds : List Dir), (∀ d ∈ ds, d.Covered isSpace) → (format ds).length < n →
    ∀ (i : In) (count : Nat) (st : List Store), i.used + i.rest.length = total → TextOk ds i.rest →
    ∃ r, doScanf isSpace n (format ds) i count st = .ok r ∧ Good ds (run isSpace total ds i.rest count st) r := by
  intro n
  induction n with
  | zero => intro ds _ h; omega
  | succ n ih =>
    intro ds hcov hn i count st hu hok
    match ds with
    | [] => exact ⟨_, rfl, rfl, rfl, .inl rfl⟩
    | d :: ds =>
      have hcov' : ∀ d ∈ ds, d.Covered isSpace := fun d h => hcov d (by simp [h])
      have hform : format (d :: ds) = d.text ++ format ds := rfl
      have hcd := hcov d (by simp)
      have hP : ∀ r : List Nat, (∀ c ∈ r, c ∈ i.rest) → TextOk ds r := fun r hr => hok.sub (by simp +contextual) hr
      have hlen : (format ds).length < n := by
        rw [hform, List.length_append] at hn
        have : 0 < d.text.length := by cases d <;> simp [Dir.text] <;> omega
        omega
      have ih' := ih ds hcov' hlen
      have h0 := hok.1
      obtain ⟨k, hk1, hk2⟩ := skipSpace_spec isSpace i.rest i.used
      have hsub : ∀ c ∈ i.rest.dropWhile isSpace, c ∈ i.rest := fun c h => (List.dropWhile_sublist _).subset h
      have hus : (i.used + k) + (i.rest.dropWhile isSpace).length = total := by omega
      rw [hform]
      cases d with
      | space c =>
        have hc : isSpace c = true := hcd
        obtain ⟨ds', g1, g2, g3, g4⟩ := drop_spaces h37 total ds hcov'
        have hl' : (format ds').length < n := by
          rw [g3]
          exact Nat.lt_of_le_of_lt (List.dropWhile_sublist _).length_le hlen
        obtain ⟨r, e, g⟩ := ih ds' (fun d h => hcov' d (g1 d h)) hl' (skipSpace isSpace i.rest i.used) count st
          (by rw [hk1]; exact hus) (by rw [hk1]; exact hok.sub (fun d h => by simp [g1 d h]) hsub)
        refine ⟨r, ?_, ?_⟩
        · rw [Dir.text, List.singleton_append, doScanf, if_pos hc, ← g3]
          exact e
        · rw [run]
          rw [hk1] at g
          rw [g4]
          obtain ⟨a, b, c⟩ := g
          refine ⟨a, b, ?_⟩
          rcases c with c | ⟨⟨l, c⟩, e⟩
          · exact .inl c
          · exact .inr ⟨⟨l, by simp [g1 _ c]⟩, e⟩
      | lit c =>
        obtain ⟨hc1, hc2, hc3⟩ := hcd
        rw [Dir.text, List.singleton_append, doScanf, if_neg (by simp [hc1]), if_pos (.inl hc2)]
        simp only [if_neg hc2]
        obtain ⟨rest, used⟩ := i
        match rest, h0, hu, hP, hk1 with
        | [], _, _, _, _ => exact ⟨_, rfl, eofRet_eq _, rfl, .inl rfl⟩
        | x :: s, h0, hu, hP, _ =>
          have hx : (⟨x :: s, used⟩ : In).look ≠ 0 := h0 x (by simp)
          rw [if_neg hx]
          simp only [run]
          by_cases hxc : x = c
          · subst hxc
            rw [if_neg (by simp [In.look]), if_pos rfl]
            simp only [List.length_cons] at hu
            obtain ⟨r, e, a, b, g⟩ := ih' ⟨s, used + 1⟩ count st (by simp only; omega)
              (hP s (fun c h => by simp [h]))
            refine ⟨r, e, a, b, ?_⟩
            rcases g with g | ⟨⟨l, g⟩, e⟩
            · exact .inl g
            · exact .inr ⟨⟨l, by simp [g]⟩, e⟩
          · rw [if_pos (by simpa [In.look] using hxc), if_neg hxc]
            exact ⟨_, rfl, rfl, rfl, .inr ⟨⟨c, by simp⟩, x, rfl⟩⟩
      | count t =>
        rw [Dir.text, count_step h37]
        have hused : i.used = total - i.rest.length := by omega
        obtain ⟨r, e, a, b, g⟩ := ih' i count (st ++ [storeInt t i.used]) hu (hP _ (fun c h => h))
        refine ⟨r, e, ?_⟩
        rw [run]
        unfold storeInt at a b g
        rw [hused] at a b g
        refine ⟨a, b, ?_⟩
        rcases g with g | ⟨⟨l, g⟩, e⟩
        · exact .inl g
        · exact .inr ⟨⟨l, by simp [g]⟩, e⟩
      | int sup w t cv =>
        have hcv : isConv cv.text := by unfold isConv; cases cv <;> simp [Conv.text]
        have hcv1 : cv.text ≠ 110 ∧ cv.text ≠ 91 ∧ cv.text ≠ 99 := by cases cv <;> decide
        have hw : sup = true → w = 0 := by
          intro h
          rcases hcd with h' | ⟨h', -⟩
          · exact h'
          · rw [h] at h'; cases h'
        rw [Dir.text, dir_step h37 n sup w t hcv hcv1.1 hcv1.2.1 hw]
        simp only [if_pos hcv1.2.2, hk1]
        have hfin : ∃ o, convert isSpace t w cv.text ⟨i.rest.dropWhile isSpace, i.used + k⟩ = .ok o ∧
            Agrees total o (int isSpace w t cv i.rest) := by
          by_cases hne : i.rest.dropWhile isSpace = []
          · refine ⟨.eof, ?_, ?_⟩
            · rw [hne]
              cases cv <;> rfl
            · unfold int
              simp only [if_pos hne]
              trivial
          · have h0' : ∀ c ∈ i.rest.dropWhile isSpace, c ≠ 0 := fun c h => h0 c (hsub c h)
            cases cv with
            | d =>
              have hw0 : w = 0 := by rcases hcd with h | ⟨-, h | h⟩ <;> first | exact h | cases h
              subst hw0
              exact ⟨_, rfl, convD_agrees rfl hne h0' _ _ hus (.inl rfl)⟩
            | u =>
              have hw0 : w = 0 := by rcases hcd with h | ⟨-, h | h⟩ <;> first | exact h | cases h
              subst hw0
              exact ⟨_, rfl, convD_agrees rfl hne h0' _ _ hus (.inr rfl)⟩
            | i =>
              have hw0 : w = 0 := by rcases hcd with h | ⟨-, h | h⟩ <;> first | exact h | cases h
              subst hw0
              exact ⟨_, rfl, convI_agrees rfl hne h0' _ _ hus⟩
            | o =>
              have hw0 : w = 0 := by rcases hcd with h | ⟨-, h | h⟩ <;> first | exact h | cases h
              subst hw0
              exact ⟨_, rfl, convO_agrees rfl hne h0' _ _ hus⟩
            | x => exact ⟨_, rfl, convX_agrees rfl hne h0' _ _ hus (.inl rfl) w⟩
            | X => exact ⟨_, rfl, convX_agrees rfl hne h0' _ _ hus (.inr rfl) w⟩
        obtain ⟨o, ho, ha⟩ := hfin
        rw [ho]
        have hrun : run isSpace total (.int sup w t cv :: ds) i.rest count st =
            cont isSpace total ds sup count st (int isSpace w t cv i.rest) := by
          rw [run]
          cases int isSpace w t cv i.rest <;> rfl
        rw [hrun]
        exact finish ih' hP ha (int_within isSpace w t cv i.rest) _ sup count st
      | str sup w =>
        have hcv : isConv 115 := by unfold isConv; omega
        have hw : sup = true → w = 0 := by
          intro h
          rcases hcd with h' | h'
          · exact h'
          · rw [h] at h'; cases h'
        have := dir_step h37 n sup w .int hcv (by omega) (by omega) hw (format ds) i count st
        simp only [lengthText, List.append_nil] at this
        rw [Dir.text, this]
        simp only [if_pos (show (115 : Nat) ≠ 99 by omega), hk1]
        have hfin : ∃ o, convert isSpace .int w 115 ⟨i.rest.dropWhile isSpace, i.used + k⟩ = .ok o ∧
            Agrees total o (str isSpace w i.rest) := by
          by_cases hne : i.rest.dropWhile isSpace = []
          · refine ⟨.eof, ?_, ?_⟩
            · rw [hne]
              rfl
            · unfold str
              simp only [if_pos hne]
              trivial
          · exact convS_agrees rfl hne (fun c h => h0 c (hsub c h))
              (fun c h => hok.2.1 ⟨.str sup w, by simp, trivial⟩ c (hsub c h)) _ _ hus w
        obtain ⟨o, ho, ha⟩ := hfin
        rw [ho]
        have hrun : run isSpace total (.str sup w :: ds) i.rest count st =
            cont isSpace total ds sup count st (str isSpace w i.rest) := by
          rw [run]
          cases str isSpace w i.rest <;> rfl
        rw [hrun]
        exact finish ih' hP ha (str_within isSpace w i.rest) _ sup count st
      | chars sup w =>
        have hcv : isConv 99 := by unfold isConv; omega
        have hw : sup = true → w = 0 := by
          intro h
          rcases hcd with h' | h'
          · exact h'
          · rw [h] at h'; cases h'
        have := dir_step h37 n sup w .int hcv (by omega) (by omega) hw (format ds) i count st
        simp only [lengthText, List.append_nil] at this
        rw [Dir.text, this]
        simp only [ne_eq, not_true_eq_false, if_false]
        have hfin : ∃ o, convert isSpace .int w 99 i = .ok o ∧ Agrees total o (chars w i.rest) := by
          by_cases hne : i.rest = []
          · refine ⟨.eof, ?_, ?_⟩
            · obtain ⟨rest, used⟩ := i
              simp only at hne
              subst hne
              rfl
            · unfold chars
              rw [if_pos hne]
              trivial
          · exact convC_agrees hne h0 (hok.2.1 ⟨.chars sup w, by simp, trivial⟩) i.used total hu w
        obtain ⟨o, ho, ha⟩ := hfin
        rw [ho]
        have hrun : run isSpace total (.chars sup w :: ds) i.rest count st =
            cont isSpace total ds sup count st (chars w i.rest) := by
          rw [run]
          cases chars w i.rest <;> rfl
        rw [hrun]
        exact finish ih' hP ha (chars_within w i.rest) _ sup count st
      | set sup w inv items =>
        obtain ⟨hcw, hne, hp, h94⟩ := hcd
        have hw : sup = true → w = 0 := by
          intro h
          rcases hcw with h' | h'
          · exact h'
          · rw [h] at h'; cases h'
        have hbody : items.flatMap Item.text ≠ [] ∧
            (inv = false → (items.flatMap Item.text).head? ≠ some 94) := by
          match items, hne, h94 with
          | .one c :: r, _, h94 =>
            refine ⟨by simp [Item.text], fun h => ?_⟩
            have := (h94 h).1
            simpa [Item.text] using this
          | .range lo hi :: r, _, h94 =>
            refine ⟨by simp [Item.text], fun h => ?_⟩
            have := (h94 h).2 hi
            simpa [Item.text] using this
        have := set_step h37 n sup w inv _ hbody.1 (fun c h => (items_plain hp c h).2)
          (fun c h => (items_plain hp c h).1) hbody.2 hw (format ds) i count st
        rw [Dir.text, this]
        have hfin : ∃ o, convSet inv (items.flatMap Item.text) w i = .ok o ∧
            Agrees total o (Spec.set w inv items i.rest) := by
          by_cases hne : i.rest = []
          · refine ⟨.eof, ?_, ?_⟩
            · obtain ⟨rest, used⟩ := i
              simp only at hne
              subst hne
              rfl
            · unfold Spec.set
              rw [if_pos hne]
              trivial
          · exact convSet_agrees hp hne h0 (hok.2.1 ⟨.set sup w inv items, by simp, trivial⟩)
              (fun h => hok.2.2 ⟨.set sup w inv items, by simp, h⟩) i.used total hu w inv
        obtain ⟨o, ho, ha⟩ := hfin
        rw [ho]
        have hrun : run isSpace total (.set sup w inv items :: ds) i.rest count st =
            cont isSpace total ds sup count st (Spec.set w inv items i.rest) := by
          rw [run]
          cases Spec.set w inv items i.rest <;> rfl
        rw [hrun]
        exact finish ih' hP ha (set_within w inv items i.rest) _ sup count st

/-! ### C65 -/

/-- Reading any text with any of the covered formats never runs into undefined behaviour or an abort, stores
exactly the specified values in order and returns the specified number. The text that is left is the specified
one, or — if the format has literal characters — it can be short of the one character that did not match. -/
theorem scanf_partial {isSpace : Nat → Bool} (h37 : isSpace 37 = false) (ds : List Dir)
    (hc : ∀ d ∈ ds, d.Covered isSpace) (text : List Nat) (h0 : ∀ c ∈ text, c ≠ 0)
    (h7 : (∃ d ∈ ds, d.textual) → ∀ c ∈ text, c < 128) (h45 : (∃ d ∈ ds, d.ranged) → ∀ c ∈ text, c ≠ 45) :
    ∃ r, scanf isSpace (format ds) text = .ok r ∧ r.ret = (scan isSpace ds text).ret ∧
      r.stores = (scan isSpace ds text).stores ∧
      (r.left.rest = (scan isSpace ds text).rest ∨
        (∃ c, Dir.lit c ∈ ds) ∧ ∃ x, (scan isSpace ds text).rest = x :: r.left.rest) := by
  obtain ⟨r, e, g⟩ := doScanf_good h37 text.length _ ds hc (Nat.lt_succ_self _) ⟨text, 0⟩ 0 []
    (by simp) ⟨h0, h7, h45⟩
  exact ⟨r, e, g⟩

/-- The characters that isspace accepts in the C locale. -/
def cSpace (c : Nat) : Bool := c == 32 || (9 ≤ c && c ≤ 13)

/-- `"%hd, %*s %4x%n %[^a-f:]"` reads `" -70000, word 0x1234 tail"`; all hypotheses hold. -/
example : ∃ r, scanf cSpace
    (format [.int false 0 .short .d, .lit 44, .space 32, .str true 0, .space 32, .int false 4 .int .x, .count .int,
      .space 32, .set false 0 true [.one 113, .range 120 122, .one 58]])
    [32, 43, 55, 48, 48, 48, 48, 44, 32, 119, 111, 114, 100, 32, 48, 120, 49, 50, 51, 52, 32, 116, 97, 105, 108]
      = .ok r ∧ r.ret = 3 := by
  refine (scanf_partial (by decide) _ ?_ _ (by decide) (fun _ => by decide) (fun _ => by decide)).imp fun r h =>
    ⟨h.1, h.2.1.trans (by decide +kernel)⟩
  intro d hd
  simp only [List.mem_cons, List.not_mem_nil, or_false] at hd
  rcases hd with rfl | rfl | rfl | rfl | rfl | rfl | rfl | rfl | rfl
  · exact .inl rfl
  · exact ⟨rfl, by decide, by decide⟩
  · rfl
  · exact .inl rfl
  · rfl
  · exact .inr ⟨rfl, .inl rfl⟩
  · trivial
  · rfl
  · refine ⟨.inl rfl, by simp, ?_, by simp⟩
    simp [Item.Plain, plain]

example : (scan cSpace
    [.int false 0 .short .d, .lit 44, .space 32, .str true 0, .space 32, .int false 4 .int .x, .count .int,
      .space 32, .set false 0 true [.one 113, .range 120 122, .one 58]]
    [32, 45, 55, 48, 48, 48, 48, 44, 32, 119, 111, 114, 100, 32, 48, 120, 49, 50, 51, 52, 32, 116, 97, 105, 108]) =
    ⟨3, [.int 16 61072, .int 32 18, .int 32 18, .str [51, 52, 32, 116, 97, 105, 108, 0]], []⟩ := by
  decide +kernel

/-! ### Where the code differs -/

/-- `%2d` of `123` stores 123 and leaves nothing; only `%x`, `%s`, `%c` and `%[` look at the width. -/
theorem width_violated : scanf cSpace (format [.int false 2 .int .d]) [49, 50, 51] = .ok ⟨1, [.int 32 123], ⟨[], 3⟩⟩ ∧
    scan cSpace [.int false 2 .int .d] [49, 50, 51] = ⟨1, [.int 32 12], [51]⟩ := by
  constructor <;> decide +kernel

/-- After `*` a width is not parsed: `%*2x%x` reads no number. -/
theorem suppress_width_violated :
    scanf cSpace (format [.int true 2 .int .x, .int false 0 .int .x]) [49, 50, 51] = .ok ⟨0, [], ⟨[50, 51], 1⟩⟩ ∧
    scan cSpace [.int true 2 .int .x, .int false 0 .int .x] [49, 50, 51] = ⟨1, [.int 32 3], []⟩ := by
  constructor <;> decide +kernel

/-- A character that does not match a literal is consumed. -/
theorem literal_violated :
    scanf cSpace (format [.lit 97]) [98, 99] = .ok ⟨0, [], ⟨[99], 1⟩⟩ ∧
    scan cSpace [.lit 97] [98, 99] = ⟨0, [], [98, 99]⟩ := by
  constructor <;> decide +kernel

/-- `%[a-z]` accepts `-`. -/
theorem scanset_hyphen_violated :
    scanf cSpace (format [.set false 0 false [.range 97 122]]) [97, 45, 98] =
      .ok ⟨1, [.str [97, 45, 98, 0]], ⟨[], 3⟩⟩ ∧
    scan cSpace [.set false 0 false [.range 97 122]] [97, 45, 98] = ⟨1, [.str [97, 0]], [45, 98]⟩ := by
  constructor <;> decide +kernel

/-- `%s` and `%c` of a character above 127 abort. -/
theorem high_byte_violated : scanf cSpace (format [.str false 0]) [195, 169] = .panic ∧
    scanf cSpace (format [.chars false 0]) [195] = .panic ∧
    scan cSpace [.str false 0] [195, 169] = ⟨1, [.str [195, 169, 0]], []⟩ := by
  refine ⟨?_, ?_, ?_⟩ <;> decide +kernel

/-- `%p` and `%b` of `0` are matching failures. -/
theorem zero_violated : scanf cSpace [37, 112] [48] = .ok ⟨0, [], ⟨[], 1⟩⟩ ∧
    scanf cSpace [37, 98] [48] = .ok ⟨0, [], ⟨[], 1⟩⟩ := by
  constructor <;> decide +kernel

/-- `%%` does not skip white space. -/
theorem percent_violated : scanf cSpace [37, 37] [32, 37] = .ok ⟨0, [], ⟨[37], 1⟩⟩ := by decide +kernel

end Mlibc.Scanf
