import Verif.Base

/-!
C116: `strfmon`.

Characters are numbers and strings lists without their terminators (`stripNullTerminator` is left out).
The format is a list; its end is the terminating zero. `print_float` and `grouping_extra_characters` belong to
a library that is not part of the repository: an amount brings along the pieces of text that the former
passes to the sink, and the number of characters the latter computes. `print_float` ignores that the sink is
full.
-/

namespace Mlibc.Strfmon

/-! ### Specification -/

/-- How a locale writes amounts of one sign in one of the two formats (`n_cs_precedes`, `n_sep_by_space`,
`n_sign_posn` and the like). -/
structure Style where
  precedes : Nat
  sepBySpace : Nat
  signPosn : Nat
  deriving DecidableEq, Repr

/-- The monetary part of a locale; 255 stands for "not available". -/
structure Money where
  posSign : List Nat
  negSign : List Nat
  decimalPoint : List Nat
  currency : List Nat
  intCurrency : List Nat
  frac : Nat
  intFrac : Nat
  pos : Style
  neg : Style
  intPos : Style
  intNeg : Style

/-- An argument: its sign, the integral part of its absolute value, and how the absolute value is printed with a
number of decimals, with or without grouping. -/
structure Amount where
  negative : Bool
  integral : Nat
  /-- the number of characters that grouping adds -/
  extra : Nat
  /-- the same for a number with at least so many digits -/
  extraFor : Nat → Nat
  pieces : Nat → Bool → List (List Nat)

def Amount.text (x : Amount) (prec : Nat) (group : Bool) : List Nat := (x.pieces prec group).flatten

inductive Flag where
  | left | plus | paren | noGroup | noCurrency
  | fill (c : Nat)
  deriving DecidableEq, Repr

/-- A conversion specification: `%`, flags, width, left and right precision, and `i` or `n`. Numbers are lists
of decimal digits. -/
structure Conv where
  flags : List Flag
  width : Option (List Nat)
  left : Option (List Nat)
  right : Option (List Nat)
  int : Bool

def Flag.char : Flag → List Nat
  | .left => [45]
  | .plus => [43]
  | .paren => [40]
  | .noGroup => [94]
  | .noCurrency => [33]
  | .fill c => [61, c]

def digitChars (l : List Nat) : List Nat := l.map (48 + ·)

/-- The text of a conversion specification. -/
def Conv.text (c : Conv) : List Nat :=
  [37] ++ c.flags.flatMap Flag.char ++ (match c.width with | none => [] | some w => digitChars w) ++
    (match c.left with | none => [] | some w => 35 :: digitChars w) ++
    (match c.right with | none => [] | some w => 46 :: digitChars w) ++ [if c.int then 105 else 110]

/-- The specification is one of the grammar: fill characters are not the end of the string, widths have a
digit. -/
def Conv.Ok (c : Conv) : Prop :=
  (∀ f ∈ c.flags, f ≠ .fill 0) ∧ (∀ w, c.width = some w → w ≠ [] ∧ ∀ d ∈ w, d < 10) ∧
    (∀ w, c.left = some w → ∀ d ∈ w, d < 10) ∧ (∀ w, c.right = some w → ∀ d ∈ w, d < 10)

/-- The number that digits stand for. -/
def number (l : List Nat) : Nat := l.foldl (fun n d => n * 10 + d) 0

/-- The style of the locale for the amount. -/
def Money.style (m : Money) (int negative : Bool) : Style :=
  match int, negative with
  | false, false => m.pos
  | false, true => m.neg
  | true, false => m.intPos
  | true, true => m.intNeg

/-- The currency symbol; the international one has three letters and a separator. -/
def Money.symbol (m : Money) (int : Bool) : List Nat := if int then m.intCurrency.take 3 else m.currency

/-- The character between the symbol and the amount. -/
def Money.space (m : Money) (int : Bool) : Nat := if int then m.intCurrency.getD 3 32 else 32

/-- The number of decimals: the right precision, else what the locale says, else two. -/
def Money.decimals (m : Money) (c : Conv) : Nat :=
  match c.right with
  | some w => number w
  | none => let f := if c.int then m.intFrac else m.frac; if f = 255 then 2 else f

/-- An amount with its sign and currency symbol, where no left precision is given and `sep_by_space` is 0 or
1: the sign stands before or after everything, or directly before or after the symbol; a style may use
parentheses instead, unless signs are asked for. -/
def Money.layout (m : Money) (c : Conv) (x : Amount) : List Nat :=
  let s := m.style c.int x.negative
  let sign := if x.negative then m.negSign else m.posSign
  let num := x.text (m.decimals c) (.noGroup ∉ c.flags)
  let paren := .paren ∈ c.flags ∨ (s.signPosn = 0 ∧ .plus ∉ c.flags)
  -- the place of the sign
  let posn := if paren then 0 else if s.signPosn = 0 then 1 else s.signPosn
  let cur := (if posn = 3 then sign else []) ++ m.symbol c.int ++ (if posn = 4 then sign else [])
  let sep := if s.sepBySpace = 0 then [] else [m.space c.int]
  let body := if .noCurrency ∈ c.flags then
      (if posn = 3 ∨ posn = 4 then sign else []) ++ num
    else if s.precedes = 1 then cur ++ sep ++ num else num ++ sep ++ cur
  (if posn = 0 ∧ x.negative then [40] else []) ++ (if posn = 1 then sign else []) ++ body ++
    (if posn = 2 then sign else []) ++ (if posn = 0 ∧ x.negative then [41] else [])

/-- Padding to the width with spaces: on the left, or on the right with the flag `-`. -/
def padded (c : Conv) (t : List Nat) : List Nat :=
  match c.width with
  | none => t
  | some w =>
    let sp := List.replicate (number w - t.length) 32
    if .left ∈ c.flags then t ++ sp else sp ++ t

/-- The text of the amount has the digits of the integral part, the grouping characters, and the decimals
behind the decimal point. -/
def Amount.Faithful (x : Amount) (point : List Nat) : Prop :=
  ∃ k, 1 ≤ k ∧ x.integral < 10 ^ k ∧ (k = 1 ∨ 10 ^ (k - 1) ≤ x.integral) ∧
    ∀ d g, (x.text d g).length = k + (if g then x.extra else 0) + (if d = 0 then 0 else d + point.length)

/-- The part of the specification that the code meets; each of the clauses is needed. -/
structure Usual (m : Money) (c : Conv) (x : Amount) : Prop where
  ok : c.Ok
  left : c.left = none
  /-- the locale treats amounts of both signs in the same way -/
  style : m.style c.int x.negative = m.style c.int false
  sep : (m.style c.int false).sepBySpace ≤ 1
  posn : (m.style c.int false).signPosn ≤ 4
  plain : m.posSign = [] ∨ .plus ∈ c.flags
  signs : .plus ∈ c.flags → m.negSign ≠ []
  modes : .plus ∈ c.flags → .paren ∉ c.flags
  symbol : if c.int then 4 ≤ m.intCurrency.length else m.currency ≠ []
  suppress : .noCurrency ∈ c.flags → (m.style c.int false).signPosn ≤ 2 ∨ .paren ∈ c.flags
  fill : ∀ f, .fill f ∈ c.flags → c.width = none ∨ f = 32
  small : c.width ≠ none → x.integral < 2 ^ 32
  range : x.integral < 2 ^ 64
  right : m.decimals c < 255
  frac : m.frac < 256 ∧ m.intFrac < 256

/-! ### The code -/

/-- What `strfmon` gives: the length and the contents of the buffer, or -1 with `errno`. -/
inductive Out where
  | ok (len : Nat) (buf : List Nat)
  | e2big
  | einval
  deriving DecidableEq, Repr

/-- The buffer and `usedsize`. options/posix/generic/monetary.cpp L14-19 -/
structure Sink where
  buf : List Nat
  used : Nat
  deriving DecidableEq, Repr

/-- Storing characters in the buffer. -/
def store (buf : List Nat) (i : Nat) (s : List Nat) : Res (List Nat) :=
  if i + s.length ≤ buf.length then .ok (buf.take i ++ s ++ buf.drop (i + s.length)) else .ub

/-- `append`; the function for one character has the same test as the one for strings; `none`: no room.
options/posix/generic/monetary.cpp L21-42 -/
def append (maxsize : Nat) (k : Sink) (s : List Nat) : Res (Option Sink) :=
  if k.used + s.length + 1 ≥ maxsize then .ok none
  else (store k.buf k.used s).bind fun b => .ok (some ⟨b, k.used + s.length⟩)

/-- `EMIT` for each of some strings. options/posix/generic/monetary.cpp L12 -/
def emit (maxsize : Nat) : List (List Nat) → Sink → Res (Option Sink)
  | [], k => .ok (some k)
  | s :: r, k => (append maxsize k s).bind fun
    | none => .ok none
    | some k' => emit maxsize r k'

/-- What `print_float` does with the sink. options/posix/generic/monetary.cpp L376-389 -/
def printAll (maxsize : Nat) : List (List Nat) → Sink → Res Sink
  | [], k => .ok k
  | s :: r, k => (append maxsize k s).bind fun
    | none => printAll maxsize r k
    | some k' => printAll maxsize r k'

inductive Mode where
  | normal | force | paren
  deriving DecidableEq, Repr

/-- The variables that the flags set. options/posix/generic/monetary.cpp L92-106 -/
structure Opts where
  group : Bool := true
  suppress : Bool := false
  leftJustify : Bool := false
  padding : Nat := 32
  mode : Mode := .normal
  deriving DecidableEq, Repr

/-- The loop over the flags; `none`: EINVAL. After every flag the format must go on.
options/posix/generic/monetary.cpp L109-144 -/
def flags (m : Money) : List Nat → Opts → Res (Option (Opts × List Nat))
  | [], o => .ok (some (o, []))
  | c :: r, o =>
    if c = 45 then (ensure (r ≠ [])).bind fun _ => flags m r { o with leftJustify := true }
    else if c = 43 then
      if m.posSign = [] ∧ m.negSign = [] then .ok none
      else (ensure (r ≠ [])).bind fun _ => flags m r { o with mode := .force }
    else if c = 40 then (ensure (r ≠ [])).bind fun _ => flags m r { o with mode := .paren }
    else if c = 94 then (ensure (r ≠ [])).bind fun _ => flags m r { o with group := false }
    else if c = 33 then (ensure (r ≠ [])).bind fun _ => flags m r { o with suppress := true }
    else if c = 61 then
      match r with
      | [] => .panic
      | p :: r' => (ensure (r' ≠ [])).bind fun _ => flags m r' { o with padding := p }
    else .ok (some (o, c :: r))

/-- A number; the format must go on behind it. options/posix/generic/monetary.cpp L148-153, L165-169, L177-181 -/
def digits : List Nat → Nat → Res (Nat × List Nat)
  | [], _ => .panic
  | c :: r, w => if 48 ≤ c ∧ c ≤ 57 then digits r (w * 10 + (c - 48)) else .ok (w, c :: r)

/-- `isdigit_l` gives the same as the comparison. options/posix/generic/monetary.cpp L147-155 -/
def fieldWidth (s : List Nat) : Res (Option Nat × List Nat) :=
  match s with
  | c :: _ => if 48 ≤ c ∧ c ≤ 57 then (digits s 0).bind fun (w, r) => .ok (some w, r) else .ok (none, s)
  | [] => .ok (none, [])

/-- A precision that starts with `mark`. options/posix/generic/monetary.cpp L161-183 -/
def precision (mark : Nat) (s : List Nat) : Res (Option Nat × List Nat) :=
  match s with
  | c :: r => if c = mark then (digits r 0).bind fun (w, r) => .ok (some w, r) else .ok (none, s)
  | [] => .ok (none, [])

/-- The loop of `textLength`; the first number bounds the iterations. options/posix/generic/monetary.cpp L258-261 -/
def decLen : Nat → Nat → Nat
  | 0, _ => 1
  | f + 1, n => if n / 10 = 0 then 1 else decLen f (n / 10) + 1

/-- The lambda `textLength`: the argument has type `int` and is divided as `unsigned`.
options/posix/generic/monetary.cpp L256-263 -/
def textLength (n : Nat) : Nat := decLen (n % 2 ^ 32) (n % 2 ^ 32)

/-- A conversion, as the code has parsed it. -/
structure Parsed where
  o : Opts
  width : Option Nat
  left : Option Nat
  right : Option Nat
  int : Bool

/-- The parser of a conversion, behind the `%`; `none`: EINVAL. options/posix/generic/monetary.cpp L86-194 -/
def parseConv (m : Money) (s : List Nat) : Res (Option (Parsed × List Nat)) :=
  (flags m s {}).bind fun
  | none => .ok none
  | some (o, s) =>
    (fieldWidth s).bind fun (width, s) =>
    let o := if width = none then { o with leftJustify := false } else o
    (precision 35 s).bind fun (left, s) =>
    (precision 46 s).bind fun (right, s) =>
    match s with
    | c :: r =>
      if c = 105 then .ok (some (⟨o, width, left, right, true⟩, r))
      else if c = 110 then .ok (some (⟨o, width, left, right, false⟩, r))
      else .ok none
    | [] => .ok none

/-- The sign at one of its places: `pos_sign`, a space or `neg_sign`.
options/posix/generic/monetary.cpp L322-328, L333-339, L348-354, L397-403, L412-418, L427-433 -/
def signPieces (negative : Bool) (mode : Mode) (left : Option Nat) (posSign negSign : List Nat) : List (List Nat) :=
  if negative = false ∧ mode = .force then [posSign]
  else if negative = false ∧ left ≠ none then [[32]]
  else if negative then [negSign]
  else []

/-- The variables the code computes for a conversion. After the number has been made positive its sign bit is
never set, so only the values for positive amounts are used. options/posix/generic/monetary.cpp L196-313 -/
structure Plan where
  precedes : Bool
  sep : Nat
  posn : Nat
  mode : Mode
  negSign : List Nat
  prec : Nat
  leftFill : Nat
  widthFill : Nat
  /-- `left_precision && *left_precision > int_length` -/
  doFill : Bool
  deriving DecidableEq, Repr

/-- options/posix/generic/monetary.cpp L196-313; the right precision is of type `uint8_t` -/
def plan (m : Money) (p : Parsed) (x : Amount) : Plan :=
  let prec := match p.right with
    | some w => w % 256
    | none => (if p.int then m.intFrac else m.frac) % 256
  let prec := if prec = 255 then 2 else prec
  let st := if p.int then m.intPos else m.pos
  let precedes := st.precedes = 1
  let sep := st.sepBySpace % 256
  let posn := st.signPosn % 256
  let weird := p.o.mode = .normal ∧ (posn = 127 ∨ posn = 255)
  let mode := if weird then .force else p.o.mode
  let negSign := if weird then [45] else m.negSign
  let posn := if (posn = 0 ∨ posn = 255) ∧ mode = .force then 1 else posn
  let signLength := if mode = .paren ∨ (mode = .normal ∧ posn = 0) then
      if x.negative then 2 else if p.left ≠ none then 1 else 0
    else if x.negative = false ∧ mode = .force then m.posSign.length
    else if x.negative then negSign.length
    else if p.left ≠ none then 1 else 0
  let curSize := if p.int then 3 else m.currency.length
  let currencyLength := if p.o.suppress then 0 else curSize + sep
  let extra := if p.o.group then x.extra else 0
  let intLength := textLength x.integral
  let fractional := if prec > 0 then prec + m.decimalPoint.length else 0
  let numLen := signLength + intLength + extra + fractional
  let leftFill := match p.left with
    | none => 0
    | some l => if l > intLength then l - intLength + (if p.o.group then x.extraFor l - extra else 0) else 0
  let widthFill := match p.width with
    | some w => if w > currencyLength + numLen + leftFill then w - (currencyLength + numLen + leftFill) else 0
    | none => 0
  ⟨precedes, sep, posn, mode, negSign, prec, leftFill, widthFill,
    match p.left with | some l => decide (l > intLength) | none => false⟩

/-- The currency symbol with a sign directly before or after it.
options/posix/generic/monetary.cpp L332-355, L396-419 -/
def symbolPieces (m : Money) (p : Parsed) (q : Plan) (sign : List (List Nat)) : List (List Nat) :=
  (if q.mode ≠ .paren ∧ q.posn = 3 then sign else []) ++
    [if p.int then m.intCurrency.take 3 else m.currency] ++
    (if q.mode ≠ .paren ∧ q.posn = 4 then sign else [])

/-- `sep_by_space` times a space, or the separator of the international symbol.
options/posix/generic/monetary.cpp L357-359, L392-394 -/
def sepPieces (m : Money) (p : Parsed) (q : Plan) : List (List Nat) :=
  List.replicate q.sep [if p.int then m.intCurrency.getD 3 32 else 32]

/-- What is written before the number. options/posix/generic/monetary.cpp L316-367 -/
def before (m : Money) (p : Parsed) (q : Plan) (x : Amount) : List (List Nat) :=
  let sign := signPieces x.negative q.mode p.left m.posSign q.negSign
  let size := (if p.int then m.intCurrency else m.currency).length
  (if p.o.leftJustify then [] else List.replicate q.widthFill [p.o.padding]) ++
  (if q.mode = .paren ∨ (q.mode = .normal ∧ q.posn = 0) then
      if x.negative then [[40]] else if p.left ≠ none then [[32]] else []
    else if q.posn = 1 then sign else []) ++
  (if p.o.suppress = false ∧ size ≠ 0 ∧ q.precedes then symbolPieces m p q sign ++ sepPieces m p q else []) ++
  (if q.doFill then List.replicate q.leftFill [p.o.padding] else [])

/-- What is written behind the number. options/posix/generic/monetary.cpp L391-440 -/
def after (m : Money) (p : Parsed) (q : Plan) (x : Amount) : List (List Nat) :=
  let sign := signPieces x.negative q.mode p.left m.posSign q.negSign
  let size := (if p.int then m.intCurrency else m.currency).length
  (if p.o.suppress = false ∧ size ≠ 0 ∧ q.precedes = false then sepPieces m p q ++ symbolPieces m p q sign else []) ++
  (if q.mode = .paren ∨ (q.mode = .normal ∧ q.posn = 0) then
      if x.negative then [[41]] else []
    else if q.posn = 2 then sign else []) ++
  (if p.o.leftJustify then List.replicate q.widthFill [32] else [])

/-- A conversion. The integral part is converted to 64 bits; a shorter international symbol than four
characters is read beyond its end. options/posix/generic/monetary.cpp L196-441 -/
def convert (m : Money) (maxsize : Nat) (p : Parsed) (x : Amount) (k : Sink) : Res (Option Sink) :=
  if x.integral ≥ 2 ^ 64 then .ub
  else if p.int ∧ m.intCurrency ≠ [] ∧ m.intCurrency.length < 4 then .ub
  else
    let q := plan m p x
    (emit maxsize (before m p q x) k).bind fun
    | none => .ok none
    | some k =>
      (printAll maxsize (x.pieces q.prec p.o.group) k).bind fun k =>
      emit maxsize (after m p q x) k

/-- `strfmon_internal`, the loop; the plain characters up to the next `%` are written together. The number
bounds the iterations; a missing argument is undefined. options/posix/generic/monetary.cpp L69-442 -/
def loop (m : Money) (maxsize : Nat) : Nat → List Nat → List Amount → Sink → Res Out
  | 0, _, _, _ => .ub
  | n + 1, s, xs, k =>
    match s with
    | [] =>
      (append maxsize k [0]).bind fun
      | none => .ok .e2big
      | some k => (ensure (k.used > 0)).bind fun _ => .ok (.ok (k.used - 1) k.buf)
    | c :: r =>
      if c ≠ 37 then
        let t := c :: r.takeWhile (· ≠ 37)
        (append maxsize k t).bind fun
        | none => .ok .e2big
        | some k => loop m maxsize n (r.dropWhile (· ≠ 37)) xs k
      else if r.head? = some 37 then
        (append maxsize k [37]).bind fun
        | none => .ok .e2big
        | some k => loop m maxsize n r.tail xs k
      else
        (parseConv m r).bind fun
        | none => .ok .einval
        | some (p, r) =>
          match xs with
          | [] => .ub
          | x :: xs =>
            (convert m maxsize p x k).bind fun
            | none => .ok .e2big
            | some k => loop m maxsize n r xs k

/-- `strfmon(s, maxsize, format, …)` where `s` points to `buf`. options/posix/generic/monetary.cpp L455-462 -/
def strfmon (m : Money) (buf : List Nat) (maxsize : Nat) (format : List Nat) (xs : List Amount) : Res Out :=
  loop m maxsize (format.length + 1) format xs ⟨buf, 0⟩

/-! ### Proofs: the buffer -/

theorem bok {α β : Type} (a : α) (f : α → Res β) : (Res.ok a).bind f = f a := rfl

theorem append_room {maxsize : Nat} {k : Sink} {s : List Nat} (h : k.used + s.length + 1 < maxsize)
    (hb : maxsize ≤ k.buf.length) : ∃ k', append maxsize k s = .ok (some k') ∧ k'.used = k.used + s.length ∧
      k'.buf.take k'.used = k.buf.take k.used ++ s ∧ k'.buf.length = k.buf.length ∧
      k'.buf.drop maxsize = k.buf.drop maxsize := by
  unfold append store
  rw [if_neg (by omega), if_pos (by omega), bok]
  have e : (k.buf.take k.used).length = k.used := by rw [List.length_take]; omega
  refine ⟨_, rfl, rfl, ?_, ?_, ?_⟩
  · show List.take (k.used + s.length) (k.buf.take k.used ++ s ++ k.buf.drop (k.used + s.length)) = _
    rw [List.take_left' (by rw [List.length_append, e])]
  · show (k.buf.take k.used ++ s ++ k.buf.drop (k.used + s.length)).length = _
    simp only [List.length_append, e, List.length_drop]
    omega
  · show List.drop maxsize (k.buf.take k.used ++ s ++ k.buf.drop (k.used + s.length)) = _
    rw [List.drop_append, List.drop_of_length_le (by rw [List.length_append, e]; omega), List.nil_append,
      List.drop_drop, List.length_append, e]
    congr 1
    omega

/-- What holds of the sink at all times: it stays inside the first `maxsize` characters of the buffer and leaves
the others alone. -/
structure Good (maxsize : Nat) (buf : List Nat) (k : Sink) : Prop where
  size : k.buf.length = buf.length
  rest : k.buf.drop maxsize = buf.drop maxsize
  used : k.used = 0 ∨ k.used + 1 < maxsize

theorem append_good {maxsize : Nat} {buf : List Nat} (hm : maxsize ≤ buf.length) {k : Sink}
    (hk : Good maxsize buf k) (s : List Nat) : append maxsize k s = .ok none ∨
      ∃ k', append maxsize k s = .ok (some k') ∧ Good maxsize buf k' ∧ k'.used = k.used + s.length ∧
        k'.buf.take k'.used = k.buf.take k.used ++ s := by
  by_cases h : k.used + s.length + 1 ≥ maxsize
  · left; unfold append; rw [if_pos h]
  · right
    obtain ⟨k', e, h1, h2, h3, h4⟩ := append_room (k := k) (s := s) (maxsize := maxsize) (by omega)
      (by rw [hk.size]; exact hm)
    exact ⟨k', e, ⟨h3.trans hk.size, h4.trans hk.rest, by omega⟩, h1, h2⟩

theorem emit_good {maxsize : Nat} {buf : List Nat} (hm : maxsize ≤ buf.length) (ps : List (List Nat)) :
    ∀ {k : Sink}, Good maxsize buf k → emit maxsize ps k = .ok none ∨
      ∃ k', emit maxsize ps k = .ok (some k') ∧ Good maxsize buf k' := by
  induction ps with
  | nil => intro k hk; exact .inr ⟨k, rfl, hk⟩
  | cons s r ih =>
    intro k hk
    unfold emit
    rcases append_good hm hk s with e | ⟨k', e, hk', _⟩
    · rw [e]; exact .inl rfl
    · rw [e]; exact ih hk'

theorem printAll_good {maxsize : Nat} {buf : List Nat} (hm : maxsize ≤ buf.length) (ps : List (List Nat)) :
    ∀ {k : Sink}, Good maxsize buf k → ∃ k', printAll maxsize ps k = .ok k' ∧ Good maxsize buf k' := by
  induction ps with
  | nil => intro k hk; exact ⟨k, rfl, hk⟩
  | cons s r ih =>
    intro k hk
    unfold printAll
    rcases append_good hm hk s with e | ⟨k', e, hk', _⟩
    · rw [e]; exact ih hk
    · rw [e]; exact ih hk'

theorem emit_room {maxsize : Nat} {buf : List Nat} (hm : maxsize ≤ buf.length) (ps : List (List Nat)) :
    ∀ {k : Sink}, Good maxsize buf k → k.used + ps.flatten.length + 1 < maxsize →
      ∃ k', emit maxsize ps k = .ok (some k') ∧ Good maxsize buf k' ∧ k'.used = k.used + ps.flatten.length ∧
        k'.buf.take k'.used = k.buf.take k.used ++ ps.flatten := by
  induction ps with
  | nil => intro k hk _; exact ⟨k, rfl, hk, by simp, by simp⟩
  | cons s r ih =>
    intro k hk h
    simp only [List.flatten_cons, List.length_append] at h
    unfold emit
    rcases append_good hm hk s with e | ⟨k', e, hk', h1, h2⟩
    · unfold append at e; rw [if_neg (by omega)] at e
      unfold store at e
      rw [if_pos (by rw [hk.size]; omega)] at e
      cases e
    · rw [e]
      obtain ⟨k'', e', hk'', h1', h2'⟩ := ih hk' (by omega)
      refine ⟨k'', e', hk'', ?_, ?_⟩
      · simp only [List.flatten_cons, List.length_append]; omega
      · rw [h2', h2]; simp

theorem printAll_room {maxsize : Nat} {buf : List Nat} (hm : maxsize ≤ buf.length) (ps : List (List Nat)) :
    ∀ {k : Sink}, Good maxsize buf k → k.used + ps.flatten.length + 1 < maxsize →
      ∃ k', printAll maxsize ps k = .ok k' ∧ Good maxsize buf k' ∧ k'.used = k.used + ps.flatten.length ∧
        k'.buf.take k'.used = k.buf.take k.used ++ ps.flatten := by
  induction ps with
  | nil => intro k hk _; exact ⟨k, rfl, hk, by simp, by simp⟩
  | cons s r ih =>
    intro k hk h
    simp only [List.flatten_cons, List.length_append] at h
    unfold printAll
    rcases append_good hm hk s with e | ⟨k', e, hk', h1, h2⟩
    · unfold append at e; rw [if_neg (by omega)] at e
      unfold store at e
      rw [if_pos (by rw [hk.size]; omega)] at e
      cases e
    · rw [e]
      obtain ⟨k'', e', hk'', h1', h2'⟩ := ih hk' (by omega)
      refine ⟨k'', e', hk'', ?_, ?_⟩
      · simp only [List.flatten_cons, List.length_append]; omega
      · rw [h2', h2]; simp

/-! ### Proofs: the parser goes forward -/

/-- The result of a part of the parser is not undefined, and what it leaves is the end of what it was given. -/
def Forward {α : Type} (s : List Nat) (get : α → Option (List Nat)) (x : Res α) : Prop :=
  x = .panic ∨ ∃ a, x = .ok a ∧ ∀ r, get a = some r → r <:+ s

theorem flags_forward (m : Money) : ∀ (n : Nat) (s : List Nat) (o : Opts), s.length ≤ n →
    Forward s (fun a : Option (Opts × List Nat) => a.map (·.2)) (flags m s o) := by
  intro n
  induction n with
  | zero =>
    intro s o h
    have : s = [] := List.length_eq_zero_iff.1 (by omega)
    subst this
    unfold flags
    exact .inr ⟨_, rfl, fun r h => by cases h; exact List.suffix_refl _⟩
  | succ n ih =>
    intro s o h
    cases s with
    | nil => unfold flags; exact .inr ⟨_, rfl, fun r h => by cases h; exact List.suffix_refl _⟩
    | cons c r =>
      have hr : r.length ≤ n := by simp at h; omega
      have go : ∀ (t : List Nat) (o' : Opts), t <:+ c :: r → t.length ≤ n →
          Forward (c :: r) (fun a : Option (Opts × List Nat) => a.map (·.2))
            ((ensure (t ≠ [])).bind fun _ => flags m t o') := by
        intro t o' ht hl
        by_cases e : t = []
        · subst e; exact .inl rfl
        · have : (ensure (decide (t ≠ []))) = .ok () := by simp [ensure, e]
          rw [this, bok]
          rcases ih t o' hl with h | ⟨a, ha, hs⟩
          · exact .inl h
          · exact .inr ⟨a, ha, fun r' hr' => (hs r' hr').trans ht⟩
      have hs : r <:+ c :: r := List.suffix_cons c r
      unfold flags
      by_cases h1 : c = 45
      · rw [if_pos h1]; exact go r _ hs hr
      rw [if_neg h1]
      by_cases h2 : c = 43
      · rw [if_pos h2]
        by_cases h3 : m.posSign = [] ∧ m.negSign = []
        · rw [if_pos h3]; exact .inr ⟨_, rfl, fun r h => by cases h⟩
        · rw [if_neg h3]; exact go r _ hs hr
      rw [if_neg h2]
      by_cases h3 : c = 40
      · rw [if_pos h3]; exact go r _ hs hr
      rw [if_neg h3]
      by_cases h4 : c = 94
      · rw [if_pos h4]; exact go r _ hs hr
      rw [if_neg h4]
      by_cases h5 : c = 33
      · rw [if_pos h5]; exact go r _ hs hr
      rw [if_neg h5]
      by_cases h6 : c = 61
      · rw [if_pos h6]
        cases r with
        | nil => exact .inl rfl
        | cons q r' => exact go r' _ ((List.suffix_cons q r').trans hs) (by simp at hr; omega)
      · rw [if_neg h6]
        exact .inr ⟨_, rfl, fun r' h => by cases h; exact List.suffix_refl _⟩

theorem digits_forward : ∀ (s : List Nat) (w : Nat), Forward s (fun a : Nat × List Nat => some a.2) (digits s w) := by
  intro s
  induction s with
  | nil => intro w; exact .inl rfl
  | cons c r ih =>
    intro w
    unfold digits
    split
    · rcases ih (w * 10 + (c - 48)) with h | ⟨a, ha, hs⟩
      · exact .inl h
      · exact .inr ⟨a, ha, fun r' hr' => (hs r' hr').trans (List.suffix_cons c r)⟩
    · exact .inr ⟨_, rfl, fun r' h => by cases h; exact List.suffix_refl _⟩

theorem fieldWidth_forward (s : List Nat) :
    Forward s (fun a : Option Nat × List Nat => some a.2) (fieldWidth s) := by
  unfold fieldWidth
  split
  · rename_i c r
    split
    · rcases digits_forward (c :: r) 0 with h | ⟨a, ha, hs⟩
      · rw [h]; exact .inl rfl
      · rw [ha]; exact .inr ⟨_, rfl, fun r' h => hs r' h⟩
    · exact .inr ⟨_, rfl, fun r' h => by cases h; exact List.suffix_refl _⟩
  · exact .inr ⟨_, rfl, fun r' h => by cases h; exact List.suffix_refl _⟩

theorem precision_forward (mark : Nat) (s : List Nat) :
    Forward s (fun a : Option Nat × List Nat => some a.2) (precision mark s) := by
  unfold precision
  split
  · rename_i c r
    split
    · rcases digits_forward r 0 with h | ⟨a, ha, hs⟩
      · rw [h]; exact .inl rfl
      · rw [ha]; exact .inr ⟨_, rfl, fun r' h => (hs r' h).trans (List.suffix_cons c r)⟩
    · exact .inr ⟨_, rfl, fun r' h => by cases h; exact List.suffix_refl _⟩
  · exact .inr ⟨_, rfl, fun r' h => by cases h; exact List.suffix_refl _⟩

theorem parseConv_forward (m : Money) (s : List Nat) :
    Forward s (fun a : Option (Parsed × List Nat) => a.map (·.2)) (parseConv m s) := by
  unfold parseConv
  rcases flags_forward m s.length s {} (Nat.le_refl _) with h | ⟨a, ha, hs⟩
  · rw [h]; exact .inl rfl
  rw [ha, bok]
  cases a with
  | none => exact .inr ⟨_, rfl, fun r h => by cases h⟩
  | some a =>
    obtain ⟨o, s1⟩ := a
    have hs1 : s1 <:+ s := hs s1 rfl
    simp only
    rcases fieldWidth_forward s1 with h | ⟨⟨w, s2⟩, ha, hs⟩
    · rw [h]; exact .inl rfl
    rw [ha, bok]
    have hs2 : s2 <:+ s1 := hs s2 rfl
    simp only
    rcases precision_forward 35 s2 with h | ⟨⟨l, s3⟩, ha, hs⟩
    · rw [h]; exact .inl rfl
    rw [ha, bok]
    have hs3 : s3 <:+ s2 := hs s3 rfl
    simp only
    rcases precision_forward 46 s3 with h | ⟨⟨q, s4⟩, ha, hs⟩
    · rw [h]; exact .inl rfl
    rw [ha, bok]
    have hs4 : s4 <:+ s := ((hs s4 rfl).trans hs3).trans (hs2.trans hs1)
    simp only
    cases s4 with
    | nil => exact .inr ⟨_, rfl, fun r h => by cases h⟩
    | cons c r =>
      have hr : r <:+ s := (List.suffix_cons c r).trans hs4
      by_cases h1 : c = 105
      · simp only [h1, if_true]; exact .inr ⟨_, rfl, fun r' h => by cases h; exact hr⟩
      · simp only [h1, if_false]
        by_cases h2 : c = 110
        · simp only [h2, if_true]; exact .inr ⟨_, rfl, fun r' h => by cases h; exact hr⟩
        · simp only [h2, if_false]; exact .inr ⟨_, rfl, fun r' h => by cases h⟩

/-! ### Safety -/

/-- What the caller sees after a success. -/
structure Written (maxsize : Nat) (buf : List Nat) (len : Nat) (buf' : List Nat) : Prop where
  room : len < maxsize
  size : buf'.length = buf.length
  rest : buf'.drop maxsize = buf.drop maxsize
  nul : buf'[len]? = some 0

theorem nul_of_take {l pre : List Nat} {n : Nat} (h : l.take (n + 1) = pre ++ [0]) (hp : pre.length = n) :
    l[n]? = some 0 := by
  have : (l.take (n + 1))[n]? = some 0 := by rw [h, ← hp]; simp
  rw [List.getElem?_take] at this
  split at this
  · exact this
  · cases this

theorem loop_safe (m : Money) {maxsize : Nat} {buf : List Nat} (hm : maxsize ≤ buf.length)
    (hc : m.intCurrency = [] ∨ 4 ≤ m.intCurrency.length) : ∀ (n : Nat) (s : List Nat) (xs : List Amount) (k : Sink),
    s.length < n → s.count 37 ≤ xs.length → (∀ x ∈ xs, x.integral < 2 ^ 64) → Good maxsize buf k →
    loop m maxsize n s xs k = .panic ∨ ∃ r, loop m maxsize n s xs k = .ok r ∧
      ∀ len buf', r = .ok len buf' → Written maxsize buf len buf' := by
  intro n
  induction n with
  | zero => intro s _ _ h; omega
  | succ n ih =>
    intro s xs k hn hx h64 hk
    cases s with
    | nil =>
      right
      unfold loop
      simp only
      rcases append_good hm hk [0] with e | ⟨k', e, hk', h1, h2⟩
      · rw [e]; exact ⟨_, rfl, fun _ _ h => by cases h⟩
      · rw [e, bok]
        simp only [List.length_singleton] at h1
        have : ensure (decide (k'.used > 0)) = .ok () := by simp [ensure]; omega
        simp only [this, bok]
        refine ⟨_, rfl, fun len buf' h => ?_⟩
        cases h
        have hu := hk'.used
        refine ⟨by omega, hk'.size, hk'.rest, ?_⟩
        rw [h1] at h2
        have hl : (k.buf.take k.used).length = k.used := by
          rw [List.length_take, hk.size]; have := hk.used; omega
        have := nul_of_take h2 hl
        rw [h1, Nat.add_sub_cancel]
        exact this
    | cons c r =>
      simp only [List.length_cons] at hn
      unfold loop
      simp only
      by_cases h37 : c ≠ 37
      · rw [if_pos h37]
        rcases append_good hm hk (c :: r.takeWhile (· ≠ 37)) with e | ⟨k', e, hk', _⟩
        · rw [e]; exact .inr ⟨_, rfl, fun _ _ h => by cases h⟩
        · rw [e, bok]
          have hsuf : r.dropWhile (· ≠ 37) <:+ c :: r := (List.dropWhile_suffix _).trans (List.suffix_cons c r)
          exact ih _ xs k' (by have := (List.dropWhile_suffix (l := r) (fun x => decide (x ≠ 37))).length_le; omega)
            (Nat.le_trans (hsuf.sublist.count_le 37) hx) h64 hk'
      · rw [if_neg h37]
        by_cases hh : r.head? = some 37
        · rw [if_pos hh]
          rcases append_good hm hk [37] with e | ⟨k', e, hk', _⟩
          · rw [e]; exact .inr ⟨_, rfl, fun _ _ h => by cases h⟩
          · rw [e, bok]
            have hsuf : r.tail <:+ c :: r := (List.tail_suffix r).trans (List.suffix_cons c r)
            exact ih _ xs k' (by simp only [List.length_tail]; omega)
              (Nat.le_trans (hsuf.sublist.count_le 37) hx) h64 hk'
        · rw [if_neg hh]
          rcases parseConv_forward m r with h | ⟨a, ha, hs⟩
          · rw [h]; exact .inl rfl
          rw [ha, bok]
          cases a with
          | none => exact .inr ⟨_, rfl, fun _ _ h => by cases h⟩
          | some a =>
            obtain ⟨p, r'⟩ := a
            have hsuf : r' <:+ r := hs r' rfl
            simp only
            have h37' : c = 37 := by simpa using h37
            subst h37'
            rw [List.count_cons_self] at hx
            cases xs with
            | nil => simp at hx
            | cons x xs =>
              simp only [List.length_cons] at hx
              have hcv : convert m maxsize p x k = .ok none ∨
                  ∃ k', convert m maxsize p x k = .ok (some k') ∧ Good maxsize buf k' := by
                unfold convert
                rw [if_neg (by have := h64 x (by simp); omega), if_neg (by
                  rintro ⟨_, h1, h2⟩
                  rcases hc with h | h
                  · exact h1 h
                  · omega)]
                simp only
                rcases emit_good hm (before m p (plan m p x) x) hk with e | ⟨k1, e, hk1⟩
                · rw [e]; exact .inl rfl
                · rw [e, bok]
                  obtain ⟨k2, e2, hk2⟩ := printAll_good hm (x.pieces (plan m p x).prec p.o.group) hk1
                  simp only
                  rw [e2, bok]
                  exact emit_good hm _ hk2
              simp only
              rcases hcv with e | ⟨k', e, hk'⟩
              · rw [e]; exact .inr ⟨_, rfl, fun _ _ h => by cases h⟩
              · rw [e, bok]
                exact ih r' xs k' (by have := hsuf.length_le; omega)
                  (by have := hsuf.sublist.count_le 37; omega) (fun y hy => h64 y (by simp [hy])) hk'

/-- C116. Whatever the format and the locale are: with an argument for every `%` and a buffer of `maxsize`
characters, `strfmon` writes nothing outside the buffer, and after a success the buffer contains a string of
the length it returns. -/
theorem strfmon_safe_partial (m : Money) {buf : List Nat} {maxsize : Nat} (hm : maxsize ≤ buf.length)
    (hc : m.intCurrency = [] ∨ 4 ≤ m.intCurrency.length) {format : List Nat} {xs : List Amount}
    (hx : format.count 37 ≤ xs.length) (h64 : ∀ x ∈ xs, x.integral < 2 ^ 64) :
    strfmon m buf maxsize format xs = .panic ∨ ∃ r, strfmon m buf maxsize format xs = .ok r ∧
      ∀ len buf', r = .ok len buf' → Written maxsize buf len buf' :=
  loop_safe m hm hc _ _ _ _ (by omega) hx h64 ⟨rfl, rfl, .inl rfl⟩

/-! ### Proofs: parsing a conversion -/

def Opts.apply (o : Opts) : Flag → Opts
  | .left => { o with leftJustify := true }
  | .plus => { o with mode := .force }
  | .paren => { o with mode := .paren }
  | .noGroup => { o with group := false }
  | .noCurrency => { o with suppress := true }
  | .fill c => { o with padding := c }

abbrev NotFlag (c : Nat) : Prop := c ≠ 45 ∧ c ≠ 43 ∧ c ≠ 40 ∧ c ≠ 94 ∧ c ≠ 33 ∧ c ≠ 61

theorem flags_text {m : Money} (fl : List Flag) (hs : .plus ∈ fl → m.negSign ≠ []) {c : Nat} {r : List Nat}
    (hc : NotFlag c) : ∀ o, flags m (fl.flatMap Flag.char ++ c :: r) o = .ok (some (fl.foldl Opts.apply o, c :: r)) := by
  induction fl with
  | nil =>
    intro o
    obtain ⟨h1, h2, h3, h4, h5, h6⟩ := hc
    simp only [List.flatMap_nil, List.nil_append, List.foldl_nil]
    unfold flags
    rw [if_neg h1, if_neg h2, if_neg h3, if_neg h4, if_neg h5, if_neg h6]
  | cons f fl ih =>
    intro o
    have ih := ih fun h => hs (List.mem_cons_of_mem _ h)
    have ne : ensure (decide (fl.flatMap Flag.char ++ c :: r ≠ [])) = .ok () := by simp [ensure]
    simp only [List.flatMap_cons, List.foldl_cons]
    cases f with
    | left =>
      show flags m (45 :: (fl.flatMap Flag.char ++ c :: r)) o = _
      unfold flags; rw [if_pos rfl, ne]; exact ih _
    | plus =>
      show flags m (43 :: (fl.flatMap Flag.char ++ c :: r)) o = _
      unfold flags; rw [if_neg (by decide), if_pos rfl, if_neg (fun h => hs (by simp) h.2), ne]; exact ih _
    | paren =>
      show flags m (40 :: (fl.flatMap Flag.char ++ c :: r)) o = _
      unfold flags; rw [if_neg (by decide), if_neg (by decide), if_pos rfl, ne]; exact ih _
    | noGroup =>
      show flags m (94 :: (fl.flatMap Flag.char ++ c :: r)) o = _
      unfold flags; rw [if_neg (by decide), if_neg (by decide), if_neg (by decide), if_pos rfl, ne]; exact ih _
    | noCurrency =>
      show flags m (33 :: (fl.flatMap Flag.char ++ c :: r)) o = _
      unfold flags
      rw [if_neg (by decide), if_neg (by decide), if_neg (by decide), if_neg (by decide), if_pos rfl, ne]
      exact ih _
    | fill q =>
      show flags m (61 :: q :: (fl.flatMap Flag.char ++ c :: r)) o = _
      unfold flags
      rw [if_neg (by decide), if_neg (by decide), if_neg (by decide), if_neg (by decide), if_neg (by decide),
        if_pos rfl]
      simp only
      rw [ne]
      exact ih _

theorem digits_text (w : List Nat) (hw : ∀ d ∈ w, d < 10) {c : Nat} {r : List Nat} (hc : ¬ (48 ≤ c ∧ c ≤ 57)) :
    ∀ n, digits (digitChars w ++ c :: r) n = .ok (w.foldl (fun n d => n * 10 + d) n, c :: r) := by
  induction w with
  | nil => intro n; simp only [digitChars, List.map_nil, List.nil_append, List.foldl_nil]; unfold digits; rw [if_neg hc]
  | cons d w ih =>
    intro n
    have hd := hw d (by simp)
    show digits ((48 + d) :: (digitChars w ++ c :: r)) n = _
    unfold digits
    rw [if_pos (by omega), ih (fun d hd => hw d (List.mem_cons_of_mem _ hd))]
    simp only [List.foldl_cons]
    rw [Nat.add_sub_cancel_left]

theorem fold_group (fl : List Flag) : ∀ o : Opts, (fl.foldl Opts.apply o).group = (o.group && decide (.noGroup ∉ fl)) := by
  induction fl with
  | nil => intro o; simp
  | cons f fl ih => intro o; rw [List.foldl_cons, ih]; cases f <;> simp [Opts.apply]

theorem fold_suppress (fl : List Flag) : ∀ o : Opts, (fl.foldl Opts.apply o).suppress = (o.suppress || decide (.noCurrency ∈ fl)) := by
  induction fl with
  | nil => intro o; simp
  | cons f fl ih => intro o; rw [List.foldl_cons, ih]; cases f <;> simp [Opts.apply]

theorem fold_left (fl : List Flag) : ∀ o : Opts, (fl.foldl Opts.apply o).leftJustify = (o.leftJustify || decide (.left ∈ fl)) := by
  induction fl with
  | nil => intro o; simp
  | cons f fl ih => intro o; rw [List.foldl_cons, ih]; cases f <;> simp [Opts.apply]

theorem fold_padding (fl : List Flag) (h : ∀ c, .fill c ∈ fl → c = 32) :
    ∀ o : Opts, o.padding = 32 → (fl.foldl Opts.apply o).padding = 32 := by
  induction fl with
  | nil => intro o ho; exact ho
  | cons f fl ih =>
    intro o ho
    rw [List.foldl_cons]
    apply ih (fun c hc => h c (List.mem_cons_of_mem _ hc))
    cases f <;> first | exact ho | exact h _ List.mem_cons_self

theorem fold_mode (fl : List Flag) (h : .plus ∈ fl → .paren ∉ fl) : ∀ o : Opts, (fl.foldl Opts.apply o).mode =
    if .paren ∈ fl then .paren else if .plus ∈ fl then .force else o.mode := by
  induction fl with
  | nil => intro o; simp
  | cons f fl ih =>
    intro o
    rw [List.foldl_cons, ih (fun h1 h2 => h (List.mem_cons_of_mem _ h1) (List.mem_cons_of_mem _ h2))]
    cases f <;> simp [Opts.apply]
    all_goals
      first
      | (intro h1; exact absurd (List.mem_cons_of_mem _ h1) (h List.mem_cons_self))
      | (intro _ h2; exact absurd List.mem_cons_self (h (List.mem_cons_of_mem _ h2)))
      | (intro _; exact fun h2 => absurd List.mem_cons_self (h (List.mem_cons_of_mem _ h2)))

/-- The code's view of a conversion. -/
def Conv.parsed (c : Conv) : Parsed :=
  let o := c.flags.foldl Opts.apply {}
  ⟨if c.width = none then { o with leftJustify := false } else o, c.width.map number, c.left.map number,
    c.right.map number, c.int⟩

theorem parseConv_text {m : Money} {c : Conv} (hc : c.Ok) (hl : c.left = none)
    (hs : .plus ∈ c.flags → m.negSign ≠ []) {r : List Nat} :
    parseConv m (c.text.tail ++ r) = .ok (some (c.parsed, r)) := by
  obtain ⟨flg, width, left, right, int⟩ := c
  obtain ⟨_, hw, _, hr⟩ := hc
  simp only at hl hw hr hs
  subst hl
  have last : ∃ z, (if int then 105 else 110) = z ∧ (z = 105 ∨ z = 110) ∧ (z = 105 ↔ int = true) := by
    cases int <;> simp
  obtain ⟨z, hz, hz', hzi⟩ := last
  -- the part from the right precision on
  obtain ⟨B, hB⟩ : ∃ B, B = (match (generalizing := false) right with | none => [] | some w => 46 :: digitChars w) ++ [z] ++ r := ⟨_, rfl⟩
  have hBp : precision 46 B = .ok (right.map number, z :: r) ∧ precision 35 B = .ok (none, B) ∧
      ∃ y B', B = y :: B' ∧ NotFlag y ∧ ¬ (48 ≤ y ∧ y ≤ 57) := by
    cases right with
    | none =>
      simp only [List.nil_append, List.singleton_append] at hB
      subst hB
      refine ⟨?_, ?_, z, r, rfl, ?_, ?_⟩
      · unfold precision; simp only; rw [if_neg (by omega)]; rfl
      · unfold precision; simp only; rw [if_neg (by omega)]
      · rcases hz' with h | h <;> subst h <;> decide
      · omega
    | some w =>
      simp only [List.cons_append, List.append_assoc, List.singleton_append] at hB
      subst hB
      refine ⟨?_, ?_, 46, _, rfl, by decide, by decide⟩
      · unfold precision; simp only [if_true]
        rw [digits_text w (hr w rfl) (by omega), bok]; rfl
      · unfold precision; simp only; rw [if_neg (by decide)]
  obtain ⟨y, B', hy, hyf, hyd⟩ := hBp.2.2
  obtain ⟨A, hA⟩ : ∃ A, A = (match (generalizing := false) width with | none => [] | some w => digitChars w) ++ B := ⟨_, rfl⟩
  have hAp : fieldWidth A = .ok (width.map number, B) ∧ ∃ y A', A = y :: A' ∧ NotFlag y := by
    cases width with
    | none =>
      simp only [List.nil_append] at hA
      subst hA
      refine ⟨?_, y, B', hy, hyf⟩
      rw [hy]; unfold fieldWidth; simp only; rw [if_neg hyd]; rfl
    | some w =>
      obtain ⟨hne, hd⟩ := hw w rfl
      simp only at hA
      cases w with
      | nil => exact absurd rfl hne
      | cons d w =>
        have hd0 := hd d (by simp)
        have e : A = (48 + d) :: (digitChars w ++ B) := hA
        refine ⟨?_, _, _, e, by unfold NotFlag; omega⟩
        have : fieldWidth A = (digits A 0).bind fun (w, r) => .ok (some w, r) := by
          rw [e]; unfold fieldWidth; simp only; rw [if_pos (by omega)]
        rw [this, hA, hy, digits_text (d :: w) hd hyd, bok]
        rfl
  obtain ⟨y', A', hy', hyf'⟩ := hAp.2
  have htext : (Conv.text ⟨flg, width, none, right, int⟩).tail ++ r = flg.flatMap Flag.char ++ A := by
    rw [hA, hB]
    simp only [Conv.text, hz, List.append_assoc, List.cons_append, List.nil_append, List.tail_cons]
  rw [htext]
  unfold parseConv
  rw [hy', flags_text flg hs hyf', bok, ← hy']
  simp only
  rw [hAp.1, bok]
  simp only
  rw [hBp.2.1, bok]
  simp only
  rw [hBp.1, bok]
  simp only [Conv.parsed, Option.map_none]
  have hw' : (Option.map number width = none) ↔ width = none := by cases width <;> simp
  simp only [hw']
  cases int with
  | true => rw [if_pos (hzi.2 rfl)]
  | false =>
    have h1 : z ≠ 105 := fun h => by have := hzi.1 h; cases this
    rw [if_neg h1, if_pos (hz'.resolve_left h1)]

theorem decLen_eq {k : Nat} : ∀ {f n : Nat}, n ≤ f → 1 ≤ k → n < 10 ^ k → (k = 1 ∨ 10 ^ (k - 1) ≤ n) →
    decLen f n = k := by
  induction k with
  | zero => intro f n _ h; omega
  | succ k ih =>
    intro f n hf _ h1 h2
    cases f with
    | zero =>
      have : n = 0 := by omega
      subst this
      rcases h2 with h2 | h2
      · rw [h2]; rfl
      · exact absurd h2 (Nat.not_le.2 (Nat.pow_pos (by decide)))
    | succ f =>
    rw [decLen]
    by_cases h : n / 10 = 0
    · rw [if_pos h]
      rcases h2 with h2 | h2
      · omega
      · cases k with
        | zero => rfl
        | succ k =>
          have : 10 ^ 1 ≤ 10 ^ (k + 1) := Nat.pow_le_pow_right (by decide) (by omega)
          have h2' : 10 ^ (k + 1) ≤ n := h2
          generalize 10 ^ (k + 1) = t at this h2'
          omega
    · rw [if_neg h]
      cases k with
      | zero => simp only [Nat.zero_add, Nat.pow_one] at h1; omega
      | succ k =>
        have e1 : 10 ^ (k + 1 + 1) = 10 ^ (k + 1) * 10 := Nat.pow_succ 10 (k + 1)
        have e2 : 10 ^ (k + 1) = 10 ^ k * 10 := Nat.pow_succ 10 k
        have h2' : 10 ^ (k + 1) ≤ n := by
          rcases h2 with h2 | h2
          · exact absurd h2 (by omega)
          · exact h2
        rw [e1] at h1
        have g1 : n / 10 < 10 ^ (k + 1) := by
          generalize 10 ^ (k + 1) = t at h1
          omega
        have g2 : 10 ^ k ≤ n / 10 := by
          rw [e2] at h2'
          generalize 10 ^ k = t at h2'
          omega
        rw [ih (n := n / 10) (by omega) (Nat.succ_le_succ (Nat.zero_le k)) g1 (Or.inr g2)]

/-! ### Proofs: the layout -/

/-- The values the code uses for a usual conversion. -/
theorem plan_usual {m : Money} {c : Conv} {x : Amount} (h : Usual m c x) (hx : x.Faithful m.decimalPoint) :
    let st := m.style c.int false
    let q := plan m c.parsed x
    let paren := .paren ∈ c.flags ∨ (st.signPosn = 0 ∧ .plus ∉ c.flags)
    q.precedes = decide (st.precedes = 1) ∧ q.sep = st.sepBySpace ∧ q.negSign = m.negSign ∧
    q.prec = m.decimals c ∧ q.leftFill = 0 ∧ q.doFill = false ∧
    q.mode = (if .paren ∈ c.flags then .paren else if .plus ∈ c.flags then .force else .normal) ∧
    q.posn = (if st.signPosn = 0 ∧ .plus ∈ c.flags then 1 else st.signPosn) ∧
    q.widthFill = (match c.width with
      | none => 0
      | some w => number w - ((if .noCurrency ∈ c.flags then 0 else (m.symbol c.int).length + st.sepBySpace) +
          ((if paren then (if x.negative then 2 else 0)
            else (if x.negative then m.negSign else m.posSign).length) +
            (x.text (m.decimals c) (.noGroup ∉ c.flags)).length))) := by
  have hmode : c.parsed.o.mode = (if .paren ∈ c.flags then .paren else if .plus ∈ c.flags then .force else .normal) := by
    unfold Conv.parsed
    simp only
    rw [← fold_mode c.flags h.modes {}]
    split <;> rfl
  have hsup : c.parsed.o.suppress = decide (.noCurrency ∈ c.flags) := by
    have := fold_suppress c.flags {}
    unfold Conv.parsed
    simp only
    split <;> simpa using this
  have hgrp : c.parsed.o.group = decide (.noGroup ∉ c.flags) := by
    have := fold_group c.flags {}
    unfold Conv.parsed
    simp only
    split <;> simpa using this
  have hst : (if c.int then m.intPos else m.pos) = m.style c.int false := by cases c.int <;> rfl
  have hposn := h.posn
  have hsep := h.sep
  obtain ⟨k, hk1, hk2, hk3, hk4⟩ := hx
  have hprec : (if (match c.right.map number with
      | some w => w % 256
      | none => (if c.int then m.intFrac else m.frac) % 256) = 255 then 2 else
      (match c.right.map number with
      | some w => w % 256
      | none => (if c.int then m.intFrac else m.frac) % 256)) = m.decimals c := by
    have h1 := h.right
    have h2 := h.frac
    unfold Money.decimals at h1 ⊢
    cases hr : c.right with
    | some w =>
      rw [hr] at h1
      simp only [Option.map_some] at h1 ⊢
      rw [Nat.mod_eq_of_lt (by omega), if_neg (by omega)]
    | none =>
      simp only [Option.map_none]
      have : (if c.int then m.intFrac else m.frac) < 256 := by cases c.int; exact h2.1; exact h2.2
      rw [Nat.mod_eq_of_lt this]
  have hlen : ∀ d : Nat, (if d > 0 then d + m.decimalPoint.length else 0) = if d = 0 then 0 else d + m.decimalPoint.length := by
    intro d
    by_cases hd : d = 0
    · rw [if_pos hd, if_neg (by omega)]
    · rw [if_neg hd, if_pos (by omega)]
  have m1 : (m.style c.int false).signPosn % 256 = (m.style c.int false).signPosn := Nat.mod_eq_of_lt (by omega)
  have m2 : (m.style c.int false).sepBySpace % 256 = (m.style c.int false).sepBySpace := Nat.mod_eq_of_lt (by omega)
  have p1 : c.parsed.int = c.int := rfl
  have p2 : c.parsed.left = none := by show c.left.map number = none; rw [h.left]; rfl
  have p3 : c.parsed.right = c.right.map number := rfl
  have p4 : c.parsed.width = c.width.map number := rfl
  have nw : ¬ (c.parsed.o.mode = .normal ∧ ((m.style c.int false).signPosn = 127 ∨ (m.style c.int false).signPosn = 255)) := by
    omega
  have pp : (((m.style c.int false).signPosn = 0 ∨ (m.style c.int false).signPosn = 255) ∧ c.parsed.o.mode = .force) ↔
      ((m.style c.int false).signPosn = 0 ∧ .plus ∈ c.flags) := by
    rw [hmode]
    constructor
    · rintro ⟨h1, h2⟩
      refine ⟨by omega, ?_⟩
      split at h2
      · cases h2
      · split at h2
        · assumption
        · cases h2
    · rintro ⟨h1, h2⟩
      refine ⟨.inl h1, ?_⟩
      rw [if_neg (h.modes h2), if_pos h2]
  have hpl : (plan m c.parsed x).widthFill = (match c.width with
      | none => 0
      | some w => number w - ((if .noCurrency ∈ c.flags then 0 else (m.symbol c.int).length + (m.style c.int false).sepBySpace) +
          ((if .paren ∈ c.flags ∨ ((m.style c.int false).signPosn = 0 ∧ .plus ∉ c.flags) then (if x.negative then 2 else 0)
            else (if x.negative then m.negSign else m.posSign).length) +
            (x.text (m.decimals c) (.noGroup ∉ c.flags)).length))) := by
    cases hw : c.width with
    | none => unfold plan; rw [p4, hw]; rfl
    | some w =>
      have hs32 := h.small (by rw [hw]; simp)
      have tl : textLength x.integral = k := by
        unfold textLength
        rw [Nat.mod_eq_of_lt hs32]
        exact decLen_eq (Nat.le_refl _) hk1 hk2 hk3
      have sl : (if c.int then 3 else m.currency.length) = (m.symbol c.int).length := by
        have := h.symbol
        unfold Money.symbol
        cases hi : c.int with
        | false => rfl
        | true => rw [hi] at this; simp only [if_true] at this ⊢; rw [List.length_take]; omega
      unfold plan
      simp only [p1, p2, p3, p4, hst, m1, m2, nw, if_false, pp, hsup, hgrp, hw, Option.map_some, hprec, tl, hlen, hk4, sl,
        decide_eq_true_eq, ne_eq, not_true_eq_false, if_false, Nat.add_zero]
      have fin : ∀ (w a b : Nat), a = b → (if w > a then w - a else 0) = w - b := by
        intro w a b e; subst e; split <;> omega
      apply fin
      have sg : (if c.parsed.o.mode = .paren ∨ (c.parsed.o.mode = .normal ∧
            (if (m.style c.int false).signPosn = 0 ∧ .plus ∈ c.flags then 1 else (m.style c.int false).signPosn) = 0) then
              (if x.negative = true then 2 else 0)
            else if x.negative = false ∧ c.parsed.o.mode = .force then m.posSign.length
            else if x.negative = true then m.negSign.length else 0) =
          (if .paren ∈ c.flags ∨ ((m.style c.int false).signPosn = 0 ∧ .plus ∉ c.flags) then (if x.negative = true then 2 else 0)
            else (if x.negative = true then m.negSign else m.posSign).length) := by
        rw [hmode]
        by_cases a1 : .paren ∈ c.flags
        · simp [a1]
        · by_cases a2 : .plus ∈ c.flags
          · by_cases a3 : (m.style c.int false).signPosn = 0 <;> cases x.negative <;> simp [a1, a2, a3]
          · have : m.posSign = [] := h.plain.resolve_right a2
            by_cases a3 : (m.style c.int false).signPosn = 0 <;> cases x.negative <;> simp [a1, a2, a3, this]
      rw [sg]
      omega
  refine ⟨?_, ?_, ?_, ?_, ?_, ?_, ?_, ?_, hpl⟩
  · show decide ((if c.int then m.intPos else m.pos).precedes = 1) = _; rw [hst]
  · show (if c.int then m.intPos else m.pos).sepBySpace % 256 = _; rw [hst, m2]
  · unfold plan; simp only [p1, hst, m1, nw, if_false]
  · unfold plan; simp only [p1, p3, hprec]
  · unfold plan; simp only [p2]
  · unfold plan; simp only [p2]
  · rw [← hmode]; unfold plan; simp only [p1, hst, m1, nw, if_false]
  · unfold plan; simp only [p1, hst, m1, nw, if_false, pp]

theorem flatten_replicate (n c : Nat) : (List.replicate n [c]).flatten = List.replicate n c := by
  induction n with
  | zero => rfl
  | succ n ih => simp only [List.replicate_succ, List.flatten_cons, ih]; rfl

/-- What the code writes for a usual conversion. -/
theorem pieces_usual {m : Money} {c : Conv} {x : Amount} (h : Usual m c x) (hx : x.Faithful m.decimalPoint) :
    (before m c.parsed (plan m c.parsed x) x).flatten ++ x.text (plan m c.parsed x).prec c.parsed.o.group ++
      (after m c.parsed (plan m c.parsed x) x).flatten = padded c (m.layout c x) := by
  obtain ⟨q1, q2, q3, q4, q5, q6, q7, q8, q9⟩ := plan_usual h hx
  have hsup : c.parsed.o.suppress = decide (.noCurrency ∈ c.flags) := by
    have := fold_suppress c.flags {}
    unfold Conv.parsed
    simp only
    split <;> simpa using this
  have hgrp : c.parsed.o.group = decide (.noGroup ∉ c.flags) := by
    have := fold_group c.flags {}
    unfold Conv.parsed
    simp only
    split <;> simpa using this
  have hleft : c.parsed.o.leftJustify = (decide (c.width ≠ none) && decide (.left ∈ c.flags)) := by
    have := fold_left c.flags {}
    unfold Conv.parsed
    simp only
    by_cases hw : c.width = none
    · rw [if_pos hw]; simp [hw]
    · rw [if_neg hw]; simpa [hw] using this
  have hpad : c.width ≠ none → c.parsed.o.padding = 32 := by
    intro hw
    have := fold_padding c.flags (fun f hf => (h.fill f hf).resolve_left hw) {} rfl
    unfold Conv.parsed
    simp only
    rw [if_neg hw]
    exact this
  have hint : c.parsed.int = c.int := rfl
  have hl : c.parsed.left = none := by show c.left.map number = none; rw [h.left]; rfl
  have hsize : (if c.int then m.intCurrency else m.currency).length ≠ 0 := by
    have := h.symbol
    cases hi : c.int with
    | true => rw [hi] at this; simp only [if_true] at this ⊢; omega
    | false => rw [hi] at this; simpa using this
  have hsep : ∀ q : Plan, q.sep = (m.style c.int false).sepBySpace → List.flatten (sepPieces m c.parsed q) =
      if (m.style c.int false).sepBySpace = 0 then [] else [m.space c.int] := by
    intro q hq
    unfold sepPieces
    rw [flatten_replicate, hq]
    have := h.sep
    have hs : (if c.parsed.int then m.intCurrency.getD 3 32 else 32) = m.space c.int := rfl
    rw [hs]
    rcases (by omega : (m.style c.int false).sepBySpace = 0 ∨ (m.style c.int false).sepBySpace = 1) with e | e
    · rw [e]; rfl
    · rw [e]; rfl
  have hposn := h.posn
  have hsupp := h.suppress
  generalize plan m c.parsed x = q at *
  obtain ⟨precedes, sep, posn, mode, negSign, prec, leftFill, widthFill, doFill⟩ := q
  simp only at q1 q2 q3 q4 q5 q6 q7 q8 q9
  subst q1 q3 q4 q5 q6
  -- the text between the padding
  have key : ∀ wf, (before m c.parsed ⟨decide ((m.style c.int false).precedes = 1), sep, posn, mode, m.negSign, m.decimals c,
        0, wf, false⟩ x).flatten ++ x.text (m.decimals c) c.parsed.o.group ++
      (after m c.parsed ⟨decide ((m.style c.int false).precedes = 1), sep, posn, mode, m.negSign, m.decimals c,
        0, wf, false⟩ x).flatten =
      (if c.parsed.o.leftJustify then [] else List.replicate wf c.parsed.o.padding) ++ m.layout c x ++
      (if c.parsed.o.leftJustify then List.replicate wf 32 else []) := by
    intro wf
    have hs := hsep ⟨decide ((m.style c.int false).precedes = 1), sep, posn, mode, m.negSign, m.decimals c,
        0, wf, false⟩ q2
    have e1 : ∀ (b : Bool) (n z : Nat), (if b = true then [] else List.replicate n [z]).flatten =
        if b = true then [] else List.replicate n z := by
      intro b n z; cases b
      · exact flatten_replicate n z
      · rfl
    have e2 : ∀ (b : Bool) (n z : Nat), (if b = true then List.replicate n [z] else []).flatten =
        if b = true then List.replicate n z else [] := by
      intro b n z; cases b
      · rfl
      · exact flatten_replicate n z
    unfold before after symbolPieces Money.layout
    simp only [hint, hl, hsup, hgrp, hsize, h.style, ne_eq, not_true_eq_false, not_false_eq_true, true_and,
      List.replicate_zero, ite_self, List.append_nil, if_false, Bool.false_eq_true,
      List.flatten_append, decide_eq_true_eq, decide_eq_false_iff_not, e1, e2]
    generalize x.text (m.decimals c) (decide (.noGroup ∉ c.flags)) = num
    generalize (if c.parsed.o.leftJustify = true then [] else List.replicate wf c.parsed.o.padding) = P
    generalize (if c.parsed.o.leftJustify = true then List.replicate wf 32 else []) = Q
    generalize sepPieces m c.parsed ⟨decide ((m.style c.int false).precedes = 1), sep, posn, mode, m.negSign, m.decimals c,
        0, wf, false⟩ = S at hs
    subst q7 q8
    by_cases a1 : .paren ∈ c.flags
    · by_cases b1 : .noCurrency ∈ c.flags
      · cases x.negative <;> simp [a1, b1]
      · by_cases b2 : (m.style c.int false).precedes = 1 <;> cases x.negative <;>
          simp [a1, b1, b2, hs, Money.symbol]
    · have hsupp' : .noCurrency ∈ c.flags → (m.style c.int false).signPosn ≤ 2 := fun hh => (hsupp hh).resolve_right a1
      have hp5 : (m.style c.int false).signPosn = 0 ∨ (m.style c.int false).signPosn = 1 ∨
        (m.style c.int false).signPosn = 2 ∨ (m.style c.int false).signPosn = 3 ∨
        (m.style c.int false).signPosn = 4 := by omega
      have hpl := h.plain
      by_cases a2 : .plus ∈ c.flags
      · by_cases b1 : .noCurrency ∈ c.flags
        · rcases hp5 with e | e | e | e | e <;> cases x.negative <;>
            first
            | (exfalso; have := hsupp' b1; omega)
            | simp [a1, a2, b1, e, signPieces]
        · by_cases b2 : (m.style c.int false).precedes = 1 <;> rcases hp5 with e | e | e | e | e <;>
            cases x.negative <;> simp [a1, a2, b1, b2, e, signPieces, hs, Money.symbol]
      · have hps : m.posSign = [] := hpl.resolve_right a2
        by_cases b1 : .noCurrency ∈ c.flags
        · rcases hp5 with e | e | e | e | e <;> cases x.negative <;>
            first
            | (exfalso; have := hsupp' b1; omega)
            | simp [a1, a2, b1, e, signPieces, hps]
        · by_cases b2 : (m.style c.int false).precedes = 1 <;> rcases hp5 with e | e | e | e | e <;>
            cases x.negative <;> simp [a1, a2, b1, b2, e, signPieces, hs, Money.symbol, hps]
  -- its length
  have hlen : (m.layout c x).length =
      (if .noCurrency ∈ c.flags then 0 else (m.symbol c.int).length + (m.style c.int false).sepBySpace) +
          ((if .paren ∈ c.flags ∨ ((m.style c.int false).signPosn = 0 ∧ .plus ∉ c.flags) then (if x.negative then 2 else 0)
            else (if x.negative then m.negSign else m.posSign).length) +
            (x.text (m.decimals c) (.noGroup ∉ c.flags)).length) := by
    unfold Money.layout
    simp only [h.style]
    generalize x.text (m.decimals c) (decide (.noGroup ∉ c.flags)) = num
    generalize (if x.negative = true then m.negSign else m.posSign) = sign
    have hs1 : (if (m.style c.int false).sepBySpace = 0 then [] else [m.space c.int]).length =
        (m.style c.int false).sepBySpace := by
      have := h.sep
      split
      · rename_i e; rw [e]; rfl
      · simp only [List.length_singleton]; omega
    generalize (if (m.style c.int false).sepBySpace = 0 then [] else [m.space c.int]) = S at hs1
    rw [← hs1]
    by_cases pr : .paren ∈ c.flags ∨ ((m.style c.int false).signPosn = 0 ∧ .plus ∉ c.flags)
    · simp only [pr, if_true]
      by_cases b1 : .noCurrency ∈ c.flags <;> by_cases b2 : (m.style c.int false).precedes = 1 <;>
        cases x.negative <;> simp [b1, b2] <;> omega
    · simp only [pr, if_false]
      have hp4 : (if (m.style c.int false).signPosn = 0 then 1 else (m.style c.int false).signPosn) = 1 ∨
        (if (m.style c.int false).signPosn = 0 then 1 else (m.style c.int false).signPosn) = 2 ∨
        (if (m.style c.int false).signPosn = 0 then 1 else (m.style c.int false).signPosn) = 3 ∨
        (if (m.style c.int false).signPosn = 0 then 1 else (m.style c.int false).signPosn) = 4 := by
        split <;> omega
      generalize (if (m.style c.int false).signPosn = 0 then 1 else (m.style c.int false).signPosn) = z at hp4
      by_cases b1 : .noCurrency ∈ c.flags <;> by_cases b2 : (m.style c.int false).precedes = 1 <;>
        rcases hp4 with rfl | rfl | rfl | rfl <;> simp [b1, b2] <;> omega
  rw [key, q9, hleft]
  unfold padded
  cases hw : c.width with
  | none => simp
  | some w =>
    rw [hpad (by rw [hw]; simp)]
    simp only [← hlen]
    by_cases hL : .left ∈ c.flags <;> simp [hL]

/-- C116. An amount is written the way the locale and the conversion specification say, padded to the field
width, if there is room for it and two characters more. -/
theorem strfmon_layout_partial {m : Money} {c : Conv} {x : Amount} (h : Usual m c x) (hx : x.Faithful m.decimalPoint)
    {buf : List Nat} {maxsize : Nat} (hm : maxsize ≤ buf.length)
    (hr : (padded c (m.layout c x)).length + 3 ≤ maxsize) :
    ∃ buf', strfmon m buf maxsize c.text [x] = .ok (.ok (padded c (m.layout c x)).length buf') ∧
      buf'.take (padded c (m.layout c x)).length = padded c (m.layout c x) ∧
      Written maxsize buf (padded c (m.layout c x)).length buf' := by
  have hp := pieces_usual h hx
  have hlen := congrArg List.length hp
  simp only [List.length_append] at hlen
  have hg0 : Good maxsize buf ⟨buf, 0⟩ := ⟨rfl, rfl, .inl rfl⟩
  obtain ⟨k1, e1, g1, u1, t1⟩ := emit_room hm (before m c.parsed (plan m c.parsed x) x) hg0
    (by simp only; omega)
  have hpx : x.text (plan m c.parsed x).prec c.parsed.o.group =
      (x.pieces (plan m c.parsed x).prec c.parsed.o.group).flatten := rfl
  simp only [Nat.zero_add] at u1
  obtain ⟨k2, e2, g2, u2, t2⟩ := printAll_room hm (x.pieces (plan m c.parsed x).prec c.parsed.o.group) g1
    (by rw [← hpx]; omega)
  rw [← hpx] at u2
  obtain ⟨k3, e3, g3, u3, t3⟩ := emit_room hm (after m c.parsed (plan m c.parsed x) x) g2 (by omega)
  obtain ⟨k4, e4, g4, u4, t4⟩ : ∃ k4, append maxsize k3 [0] = .ok (some k4) ∧ Good maxsize buf k4 ∧
      k4.used = k3.used + 1 ∧ k4.buf.take k4.used = k3.buf.take k3.used ++ [0] := by
    rcases append_good hm g3 [0] with e | ⟨k4, e, g, u, t⟩
    · exfalso
      unfold append at e
      rw [if_neg (by simp only [List.length_singleton]; omega)] at e
      unfold store at e
      rw [if_pos (by rw [g3.size]; simp only [List.length_singleton]; omega)] at e
      cases e
    · exact ⟨k4, e, g, u, t⟩
  have htot : k3.used = (padded c (m.layout c x)).length := by omega
  have hcont : k3.buf.take k3.used = padded c (m.layout c x) := by
    rw [t3, t2, t1, ← hpx, ← hp]; simp
  have hcv : convert m maxsize c.parsed x ⟨buf, 0⟩ = .ok (some k3) := by
    unfold convert
    rw [if_neg (by have := h.range; omega), if_neg (by
      rintro ⟨h1, h2, h3⟩
      have := h.symbol
      have h1' : c.int = true := h1
      rw [h1'] at this
      simp only [if_true] at this
      omega)]
    simp only
    rw [e1, bok]
    simp only
    rw [e2, bok]
    exact e3
  have hpc := parseConv_text (m := m) h.ok h.left h.signs (r := [])
  rw [List.append_nil] at hpc
  have htx : ∃ r, c.text = 37 :: r ∧ r ≠ [] ∧ r.head? ≠ some 37 := by
    refine ⟨_, by unfold Conv.text; simp only [List.append_assoc]; rfl, by simp, ?_⟩
    rw [h.left]
    cases c.flags with
    | cons f fl => cases f <;> simp [Flag.char]
    | nil =>
      cases hw : c.width with
      | some w =>
        obtain ⟨hne, hd⟩ := h.ok.2.1 w hw
        cases w with
        | nil => exact absurd rfl hne
        | cons d w => have := hd d (by simp); simp [digitChars]; omega
      | none =>
        cases c.right with
        | some w => simp
        | none => cases c.int <;> simp
  obtain ⟨r, htr, hrne, hr37⟩ := htx
  rw [htr, List.tail_cons] at hpc
  refine ⟨k4.buf, ?_, ?_, ?_⟩
  · unfold strfmon
    rw [htr, List.length_cons]
    unfold loop
    simp only [ne_eq, not_true_eq_false, if_false]
    rw [if_neg hr37, hpc, bok]
    simp only
    rw [hcv, bok]
    simp only
    obtain ⟨n, hn⟩ : ∃ n, r.length = n + 1 := ⟨r.length - 1, by
      have := List.length_pos_iff.2 hrne; omega⟩
    rw [hn]
    unfold loop
    simp only
    rw [e4, bok]
    have : ensure (decide (k4.used > 0)) = .ok () := by simp [ensure]; omega
    simp only [this, bok]
    rw [u4, Nat.add_sub_cancel, htot]
  · have := congrArg (List.take k3.used) t4
    rw [u4, List.take_take, Nat.min_eq_left (by omega)] at this
    rw [← htot, this, List.take_left' (by rw [hcont, htot]), hcont]
  · refine ⟨by omega, g4.size, g4.rest, ?_⟩
    rw [u4] at t4
    rw [← htot]
    exact nul_of_take t4 (by rw [hcont, htot])

/-! ### Examples and violations -/

/-- A locale like that of the United States: `$1.00`, `-$1.00`, `USD 1.00`. -/
def demo : Money where
  posSign := []
  negSign := [45]
  decimalPoint := [46]
  currency := [36]
  intCurrency := [85, 83, 68, 32]
  frac := 2
  intFrac := 2
  pos := ⟨1, 0, 1⟩
  neg := ⟨1, 0, 1⟩
  intPos := ⟨1, 1, 1⟩
  intNeg := ⟨1, 1, 1⟩

/-- The amount -12, which is printed with zeros as decimals. -/
def twelve : Amount := ⟨true, 12, 0, fun _ => 0, fun d _ =>
  [[49], [50]] ++ if d = 0 then [] else [46] :: List.replicate d [48]⟩

theorem twelve_faithful : twelve.Faithful [46] := by
  refine ⟨2, by decide, by decide, .inr (by decide), fun d g => ?_⟩
  unfold Amount.text twelve
  by_cases hd : d = 0
  · subst hd; cases g <;> rfl
  · simp [hd, flatten_replicate]; omega

/-- `%10n` gives `   -$12.00`, `%(i` gives `(USD 12.00)`. -/
example : padded ⟨[], some [1, 0], none, none, false⟩ (demo.layout ⟨[], some [1, 0], none, none, false⟩ twelve) =
      [32, 32, 32, 45, 36, 49, 50, 46, 48, 48] ∧
    demo.layout ⟨[.paren], none, none, none, true⟩ twelve = [40, 85, 83, 68, 32, 49, 50, 46, 48, 48, 41] := by
  constructor <;> decide +kernel

example : Usual demo ⟨[], some [1, 0], none, none, false⟩ twelve where
  ok := ⟨by simp, by intro w h; cases h; simp, by simp, by simp⟩
  left := rfl
  style := rfl
  sep := by decide
  posn := by decide
  plain := .inl rfl
  signs := by simp
  modes := by simp
  symbol := by decide
  suppress := by simp
  fill := by simp
  small := fun _ => by decide
  range := by decide
  right := by decide
  frac := by decide

example : strfmon demo (List.replicate 20 1) 20 [37, 110] [twelve] =
    .ok (.ok 7 ([45, 36, 49, 50, 46, 48, 48, 0] ++ List.replicate 12 1)) := by decide +kernel

/-- What POSIX asks for, for conversions without left precision in locales without `sep_by_space` 2: the amount
is written if it fits together with the terminator. -/
def Conforms (m : Money) (c : Conv) (x : Amount) (maxsize : Nat) : Prop :=
  ∀ buf : List Nat, maxsize ≤ buf.length → (padded c (m.layout c x)).length + 1 ≤ maxsize →
    ∃ buf', strfmon m buf maxsize c.text [x] = .ok (.ok (padded c (m.layout c x)).length buf') ∧
      buf'.take (padded c (m.layout c x)).length = padded c (m.layout c x)

/-- C116. A buffer of exactly the right size is refused, and so is one with a character more. -/
theorem room_violated : ∃ maxsize, ¬ Conforms demo ⟨[], none, none, none, false⟩ twelve maxsize ∧
    ¬ Conforms demo ⟨[], none, none, none, false⟩ twelve (maxsize + 1) := by
  refine ⟨8, fun h => ?_, fun h => ?_⟩
  · obtain ⟨b, hb, _⟩ := h (List.replicate 8 1) (by decide) (by decide +kernel)
    have : strfmon demo (List.replicate 8 1) 8 (Conv.text ⟨[], none, none, none, false⟩) [twelve] = .ok .e2big := by
      decide +kernel
    rw [this] at hb; cases hb
  · obtain ⟨b, hb, _⟩ := h (List.replicate 9 1) (by decide) (by decide +kernel)
    have : strfmon demo (List.replicate 9 1) 9 (Conv.text ⟨[], none, none, none, false⟩) [twelve] = .ok .e2big := by
      decide +kernel
    rw [this] at hb; cases hb

/-- A result that differs from the one that is asked for. -/
theorem not_conforms {m : Money} {c : Conv} {x : Amount} {len : Nat} {b : List Nat}
    (he : strfmon m (List.replicate 64 1) 64 c.text [x] = .ok (.ok len b))
    (hs : (padded c (m.layout c x)).length + 1 ≤ 64)
    (hd : b.take (padded c (m.layout c x)).length ≠ padded c (m.layout c x)) : ¬ Conforms m c x 64 := by
  intro h
  obtain ⟨b', h1, h2⟩ := h (List.replicate 64 1) (by simp) hs
  rw [he] at h1
  cases h1
  exact hd h2

/-- C116. The style for negative amounts is never used: here the locale asks for `12.00$-`. -/
theorem negative_violated : ¬ Conforms { demo with neg := ⟨0, 0, 2⟩ } ⟨[], none, none, none, false⟩ twelve 64 :=
  not_conforms (b := [45, 36, 49, 50, 46, 48, 48, 0] ++ List.replicate 56 1) (len := 7)
    (by decide +kernel) (by decide +kernel) (by decide +kernel)

/-- C116. In a locale that writes the sign next to the currency symbol, a negative amount without the symbol
looks like a positive one. -/
theorem sign_lost_violated :
    ¬ Conforms { demo with pos := ⟨1, 0, 3⟩, neg := ⟨1, 0, 3⟩ } ⟨[.noCurrency], none, none, none, false⟩ twelve 64 :=
  not_conforms (b := [49, 50, 46, 48, 48, 0] ++ List.replicate 58 1) (len := 5)
    (by decide +kernel) (by decide +kernel) (by decide +kernel)

/-- C116. The numeric fill character is used for the field width. -/
theorem fill_violated : ¬ Conforms demo ⟨[.fill 42], some [9], none, none, false⟩ twelve 64 :=
  not_conforms (b := [42, 42, 45, 36, 49, 50, 46, 48, 48, 0] ++ List.replicate 54 1) (len := 9)
    (by decide +kernel) (by decide +kernel) (by decide +kernel)

/-- C116. Without the flag `+` the positive sign of the locale is left out. -/
theorem positive_violated :
    ¬ Conforms { demo with posSign := [43] } ⟨[], none, none, none, false⟩ { twelve with negative := false } 64 :=
  not_conforms (b := [36, 49, 50, 46, 48, 48, 0] ++ List.replicate 57 1) (len := 6)
    (by decide +kernel) (by decide +kernel) (by decide +kernel)

/-- The amount 5000000000. -/
def billions : Amount := ⟨false, 5000000000, 0, fun _ => 0, fun d _ =>
  [[53, 48, 48, 48, 48, 48, 48, 48, 48, 48]] ++ if d = 0 then [] else [46] :: List.replicate d [48]⟩

/-- C116. From 2^32 on the number of digits is wrong, and with it the padding: here a space too many for each
digit that is not counted. -/
theorem width_violated : ¬ Conforms demo ⟨[], some [1, 6], none, none, false⟩ billions 64 :=
  not_conforms (b := [32, 32, 32, 36, 53, 48, 48, 48, 48, 48, 48, 48, 48, 48, 46, 48, 48, 0] ++ List.replicate 46 1) (len := 17)
    (by decide +kernel) (by decide +kernel) (by decide +kernel)

/-- C116. If the sink is full while the number is printed, the rest may still fit: with a decimal point of three
bytes, `-12.0` becomes `-120`. -/
theorem silent_violated : ∃ x : Amount, x.negative = true ∧ x.Faithful [1, 2, 3] ∧
    x.text 1 true = [49, 50, 1, 2, 3, 48] ∧
    strfmon { demo with decimalPoint := [1, 2, 3], frac := 1 } (List.replicate 8 1) 8 [37, 110] [x] =
      .ok (.ok 5 [45, 36, 49, 50, 48, 0, 1, 1]) := by
  refine ⟨⟨true, 12, 0, fun _ => 0, fun d _ => [[49], [50]] ++ if d = 0 then [] else [1, 2, 3] :: List.replicate d [48]⟩,
    rfl, ?_, by decide +kernel, by decide +kernel⟩
  refine ⟨2, by decide, by decide, .inr (by decide), fun d g => ?_⟩
  unfold Amount.text
  by_cases hd : d = 0
  · subst hd; cases g <;> rfl
  · simp [hd, flatten_replicate]; omega

/-- C116. A format that ends inside of a conversion ends the program; `%` alone is an error. -/
theorem truncated_violated : strfmon demo (List.replicate 8 1) 8 [37, 45] [twelve] = .panic ∧
    strfmon demo (List.replicate 8 1) 8 [37, 53] [twelve] = .panic ∧
    strfmon demo (List.replicate 8 1) 8 [37] [twelve] = .ok .einval := by
  refine ⟨?_, ?_, ?_⟩ <;> decide +kernel

/-- C116. From 2^64 on the conversion of the amount is undefined. -/
theorem huge_violated : ∃ x : Amount, x.Faithful [46] ∧
    strfmon demo (List.replicate 64 1) 64 [37, 110] [x] = .ub := by
  refine ⟨⟨false, 10 ^ 20, 0, fun _ => 0, fun d _ =>
    [49 :: List.replicate 20 48] ++ if d = 0 then [] else [46] :: List.replicate d [48]⟩, ?_, by decide +kernel⟩
  refine ⟨21, by decide, by decide, .inr (by decide), fun d g => ?_⟩
  unfold Amount.text
  by_cases hd : d = 0
  · subst hd; cases g <;> rfl
  · simp [hd, flatten_replicate]; omega

end Mlibc.Strfmon
