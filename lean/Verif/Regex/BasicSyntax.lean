import Verif.Regex.Syntax

/-!
# Basic regular expressions: the syntax

The grammar of basic regular expressions (POSIX, XBD 9.3 and 9.5.2), as a relation between an expression and
a text that denotes it; independent of the parser of `regcomp`.  Three characters change their meaning with
their place: `*` is an ordinary character at the beginning of an expression or subexpression (also behind the
anchor `^`), `^` is one everywhere else than there, `$` is one everywhere else than at the end.

The extensions `\|`, `\+`, `\?`, `\<`, `\>`, `\b`, `\B` and empty (sub)expressions are included; back
references are not.
-/
namespace Mlibc.Regex

/-- The text of a repetition: `*`, `\{m\}`, `\{m,\}`, `\{m,n\}`, and the extensions `\+`, `\?`. -/
inductive BDup : Nat → Option Nat → List Nat → Prop
  | star : BDup 0 none [42]
  | plus : BDup 1 none [92, 43]
  | opt : BDup 0 (some 1) [92, 63]
  | exact {m w} : Numeral m w → m ≤ 255 → BDup m (some m) (92 :: 123 :: (w ++ [92, 125]))
  | atLeast {m w} : Numeral m w → m ≤ 255 → BDup m none (92 :: 123 :: (w ++ [44, 92, 125]))
  | between {m n u v} : Numeral m u → Numeral n v → m ≤ n → n ≤ 255 →
      BDup m (some n) (92 :: 123 :: (u ++ (44 :: (v ++ [92, 125]))))

/-- A character that stands for itself at every place: none of `.[\*^$`. -/
def BOrdinary (c : Nat) : Prop := c ≠ 0 ∧ c ≠ 46 ∧ c ≠ 91 ∧ c ≠ 92 ∧ c ≠ 42 ∧ c ≠ 94 ∧ c ≠ 36

/-- A character that stands for itself behind a backslash: one of `^.[]$*\`, the slash, the hyphen. -/
def BQuotable (c : Nat) : Prop :=
  c = 94 ∨ c = 46 ∨ c = 91 ∨ c = 93 ∨ c = 36 ∨ c = 42 ∨ c = 92 ∨ c = 47 ∨ c = 45

/-- The places at which a piece can stand: anywhere; only at the beginning; only not at the beginning. -/
inductive Place | any | lead | inner
deriving DecidableEq

/-- What has been written of a branch: nothing, the anchor `^`, something else that ends with a `$` as an
    ordinary character, something else. -/
inductive Sofar | nothing | anchor | dollar | some
deriving DecidableEq

/-- The piece can follow. -/
def Place.Fits : Place → Sofar → Prop
  | .any, _ => True
  | .lead, k => k = .nothing ∨ k = .anchor
  | .inner, k => k ≠ .nothing

/-- The levels of the grammar. -/
inductive BLvl | piece (a : Place) | seq (k : Sofar) | branch | regex

/-- `BGram nl ct lvl r w`: the text `w` denotes the expression `r`; `nl` is `REG_NEWLINE`, `ct` is `wctype`. -/
inductive BGram (nl : Bool) (ct : List Nat → Nat) : BLvl → Re → List Nat → Prop
  /-- A character. -/
  | ord {c} : BOrdinary c → BGram nl ct (.piece .any) (.chr [{ lo := c, hi := c }]) [c]
  /-- A quoted character. -/
  | quoted {c} : BQuotable c → BGram nl ct (.piece .any) (.chr [{ lo := c, hi := c }]) [92, c]
  /-- An asterisk at the beginning. -/
  | asterisk : BGram nl ct (.piece .lead) (.chr [{ lo := 42, hi := 42 }]) [42]
  /-- A circumflex that is not at the beginning. -/
  | circumflex : BGram nl ct (.piece .inner) (.chr [{ lo := 94, hi := 94 }]) [94]
  /-- `.`: any character; with `REG_NEWLINE`, any but a newline. -/
  | dot {ls : List Lit} : ls ≠ [] →
      (∀ x c, c ≤ 1114111 → ((∃ l ∈ ls, l.Allows x c) ↔ ¬ (nl = true ∧ c = 10))) →
      BGram nl ct (.piece .any) (.chr ls) [46]
  /-- `[…]`: any character that is listed. -/
  | bracket {ts w} {ls : List Lit} : ListText ct ts w → w.head? ≠ some 94 → ls ≠ [] →
      (∀ x c, c ≤ 1114111 → ((∃ l ∈ ls, l.Allows x c) ↔ ∃ t ∈ ts, t.Has x c)) →
      BGram nl ct (.piece .any) (.chr ls) (91 :: (w ++ [93]))
  /-- `[^…]`: any character that is not listed; with `REG_NEWLINE`, not a newline.  At most 64 classes. -/
  | nbracket {ts w} {ls : List Lit} : ListText ct ts w → (ts.filter Term.isCls).length ≤ 64 → ls ≠ [] →
      (∀ x c, c ≤ 1114111 →
        ((∃ l ∈ ls, l.Allows x c) ↔ (¬ ∃ t ∈ ts, t.Has x c) ∧ ¬ (nl = true ∧ c = 10))) →
      BGram nl ct (.piece .any) (.chr ls) (91 :: 94 :: (w ++ [93]))
  /-- `\<`, `\>`, `\b`, `\B`. -/
  | bow : BGram nl ct (.piece .any) (.asrt .bow) [92, 60]
  | eow : BGram nl ct (.piece .any) (.asrt .eow) [92, 62]
  | wb : BGram nl ct (.piece .any) (.asrt .wb) [92, 98]
  | nwb : BGram nl ct (.piece .any) (.asrt .nwb) [92, 66]
  /-- `\(…\)`. -/
  | group {r w} : BGram nl ct .regex r w → BGram nl ct (.piece .any) r (92 :: 40 :: (w ++ [92, 41]))
  /-- A repetition; also of a `$`, which is an ordinary character then. -/
  | dup {a r w mn mx d} : BGram nl ct (.piece a) r w → BDup mn mx d →
      BGram nl ct (.piece a) (.rep r mn mx) (w ++ d)
  | dollars {mn mx d} : BDup mn mx d →
      BGram nl ct (.piece .any) (.rep (.chr [{ lo := 36, hi := 36 }]) mn mx) (36 :: d)
  /-- A branch begins with nothing or with the anchor `^`. -/
  | nil : BGram nl ct (.seq .nothing) .eps []
  | bol : BGram nl ct (.seq .anchor) (.asrt .bol) [94]
  /-- It goes on with a piece, or with a `$` as an ordinary character. -/
  | next {k a l r u v} : BGram nl ct (.seq k) l u → BGram nl ct (.piece a) r v → a.Fits k →
      BGram nl ct (.seq .some) (.cat l r) (u ++ v)
  | dollar {k l u} : BGram nl ct (.seq k) l u →
      BGram nl ct (.seq .dollar) (.cat l (.chr [{ lo := 36, hi := 36 }])) (u ++ [36])
  /-- It ends, possibly with the anchor `$`. -/
  | stop {k r w} : BGram nl ct (.seq k) r w → k ≠ .dollar → BGram nl ct .branch r w
  | eol {k l u} : BGram nl ct (.seq k) l u → BGram nl ct .branch (.cat l (.asrt .eol)) (u ++ [36])
  /-- One branch, or several with `\|` between them. -/
  | single {r w} : BGram nl ct .branch r w → BGram nl ct .regex r w
  | alt {l r u v} : BGram nl ct .regex l u → BGram nl ct .branch r v →
      BGram nl ct .regex (.alt l r) (u ++ 92 :: 124 :: v)

end Mlibc.Regex
