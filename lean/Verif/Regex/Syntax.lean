import Verif.Regex.Spec

/-!
# Extended regular expressions: the syntax

The grammar of extended regular expressions (POSIX, XBD 9.4 and 9.5.3), as a relation between an
expression and a text that denotes it; independent of the parser of `regcomp`.
-/
namespace Mlibc.Regex

/-- One term of a bracket expression: a character, a range, a character class. -/
inductive Term
  | one (c : Nat)
  | range (a b : Nat)
  | cls (k : Nat)
deriving DecidableEq, Repr

/-- The term lists the character. -/
def Term.Has (x : Ctx) (c : Nat) : Term → Prop
  | .one d => c = d
  | .range a b => a ≤ c ∧ c ≤ b
  | .cls k => InClass x c k

/-- The term is a character class. -/
def Term.isCls : Term → Bool
  | .cls _ => true
  | _ => false

/-- A character without special meaning anywhere in a bracket expression, except that a circumflex must
    not be its first one: none of `-`, `[`, `]`. -/
def PlainTerm (c : Nat) : Prop := c ≠ 0 ∧ c ≠ 45 ∧ c ≠ 91 ∧ c ≠ 93

/-- The text of a term: `c`, `a-b`, `[:name:]`. -/
inductive TermText (ct : List Nat → Nat) : Term → List Nat → Prop
  | one {c} : PlainTerm c → TermText ct (.one c) [c]
  | range {a b} : PlainTerm a → PlainTerm b → a ≤ b → TermText ct (.range a b) [a, 45, b]
  | cls {name} : ct name ≠ 0 → name.length ≤ 13 → (∀ c ∈ name, c ≠ 58 ∧ c ≠ 0) →
      TermText ct (.cls (ct name)) (91 :: 58 :: (name ++ [58, 93]))

/-- The text of several terms. -/
inductive TermsText (ct : List Nat → Nat) : List Term → List Nat → Prop
  | nil : TermsText ct [] []
  | cons {t ts u v} : TermText ct t u → TermsText ct ts v → TermsText ct (t :: ts) (u ++ v)

/-- The text between the brackets (behind the circumflex, if there is one): at least one term; a `]` can be
    the first character, a `-` the first or the last one. -/
def ListText (ct : List Nat → Nat) (ts : List Term) (w : List Nat) : Prop :=
  ∃ lead mid text trail, ts = lead.map Term.one ++ mid ++ trail.map Term.one ∧ w = lead ++ text ++ trail ∧
    TermsText ct mid text ∧ (lead = [] ∨ lead = [93] ∨ lead = [45]) ∧ (trail = [] ∨ trail = [45]) ∧ ts ≠ []

/-- A decimal numeral. -/
def Numeral (n : Nat) (w : List Nat) : Prop :=
  w ≠ [] ∧ (∀ c ∈ w, 48 ≤ c ∧ c ≤ 57) ∧ n = w.foldl (fun a c => 10 * a + (c - 48)) 0

/-- The text of a repetition: `*`, `+`, `?`, `{m}`, `{m,}`, `{m,n}`; counts are at most `RE_DUP_MAX`, 255. -/
inductive Dup : Nat → Option Nat → List Nat → Prop
  | star : Dup 0 none [42]
  | plus : Dup 1 none [43]
  | opt : Dup 0 (some 1) [63]
  | exact {m w} : Numeral m w → m ≤ 255 → Dup m (some m) (123 :: (w ++ [125]))
  | atLeast {m w} : Numeral m w → m ≤ 255 → Dup m none (123 :: (w ++ [44, 125]))
  | between {m n u v} : Numeral m u → Numeral n v → m ≤ n → n ≤ 255 →
      Dup m (some n) (123 :: (u ++ (44 :: (v ++ [125]))))

/-- A character that stands for itself: none of `^.[$()|*+?{\`. -/
def Ordinary (c : Nat) : Prop :=
  c ≠ 0 ∧ c ≠ 94 ∧ c ≠ 46 ∧ c ≠ 91 ∧ c ≠ 36 ∧ c ≠ 40 ∧ c ≠ 41 ∧ c ≠ 124 ∧ c ≠ 42 ∧ c ≠ 43 ∧ c ≠ 63 ∧ c ≠ 123 ∧ c ≠ 92

/-- A character that stands for itself behind a backslash: one of `^.[]$()|*+?{}\`, the slash, the hyphen. -/
def Quotable (c : Nat) : Prop :=
  c = 94 ∨ c = 46 ∨ c = 91 ∨ c = 93 ∨ c = 36 ∨ c = 40 ∨ c = 41 ∨ c = 124 ∨ c = 42 ∨ c = 43 ∨ c = 63 ∨ c = 123 ∨
    c = 125 ∨ c = 92 ∨ c = 47 ∨ c = 45

/-- The levels of the grammar. -/
inductive Lvl | piece | branch | regex

/-- `Gram nl ct lvl r w`: the text `w` denotes the expression `r`; `nl` is `REG_NEWLINE`, `ct` is `wctype`.
    Where a text stands for a set of characters, any list of items that allows exactly that set will do. -/
inductive Gram (nl : Bool) (ct : List Nat → Nat) : Lvl → Re → List Nat → Prop
  /-- A character. -/
  | ord {c} : Ordinary c → Gram nl ct .piece (.chr [{ lo := c, hi := c }]) [c]
  /-- A quoted character. -/
  | quoted {c} : Quotable c → Gram nl ct .piece (.chr [{ lo := c, hi := c }]) [92, c]
  /-- `.`: any character; with `REG_NEWLINE`, any but a newline. -/
  | dot {ls : List Lit} : ls ≠ [] →
      (∀ x c, c ≤ 1114111 → ((∃ l ∈ ls, l.Allows x c) ↔ ¬ (nl = true ∧ c = 10))) →
      Gram nl ct .piece (.chr ls) [46]
  /-- `[…]`: any character that is listed. -/
  | bracket {ts w} {ls : List Lit} : ListText ct ts w → w.head? ≠ some 94 → ls ≠ [] →
      (∀ x c, c ≤ 1114111 → ((∃ l ∈ ls, l.Allows x c) ↔ ∃ t ∈ ts, t.Has x c)) →
      Gram nl ct .piece (.chr ls) (91 :: (w ++ [93]))
  /-- `[^…]`: any character that is not listed; with `REG_NEWLINE`, not a newline.  At most 64 classes. -/
  | nbracket {ts w} {ls : List Lit} : ListText ct ts w → (ts.filter Term.isCls).length ≤ 64 → ls ≠ [] →
      (∀ x c, c ≤ 1114111 →
        ((∃ l ∈ ls, l.Allows x c) ↔ (¬ ∃ t ∈ ts, t.Has x c) ∧ ¬ (nl = true ∧ c = 10))) →
      Gram nl ct .piece (.chr ls) (91 :: 94 :: (w ++ [93]))
  /-- `^`, `$`, `\<`, `\>`, `\b`, `\B`. -/
  | bol : Gram nl ct .piece (.asrt .bol) [94]
  | eol : Gram nl ct .piece (.asrt .eol) [36]
  | bow : Gram nl ct .piece (.asrt .bow) [92, 60]
  | eow : Gram nl ct .piece (.asrt .eow) [92, 62]
  | wb : Gram nl ct .piece (.asrt .wb) [92, 98]
  | nwb : Gram nl ct .piece (.asrt .nwb) [92, 66]
  /-- `(…)` and `()`. -/
  | group {r w} : Gram nl ct .regex r w → Gram nl ct .piece r (40 :: (w ++ [41]))
  | unit : Gram nl ct .piece .eps [40, 41]
  /-- A repetition. -/
  | dup {r w mn mx d} : Gram nl ct .piece r w → Dup mn mx d → Gram nl ct .piece (.rep r mn mx) (w ++ d)
  /-- One piece, or several in a row. -/
  | one {r w} : Gram nl ct .piece r w → Gram nl ct .branch r w
  | cat {l r u v} : Gram nl ct .branch l u → Gram nl ct .piece r v → Gram nl ct .branch (.cat l r) (u ++ v)
  /-- One branch, or several with `|` between them. -/
  | single {r w} : Gram nl ct .branch r w → Gram nl ct .regex r w
  | alt {l r u v} : Gram nl ct .regex l u → Gram nl ct .branch r v → Gram nl ct .regex (.alt l r) (u ++ 124 :: v)

/-- The characters of the subject are Unicode code points. -/
def Ctx.Small (x : Ctx) : Prop := ∀ c ∈ x.str, c ≤ 1114111

end Mlibc.Regex
