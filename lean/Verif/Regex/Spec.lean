import Verif.Base

/-!
# Regular expressions: what it means for one to match

A small specification, independent of how `regcomp` and `regexec` work.

A regular expression is built from single-character items, the empty expression, zero-width
assertions, concatenation, alternation and repetition.  `Re.Matches x r i j` says that `r` matches the
characters of the subject string from index `i` up to, but not including, index `j`.
-/
namespace Mlibc.Regex

/-- The zero-width assertions: `^`, `$`, `\<`, `\>`, `\b`, `\B`. -/
inductive Asrt | bol | eol | bow | eow | wb | nwb
deriving DecidableEq, Repr

/-- One item of a bracket expression: a range of characters, intersected with a character class (0: any
    character), minus the classes of `neg`.  A plain character is a range of one element; a bracket is
    a list of items, and matches a character that one of them allows. -/
structure Lit where
  lo : Nat
  hi : Nat
  cls : Nat := 0
  neg : List Nat := []
deriving DecidableEq, Repr

/-- A regular expression. -/
inductive Re
  | chr (ls : List Lit)
  | eps
  | asrt (a : Asrt)
  | cat (l r : Re)
  | alt (l r : Re)
  | rep (r : Re) (mn : Nat) (mx : Option Nat)
deriving DecidableEq, Repr

/-- What a match depends on besides the expression: the subject string (its characters, without the
    terminating zero), the flags `REG_NOTBOL`, `REG_NOTEOL`, `REG_NEWLINE` and `REG_ICASE`, and the
    character functions of the locale. -/
structure Ctx where
  str : List Nat
  notbol : Bool := false
  noteol : Bool := false
  newline : Bool := false
  icase : Bool := false
  alnum : Nat → Bool
  isctype : Nat → Nat → Bool
  lower : Nat → Nat := id
  upper : Nat → Nat := id

/-- A word character: an alphanumeric character or an underscore. -/
def IsWord (x : Ctx) (c : Nat) : Prop := c = 95 ∨ x.alnum c = true

/-- A word character stands immediately before index `i`. -/
def WordBefore (x : Ctx) (i : Nat) : Prop := ∃ k c, i = k + 1 ∧ x.str[k]? = some c ∧ IsWord x c

/-- A word character stands at index `i`. -/
def WordAt (x : Ctx) (i : Nat) : Prop := ∃ c, x.str[i]? = some c ∧ IsWord x c

/-- The assertion holds at index `i`. -/
def Holds (x : Ctx) (i : Nat) : Asrt → Prop
  | .bol => (i = 0 ∧ x.notbol = false) ∨ (x.newline = true ∧ ∃ k, i = k + 1 ∧ x.str[k]? = some 10)
  | .eol => (i = x.str.length ∧ x.noteol = false) ∨ (x.newline = true ∧ x.str[i]? = some 10)
  | .bow => ¬ WordBefore x i ∧ WordAt x i
  | .eow => WordBefore x i ∧ ¬ WordAt x i
  | .wb => i = 0 ∨ i = x.str.length ∨ ¬ (WordBefore x i ↔ WordAt x i)
  | .nwb => 0 < i ∧ i ≠ x.str.length ∧ (WordBefore x i ↔ WordAt x i)

/-- The character belongs to the class; without regard to case if `REG_ICASE` is set. -/
def InClass (x : Ctx) (c k : Nat) : Prop :=
  if x.icase then x.isctype (x.lower c) k = true ∨ x.isctype (x.upper c) k = true
  else x.isctype c k = true

/-- The item allows the character. -/
def Lit.Allows (x : Ctx) (l : Lit) (c : Nat) : Prop :=
  l.lo ≤ c ∧ c ≤ l.hi ∧ (l.cls ≠ 0 → InClass x c l.cls) ∧ ∀ k ∈ l.neg, ¬ InClass x c k

/-- `n` consecutive matches. -/
def Times (P : Nat → Nat → Prop) : Nat → Nat → Nat → Prop
  | 0, i, j => i = j
  | n + 1, i, j => ∃ k, P i k ∧ Times P n k j

/-- `r` matches the characters from index `i` up to index `j`. -/
def Re.Matches (x : Ctx) : Re → Nat → Nat → Prop
  | .chr ls, i, j => ∃ c, x.str[i]? = some c ∧ j = i + 1 ∧ ∃ l ∈ ls, l.Allows x c
  | .eps, i, j => i = j
  | .asrt a, i, j => i = j ∧ Holds x i a
  | .cat l r, i, j => ∃ k, l.Matches x i k ∧ r.Matches x k j
  | .alt l r, i, j => l.Matches x i j ∨ r.Matches x i j
  | .rep r mn mx, i, j => ∃ n, mn ≤ n ∧ (∀ m, mx = some m → n ≤ m) ∧ Times (r.Matches x) n i j

/-- Some part of the subject string matches. -/
def Re.Found (x : Ctx) (r : Re) : Prop := ∃ i j, i ≤ x.str.length ∧ r.Matches x i j

/-! Three conditions on expressions, under which the theorems are stated. -/

/-- No assertion occurs in it. -/
def Re.plain : Re → Bool
  | .asrt _ => false
  | .cat l r => l.plain && r.plain
  | .alt l r => l.plain && r.plain
  | .rep r _ _ => r.plain
  | _ => true

/-- It can match without consuming a character, if its assertions hold. -/
def Re.optional : Re → Bool
  | .chr _ => false
  | .eps => true
  | .asrt _ => true
  | .cat l r => l.optional && r.optional
  | .alt l r => l.optional || r.optional
  | .rep r mn _ => mn == 0 || r.optional

/-- Repetition counts are in order (`{m,n}` has `m ≤ n`), bracket expressions have an item. -/
def Re.proper : Re → Bool
  | .chr ls => !ls.isEmpty
  | .cat l r => l.proper && r.proper
  | .alt l r => l.proper && r.proper
  | .rep r mn mx => r.proper && (match mx with | none => true | some m => decide (mn ≤ m))
  | _ => true

/-- There is only one way to match the empty string as far as assertions are concerned: the argument of
    a repetition, and the first of two alternatives, contains no assertion if it (and the second
    alternative) can match the empty string. -/
def Re.oneEmpty : Re → Bool
  | .cat l r => l.oneEmpty && r.oneEmpty
  | .alt l r => l.oneEmpty && r.oneEmpty && (!(l.optional && r.optional) || l.plain)
  | .rep r _ _ => r.oneEmpty && (!r.optional || r.plain)
  | _ => true

/-- The repetition cannot be written with `*`, `+` or `?`. -/
def counted (mn : Nat) (mx : Option Nat) : Bool :=
  decide (1 < mn) || (match mx with | none => false | some m => decide (1 < m))

/-- No counted repetition in it (and no `{0}`). -/
def Re.level0 : Re → Bool
  | .cat l r => l.level0 && r.level0
  | .alt l r => l.level0 && r.level0
  | .rep r mn mx => r.level0 && !counted mn mx && mx != some 0
  | _ => true

/-- Counted repetitions in it are not inside another repetition (and no `{0}`). -/
def Re.level1 : Re → Bool
  | .cat l r => l.level1 && r.level1
  | .alt l r => l.level1 && r.level1
  | .rep r _ mx => r.level0 && mx != some 0
  | _ => true

/-- Counted repetitions in it are inside at most one other repetition (and no `{0}` inside any). -/
def Re.level2 : Re → Bool
  | .cat l r => l.level2 && r.level2
  | .alt l r => l.level2 && r.level2
  | .rep r _ mx => r.level1 || mx == some 0
  | _ => true

/-- The subject is a C string: no zero in it; and zero is not alphanumeric. -/
structure Ctx.Ok (x : Ctx) : Prop where
  nz : ∀ c ∈ x.str, c ≠ 0
  alnum0 : x.alnum 0 = false

end Mlibc.Regex
