/-
Specification vocabulary for C strings (independent of the model).
-/
namespace Mlibc.Str

variable {α : Type} [OfNat α 0]

/-- The object starting at the pointer holds the NUL-terminated string `s`; anything may follow the
terminator (also nothing, so that a function that is `ok` for every such `buf` never reads behind it). -/
def CStr (buf s : List α) : Prop := 0 ∉ s ∧ ∃ rest, buf = s ++ 0 :: rest

/-- `s` is the string at the pointer limited to `n` characters: either it is terminated before `n`, or the
object has (at least) `n` non-NUL characters, of which `s` are the first `n`. In the second case nothing at
or after index `n` need exist. -/
def NStr (n : Nat) (buf s : List α) : Prop :=
  0 ∉ s ∧ ((s.length < n ∧ ∃ rest, buf = s ++ 0 :: rest) ∨ (s.length = n ∧ ∃ rest, buf = s ++ rest))

/-- `p` occurs in `s` at offset `i` and at no smaller offset. -/
def FirstOcc (s p : List α) (i : Nat) : Prop :=
  i ≤ s.length ∧ p <+: s.drop i ∧ ∀ j, j < i → ¬ p <+: s.drop j

/-- `i` is the least index of an element satisfying `q`. -/
def FirstIdx (q : α → Prop) (s : List α) (i : Nat) : Prop :=
  (∃ c, s[i]? = some c ∧ q c) ∧ ∀ j, j < i → ∀ c, s[j]? = some c → ¬ q c

/-- `i` is the greatest index of an element satisfying `q`. -/
def LastIdx (q : α → Prop) (s : List α) (i : Nat) : Prop :=
  (∃ c, s[i]? = some c ∧ q c) ∧ ∀ j, i < j → ∀ c, s[j]? = some c → ¬ q c

/-- Every element of `s` before `n` satisfies `q`, the one at `n` (if any) does not. -/
def SpanLen (q : α → Prop) (s : List α) (n : Nat) : Prop :=
  n ≤ s.length ∧ (∀ j, j < n → ∀ c, s[j]? = some c → q c) ∧ ∀ c, s[n]? = some c → ¬ q c

/-- `r` has the sign C prescribes for comparing `s` and `t` in the order `<` on lists (lexicographic). -/
def SignOfCompare [LT α] (r : Int) (s t : List α) : Prop :=
  (r = 0 ↔ s = t) ∧ (r < 0 ↔ s < t) ∧ (r > 0 ↔ t < s)

end Mlibc.Str
