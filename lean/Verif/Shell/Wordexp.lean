import Verif.Base

/-
The check of the string before `wordexp` gives it to the shell (options/posix/generic/wordexp.cpp L212-305).
The string is the list of its characters with the terminator and whatever follows it in the same object; reading behind
the list is undefined. Characters are numbers. Property C56.
-/
namespace Mlibc.Wordexp
open Mlibc

/-- The results of the check: 0, WRDE_BADCHAR, WRDE_CMDSUB and WRDE_SYNTAX. -/
inductive Code
  | ok | badchar | cmdsub | syntax
  deriving DecidableEq, Repr

/-- `|` `&` `;` `<` `>` `{` `}` `(` `)` newline. L241-250 -/
def specials : List Nat := [124, 38, 59, 60, 62, 123, 125, 40, 41, 10]

/-- Reading up to the next backquote. The result is what follows it, `none` if the terminator comes first. L234-238 -/
def tick : List Nat → Res (Option (List Nat))
  | [] => .ub
  | c :: w =>
    if c = 0 then .ok none
    else if c = 96 then .ok (some w)
    else if c = 92 then
      match w with
      | [] => .ub
      | d :: w => if d = 0 then .ok none else tick w
    else tick w

/-- Reading up to the closing character that belongs to the opening character already read, `level` is the depth.
L260-268 with parentheses and L273-281 with braces -/
def span (o c : Nat) : Nat → List Nat → Res (Option (List Nat))
  | _, [] => .ub
  | level, x :: w =>
    if x = 0 then .ok none
    else if x = 92 then
      match w with
      | [] => .ub
      | d :: w => if d = 0 then .ok none else span o c level w
    else if x = o then span o c (level + 1) w
    else if x = c then (if level = 1 then .ok (some w) else span o c (level - 1) w)
    else span o c level w

/-- The loop of `we_check`. Every turn reads at least one character, so that `fuel` (the length of the list) is never used up.
L218-304 -/
def loop (nocmd : Bool) : Nat → Bool → Bool → Bool → List Nat → Res Code
  | 0, _, _, _, _ => .ub
  | _ + 1, _, _, _, [] => .ub
  | fuel + 1, quote, squote, dquote, c :: w =>
    if c = 0 then .ok (if quote || squote || dquote then .syntax else .ok)
    else if c = 92 then loop nocmd fuel (if squote then quote else !quote) squote dquote w
    else if c = 39 then loop nocmd fuel false (if quote || dquote then squote else !squote) dquote w
    else if c = 34 then loop nocmd fuel false squote (if quote || squote then dquote else !dquote) w
    else if c = 96 then
      if !(quote || squote) && nocmd then .ok .cmdsub
      else (tick w).bind fun
        | none => .ok .syntax
        | some w => loop nocmd fuel false squote dquote w
    else if c ∈ specials then
      if !(quote || squote || dquote) then .ok .badchar
      else loop nocmd fuel false squote dquote w
    else if c = 36 then
      match w with
      | [] => .ub
      | d :: w =>
        if d = 0 then loop nocmd fuel false squote dquote w
        else if !(quote || squote) && d == 40 then
          (if nocmd then (match w with | [] => Res.ub | e :: _ => .ok (e != 40)) else .ok false).bind fun
          | true => .ok .cmdsub
          | false => (span 40 41 1 w).bind fun
            | none => .ok .syntax
            | some w => loop nocmd fuel false squote dquote w
        else if !(quote || squote) && d == 123 then
          (span 123 125 1 w).bind fun
          | none => .ok .syntax
          | some w => loop nocmd fuel false squote dquote w
        else loop nocmd fuel false squote dquote (d :: w)
    else loop nocmd fuel false squote dquote w

/-- `we_check`. L212-305 -/
def check (nocmd : Bool) (words : List Nat) : Res Code := loop nocmd words.length false false false words

/-! ## Specification: the quoting rules of the shell -/

/-- A text in which the characters `o` and `c` that are not escaped are balanced. -/
inductive Nested (o c : Nat) : List Nat → Prop
  | nil : Nested o c []
  | plain {x s} : x ≠ 92 → x ≠ o → x ≠ c → Nested o c s → Nested o c (x :: s)
  | escaped {x s} : Nested o c s → Nested o c (92 :: x :: s)
  | group {s t} : Nested o c s → Nested o c t → Nested o c (o :: (s ++ c :: t))

/-- A text without a backquote that is not escaped. -/
inductive Ticked : List Nat → Prop
  | nil : Ticked []
  | plain {x s} : x ≠ 92 → x ≠ 96 → Ticked s → Ticked (x :: s)
  | escaped {x s} : Ticked s → Ticked (92 :: x :: s)

/-- The text contains no command substitution (nor a quoted backquote). -/
def Harmless (s : List Nat) : Prop := 96 ∉ s ∧ ¬ [36, 40] <:+: s

/-- The characters POSIX says must be quoted: `| & ; < > { } ( )` and newline. -/
def mustQuote : List Nat := [124, 38, 59, 60, 62, 123, 125, 40, 41, 10]

/-- `Judge nocmd full dq w r`: the rest `w` of a string deserves the verdict `r`; `dq` says whether we are between double quotes.
With `full` this covers all strings (the rules marked with `full` are those the implementation does not keep). -/
inductive Judge (nocmd full : Bool) : Bool → List Nat → Code → Prop
  /-- The end. -/
  | done : Judge nocmd full false [] .ok
  /-- A double quote is missing. -/
  | unclosed : Judge nocmd full true [] .syntax
  /-- A character after a backslash stands for itself. -/
  | escaped {dq c w r} : full = true ∨ (c ≠ 96 ∧ (c = 36 → w ≠ [])) → Judge nocmd full dq w r →
      Judge nocmd full dq (92 :: c :: w) r
  /-- A backslash at the end. -/
  | lone {dq} : Judge nocmd full dq [92] .syntax
  /-- Everything between single quotes stands for itself. -/
  | single {s w r} : 39 ∉ s → full = true ∨ 96 ∉ s → Judge nocmd full false w r → Judge nocmd full false (39 :: (s ++ 39 :: w)) r
  /-- A single quote is missing. -/
  | singleOpen {s} : 39 ∉ s → full = true ∨ (96 ∉ s ∧ ∀ s', s ≠ s' ++ [36]) → Judge nocmd full false (39 :: s) .syntax
  /-- A double quote. -/
  | double {dq w r} : Judge nocmd full (!dq) w r → Judge nocmd full dq (34 :: w) r
  /-- One of the characters that must be quoted. -/
  | special {c w} : c ∈ mustQuote → Judge nocmd full false (c :: w) .badchar
  /-- A command substitution with backquotes where it is forbidden. -/
  | tickCmd {dq w} : nocmd = true → Judge nocmd full dq (96 :: w) .cmdsub
  /-- A command substitution with backquotes where it is allowed. -/
  | tick {dq s w r} : nocmd = false → Ticked s → Judge nocmd full dq w r → Judge nocmd full dq (96 :: (s ++ 96 :: w)) r
  /-- A backquote is missing. -/
  | tickOpen {dq w} : nocmd = false → (∀ s t, w = s ++ 96 :: t → ¬ Ticked s) → Judge nocmd full dq (96 :: w) .syntax
  /-- A command substitution with parentheses where it is forbidden. -/
  | parenCmd {dq w} : nocmd = true → w.head? ≠ some 40 → Judge nocmd full dq (36 :: 40 :: w) .cmdsub
  /-- An arithmetic expansion, or a command substitution where it is allowed. -/
  | paren {dq s w r} : (nocmd = true → (s ++ 41 :: w).head? = some 40 ∧ Harmless (40 :: s)) → Nested 40 41 s → Judge nocmd full dq w r →
      Judge nocmd full dq (36 :: 40 :: (s ++ 41 :: w)) r
  /-- A parenthesis is missing. -/
  | parenOpen {dq w} : (nocmd = true → w.head? = some 40) → (∀ s t, w = s ++ 41 :: t → ¬ Nested 40 41 s) →
      Judge nocmd full dq (36 :: 40 :: w) .syntax
  /-- A parameter expansion. -/
  | brace {dq s w r} : (nocmd = true → Harmless s) → Nested 123 125 s → Judge nocmd full dq w r →
      Judge nocmd full dq (36 :: 123 :: (s ++ 125 :: w)) r
  /-- A brace is missing. -/
  | braceOpen {dq w} : (∀ s t, w = s ++ 125 :: t → ¬ Nested 123 125 s) → Judge nocmd full dq (36 :: 123 :: w) .syntax
  /-- A command substitution hidden in an arithmetic or parameter expansion where it is forbidden. -/
  | hidden {dq o c s w} : full = true → nocmd = true → (o = 40 ∧ c = 41 ∧ s.head? = some 40) ∨ (o = 123 ∧ c = 125) →
      Nested o c s → [36, 40] <:+: s → ¬ [36, 40, 40] <:+: s → Judge nocmd full dq (36 :: o :: (s ++ c :: w)) .cmdsub
  /-- A dollar sign that begins none of these. -/
  | dollar {dq c w r} : c ≠ 40 → c ≠ 123 → Judge nocmd full dq (c :: w) r → Judge nocmd full dq (36 :: c :: w) r
  /-- A dollar sign at the end. -/
  | dollarEnd {dq r} : full = true → Judge nocmd full dq [] r → Judge nocmd full dq [36] r
  /-- Any other character. Between double quotes this includes those that must be quoted and the single quote. -/
  | plain {dq c w r} : c ≠ 92 → c ≠ 34 → c ≠ 96 → c ≠ 36 → (dq = false → c ≠ 39 ∧ c ∉ mustQuote) → Judge nocmd full dq w r →
      Judge nocmd full dq (c :: w) r

/-! ## Proof -/

theorem span_nested {o c : Nat} (ho : o ≠ 0 ∧ o ≠ 92) (hc : c ≠ 0 ∧ c ≠ 92 ∧ c ≠ o) {s : List Nat} (h : Nested o c s) :
    0 ∉ s → ∀ (level : Nat) (w : List Nat), 1 ≤ level → span o c level (s ++ w) = span o c level w := by
  induction h with
  | nil => intros; rfl
  | @plain x s h1 h2 h3 _ ih =>
    intro h0 level w hl
    simp only [List.mem_cons, not_or] at h0
    rw [List.cons_append, span.eq_def]
    simp only
    rw [if_neg (Ne.symm h0.1), if_neg h1, if_neg h2, if_neg h3]
    exact ih h0.2 level w hl
  | @escaped x s _ ih =>
    intro h0 level w hl
    simp only [List.mem_cons, not_or] at h0
    rw [List.cons_append, List.cons_append, span.eq_def]
    simp only
    rw [if_neg (by decide), if_pos trivial, if_neg (Ne.symm h0.2.1)]
    exact ih h0.2.2 level w hl
  | @group s t _ _ ih1 ih2 =>
    intro h0 level w hl
    simp only [List.mem_cons, List.mem_append, not_or] at h0
    rw [List.cons_append, List.append_assoc, span.eq_def]
    simp only
    rw [if_neg ho.1, if_neg ho.2, if_pos trivial, ih1 h0.2.1 _ _ (by omega), List.cons_append, span.eq_def]
    simp only
    rw [if_neg hc.1, if_neg hc.2.1, if_neg hc.2.2, if_pos trivial, if_neg (by omega)]
    exact ih2 h0.2.2.2 level w hl

theorem span_cases {o c : Nat} (ho : o ≠ 92) (rest : List Nat) : ∀ (n : Nat) (w : List Nat) (k : Nat), w.length ≤ n → 0 ∉ w →
    span o c (k + 1) (w ++ 0 :: rest) = .ok none ∨
    ∃ s t, w = s ++ c :: t ∧ Nested o c s ∧
      span o c (k + 1) (w ++ 0 :: rest) = if k = 0 then .ok (some (t ++ 0 :: rest)) else span o c k (t ++ 0 :: rest) := by
  have hz : ∀ k, span o c k (0 :: rest) = .ok none := by
    intro k; rw [span.eq_def]; simp only [if_true]
  intro n
  induction n with
  | zero =>
    intro w k hn h0
    cases w with
    | nil => exact Or.inl (hz _)
    | cons x w => simp at hn
  | succ n ih =>
    intro w k hn h0
    cases w with
    | nil => exact Or.inl (hz _)
    | cons x w =>
      simp only [List.length_cons] at hn
      simp only [List.mem_cons, not_or] at h0
      rw [List.cons_append, span.eq_def]
      simp only
      rw [if_neg (Ne.symm h0.1)]
      split
      · rename_i h92
        subst h92
        cases w with
        | nil => exact Or.inl (by simp)
        | cons d w =>
          simp only [List.length_cons] at hn
          simp only [List.mem_cons, not_or] at h0
          simp only [List.cons_append]
          rw [if_neg (Ne.symm h0.2.1)]
          rcases ih w k (by omega) h0.2.2 with h | ⟨s, t, e1, e2, e3⟩
          · exact Or.inl h
          · exact Or.inr ⟨92 :: d :: s, t, by rw [e1]; rfl, .escaped e2, e3⟩
      · rename_i hx92
        split
        · rename_i hxo
          subst hxo
          rcases ih w (k + 1) (by omega) h0.2 with h | ⟨s, t, e1, e2, e3⟩
          · exact Or.inl h
          · rw [e3, if_neg (by omega)]
            have hl : t.length ≤ n := by
              have := congrArg List.length e1
              simp at this
              omega
            have ht : 0 ∉ t := fun h => h0.2 (by rw [e1]; simp [h])
            rcases ih t k hl ht with h | ⟨s', t', f1, f2, f3⟩
            · exact Or.inl h
            · exact Or.inr ⟨x :: (s ++ c :: s'), t', by rw [e1, f1]; simp, .group e2 f2, f3⟩
        · rename_i hxo
          split
          · rename_i hxc
            subst hxc
            refine Or.inr ⟨[], w, rfl, .nil, ?_⟩
            by_cases hk : k = 0
            · rw [if_pos hk, if_pos (by omega)]
            · rw [if_neg hk, if_neg (by omega)]
              rfl
          · rename_i hxc
            rcases ih w k (by omega) h0.2 with h | ⟨s, t, e1, e2, e3⟩
            · exact Or.inl h
            · exact Or.inr ⟨x :: s, t, by rw [e1]; rfl, .plain hx92 hxo hxc e2, e3⟩

/-- An unclosed span. -/
theorem span_none {o c : Nat} (ho : o ≠ 92) (w rest : List Nat) (h0 : 0 ∉ w) (h : ∀ s t, w = s ++ c :: t → ¬ Nested o c s) :
    span o c 1 (w ++ 0 :: rest) = .ok none := by
  rcases span_cases ho rest _ w 0 (Nat.le_refl _) h0 with h' | ⟨s, t, e1, e2, -⟩
  · exact h'
  · exact absurd e2 (h s t e1)

theorem span_close {o c : Nat} (ho : o ≠ 0 ∧ o ≠ 92) (hc : c ≠ 0 ∧ c ≠ 92 ∧ c ≠ o) {s : List Nat} (h : Nested o c s) (h0 : 0 ∉ s) (w : List Nat) :
    span o c 1 (s ++ c :: w) = .ok (some w) := by
  rw [span_nested ho hc h h0 1 _ (Nat.le_refl _), span.eq_def]
  simp only
  rw [if_neg hc.1, if_neg hc.2.1, if_neg hc.2.2, if_pos trivial, if_pos trivial]

theorem tick_ticked {s : List Nat} (h : Ticked s) : 0 ∉ s → ∀ w, tick (s ++ w) = tick w := by
  induction h with
  | nil => intros; rfl
  | @plain x s h1 h2 _ ih =>
    intro h0 w
    simp only [List.mem_cons, not_or] at h0
    rw [List.cons_append, tick.eq_def]
    simp only
    rw [if_neg (Ne.symm h0.1), if_neg h2, if_neg h1]
    exact ih h0.2 w
  | @escaped x s _ ih =>
    intro h0 w
    simp only [List.mem_cons, not_or] at h0
    rw [List.cons_append, List.cons_append, tick.eq_def]
    simp only
    rw [if_neg (by decide), if_neg (by decide), if_pos trivial, if_neg (Ne.symm h0.2.1)]
    exact ih h0.2.2 w

theorem tick_close {s : List Nat} (h : Ticked s) (h0 : 0 ∉ s) (w : List Nat) : tick (s ++ 96 :: w) = .ok (some w) := by
  rw [tick_ticked h h0, tick.eq_def]
  simp

theorem tick_cases (rest : List Nat) : ∀ (n : Nat) (w : List Nat), w.length ≤ n → 0 ∉ w →
    tick (w ++ 0 :: rest) = .ok none ∨ ∃ s t, w = s ++ 96 :: t ∧ Ticked s := by
  have hz : tick (0 :: rest) = .ok none := by rw [tick.eq_def]; simp
  intro n
  induction n with
  | zero =>
    intro w hn h0
    cases w with
    | nil => exact Or.inl hz
    | cons x w => simp at hn
  | succ n ih =>
    intro w hn h0
    cases w with
    | nil => exact Or.inl hz
    | cons x w =>
      simp only [List.length_cons] at hn
      simp only [List.mem_cons, not_or] at h0
      rw [List.cons_append, tick.eq_def]
      simp only
      rw [if_neg (Ne.symm h0.1)]
      split
      · rename_i h96
        subst h96
        exact Or.inr ⟨[], w, rfl, .nil⟩
      · rename_i h96
        split
        · rename_i h92
          subst h92
          cases w with
          | nil => exact Or.inl (by simp)
          | cons d w =>
            simp only [List.length_cons] at hn
            simp only [List.mem_cons, not_or] at h0
            simp only [List.cons_append]
            rw [if_neg (Ne.symm h0.2.1)]
            rcases ih w (by omega) h0.2.2 with h | ⟨s, t, e1, e2⟩
            · exact Or.inl h
            · exact Or.inr ⟨92 :: d :: s, t, by rw [e1]; rfl, .escaped e2⟩
        · rename_i h92
          rcases ih w (by omega) h0.2 with h | ⟨s, t, e1, e2⟩
          · exact Or.inl h
          · exact Or.inr ⟨x :: s, t, by rw [e1]; rfl, .plain h92 h96 e2⟩

theorem tick_none (w rest : List Nat) (h0 : 0 ∉ w) (h : ∀ s t, w = s ++ 96 :: t → ¬ Ticked s) : tick (w ++ 0 :: rest) = .ok none := by
  rcases tick_cases rest _ w (Nat.le_refl _) h0 with h' | ⟨s, t, e1, e2⟩
  · exact h'
  · exact absurd e2 (h s t e1)

/-- Between single quotes. -/
theorem loop_single (nocmd : Bool) : ∀ (s : List Nat) (fuel : Nat) (w : List Nat), 0 ∉ s → 39 ∉ s → 96 ∉ s → w ≠ [] → (w.head? = some 0 → ∀ s', s ≠ s' ++ [36]) →
    s.length ≤ fuel → loop nocmd fuel false true false (s ++ w) = loop nocmd (fuel - s.length) false true false w := by
  intro s
  induction s with
  | nil => intros; rfl
  | cons c s ih =>
    intro fuel w h0 h39 h96 hw h36 hf
    simp only [List.mem_cons, not_or] at h0 h39 h96
    cases fuel with
    | zero => simp at hf
    | succ fuel =>
      have ihx := ih fuel w h0.2 h39.2 h96.2 hw
        (fun hh s' e => h36 hh (c :: s') (by rw [e]; rfl)) (by simpa using hf)
      have he : fuel + 1 - (c :: s).length = fuel - s.length := by simp
      rw [he, ← ihx, List.cons_append, loop.eq_def]
      simp only
      rw [if_neg (Ne.symm h0.1)]
      split
      · rfl
      · rw [if_neg (Ne.symm h39.1)]
        split
        · rfl
        · rw [if_neg (Ne.symm h96.1)]
          split
          · simp
          · split
            · rename_i h36'
              subst h36'
              cases hs : s with
              | nil =>
                cases w with
                | nil => exact absurd rfl hw
                | cons x w =>
                  simp only [List.nil_append]
                  rw [if_neg (by rintro rfl; exact h36 rfl [] (by rw [hs]; rfl))]
                  simp
              | cons d s' =>
                simp only [List.cons_append]
                rw [hs] at h0
                rw [if_neg (by rintro rfl; exact h0.2 (by simp))]
                simp
            · rfl

/-- The implementation gives the verdict that a string deserves. -/
theorem loop_judge (nocmd : Bool) (rest : List Nat) {dq : Bool} {w : List Nat} {r : Code} (h : Judge nocmd false dq w r) :
    0 ∉ w → ∀ fuel, w.length < fuel → loop nocmd fuel false false dq (w ++ 0 :: rest) = .ok r := by
  induction h with
  | done =>
    intro _ fuel hf
    cases fuel with
    | zero => simp at hf
    | succ fuel => simp [loop]
  | unclosed =>
    intro _ fuel hf
    cases fuel with
    | zero => simp at hf
    | succ fuel => simp [loop]
  | @escaped dq c w r hc _ ih =>
    intro h0 fuel hf
    simp only [List.mem_cons, not_or, Bool.false_eq_true, false_or, List.length_cons] at h0 hc hf
    obtain ⟨fuel, rfl⟩ : ∃ f, fuel = f + 2 := ⟨fuel - 2, by omega⟩
    have ihx := ih h0.2.2 fuel (by omega)
    rw [List.cons_append, List.cons_append, loop.eq_def]
    simp only [if_false, if_true, Bool.false_eq_true, Bool.not_false, Nat.reduceEqDiff]
    rw [loop.eq_def]
    simp only
    rw [if_neg (Ne.symm h0.2.1)]
    split
    · simpa using ihx
    · split
      · simpa using ihx
      · split
        · simpa using ihx
        · rw [if_neg hc.1]
          split
          · simpa using ihx
          · split
            · rename_i h36
              cases w with
              | nil => exact absurd rfl (hc.2 h36)
              | cons d w =>
                simp only [List.mem_cons, not_or] at h0
                simp only [List.cons_append]
                rw [if_neg (Ne.symm h0.2.2.1)]
                simpa using ihx
            · simpa using ihx
  | lone =>
    intro _ fuel hf
    simp only [List.length_cons, List.length_nil] at hf
    obtain ⟨fuel, rfl⟩ : ∃ f, fuel = f + 2 := ⟨fuel - 2, by omega⟩
    simp [loop]
  | @single s w r h39 h96 _ ih =>
    intro h0 fuel hf
    simp only [List.mem_cons, List.mem_append, not_or, Bool.false_eq_true, false_or, List.length_cons, List.length_append] at h0 h96 hf
    obtain ⟨fuel, rfl⟩ : ∃ f, fuel = f + s.length + 2 := ⟨fuel - 2 - s.length, by omega⟩
    have ihx := ih h0.2.2.2 fuel (by omega)
    rw [List.cons_append, List.append_assoc, loop.eq_def]
    simp only [if_false, if_true, Bool.false_eq_true, Bool.or_self, Nat.reduceEqDiff, Bool.not_false]
    rw [loop_single nocmd s _ _ h0.2.1 h39 h96 (by simp) (by simp) (by omega), List.cons_append,
      show fuel + s.length + 1 - s.length = fuel + 1 by omega, loop.eq_def]
    simpa using ihx
  | @singleOpen s h39 h96 =>
    intro h0 fuel hf
    simp only [List.mem_cons, not_or, Bool.false_eq_true, false_or, List.length_cons] at h0 h96 hf
    obtain ⟨fuel, rfl⟩ : ∃ f, fuel = f + s.length + 2 := ⟨fuel - 2 - s.length, by omega⟩
    rw [List.cons_append, loop.eq_def]
    simp only [if_false, if_true, Bool.false_eq_true, Bool.or_self, Nat.reduceEqDiff, Bool.not_false]
    rw [loop_single nocmd s _ _ h0.2 h39 h96.1 (by simp) (fun _ => h96.2) (by omega),
      show fuel + s.length + 1 - s.length = fuel + 1 by omega, loop.eq_def]
    simp
  | @double dq w r _ ih =>
    intro h0 fuel hf
    simp only [List.mem_cons, not_or, List.length_cons] at h0 hf
    obtain ⟨fuel, rfl⟩ : ∃ f, fuel = f + 1 := ⟨fuel - 1, by omega⟩
    rw [← ih h0.2 fuel (by omega), List.cons_append, loop.eq_def]
    simp
  | @special c w hc =>
    intro h0 fuel hf
    have hc : c ∈ specials := hc
    simp only [List.length_cons] at hf
    obtain ⟨fuel, rfl⟩ : ∃ f, fuel = f + 1 := ⟨fuel - 1, by omega⟩
    have : c ≠ 0 ∧ c ≠ 92 ∧ c ≠ 39 ∧ c ≠ 34 ∧ c ≠ 96 := by
      refine ⟨?_, ?_, ?_, ?_, ?_⟩ <;> (rintro rfl; exact absurd hc (by decide))
    rw [List.cons_append, loop.eq_def]
    simp [this, hc]
  | @tickCmd dq w hn =>
    intro h0 fuel hf
    simp only [List.length_cons] at hf
    obtain ⟨fuel, rfl⟩ : ∃ f, fuel = f + 1 := ⟨fuel - 1, by omega⟩
    rw [List.cons_append, loop.eq_def]
    simp [hn]
  | @tick dq s w r hn hs _ ih =>
    intro h0 fuel hf
    simp only [List.mem_cons, List.mem_append, not_or, List.length_cons, List.length_append] at h0 hf
    obtain ⟨fuel, rfl⟩ : ∃ f, fuel = f + 1 := ⟨fuel - 1, by omega⟩
    have ihx := ih h0.2.2.2 fuel (by omega)
    rw [List.cons_append, List.append_assoc, List.cons_append, loop.eq_def]
    simp only [if_false, if_true, Bool.false_eq_true, Bool.or_self, Nat.reduceEqDiff, Bool.not_false, hn, Bool.and_false]
    rw [tick_close hs h0.2.1]
    rw [hn] at ihx
    simpa [Res.bind] using ihx
  | @tickOpen dq w hn hw =>
    intro h0 fuel hf
    simp only [List.mem_cons, not_or, List.length_cons] at h0 hf
    obtain ⟨fuel, rfl⟩ : ∃ f, fuel = f + 1 := ⟨fuel - 1, by omega⟩
    rw [List.cons_append, loop.eq_def]
    simp only [if_false, if_true, Bool.false_eq_true, Bool.or_self, Nat.reduceEqDiff, Bool.not_false, hn, Bool.and_false]
    rw [tick_none w rest h0.2 hw]
    rfl
  | @parenCmd dq w hn hw =>
    intro h0 fuel hf
    simp only [List.length_cons] at hf
    obtain ⟨fuel, rfl⟩ : ∃ f, fuel = f + 1 := ⟨fuel - 1, by omega⟩
    rw [List.cons_append, List.cons_append, loop.eq_def]
    cases w with
    | nil => simp [hn, specials, Res.bind]
    | cons e w =>
      have : (e != 40) = true := by simpa using hw
      simp [hn, specials, Res.bind, this]
  | @paren dq s w r hn hs _ ih =>
    intro h0 fuel hf
    simp only [List.mem_cons, List.mem_append, not_or, List.length_cons, List.length_append] at h0 hf
    obtain ⟨fuel, rfl⟩ : ∃ f, fuel = f + 1 := ⟨fuel - 1, by omega⟩
    have ihx := ih h0.2.2.2.2 fuel (by omega)
    have hsp := span_close (o := 40) (c := 41) (by decide) (by decide) hs h0.2.2.1 (w ++ 0 :: rest)
    have e : s ++ 41 :: w ++ 0 :: rest = s ++ 41 :: (w ++ 0 :: rest) := by simp
    rw [List.cons_append, List.cons_append, e, loop.eq_def]
    cases nocmd with
    | false => simpa [specials, Res.bind, hsp] using ihx
    | true =>
      have hh := (hn rfl).1
      cases hl : s ++ 41 :: (w ++ 0 :: rest) with
      | nil => simp at hl
      | cons a l =>
        have : a = 40 := by
          cases s with
          | nil => simp at hh
          | cons b s => simp at hh hl; omega
        rw [hl] at hsp
        subst this
        simpa [specials, Res.bind, hsp] using ihx
  | @parenOpen dq w hn hw =>
    intro h0 fuel hf
    simp only [List.mem_cons, not_or, List.length_cons] at h0 hf
    obtain ⟨fuel, rfl⟩ : ∃ f, fuel = f + 1 := ⟨fuel - 1, by omega⟩
    have hsp := span_none (o := 40) (by decide) w rest h0.2.2 hw
    rw [List.cons_append, List.cons_append, loop.eq_def]
    cases nocmd with
    | false => simp [specials, Res.bind, hsp]
    | true =>
      cases w with
      | nil => exact absurd (hn rfl) (by simp)
      | cons a l =>
        have : a = 40 := by simpa using hn rfl
        subst this
        rw [List.cons_append] at hsp
        simp [specials, Res.bind, hsp]
  | @brace dq s w r hn hs _ ih =>
    intro h0 fuel hf
    simp only [List.mem_cons, List.mem_append, not_or, List.length_cons, List.length_append] at h0 hf
    obtain ⟨fuel, rfl⟩ : ∃ f, fuel = f + 1 := ⟨fuel - 1, by omega⟩
    have ihx := ih h0.2.2.2.2 fuel (by omega)
    have hsp := span_close (o := 123) (c := 125) (by decide) (by decide) hs h0.2.2.1 (w ++ 0 :: rest)
    have e : s ++ 125 :: w ++ 0 :: rest = s ++ 125 :: (w ++ 0 :: rest) := by simp
    rw [List.cons_append, List.cons_append, e, loop.eq_def]
    simpa [specials, Res.bind, hsp] using ihx
  | @braceOpen dq w hw =>
    intro h0 fuel hf
    simp only [List.mem_cons, not_or, List.length_cons] at h0 hf
    obtain ⟨fuel, rfl⟩ : ∃ f, fuel = f + 1 := ⟨fuel - 1, by omega⟩
    have hsp := span_none (o := 123) (by decide) w rest h0.2.2 hw
    rw [List.cons_append, List.cons_append, loop.eq_def]
    simp [specials, Res.bind, hsp]
  | hidden hf => cases hf
  | @dollar dq c w r h40 h123 _ ih =>
    intro h0 fuel hf
    simp only [List.mem_cons, not_or, List.length_cons] at h0 hf
    obtain ⟨fuel, rfl⟩ : ∃ f, fuel = f + 1 := ⟨fuel - 1, by omega⟩
    have ihx := ih (by simp [h0]) fuel (by simp; omega)
    rw [List.cons_append, List.cons_append, loop.eq_def]
    simpa [specials, h40, h123, Ne.symm h0.2.1] using ihx
  | dollarEnd hf => cases hf
  | @plain dq c w r h92 h34 h96 h36 hq _ ih =>
    intro h0 fuel hf
    simp only [List.mem_cons, not_or, List.length_cons] at h0 hf
    obtain ⟨fuel, rfl⟩ : ∃ f, fuel = f + 1 := ⟨fuel - 1, by omega⟩
    have ihx := ih h0.2 fuel (by omega)
    rw [List.cons_append, loop.eq_def]
    cases dq with
    | true => simp [Ne.symm h0.1, h92, h34, h96, h36, ihx]
    | false =>
      have hq : c ≠ 39 ∧ c ∉ specials := hq rfl
      simp [Ne.symm h0.1, h92, h34, h96, h36, hq, ihx]

/-- C56, for strings whose quoted characters are no backquotes, that do not end in a dollar sign, and, where command
substitution is forbidden, without command substitutions inside other expansions: the verdict is the deserved one. -/
theorem check_exact_partial (nocmd : Bool) (w rest : List Nat) (r : Code) (h0 : 0 ∉ w) (h : Judge nocmd false false w r) :
    check nocmd (w ++ 0 :: rest) = .ok r :=
  loop_judge nocmd rest h h0 _ (by simp)

theorem first_cut (a : Nat) : ∀ w : List Nat, a ∈ w → ∃ s t, w = s ++ a :: t ∧ a ∉ s := by
  intro w
  induction w with
  | nil => intro h; cases h
  | cons b w ih =>
    intro h
    by_cases hb : b = a
    · exact ⟨[], w, by rw [hb]; rfl, by simp⟩
    · rcases List.mem_cons.1 h with h | h
      · exact absurd h.symm hb
      · obtain ⟨s, t, e, hs⟩ := ih h
        exact ⟨b :: s, t, by rw [e]; rfl, by simp [Ne.symm hb, hs]⟩

/-- Every string without backquotes and dollar signs has a verdict. -/
theorem judge_total (nocmd full : Bool) : ∀ (n : Nat) (w : List Nat) (dq : Bool), w.length ≤ n → 96 ∉ w → 36 ∉ w → ∃ r, Judge nocmd full dq w r := by
  intro n
  induction n with
  | zero =>
    intro w dq hn _ _
    cases w with
    | nil => cases dq <;> first | exact ⟨_, .done⟩ | exact ⟨_, .unclosed⟩
    | cons x w => simp at hn
  | succ n ih =>
    intro w dq hn h96 h36
    cases w with
    | nil => cases dq <;> first | exact ⟨_, .done⟩ | exact ⟨_, .unclosed⟩
    | cons c w =>
      simp only [List.length_cons] at hn
      simp only [List.mem_cons, not_or] at h96 h36
      by_cases h1 : c = 92
      · subst h1
        cases w with
        | nil => exact ⟨_, .lone⟩
        | cons d w =>
          simp only [List.length_cons] at hn
          simp only [List.mem_cons, not_or] at h96 h36
          obtain ⟨r, hr⟩ := ih w dq (by omega) h96.2.2 h36.2.2
          exact ⟨r, .escaped (Or.inr ⟨Ne.symm h96.2.1, fun e => absurd e.symm h36.2.1⟩) hr⟩
      · by_cases h2 : c = 34
        · subst h2
          obtain ⟨r, hr⟩ := ih w (!dq) (by omega) h96.2 h36.2
          exact ⟨r, .double hr⟩
        · by_cases h3 : dq = false ∧ c = 39
          · obtain ⟨rfl, rfl⟩ := h3
            by_cases h4 : 39 ∈ w
            · obtain ⟨s, t, e, hs⟩ := first_cut 39 w h4
              subst e
              simp only [List.length_append, List.length_cons] at hn
              obtain ⟨r, hr⟩ := ih t false (by omega) (fun h => h96.2 (by simp [h])) (fun h => h36.2 (by simp [h]))
              exact ⟨r, .single hs (Or.inr fun h => h96.2 (by simp [h])) hr⟩
            · exact ⟨_, .singleOpen h4 (Or.inr ⟨h96.2, fun s' e => h36.2 (by rw [e]; simp)⟩)⟩
          · by_cases h4 : dq = false ∧ c ∈ specials
            · obtain ⟨rfl, h4⟩ := h4
              exact ⟨_, .special h4⟩
            · obtain ⟨r, hr⟩ := ih w dq (by omega) h96.2 h36.2
              exact ⟨r, .plain h1 h2 (Ne.symm h96.1) (Ne.symm h36.1) (fun e => ⟨fun h => h3 ⟨e, h⟩, fun h => h4 ⟨e, h⟩⟩) hr⟩

/-- C56 for strings without backquotes and dollar signs, where nothing is missing. -/
theorem check_plain_partial (nocmd : Bool) (w rest : List Nat) (r : Code) (h0 : 0 ∉ w) (h96 : 96 ∉ w) (h36 : 36 ∉ w) :
    check nocmd (w ++ 0 :: rest) = .ok r ↔ Judge nocmd false false w r := by
  constructor
  · intro h
    obtain ⟨r', hr⟩ := judge_total nocmd false w.length w false (Nat.le_refl _) h96 h36
    rw [check_exact_partial nocmd w rest r' h0 hr] at h
    injection h with h
    exact h ▸ hr
  · exact check_exact_partial nocmd w rest r h0

/-- `echo "a;b" '|' \;` is accepted, `a;b` is not. -/
example : Judge true false false [97, 34, 59, 34, 39, 124, 39, 92, 59] .ok :=
  .plain (by decide) (by decide) (by decide) (by decide) (by decide) (.double (.plain (by decide) (by decide) (by decide) (by decide)
    (by decide) (.double (.single (s := [124]) (by decide) (Or.inr (by decide)) (.escaped (Or.inr (by decide)) .done)))))

example : Judge true false false [97, 59, 98] .badchar :=
  .plain (by decide) (by decide) (by decide) (by decide) (by decide) (.special (by decide))

/-- `$((1))${x}` is accepted, and `"$(x)"` is a forbidden command substitution. -/
example : Judge true false false [36, 40, 40, 49, 41, 41, 36, 123, 120, 125] .ok :=
  .paren (s := [40, 49, 41]) (w := [36, 123, 120, 125])
    (fun _ => ⟨rfl, by decide, by decide⟩)
    (.group (s := [49]) (t := []) (.plain (by decide) (by decide) (by decide) .nil) .nil)
    (.brace (s := [120]) (w := []) (fun _ => ⟨by decide, by decide⟩) (.plain (by decide) (by decide) (by decide) .nil) .done)

example : Judge true false false [34, 36, 40, 120, 41, 34] .cmdsub := .double (.parenCmd rfl (by decide))

/-- A backquote between single quotes makes the check skip everything up to the next one: the command `x` in
`` '`';x;'`' `` is executed. -/
theorem backquote_violated : check true [39, 96, 39, 59, 120, 59, 39, 96, 39, 0] = .ok .ok ∧
    Judge true true false [39, 96, 39, 59, 120, 59, 39, 96, 39] .badchar :=
  ⟨by decide +kernel, .single (s := [96]) (by decide) (Or.inl rfl) (.special (by decide))⟩

/-- `${x-$(y)}` is accepted although command substitution is forbidden. -/
theorem hidden_violated : check true [36, 123, 120, 45, 36, 40, 121, 41, 125, 0] = .ok .ok ∧
    Judge true true false [36, 123, 120, 45, 36, 40, 121, 41, 125] .cmdsub :=
  ⟨by decide +kernel, .hidden (o := 123) (c := 125) (s := [120, 45, 36, 40, 121, 41]) (w := []) rfl rfl (Or.inr ⟨rfl, rfl⟩)
    (.plain (by decide) (by decide) (by decide) (.plain (by decide) (by decide) (by decide) (.plain (by decide) (by decide) (by decide)
      (.plain (by decide) (by decide) (by decide) (.plain (by decide) (by decide) (by decide) (.plain (by decide) (by decide) (by decide)
        .nil)))))) ⟨[120, 45], [121, 41], rfl⟩ (by decide)⟩

/-- After a dollar sign at the end the check goes on behind the terminator. -/
theorem dollar_violated : check false [36, 0] = .ub ∧ check false [36, 0, 59, 0] = .ok .badchar ∧
    Judge false true false [36] .ok := ⟨by decide +kernel, by decide +kernel, .dollarEnd rfl .done⟩

end Mlibc.Wordexp
