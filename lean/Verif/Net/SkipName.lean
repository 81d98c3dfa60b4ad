import Verif.Base

/-!
# Names in messages of the domain name system

`dn_skipname`, options/glibc/generic/resolv.cpp L37-52.
-/

namespace Mlibc.SkipName

/-! ## Specification -/

/-- An encoded name (RFC 1035, 4.1.4): labels of less than `max` bytes, each behind its length, and then an empty label or a
    pointer of two bytes.  The standard has 64 for `max`; the code allows less than 192. -/
inductive Name (max : Nat) : List Nat → Prop
  | root : Name max [0]
  | pointer (a b : Nat) : 192 ≤ a → Name max [a, b]
  | label (s r : List Nat) : s ≠ [] → s.length < max → Name max r → Name max (s.length :: (s ++ r))

/-! ## The code -/

/-- L37-52, at most `fuel` labels, at distance `p` from the start of the message; reading outside of it is undefined.  `none` is -1. -/
def loop (m : List Nat) : Nat → Nat → Res (Option Nat)
  | 0, _ => .ub
  | fuel + 1, p =>
    if p < m.length then                                                          -- L39
      match m[p]? with
      | none => .ub
      | some c =>
        if c = 0 then .ok (some (p + 1))                                          -- L40-41
        else if 192 ≤ c then (if p + 1 < m.length then .ok (some (p + 2)) else .ok none)   -- L42-46
        else if m.length - p < c + 1 then .ok none                                -- L47-48
        else loop m fuel (p + (c + 1))                                            -- L49-50
    else .ok none                                                                 -- L51

/-- `dn_skipname`, L37-52: `m` are the bytes from `s` to `end`. -/
def dnSkipname (m : List Nat) : Res (Option Nat) := loop m (m.length + 1) 0

/-! ## Theorems -/

theorem loop_shift (a m : List Nat) (fuel : Nat) : ∀ p, loop (a ++ m) fuel (a.length + p) =
    (loop m fuel p).bind fun r => .ok (r.map (· + a.length)) := by
  induction fuel with
  | zero => intro p; rfl
  | succ fuel ih =>
    intro p
    simp only [loop, List.length_append]
    by_cases h : p < m.length
    · rw [if_pos (by omega), if_pos h, List.getElem?_append_right (by omega), show a.length + p - a.length = p by omega]
      cases e : m[p]? with
      | none => rfl
      | some c =>
        dsimp only
        by_cases h0 : c = 0
        · rw [if_pos h0, if_pos h0]
          simp only [Res.bind, Option.map]
          congr 2
          omega
        · rw [if_neg h0, if_neg h0]
          by_cases h1 : 192 ≤ c
          · rw [if_pos h1, if_pos h1]
            by_cases h2 : p + 1 < m.length
            · rw [if_pos (by omega), if_pos h2]
              simp only [Res.bind, Option.map]
              congr 2
              omega
            · rw [if_neg (by omega), if_neg h2]
              rfl
          · rw [if_neg h1, if_neg h1]
            by_cases h2 : m.length - p < c + 1
            · rw [if_pos (by omega), if_pos h2]; rfl
            · rw [if_neg (by omega), if_neg h2, ← ih, Nat.add_assoc]
    · rw [if_neg (by omega), if_neg h]; rfl

/-- Enough rounds: the answer is about the bytes from the start on. -/
theorem loop_spec (fuel : Nat) : ∀ m : List Nat, m.length < fuel →
    (∃ a b, m = a ++ b ∧ Name 192 a ∧ loop m fuel 0 = .ok (some a.length)) ∨
    ((∀ a b, m = a ++ b → ¬ Name 192 a) ∧ loop m fuel 0 = .ok none) := by
  induction fuel with
  | zero => intro m h; omega
  | succ fuel ih =>
    intro m h
    cases m with
    | nil =>
      refine Or.inr ⟨fun a b e n => ?_, rfl⟩
      have : a = [] := by simp at e; exact e.1
      subst this
      cases n
    | cons c m =>
      simp only [loop, List.length_cons, Nat.zero_lt_succ, if_true, List.getElem?_cons_zero]
      by_cases h0 : c = 0
      · subst h0
        exact Or.inl ⟨[0], m, rfl, .root, by simp⟩
      · rw [if_neg h0]
        by_cases h1 : 192 ≤ c
        · rw [if_pos h1]
          cases m with
          | nil =>
            refine Or.inr ⟨fun a b e n => ?_, by simp⟩
            cases n with
            | root => simp at e; exact h0 e.1
            | pointer x y hx => simp at e
            | label s r hs hl n =>
              simp at e
              have := e.1
              omega
          | cons d m => exact Or.inl ⟨[c, d], m, rfl, .pointer c d h1, by simp⟩
        · rw [if_neg h1]
          have lab : ∀ a b, c :: m = a ++ b → Name 192 a → ∃ s r, a = c :: (s ++ r) ∧ s.length = c ∧ Name 192 r ∧ m = s ++ (r ++ b) := by
            intro a b e n
            cases n with
            | root => simp at e; exact absurd e.1 h0
            | pointer x y hx => simp at e; exact absurd (e.1 ▸ hx) h1
            | label s r hs hl n =>
              simp at e
              exact ⟨s, r, by simp [e.1], e.1.symm, n, by simp [e.2]⟩
          by_cases h2 : m.length + 1 - 0 < c + 1
          · rw [if_pos h2]
            refine Or.inr ⟨fun a b e n => ?_, rfl⟩
            obtain ⟨s, r, -, hs, -, hm⟩ := lab a b e n
            have := congrArg List.length hm
            simp at this
            omega
          · rw [if_neg h2]
            have hsplit : c :: m = (c :: m.take c) ++ m.drop c := by simp
            have hlen : (c :: m.take c).length = c + 1 := by simp; omega
            have sh := loop_shift (c :: m.take c) (m.drop c) fuel 0
            rw [← hsplit, hlen] at sh
            simp only [Nat.add_zero] at sh
            rw [Nat.zero_add, sh]
            rcases ih (m.drop c) (by simp at h ⊢; omega) with ⟨a, b, e, n, hl⟩ | ⟨hn, hl⟩
            · refine Or.inl ⟨c :: (m.take c ++ a), b, ?_, ?_, ?_⟩
              · have := List.take_append_drop c m
                rw [e] at this
                simp only [List.cons_append, List.append_assoc]
                rw [this]
              · have htl : (m.take c).length = c := by simp; omega
                have := Name.label (m.take c) a (fun x => by rw [x] at htl; simp at htl; omega) (by omega) n
                rw [htl] at this
                exact this
              · rw [hl]
                simp only [Res.bind, Option.map]
                congr 2
                simp
                omega
            · refine Or.inr ⟨fun a b e n => ?_, by rw [hl]; rfl⟩
              obtain ⟨s, r, -, hs, hr, hm⟩ := lab a b e n
              refine hn r b ?_ hr
              rw [hm, ← hs]
              simp

/-- **C128** (with labels of less than 192 bytes; the full statement has 64, see `dn_skipname_long_violated`). For every sequence of
    bytes, `dn_skipname` reads nothing outside of it and ends; if it begins with an encoded name, the result is the length of that
    name, and otherwise -1. -/
theorem dn_skipname_spec_partial (m : List Nat) :
    (∃ a b, m = a ++ b ∧ Name 192 a ∧ dnSkipname m = .ok (some a.length)) ∨
    ((∀ a b, m = a ++ b → ¬ Name 192 a) ∧ dnSkipname m = .ok none) := loop_spec (m.length + 1) m (by omega)

/-- A message begins with at most one name. -/
theorem name_unique (a : List Nat) (ha : Name 192 a) : ∀ (b c d : List Nat), Name 192 c → a ++ b = c ++ d → a = c := by
  induction ha with
  | root =>
    intro b c d hc e
    cases hc with
    | root => rfl
    | pointer x y hx => simp at e; omega
    | label s r hs hl n => simp at e; exact absurd (List.length_eq_zero_iff.1 e.1.symm) hs
  | pointer x y hx =>
    intro b c d hc e
    cases hc with
    | root => simp at e; omega
    | pointer x' y' hx' => simp at e; simp [e.1, e.2.1]
    | label s r hs hl n => simp at e; omega
  | label s r hs hl n ih =>
    intro b c d hc e
    cases hc with
    | root => simp at e; exact absurd e.1 hs
    | pointer x y hx => simp at e; omega
    | label s' r' hs' hl' n' =>
      simp only [List.cons_append, List.cons.injEq, List.append_assoc] at e
      obtain ⟨h1, h2⟩ := List.append_inj e.2 e.1
      subst h1
      rw [ih b r' d n' h2]

theorem name_more {a : List Nat} (h : Name 64 a) : Name 192 a := by
  induction h with
  | root => exact .root
  | pointer x y hx => exact .pointer x y hx
  | label s r hs hl _ ih => exact .label s r hs (by omega) ih

/-- **C128.** For every encoded name, whatever is behind it in the message, the result is its length. -/
theorem dn_skipname_name (a b : List Nat) (h : Name 64 a) : dnSkipname (a ++ b) = .ok (some a.length) := by
  rcases dn_skipname_spec_partial (a ++ b) with ⟨c, d, e, n, hr⟩ | ⟨hn, -⟩
  · rw [hr, name_unique a (name_more h) b c d n e]
  · exact absurd (name_more h) (hn a b rfl)

/-- **C128 does not hold in full**: a label of 64 bytes, which the standard does not have, is skipped. -/
theorem dn_skipname_long_violated : let m := 64 :: (List.replicate 64 97 ++ [0])
    dnSkipname m = .ok (some 66) ∧ ∀ a b, m = a ++ b → ¬ Name 64 a := by
  refine ⟨by decide, fun a b e n => ?_⟩
  cases n with
  | root => simp at e
  | pointer x y hx => simp only [List.cons_append, List.cons.injEq] at e; omega
  | label s r hs hl n => simp only [List.cons_append, List.cons.injEq] at e; omega

/-- `ab.c` and a pointer behind a label. -/
example : Name 64 [2, 97, 98, 1, 99, 0] ∧ Name 64 [1, 97, 192, 12] ∧ dnSkipname [1, 97, 192, 12, 7] = .ok (some 4) ∧
    dnSkipname [2, 97] = .ok none := by
  refine ⟨.label [97, 98] [1, 99, 0] (by simp) (by simp) (.label [99] [0] (by simp) (by simp) .root),
    .label [97] [192, 12] (by simp) (by simp) (.pointer 192 12 (by decide)), by decide, by decide⟩

end Mlibc.SkipName
