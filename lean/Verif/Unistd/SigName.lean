import Verif.Strtol.Props

/-!
# Names of signals: `sig2str` and `str2sig`

options/posix/generic/posix_signal.cpp L146-305 with the numbers of abis/linux/signal.h.  Strings are lists of character codes
without the terminator; `strtol` is the model of C10.
-/
namespace Mlibc.SigName
open Mlibc.Strtol (stringToInteger cSpace)
open Mlibc.Str (rd CStr)

/-! ## Specification -/

/-- Characters of a literal. -/
def chars (s : String) : List Nat := s.toList.map Char.toNat

/-- The signals that have a name of their own: the name without SIG, and the number. -/
def named : List (List Nat × Int) :=
  [(chars "HUP", 1), (chars "INT", 2), (chars "QUIT", 3), (chars "ILL", 4), (chars "TRAP", 5), (chars "ABRT", 6), (chars "BUS", 7),
   (chars "FPE", 8), (chars "KILL", 9), (chars "USR1", 10), (chars "SEGV", 11), (chars "USR2", 12), (chars "PIPE", 13),
   (chars "ALRM", 14), (chars "TERM", 15), (chars "STKFLT", 16), (chars "CHLD", 17), (chars "CONT", 18), (chars "STOP", 19),
   (chars "TSTP", 20), (chars "TTIN", 21), (chars "TTOU", 22), (chars "URG", 23), (chars "XCPU", 24), (chars "XFSZ", 25),
   (chars "VTALRM", 26), (chars "PROF", 27), (chars "WINCH", 28), (chars "POLL", 29), (chars "PWR", 30), (chars "SYS", 31),
   (chars "CANCEL", 32), (chars "TIMER", 33), (chars "RTMIN", 35), (chars "RTMAX", 64)]

/-- The number a text stands for when all of it is a number that `strtol` takes in base 10, or it is empty. -/
def number (t : List Nat) : Option Int :=
  if t = [] then some 0
  else match Strtol.Spec.parse cSpace 10 t with
    | some (k, neg, mag) => if k = t.length then some (if neg then -(mag : Int) else mag) else none
    | none => none

/-- The texts `str2sig` knows, and the signal each stands for. -/
def Names (text : List Nat) (n : Int) : Prop :=
  (text, n) ∈ named ∨
  (∃ t v, text = chars "RTMIN+" ++ t ∧ number t = some v ∧ 0 ≤ v ∧ v ≤ 28 ∧ n = 35 + v) ∨
  (∃ t v, text = chars "RTMAX-" ++ t ∧ number t = some v ∧ 0 ≤ v ∧ v ≤ 28 ∧ n = 64 - v) ∨
  (∃ t, text = chars "SIG#" ++ t ∧ number t = some n ∧ 1 ≤ n ∧ n ≤ 64)

/-! ## The code -/

/-- The names in the order of L160-201 and L216-255. SIGRTMIN is 35, SIGRTMAX is 64. -/
def cases : List (List Nat × Int) :=
  [(chars "RTMIN", 35), (chars "RTMAX", 64), (chars "HUP", 1), (chars "INT", 2), (chars "QUIT", 3), (chars "ILL", 4), (chars "TRAP", 5),
   (chars "ABRT", 6), (chars "BUS", 7), (chars "FPE", 8), (chars "KILL", 9), (chars "USR1", 10), (chars "SEGV", 11), (chars "USR2", 12),
   (chars "PIPE", 13), (chars "ALRM", 14), (chars "TERM", 15), (chars "STKFLT", 16), (chars "CHLD", 17), (chars "CONT", 18),
   (chars "STOP", 19), (chars "TSTP", 20), (chars "TTIN", 21), (chars "TTOU", 22), (chars "URG", 23), (chars "XCPU", 24),
   (chars "XFSZ", 25), (chars "VTALRM", 26), (chars "PROF", 27), (chars "WINCH", 28), (chars "POLL", 29), (chars "PWR", 30),
   (chars "SYS", 31), (chars "CANCEL", 32), (chars "TIMER", 33)]

/-- `%d` of a small number that is not negative. -/
def fmtD (n : Nat) : List Nat := if n < 10 then [48 + n] else [48 + n / 10, 48 + n % 10]

/-- L146-211: `none` is -1.  SIG2STR_MAX is 16, so 15 characters fit; NSIG is 65. -/
def sig2str (signum : Int) : Option (List Nat) :=
  if signum ≤ 0 ∨ signum ≥ 65 then none                                           -- L149-150
  else if signum > 35 ∧ signum < 64 then
    some ((chars "RTMIN+" ++ fmtD (signum - 35).toNat).take 15)                   -- L152-155
  else match cases.find? (fun c => c.2 == signum) with                            -- L159-203
    | some c => some (c.1.take 15)                                                -- L210
    | none => some ((chars "SIG#" ++ fmtD signum.toNat).take 15)                  -- L205-207

/-- `strtol(t, &endptr, 10)` and the test `errno || *endptr != '\0'`. L259-263, L270-274, L281-285 -/
def tailNumber (t : List Nat) : Res (Option Int) :=
  (stringToInteger ⟨64, true⟩ cSpace (t ++ [0]) 10).bind fun r =>
  (rd (t ++ [0]) r.2.1).bind fun c =>
  if r.2.2 ∨ c ≠ 0 then .ok none else .ok (some r.1)

/-- `strncmp(s, p, strlen(p)) == 0`: what is behind the prefix. -/
def behind (p s : List Nat) : Option (List Nat) := if p.isPrefixOf s then some (s.drop p.length) else none

/-- L213-294: `none` is -1.  `SIGRTMIN + offset` is a `long`. -/
def str2sig (s : List Nat) : Res (Option Int) :=
  match cases.find? (fun c => c.1 == s) with                                      -- L214-255
  | some c => .ok (some c.2)
  | none =>
    match behind (chars "RTMIN+") s with                                          -- L257
    | some t =>
      (tailNumber t).bind fun r => match r with
        | none => .ok none
        | some off =>
          if off < 0 then .ok none
          else if 35 + off > 2 ^ 63 - 1 then .ub
          else if 35 + off ≥ 64 then .ok none else .ok (some (35 + off))          -- L262-266
    | none =>
      match behind (chars "RTMAX-") s with                                        -- L268
      | some t =>
        (tailNumber t).bind fun r => match r with
          | none => .ok none
          | some off =>
            if off < 0 ∨ 64 - off ≤ 35 then .ok none else .ok (some (64 - off))   -- L273-277
      | none =>
        match behind (chars "SIG#") s with                                        -- L279
        | some t =>
          (tailNumber t).bind fun r => match r with
            | none => .ok none
            | some v => if v ≤ 0 ∨ v ≥ 65 then .ok none else .ok (some v)         -- L284-288
        | none => .ok none                                                        -- L291

/-! ## Proofs -/

theorem bok {α β : Type} (a : α) (f : α → Res β) : (Res.ok a).bind f = f a := rfl

theorem parse_le (t : List Nat) (k : Nat) (neg : Bool) (mag : Nat) (h : Strtol.Spec.parse cSpace 10 t = some (k, neg, mag)) :
    k ≤ t.length := by
  unfold Strtol.Spec.parse at h
  have hb : ∀ u, Strtol.Spec.baseAndPrefix 10 u = (10, 0) := by
    intro u; unfold Strtol.Spec.baseAndPrefix; repeat' split
    all_goals simp_all
  have hw : (t.takeWhile cSpace).length ≤ t.length := (List.takeWhile_prefix _).length_le
  simp only [hb, List.drop_zero] at h
  have fin : ∀ sl, sl ≤ t.length - (t.takeWhile cSpace).length → ∀ f g,
      (if ((t.drop (t.takeWhile cSpace).length).drop sl).takeWhile (Strtol.Spec.isDigitIn 10) = [] then none
       else some ((t.takeWhile cSpace).length + sl + 0 +
          (((t.drop (t.takeWhile cSpace).length).drop sl).takeWhile (Strtol.Spec.isDigitIn 10)).length, f, g)) = some (k, neg, mag) →
      k ≤ t.length := by
    intro sl hsl f g h
    have hd := (List.takeWhile_prefix (Strtol.Spec.isDigitIn 10)
      (l := (t.drop (t.takeWhile cSpace).length).drop sl)).length_le
    rw [List.length_drop, List.length_drop] at hd
    by_cases he : ((t.drop (t.takeWhile cSpace).length).drop sl).takeWhile (Strtol.Spec.isDigitIn 10) = []
    · rw [if_pos he] at h; simp at h
    · rw [if_neg he] at h
      injection h with h
      injection h with h _
      omega
  by_cases hh : (t.drop (t.takeWhile cSpace).length).head? = some 45 ∨ (t.drop (t.takeWhile cSpace).length).head? = some 43
  · simp only [if_pos hh] at h
    refine fin 1 ?_ _ _ h
    cases hx : t.drop (t.takeWhile cSpace).length with
    | nil => rw [hx] at hh; simp at hh
    | cons a l =>
      have := congrArg List.length hx
      simp at this; omega
  · simp only [if_neg hh] at h
    exact fin 0 (by omega) _ _ h

/-- What the tail is read as. -/
theorem tail_eq (t : List Nat) (h0 : 0 ∉ t) :
    tailNumber t = .ok (match number t with
      | some v => if v < -2 ^ 63 ∨ v > 2 ^ 63 - 1 then none else some v
      | none => none) := by
  unfold tailNumber
  rw [Strtol.strtol_exact_partial ⟨64, true⟩ (by decide) cSpace rfl (t ++ [0]) t ⟨h0, [], rfl⟩ 10 (by omega) (by omega), bok]
  have rdlt : ∀ k, k < t.length → ∃ c, c ≠ 0 ∧ rd (t ++ [0]) k = .ok c := by
    intro k hk
    refine ⟨t[k], fun e => h0 (e ▸ List.getElem_mem hk), ?_⟩
    simp [rd, List.getElem?_append_left hk, List.getElem?_eq_getElem hk]
  have rdend : rd (t ++ [0]) t.length = .ok 0 := by simp [rd]
  unfold number
  by_cases ht : t = []
  · subst ht
    rfl
  · have hlen : 0 < t.length := List.length_pos_iff.2 ht
    rw [if_neg ht]
    cases hp : Strtol.Spec.parse cSpace 10 t with
    | none =>
      obtain ⟨c, hc, hr⟩ := rdlt 0 hlen
      simp only [hr, bok]
      simp [hc]
    | some r =>
      obtain ⟨k, neg, mag⟩ := r
      have hk := parse_le t k neg mag hp
      simp only
      by_cases hkl : k = t.length
      · subst hkl
        simp only [if_true, rdend, bok, Strtol.Spec.signedResult]
        generalize hv : (if neg = true then -(mag : Int) else mag) = v
        by_cases h1 : v < -2 ^ 63
        · have h1' : v < -(2 ^ (64 - 1)) := by simpa using h1
          rw [if_pos h1', if_pos (Or.inl h1)]
          simp
        · have h1' : ¬ v < -(2 ^ (64 - 1)) := by simpa using h1
          rw [if_neg h1']
          by_cases h2 : v > 2 ^ 63 - 1
          · have h2' : v > 2 ^ (64 - 1) - 1 := by simpa using h2
            rw [if_pos h2']
            rw [if_pos (Or.inr h2)]
            simp
          · have h2' : ¬ v > 2 ^ (64 - 1) - 1 := by simpa using h2
            have h3 : ¬ (v < -2 ^ 63 ∨ v > 2 ^ 63 - 1) := fun h => h.elim h1 h2
            rw [if_neg h2']
            simp only [if_neg h3]
            simp
      · obtain ⟨c, hc, hr⟩ := rdlt k (by omega)
        rw [hr, bok]
        simp [hkl, hc]

theorem behind_some (p s t : List Nat) : behind p s = some t ↔ s = p ++ t := by
  unfold behind
  split
  · rename_i h
    rw [List.isPrefixOf_iff_prefix] at h
    obtain ⟨u, rfl⟩ := h
    simp
  · rename_i h
    simp
    intro e
    exact h (by rw [e]; simp)

theorem behind_none (p s : List Nat) : behind p s = none ↔ ∀ t, s ≠ p ++ t := by
  rw [← Option.not_isSome_iff_eq_none, Option.isSome_iff_exists]
  constructor
  · intro h t e
    exact h ⟨t, (behind_some p s t).2 e⟩
  · rintro h ⟨t, e⟩
    exact h t ((behind_some p s t).1 e)

theorem named_cases (c : List Nat × Int) : c ∈ named ↔ c ∈ cases := by
  have h1 : ∀ c ∈ named, c ∈ cases := by decide +kernel
  have h2 : ∀ c ∈ cases, c ∈ named := by decide +kernel
  exact ⟨h1 c, h2 c⟩

/-- Names are different. -/
theorem cases_fn : ∀ c ∈ cases, ∀ d ∈ cases, c.1 = d.1 → c.2 = d.2 := by decide +kernel

theorem cases_short : ∀ c ∈ cases, ¬ (chars "RTMIN+").isPrefixOf c.1 ∧ ¬ (chars "RTMAX-").isPrefixOf c.1 ∧
    ¬ (chars "SIG#").isPrefixOf c.1 := by decide +kernel

theorem find_name (s : List Nat) :
    (∃ n, (s, n) ∈ named ∧ cases.find? (fun c => c.1 == s) = some (s, n)) ∨
    ((∀ n, (s, n) ∉ named) ∧ cases.find? (fun c => c.1 == s) = none) := by
  cases hf : cases.find? (fun c => c.1 == s) with
  | some c =>
    left
    have h1 := List.find?_some hf
    have h2 := List.mem_of_find?_eq_some hf
    simp at h1
    obtain ⟨a, n⟩ := c
    simp at h1
    subst h1
    exact ⟨n, (named_cases _).2 h2, rfl⟩
  | none =>
    right
    refine ⟨?_, rfl⟩
    intro n hn
    rw [List.find?_eq_none] at hf
    exact hf _ ((named_cases _).1 hn) (by simp)

theorem prefixes_differ (t u : List Nat) : chars "RTMIN+" ++ t ≠ chars "RTMAX-" ++ u ∧ chars "RTMIN+" ++ t ≠ chars "SIG#" ++ u ∧
    chars "RTMAX-" ++ t ≠ chars "SIG#" ++ u := by
  simp [chars]

theorem named_not_prefix (t : List Nat) (n : Int) : (chars "RTMIN+" ++ t, n) ∉ named ∧ (chars "RTMAX-" ++ t, n) ∉ named ∧
    (chars "SIG#" ++ t, n) ∉ named := by
  refine ⟨fun h => ?_, fun h => ?_, fun h => ?_⟩
  · exact (cases_short _ ((named_cases _).1 h)).1 (by simp)
  · exact (cases_short _ ((named_cases _).1 h)).2.1 (by simp)
  · exact (cases_short _ ((named_cases _).1 h)).2.2 (by simp)

/-- **C120, part.** `str2sig` finds the signal of every name, and no signal for any other text.  Missing: an offset to RTMIN within 35 of
    the largest `long`, see `str2sig_overflow_violated`; and names are taken to include numbers as `strtol` reads them, see
    `str2sig_lax_violated`. -/
theorem str2sig_exact_partial (s : List Nat) (h0 : 0 ∉ s)
    (hov : ∀ t v, s = chars "RTMIN+" ++ t → number t = some v → v ≤ 2 ^ 63 - 1 → 35 + v ≤ 2 ^ 63 - 1) :
    ∃ r, str2sig s = .ok r ∧ ∀ n, r = some n ↔ Names s n := by
  unfold str2sig
  rcases find_name s with ⟨m, hm, hf⟩ | ⟨hno, hf⟩
  · rw [hf]
    refine ⟨some m, rfl, ?_⟩
    intro n
    constructor
    · intro h
      injection h with h
      subst h
      exact Or.inl hm
    · rintro (h | ⟨t, v, rfl, _⟩ | ⟨t, v, rfl, _⟩ | ⟨t, rfl, _⟩)
      · congr 1
        exact cases_fn _ ((named_cases _).1 hm) _ ((named_cases _).1 h) rfl
      · exact absurd hm (named_not_prefix t m).1
      · exact absurd hm (named_not_prefix t m).2.1
      · exact absurd hm (named_not_prefix t m).2.2
  · rw [hf]
    simp only
    cases h1 : behind (chars "RTMIN+") s with
    | some t =>
      rw [behind_some] at h1
      subst h1
      have ht : 0 ∉ t := fun h => h0 (by simp [h])
      simp only
      rw [tail_eq t ht, bok]
      have key : ∀ n, Names (chars "RTMIN+" ++ t) n ↔ ∃ v, number t = some v ∧ 0 ≤ v ∧ v ≤ 28 ∧ n = 35 + v := by
        intro n
        constructor
        · rintro (h | ⟨t', v, he, h⟩ | ⟨t', v, he, _⟩ | ⟨t', he, _⟩)
          · exact absurd h (hno n)
          · rw [List.append_cancel_left he]; exact ⟨v, h⟩
          · exact absurd he (prefixes_differ t t').1
          · exact absurd he (prefixes_differ t t').2.1
        · rintro ⟨v, h⟩
          exact Or.inr (Or.inl ⟨t, v, rfl, h⟩)
      simp only [key]
      cases hn : number t with
      | none => exact ⟨none, rfl, by simp⟩
      | some v =>
        have hv := hov t v rfl hn
        simp only
        by_cases hr : v < -2 ^ 63 ∨ v > 2 ^ 63 - 1
        · rw [if_pos hr]
          refine ⟨none, rfl, ?_⟩
          intro n
          simp
          omega
        · rw [if_neg hr]
          simp only
          by_cases hneg : v < 0
          · rw [if_pos hneg]
            refine ⟨none, rfl, ?_⟩
            intro n; simp; omega
          · rw [if_neg hneg, if_neg (by omega)]
            by_cases hb : 35 + v ≥ 64
            · rw [if_pos hb]
              refine ⟨none, rfl, ?_⟩
              intro n; simp; omega
            · rw [if_neg hb]
              refine ⟨_, rfl, ?_⟩
              intro n
              constructor
              · intro h
                injection h with h
                exact ⟨v, rfl, by omega, by omega, h.symm⟩
              · rintro ⟨w, hw, _, _, rfl⟩
                injection hw with hw
                rw [hw]
    | none =>
      simp only
      rw [behind_none] at h1
      cases h2 : behind (chars "RTMAX-") s with
      | some t =>
        rw [behind_some] at h2
        subst h2
        have ht : 0 ∉ t := fun h => h0 (by simp [h])
        simp only
        rw [tail_eq t ht, bok]
        have key : ∀ n, Names (chars "RTMAX-" ++ t) n ↔ ∃ v, number t = some v ∧ 0 ≤ v ∧ v ≤ 28 ∧ n = 64 - v := by
          intro n
          constructor
          · rintro (h | ⟨t', v, he, _⟩ | ⟨t', v, he, h⟩ | ⟨t', he, _⟩)
            · exact absurd h (hno n)
            · exact absurd he (h1 t')
            · rw [List.append_cancel_left he]; exact ⟨v, h⟩
            · exact absurd he (prefixes_differ t t').2.2
          · rintro ⟨v, h⟩
            exact Or.inr (Or.inr (Or.inl ⟨t, v, rfl, h⟩))
        simp only [key]
        cases hn : number t with
        | none => exact ⟨none, rfl, by simp⟩
        | some v =>
          simp only
          by_cases hr : v < -2 ^ 63 ∨ v > 2 ^ 63 - 1
          · rw [if_pos hr]
            refine ⟨none, rfl, ?_⟩
            intro n; simp; omega
          · rw [if_neg hr]
            simp only
            by_cases hb : v < 0 ∨ 64 - v ≤ 35
            · rw [if_pos hb]
              refine ⟨none, rfl, ?_⟩
              intro n; simp; omega
            · rw [if_neg hb]
              refine ⟨_, rfl, ?_⟩
              intro n
              constructor
              · intro h
                injection h with h
                exact ⟨v, rfl, by omega, by omega, h.symm⟩
              · rintro ⟨w, hw, _, _, rfl⟩
                injection hw with hw
                rw [hw]
      | none =>
        simp only
        rw [behind_none] at h2
        cases h3 : behind (chars "SIG#") s with
        | some t =>
          rw [behind_some] at h3
          subst h3
          have ht : 0 ∉ t := fun h => h0 (by simp [h])
          simp only
          rw [tail_eq t ht, bok]
          have key : ∀ n, Names (chars "SIG#" ++ t) n ↔ number t = some n ∧ 1 ≤ n ∧ n ≤ 64 := by
            intro n
            constructor
            · rintro (h | ⟨t', v, he, _⟩ | ⟨t', v, he, _⟩ | ⟨t', he, h⟩)
              · exact absurd h (hno n)
              · exact absurd he (h1 t')
              · exact absurd he (h2 t')
              · rw [List.append_cancel_left he]; exact h
            · intro h
              exact Or.inr (Or.inr (Or.inr ⟨t, rfl, h⟩))
          simp only [key]
          cases hn : number t with
          | none => exact ⟨none, rfl, by simp⟩
          | some v =>
            simp only
            by_cases hr : v < -2 ^ 63 ∨ v > 2 ^ 63 - 1
            · rw [if_pos hr]
              refine ⟨none, rfl, ?_⟩
              intro n; simp; omega
            · rw [if_neg hr]
              simp only
              by_cases hb : v ≤ 0 ∨ v ≥ 65
              · rw [if_pos hb]
                refine ⟨none, rfl, ?_⟩
                intro n; simp; omega
              · rw [if_neg hb]
                refine ⟨_, rfl, ?_⟩
                intro n
                simp; omega
        | none =>
          simp only
          rw [behind_none] at h3
          refine ⟨none, rfl, ?_⟩
          intro n
          simp only [reduceCtorEq, false_iff]
          rintro (h | ⟨t, v, he, _⟩ | ⟨t, v, he, _⟩ | ⟨t, he, _⟩)
          · exact hno n h
          · exact h1 t he
          · exact h2 t he
          · exact h3 t he

/-- **C120.** `sig2str` has a text for a number exactly if it is a signal number; the text fits into the buffer with its terminator, and
    `str2sig` turns it back into the number. -/
theorem sig_roundtrip (n : Int) :
    (¬ (1 ≤ n ∧ n ≤ 64) → sig2str n = none) ∧
    (1 ≤ n ∧ n ≤ 64 → ∃ t, sig2str n = some t ∧ t.length + 1 ≤ 16 ∧ 0 ∉ t ∧ str2sig t = .ok (some n)) := by
  constructor
  · intro h
    unfold sig2str
    rw [if_pos (by omega)]
  · intro h
    have all : ∀ k : Fin 64, ∃ t ∈ sig2str ((k.val : Int) + 1), t.length + 1 ≤ 16 ∧ 0 ∉ t ∧
        str2sig t = .ok (some ((k.val : Int) + 1)) := by decide +kernel
    obtain ⟨t, ht, h1⟩ := all ⟨(n - 1).toNat, by omega⟩
    have e : (((n - 1).toNat : Nat) : Int) + 1 = n := by omega
    simp only [e] at ht h1
    exact ⟨t, ht, h1⟩

/-- **C120 is violated.** The sum for "RTMIN+9223372036854775807" overflows a `long`. -/
theorem str2sig_overflow_violated : str2sig (chars "RTMIN+9223372036854775807") = .ub := by decide +kernel

/-- **C120 is violated.** Texts that name no signal are accepted: "RTMIN+", "RTMIN+ +3", "SIG#" with spaces before the number. -/
theorem str2sig_lax_violated : str2sig (chars "RTMIN+") = .ok (some 35) ∧ str2sig (chars "RTMIN+ +3") = .ok (some 38) ∧
    str2sig (chars "SIG#  9") = .ok (some 9) := by decide +kernel

/-- Texts that meet the condition of `str2sig_exact_partial`: every one that does not begin with RTMIN+, and small offsets. -/
example : ∀ t v, chars "TERM" = chars "RTMIN+" ++ t → number t = some v → v ≤ 2 ^ 63 - 1 → 35 + v ≤ 2 ^ 63 - 1 := by
  intro t v h
  simp [chars] at h

example : Names (chars "TERM") 15 ∧ Names (chars "RTMAX-2") 62 :=
  ⟨Or.inl (by decide +kernel), Or.inr (Or.inr (Or.inl ⟨chars "2", 2, by decide +kernel, by decide +kernel, by decide, by decide, rfl⟩))⟩

example : str2sig (chars "RTMAX-2") = .ok (some 62) ∧ str2sig (chars "FOO") = .ok none ∧ str2sig (chars "SIGTERM") = .ok none := by
  decide +kernel

example : sig2str 34 = some (chars "SIG#34") ∧ sig2str 40 = some (chars "RTMIN+5") ∧ sig2str 9 = some (chars "KILL") := by decide +kernel

end Mlibc.SigName
