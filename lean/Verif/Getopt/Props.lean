import Verif.Getopt.Model
/-
C23: getopt.
-/
set_option linter.unusedSimpArgs false
namespace Mlibc.Getopt
open Mlibc

/-! ### Specification -/

/-- How an option string classifies a character. -/
inductive Kind where
  | unknown | flag | required | optional
  deriving DecidableEq, Repr

/-- The kind, according to what follows the character. -/
def suffixKind : Str → Kind
  | [] => .flag
  | [a] => if a = colonC then .required else .flag
  | a :: b :: _ => if a = colonC then (if b = colonC then .optional else .required) else .flag

/-- The classification: the first occurrence of the character counts, followed by `::`, by `:` or by neither. -/
def kindOf : Str → UInt8 → Kind
  | [], _ => .unknown
  | x :: rest, c =>
    if x = c then suffixKind rest else kindOf rest c

/-- The ways to give an option on the command line. -/
inductive Item where
  | flag (c : UInt8)                     -- -c
  | attached (c : UInt8) (arg : Str)     -- -cARG
  | separate (c : UInt8) (arg : Str)     -- -c ARG
  | omitted (c : UInt8)                  -- -c, optional argument not given
  | unknown (c : UInt8)                  -- -c, not in the option string

def Item.char : Item → UInt8
  | .flag c | .attached c _ | .separate c _ | .omitted c | .unknown c => c

/-- The words of an item. -/
def Item.words : Item → List Str
  | .flag c => [[dash, c]]
  | .attached c a => [[dash, c] ++ a]
  | .separate c a => [[dash, c], a]
  | .omitted c => [[dash, c]]
  | .unknown c => [[dash, c]]

/-- The item is a legitimate use of the option string. Option characters are ASCII, not `-`, `:` or a leading `+`. -/
def Item.Valid (optstring : Str) (it : Item) : Prop :=
  it.char ≠ 0 ∧ it.char < 128 ∧ it.char ≠ dash ∧ it.char ≠ colonC ∧ it.char ≠ plus ∧
  match it with
  | .flag c => kindOf optstring c = .flag
  | .attached c a => (kindOf optstring c = .required ∨ kindOf optstring c = .optional) ∧ a ≠ [] ∧ 0 ∉ a
  | .separate c a => kindOf optstring c = .required ∧ a.head? ≠ some dash
  | .omitted c => kindOf optstring c = .optional
  | .unknown c => kindOf optstring c = .unknown

/-- The call that reports the item. -/
def Reports (it : Item) (e : Event) : Prop :=
  match it with
  | .flag c => e.ret = c.toNat
  | .attached c a => e.ret = c.toNat ∧ e.optarg = some a
  | .separate c a => e.ret = c.toNat ∧ e.optarg = some a
  | .omitted c => e.ret = c.toNat ∧ e.optarg = none
  | .unknown c => e.ret = question ∧ e.optopt = c

/-- An operand: a word that does not start with `-`, or `-` itself. -/
def Operand (w : Str) : Prop := w.head? ≠ some dash ∨ w = [dash]

/-- A command line before `--`: options and operands in any order. -/
inductive Elem where
  | opt (it : Item)
  | operand (w : Str)

def Elem.words : Elem → List Str
  | .opt it => it.words
  | .operand w => [w]

def Elem.Valid (optstring : Str) : Elem → Prop
  | .opt it => it.Valid optstring
  | .operand w => Operand w

def items : List Elem → List Item
  | [] => []
  | .opt it :: es => it :: items es
  | .operand _ :: es => items es

def operands : List Elem → List Str
  | [] => []
  | .opt _ :: es => operands es
  | .operand w :: es => w :: operands es

/-! ### Characters and words -/

theorem kindOf_unknown {s : Str} {c : UInt8} (h : kindOf s c = .unknown) (h0 : c ≠ 0) : strchr s c = none := by
  have : s.findIdx? (· = c) = none := by
    induction s with
    | nil => rfl
    | cons x s ih =>
      rw [kindOf] at h
      split at h
      · exfalso
        match s with
        | [] => cases h
        | [a] => simp only [suffixKind] at h; split at h <;> cases h
        | a :: b :: t => simp only [suffixKind] at h; split at h <;> (try split at h) <;> cases h
      · rename_i hx
        rw [List.findIdx?_cons]; simp [hx, ih h]
  simp [strchr, this, h0]

/-- What the code reads from the option string for a known character. -/
theorem kindOf_known {s : Str} {c : UInt8} (h : kindOf s c ≠ .unknown) :
    ∃ i c1, strchr s c = some i ∧ at' s (i + 1) = .ok c1 ∧
      ((kindOf s c = .flag ∧ c1 ≠ colonC) ∨
       (c1 = colonC ∧ ∃ c2, at' s (i + 2) = .ok c2 ∧
         ((kindOf s c = .required ∧ c2 ≠ colonC) ∨ (kindOf s c = .optional ∧ c2 = colonC)))) := by
  induction s with
  | nil => simp [kindOf] at h
  | cons x s ih =>
    by_cases hx : x = c
    · subst hx
      refine ⟨0, ?_⟩
      have hs : strchr (x :: s) x = some 0 := by simp [strchr, List.findIdx?_cons]
      match s with
      | [] => exact ⟨0, hs, rfl, Or.inl ⟨by simp [kindOf, suffixKind], by decide⟩⟩
      | [a] =>
        refine ⟨a, hs, rfl, ?_⟩
        by_cases ha : a = 58
        · subst ha; exact Or.inr ⟨rfl, 0, rfl, Or.inl ⟨by simp [kindOf, suffixKind], by decide⟩⟩
        · exact Or.inl ⟨by simp [kindOf, suffixKind, ha], ha⟩
      | a :: b :: t =>
        refine ⟨a, hs, rfl, ?_⟩
        by_cases ha : a = 58
        · subst ha
          refine Or.inr ⟨rfl, b, rfl, ?_⟩
          by_cases hb : b = 58
          · subst hb; exact Or.inr ⟨by simp [kindOf, suffixKind], rfl⟩
          · exact Or.inl ⟨by simp [kindOf, suffixKind, hb], hb⟩
        · exact Or.inl ⟨by simp [kindOf, suffixKind, ha], ha⟩
    · have hk : kindOf (x :: s) c = kindOf s c := by rw [kindOf]; simp [hx]
      rw [hk] at h ⊢
      obtain ⟨i, c1, h1, h2, h3⟩ := ih h
      have hi : strchr (x :: s) c = some (i + 1) := by
        unfold strchr at h1 ⊢
        rw [List.findIdx?_cons]
        simp only [hx, decide_false]
        cases hf : s.findIdx? (· = c) with
        | some j => rw [hf] at h1; simp at h1; simp [h1]
        | none => rw [hf] at h1; simp at h1; simp [h1]
      refine ⟨i + 1, c1, hi, ?_, ?_⟩
      · simpa [at'] using h2
      · rcases h3 with h3 | ⟨h3, c2, h4, h5⟩
        · exact Or.inl h3
        · exact Or.inr ⟨h3, c2, by simpa [at'] using h4, h5⟩

theorem charToInt_ascii {c : UInt8} (h : c < 128) : charToInt c = c.toNat := by simp [charToInt, h]

theorem item_first_word (it : Item) : ∃ w ws, it.words = w :: ws ∧ ∃ t, w = dash :: it.char :: t := by
  cases it <;> exact ⟨_, _, rfl, _, rfl⟩

/-- The short-option branch on an item that starts at `argv[optind]`. -/
theorem shortOpt_item (optstring : Str) (it : Item) (hv : it.Valid optstring) (front rest : List Str)
    (oa : Option Str) (oo : UInt8) (w : Str) (hw : it.words.head? = some w) :
    ∃ oa' oo' r, shortOpt optstring ⟨front ++ it.words ++ rest, front.length, oa, oo, 1⟩ w
        = .ok (r, ⟨front ++ it.words ++ rest, front.length + it.words.length, oa', oo', 1⟩) ∧
      r ≠ -1 ∧ Reports it ⟨r, oa', oo'⟩ := by
  obtain ⟨h0, h1, h2, h3, h4, h5⟩ := hv
  have hr : ((it.char.toNat : Nat) : Int) ≠ -1 := by omega
  cases it with
  | flag c =>
    simp only [Item.words, List.head?_cons, Option.some.injEq] at hw
    subst hw
    simp only [Item.char] at *
    obtain ⟨i, c1, k1, k2, k3⟩ := kindOf_known (s := optstring) (c := c) (by rw [h5]; decide)
    rw [h5] at k3
    simp only [reduceCtorEq, false_and, or_false, and_false, exists_false, true_and, or_self] at k3
    refine ⟨oa, oo, c.toNat, ?_, hr, rfl⟩
    simp [shortOpt, at', k1, k3, Item.words, h0, charToInt_ascii h1]
    have k2' := k2
    simp only [at'] at k2'
    rw [k2']
    simp [k3]
  | attached c a =>
    simp only [Item.words, List.head?_cons, Option.some.injEq] at hw
    subst hw
    simp only [Item.char] at *
    obtain ⟨h5, h6, h7⟩ := h5
    obtain ⟨i, c1, k1, k2, k3⟩ := kindOf_known (s := optstring) (c := c) (by rcases h5 with h | h <;> rw [h] <;> decide)
    have hc1 : c1 = colonC := by
      rcases k3 with ⟨k, _⟩ | ⟨k, _⟩
      · rcases h5 with h | h <;> rw [h] at k <;> cases k
      · exact k
    subst hc1
    simp at k3
    obtain ⟨c2, k4, k5⟩ := k3
    cases a with
    | nil => exact absurd rfl h6
    | cons a0 a =>
      have ha0 : a0 ≠ 0 := by rintro rfl; simp at h7
      refine ⟨some (a0 :: a), oo, c.toNat, ?_, hr, rfl, rfl⟩
      have e1 : at' (dash :: c :: a0 :: a) 1 = .ok c := rfl
      have e2 : at' (dash :: c :: a0 :: a) 2 = .ok a0 := rfl
      simp [shortOpt, e1, e2, k1, k2, k4, Item.words, ha0, charToInt_ascii h1]
  | separate c a =>
    simp only [Item.words, List.head?_cons, Option.some.injEq] at hw
    subst hw
    simp only [Item.char] at *
    obtain ⟨h5, h6⟩ := h5
    obtain ⟨i, c1, k1, k2, k3⟩ := kindOf_known (s := optstring) (c := c) (by rw [h5]; decide)
    rw [h5] at k3
    simp at k3
    obtain ⟨rfl, c2, k4, k5⟩ := k3
    refine ⟨some a, oo, c.toNat, ?_, hr, rfl, rfl⟩
    have e1 : at' [dash, c] 1 = .ok c := rfl
    have e2 : at' [dash, c] 2 = .ok 0 := rfl
    have hnext : (front ++ [dash, c] :: a :: rest)[front.length + 1]? = some a := by
      rw [List.getElem?_append_right (by omega)]
      simp
    simp [shortOpt, e1, e2, k1, k2, k4, k5, Item.words, charToInt_ascii h1, hnext, h6]
  | omitted c =>
    simp only [Item.words, List.head?_cons, Option.some.injEq] at hw
    subst hw
    simp only [Item.char] at *
    obtain ⟨i, c1, k1, k2, k3⟩ := kindOf_known (s := optstring) (c := c) (by rw [h5]; decide)
    rw [h5] at k3
    simp at k3
    obtain ⟨rfl, k4⟩ := k3
    refine ⟨none, oo, c.toNat, ?_, hr, rfl, rfl⟩
    have e1 : at' [dash, c] 1 = .ok c := rfl
    have e2 : at' [dash, c] 2 = .ok 0 := rfl
    simp [shortOpt, e1, e2, k1, k2, k4, Item.words, charToInt_ascii h1]
  | unknown c =>
    simp only [Item.words, List.head?_cons, Option.some.injEq] at hw
    subst hw
    simp only [Item.char] at *
    refine ⟨oa, c, question, ?_, by decide, rfl, rfl⟩
    have e1 : at' [dash, c] 1 = .ok c := rfl
    simp [shortOpt, e1, kindOf_unknown h5 h0, Item.words]

theorem operand_not_option {w : Str} (h : Operand w) : looksLikeOption w = false ∧ isOptionArg w = false ∧
    w ≠ [dash, dash] := by
  rcases h with h | rfl
  · refine ⟨by simp [looksLikeOption, h], by simp [isOptionArg, h], ?_⟩
    rintro rfl; simp at h
  · decide

theorem findIdx_operands (P : List Str) (hP : ∀ w ∈ P, Operand w) (w : Str) (hw : looksLikeOption w = true)
    (rest : List Str) : (P ++ w :: rest).findIdx? looksLikeOption = some P.length := by
  induction P with
  | nil => simp [List.findIdx?_cons, hw]
  | cons p P ih =>
    rw [List.cons_append, List.findIdx?_cons, (operand_not_option (hP p (by simp))).1]
    simp [ih fun w hw => hP w (by simp [hw])]

theorem findIdx_no_option (P : List Str) (hP : ∀ w ∈ P, Operand w) : P.findIdx? looksLikeOption = none := by
  rw [List.findIdx?_eq_none_iff]
  intro w hw; exact (operand_not_option (hP w hw)).1

/-- Rotating the words of the item in front of the skipped operands. -/
theorem permute_rotate (W : List Str) : ∀ (A P C : List Str), 0 < P.length →
    permuteLoop A.length (A.length + P.length + W.length - 1) W.length (A ++ P ++ W ++ C) = .ok (A ++ W ++ P ++ C) := by
  suffices ∀ (n : Nat) (W A P C : List Str), W.length = n → 0 < P.length →
      permuteLoop A.length (A.length + P.length + W.length - 1) W.length (A ++ P ++ W ++ C) = .ok (A ++ W ++ P ++ C) from
    fun A P C h => this W.length W A P C rfl h
  intro n
  induction n with
  | zero =>
    intro W A P C hW _
    have : W = [] := by simpa using hW
    subst this
    simp [permuteLoop]
  | succ n ih =>
    intro W A P C hW hP
    rcases List.eq_nil_or_concat W with rfl | ⟨W', x, rfl⟩
    · simp at hW
    · simp only [List.concat_eq_append, List.length_append, List.length_cons, List.length_nil] at hW ⊢
      have hstep : permute (A ++ P ++ (W' ++ [x]) ++ C) A.length (A.length + P.length + (W'.length + 1) - 1)
          = .ok (A ++ (x :: P) ++ W' ++ C) := by
        have hsrc : A.length + P.length + (W'.length + 1) - 1 = (A ++ P ++ W').length := by simp; omega
        have hlist : A ++ P ++ (W' ++ [x]) ++ C = (A ++ P ++ W') ++ x :: C := by simp
        unfold permute
        rw [hsrc, hlist]
        have hgt : (A ++ P ++ W').length > A.length := by simp; omega
        have htk : (A ++ P ++ W' ++ x :: C).take A.length = A := by
          rw [List.append_assoc, List.append_assoc, List.take_append_of_le_length (Nat.le_refl _), List.take_length]
        have hdr : (A ++ P ++ W' ++ x :: C).drop A.length = P ++ W' ++ x :: C := by
          rw [List.append_assoc, List.append_assoc, List.drop_append_of_le_length (Nat.le_refl _), List.drop_length]
          simp
        have hlen2 : (A ++ P ++ W').length - A.length = (P ++ W').length := by simp
        have hget : (A ++ P ++ W' ++ x :: C)[(A ++ P ++ W').length]? = some x := by
          rw [List.getElem?_append_right (Nat.le_refl _)]; simp
        have hdr2 : (A ++ P ++ W' ++ x :: C).drop ((A ++ P ++ W').length + 1) = C := by
          rw [List.drop_append]; simp
        have htk2 : (P ++ W' ++ x :: C).take (P ++ W').length = P ++ W' := by
          rw [List.take_append_of_le_length (Nat.le_refl _), List.take_length]
        simp only [hgt, decide_true, ensure_true, Res.ok_bind, hget, htk, hdr, hlen2, htk2, hdr2, Res.pure_eq]
        simp
      rw [permuteLoop, hstep, Res.ok_bind]
      have := ih W' A (x :: P) C (by omega) (by simp)
      rw [show A.length + (x :: P).length + W'.length - 1 = A.length + P.length + (W'.length + 1) - 1 by
        simp only [List.length_cons]; omega] at this
      rw [this]
      simp

/-- The mode in which operands are permuted to the end. -/
def Permuting (optstring : Str) : Prop := optstring.head? ≠ some plus ∧ optstring.head? ≠ some dash

theorem item_option_arg (optstring : Str) (it : Item) (hv : it.Valid optstring) :
    ∃ w ws, it.words = w :: ws ∧ looksLikeOption w = true ∧ isOptionArg w = true := by
  obtain ⟨w, ws, h, t, rfl⟩ := item_first_word it
  refine ⟨_, ws, h, by simp [looksLikeOption], ?_⟩
  have : it.char ≠ dash := hv.2.2.1
  simp [isOptionArg, this]

/-- One call finds the next item behind any number of operands. -/
theorem getopt_item (posix : Bool) (optstring : Str) (hp : Permuting optstring) (it : Item) (hv : it.Valid optstring)
    (front P rest : List Str) (hf : front ≠ []) (hP : ∀ w ∈ P, Operand w) (oa : Option Str) (oo : UInt8) :
    ∃ oa' oo' r, getopt posix optstring ⟨front ++ P ++ it.words ++ rest, front.length, oa, oo, 1⟩
        = .ok (r, ⟨front ++ it.words ++ P ++ rest, front.length + it.words.length, oa', oo', 1⟩) ∧
      r ≠ -1 ∧ Reports it ⟨r, oa', oo'⟩ := by
  obtain ⟨w, ws, hw, hl, ho⟩ := item_option_arg optstring it hv
  have hfl : front.length ≠ 0 := by simpa using hf
  have hdrop : (front ++ P ++ it.words ++ rest).drop front.length = P ++ w :: (ws ++ rest) := by
    rw [List.append_assoc, List.append_assoc, List.drop_append_of_le_length (Nat.le_refl _), List.drop_length, hw]
    simp
  have hidx : ((front ++ P ++ it.words ++ rest).drop front.length).findIdx? looksLikeOption = some P.length := by
    rw [hdrop]; exact findIdx_operands P hP w hl _
  have hget : (front ++ P ++ it.words ++ rest)[front.length + P.length]? = some w := by
    rw [List.append_assoc, List.getElem?_append_right (by simp), hw]; simp
  obtain ⟨oa', oo', r, h1, h2, h3⟩ := shortOpt_item optstring it hv (front ++ P) rest oa oo w (by rw [hw]; rfl)
  refine ⟨oa', oo', r, ?_, h2, h3⟩
  have hpp : (optstring.head? ≠ some plus ∧ optstring.head? ≠ some dash) = True := eq_true hp
  unfold getopt
  simp only [hfl, if_false, hidx, hpp, reduceCtorEq, and_false, if_true, Option.getD_some]
  rw [mainLoop]
  simp only [hget, ho, not_true_eq_false, if_false]
  rw [List.length_append] at h1
  rw [h1]
  simp only [Res.ok_bind, Res.pure_eq]
  have hsub : front.length + P.length + it.words.length - (front.length + P.length) = it.words.length := by omega
  by_cases hPe : P = []
  · subst hPe
    simp
  · have hPl : 0 < P.length := List.length_pos_iff.2 hPe
    rw [if_pos (by omega), hsub, permute_rotate it.words front P rest hPl]
    simp

/-- The call that ends the scan when only operands are left. -/
theorem getopt_end (posix : Bool) (optstring : Str) (hp : Permuting optstring) (front P : List Str) (hf : front ≠ [])
    (hP : ∀ w ∈ P, Operand w) (oa : Option Str) (oo : UInt8) :
    getopt posix optstring ⟨front ++ P, front.length, oa, oo, 1⟩ = .ok (-1, ⟨front ++ P, front.length, none, oo, 1⟩) := by
  have hfl : front.length ≠ 0 := by simpa using hf
  have hidx : ((front ++ P).drop front.length).findIdx? looksLikeOption = none := by
    rw [List.drop_append_of_le_length (Nat.le_refl _), List.drop_length]
    simpa using findIdx_no_option P hP
  have hpp : (optstring.head? ≠ some plus ∧ optstring.head? ≠ some dash) = True := eq_true hp
  unfold getopt
  simp only [hfl, if_false, hidx, hpp, and_self, if_true, Res.pure_eq]

/-- The call that ends the scan at `--`. -/
theorem getopt_dashdash (posix : Bool) (optstring : Str) (hp : Permuting optstring) (front P rest : List Str)
    (hf : front ≠ []) (hP : ∀ w ∈ P, Operand w) (oa : Option Str) (oo : UInt8) :
    getopt posix optstring ⟨front ++ P ++ [dash, dash] :: rest, front.length, oa, oo, 1⟩
      = .ok (-1, ⟨front ++ [[dash, dash]] ++ P ++ rest, front.length + 1, oa, oo, 1⟩) := by
  have hfl : front.length ≠ 0 := by simpa using hf
  have hdrop : (front ++ P ++ [dash, dash] :: rest).drop front.length = P ++ [dash, dash] :: rest := by
    rw [List.append_assoc, List.drop_append_of_le_length (Nat.le_refl _), List.drop_length]; simp
  have hidx : ((front ++ P ++ [dash, dash] :: rest).drop front.length).findIdx? looksLikeOption = some P.length := by
    rw [hdrop]; exact findIdx_operands P hP _ (by decide) _
  have hget : (front ++ P ++ [dash, dash] :: rest)[front.length + P.length]? = some [dash, dash] := by
    rw [List.getElem?_append_right (by simp)]; simp
  have hpp : (optstring.head? ≠ some plus ∧ optstring.head? ≠ some dash) = True := eq_true hp
  unfold getopt
  simp only [hfl, if_false, hidx, hpp, reduceCtorEq, and_false, if_true, Option.getD_some]
  rw [mainLoop]
  simp only [hget, show isOptionArg [dash, dash] = false by decide, Bool.false_eq_true, not_false_eq_true, if_true,
    Res.ok_bind, Res.pure_eq]
  have hsub : front.length + P.length + 1 - (front.length + P.length) = 1 := by omega
  by_cases hPe : P = []
  · subst hPe; simp
  · have hPl : 0 < P.length := List.length_pos_iff.2 hPe
    have := permute_rotate [[dash, dash]] front P rest hPl
    simp only [List.length_cons, List.length_nil, Nat.zero_add] at this
    rw [if_pos (by omega), hsub]
    have hl : front ++ P ++ [dash, dash] :: rest = front ++ P ++ [[dash, dash]] ++ rest := by simp
    rw [hl, this]
    simp

/-- Words that end the options: nothing, or `--` followed by anything. -/
def EndOfOptions (tail : List Str) : Prop := tail = [] ∨ ∃ rest, tail = [dash, dash] :: rest

theorem run_main (posix : Bool) (optstring : Str) (hp : Permuting optstring) (es : List Elem) :
    ∀ (front P tail : List Str) (oa : Option Str) (oo : UInt8) (n : Nat), front ≠ [] → (∀ w ∈ P, Operand w) →
      EndOfOptions tail → (∀ e ∈ es, e.Valid optstring) → (items es).length < n →
      ∃ evs oa' oo', run posix optstring n ⟨front ++ P ++ es.flatMap Elem.words ++ tail, front.length, oa, oo, 1⟩
          = .ok (evs, ⟨front ++ (items es).flatMap Item.words ++ tail.take 1 ++ P ++ operands es ++ tail.drop 1,
              front.length + ((items es).flatMap Item.words).length + (tail.take 1).length, oa', oo', 1⟩) ∧
        Pointwise Reports (items es) evs := by
  induction es with
  | nil =>
    intro front P tail oa oo n hf hP ht hv hn
    cases n with
    | zero => simp at hn
    | succ n =>
      rcases ht with rfl | ⟨rest, rfl⟩
      · refine ⟨[], none, oo, ?_, .nil⟩
        have := getopt_end posix optstring hp front P hf hP oa oo
        simp [run, this, items, operands]
      · refine ⟨[], oa, oo, ?_, .nil⟩
        have := getopt_dashdash posix optstring hp front P rest hf hP oa oo
        simp only [List.append_assoc, List.flatMap_nil, List.append_nil, List.nil_append] at this ⊢
        simp [run, this, items, operands]
  | cons e es ih =>
    intro front P tail oa oo n hf hP ht hv hn
    cases e with
    | operand w =>
      obtain ⟨evs, oa', oo', h1, h2⟩ := ih front (P ++ [w]) tail oa oo n hf (by
        intro x hx
        rcases List.mem_append.1 hx with hx | hx
        · exact hP x hx
        · rw [List.mem_singleton.1 hx]; exact hv (.operand w) (by simp)) ht (fun e he => hv e (by simp [he]))
        (by simpa [items] using hn)
      refine ⟨evs, oa', oo', ?_, h2⟩
      simp only [List.append_assoc, List.flatMap_cons, Elem.words, items, operands, List.cons_append,
        List.nil_append] at h1 ⊢
      exact h1
    | opt it =>
      cases n with
      | zero => simp at hn
      | succ n =>
        have hvi : it.Valid optstring := hv (.opt it) (by simp)
        obtain ⟨oa1, oo1, r, g1, g2, g3⟩ := getopt_item posix optstring hp it hvi front P
          (es.flatMap Elem.words ++ tail) hf hP oa oo
        obtain ⟨evs, oa', oo', h1, h2⟩ := ih (front ++ it.words) P tail oa1 oo1 n (by simp [hf]) hP ht
          (fun e he => hv e (by simp [he])) (by simp [items] at hn; exact hn)
        refine ⟨⟨r, oa1, oo1⟩ :: evs, oa', oo', ?_, .cons g3 h2⟩
        have hargv : front ++ P ++ (Elem.opt it :: es).flatMap Elem.words ++ tail
            = front ++ P ++ it.words ++ (es.flatMap Elem.words ++ tail) := by
          simp [Elem.words]
        rw [hargv, run, g1]
        simp only [Res.ok_bind, g2, if_false]
        rw [List.length_append] at h1
        have hargv2 : front ++ it.words ++ P ++ (es.flatMap Elem.words ++ tail)
            = front ++ it.words ++ P ++ es.flatMap Elem.words ++ tail := by simp
        rw [hargv2, h1]
        simp only [Res.ok_bind, Res.pure_eq, items, operands, List.flatMap_cons, List.length_append, List.append_assoc]
        congr 4
        omega

/-- **C23, partial.** In the default mode: for every command line consisting of options, given one per word with their
arguments, and operands in any order, possibly followed by `--` and further words, repeated calls of getopt report
exactly the options, in order, each with its argument, then return -1. Then `argv` holds the option words (and `--`)
in order, then the operands in order, then the words behind `--`, and `optind` is the index of the first operand.
Missing: several options in one word, separate arguments starting with `-`, missing arguments. These do not work, see
below. -/
theorem getopt_permuting_partial (posix : Bool) (optstring prog : Str) (hp : Permuting optstring) (es : List Elem)
    (tail : List Str) (ht : EndOfOptions tail) (hv : ∀ e ∈ es, e.Valid optstring) :
    ∃ evs fin, run posix optstring ((items es).length + 1) { argv := prog :: es.flatMap Elem.words ++ tail }
        = .ok (evs, fin) ∧
      Pointwise Reports (items es) evs ∧
      fin.argv = prog :: ((items es).flatMap Item.words ++ tail.take 1) ++ (operands es ++ tail.drop 1) ∧
      fin.optind = (prog :: ((items es).flatMap Item.words ++ tail.take 1)).length := by
  obtain ⟨evs, oa', oo', h1, h2⟩ := run_main posix optstring hp es [prog] [] tail none 0 ((items es).length + 1)
    (by simp) (by simp) ht hv (by omega)
  refine ⟨evs, _, by simpa using h1, h2, by simp, by simp; omega⟩

/-! ### Stopping at the first operand (`+`) -/

theorem getopt_plus_item (posix : Bool) (optstring : Str) (hp : optstring.head? = some plus) (it : Item)
    (hv : it.Valid optstring) (front rest : List Str) (hf : front ≠ []) (oa : Option Str) (oo : UInt8) :
    ∃ oa' oo' r, getopt posix optstring ⟨front ++ it.words ++ rest, front.length, oa, oo, 1⟩
        = .ok (r, ⟨front ++ it.words ++ rest, front.length + it.words.length, oa', oo', 1⟩) ∧
      r ≠ -1 ∧ Reports it ⟨r, oa', oo'⟩ := by
  obtain ⟨w, ws, hw, hl, ho⟩ := item_option_arg optstring it hv
  have hfl : front.length ≠ 0 := by simpa using hf
  have hget : (front ++ it.words ++ rest)[front.length]? = some w := by
    rw [List.append_assoc, List.getElem?_append_right (by simp), hw]; simp
  obtain ⟨oa', oo', r, h1, h2, h3⟩ := shortOpt_item optstring it hv front rest oa oo w (by rw [hw]; rfl)
  refine ⟨oa', oo', r, ?_, h2, h3⟩
  have hnp : ¬ (optstring.head? ≠ some plus ∧ optstring.head? ≠ some dash) := fun h => h.1 hp
  unfold getopt
  simp only [hfl, if_false, hnp, false_and]
  rw [mainLoop]
  simp only [hget, ho, not_true_eq_false, if_false, h1]
  simp

/-- The remaining words when the options end in `+` mode. -/
def PlusEnd (tail : List Str) : Prop := tail = [] ∨ (∃ rest, tail = [dash, dash] :: rest) ∨
  ∃ w rest, tail = w :: rest ∧ Operand w

/-- Number of words the end of the options takes. -/
def plusSkip : List Str → Nat
  | [45, 45] :: _ => 1
  | _ => 0

theorem getopt_plus_end (posix : Bool) (optstring : Str) (hp : optstring.head? = some plus) (front tail : List Str)
    (hf : front ≠ []) (ht : PlusEnd tail) (oa : Option Str) (oo : UInt8) :
    ∃ oa', getopt posix optstring ⟨front ++ tail, front.length, oa, oo, 1⟩
        = .ok (-1, ⟨front ++ tail, front.length + plusSkip tail, oa', oo, 1⟩) := by
  have hfl : front.length ≠ 0 := by simpa using hf
  have hnp : ¬ (optstring.head? ≠ some plus ∧ optstring.head? ≠ some dash) := fun h => h.1 hp
  unfold getopt
  simp only [hfl, if_false, hnp, false_and]
  rw [mainLoop]
  rcases ht with rfl | ⟨rest, rfl⟩ | ⟨w, rest, rfl, ho⟩
  · exact ⟨none, by simp [plusSkip]⟩
  · have hget : (front ++ [dash, dash] :: rest)[front.length]? = some [dash, dash] := by
      rw [List.getElem?_append_right (by simp)]; simp
    refine ⟨oa, ?_⟩
    simp [hget, show isOptionArg [dash, dash] = false by decide, plusSkip]
  · have hget : (front ++ w :: rest)[front.length]? = some w := by
      rw [List.getElem?_append_right (by simp)]; simp
    obtain ⟨-, h2, h3⟩ := operand_not_option ho
    have h4 : plusSkip (w :: rest) = 0 := by
      unfold plusSkip
      split
      · rename_i heq; simp at heq; exact absurd heq.1 h3
      · rfl
    refine ⟨none, ?_⟩
    simp [hget, h2, h3, hp, h4]

/-- **C23 with a leading `+`, partial.** getopt reports the options up to the first operand (or `--`), leaves `argv`
unchanged and sets `optind` to the index of that operand (behind `--`). -/
theorem getopt_plus_partial (posix : Bool) (optstring prog : Str) (hp : optstring.head? = some plus) (its : List Item)
    (tail : List Str) (ht : PlusEnd tail) (hv : ∀ it ∈ its, it.Valid optstring) :
    ∃ evs fin, run posix optstring (its.length + 1) { argv := prog :: its.flatMap Item.words ++ tail } = .ok (evs, fin) ∧
      Pointwise Reports its evs ∧
      fin.argv = prog :: its.flatMap Item.words ++ tail ∧
      fin.optind = (prog :: its.flatMap Item.words).length + plusSkip tail := by
  suffices ∀ (its : List Item) (front : List Str) (oa : Option Str) (oo : UInt8), front ≠ [] →
      (∀ it ∈ its, it.Valid optstring) →
      ∃ evs oa' oo', run posix optstring (its.length + 1) ⟨front ++ its.flatMap Item.words ++ tail, front.length, oa, oo, 1⟩
          = .ok (evs, ⟨front ++ its.flatMap Item.words ++ tail, front.length + (its.flatMap Item.words).length + plusSkip tail,
              oa', oo', 1⟩) ∧ Pointwise Reports its evs by
    obtain ⟨evs, oa', oo', h1, h2⟩ := this its [prog] none 0 (by simp) hv
    exact ⟨evs, _, by simpa using h1, h2, by simp, by simp; omega⟩
  intro its
  induction its with
  | nil =>
    intro front oa oo hf _
    obtain ⟨oa', h⟩ := getopt_plus_end posix optstring hp front tail hf ht oa oo
    refine ⟨[], oa', oo, ?_, .nil⟩
    simp [run, h]
  | cons it its ih =>
    intro front oa oo hf hv
    obtain ⟨oa1, oo1, r, g1, g2, g3⟩ := getopt_plus_item posix optstring hp it (hv it (by simp)) front
      (its.flatMap Item.words ++ tail) hf oa oo
    obtain ⟨evs, oa', oo', h1, h2⟩ := ih (front ++ it.words) oa1 oo1 (by simp [hf]) fun i hi => hv i (by simp [hi])
    refine ⟨⟨r, oa1, oo1⟩ :: evs, oa', oo', ?_, .cons g3 h2⟩
    have hargv : front ++ (it :: its).flatMap Item.words ++ tail = front ++ it.words ++ (its.flatMap Item.words ++ tail) := by
      simp
    rw [hargv, List.length_cons, run, g1]
    simp only [Res.ok_bind, g2, if_false]
    rw [List.length_append] at h1
    have hargv2 : front ++ it.words ++ (its.flatMap Item.words ++ tail)
        = front ++ it.words ++ its.flatMap Item.words ++ tail := by simp
    rw [hargv2, h1]
    simp only [Res.ok_bind, Res.pure_eq, List.flatMap_cons, List.length_append, List.append_assoc]
    congr 4
    omega

/-! ### Where the code does not do this -/

/-- `prog -ab -c` with options `abc`: after the cluster the position inside the word is not reset, and the third call
reads behind the end of the option string. -/
theorem getopt_cluster_violated :
    run false [97, 98, 99] 9 { argv := [[112], [45, 97, 98], [45, 99]] } = .ub := by decide

/-- `prog -ab -cd` with options `abcd`: `c` is never reported. -/
theorem getopt_cluster_skips_violated :
    (run false [97, 98, 99, 100] 9 { argv := [[112], [45, 97, 98], [45, 99, 100]] }).isOk ∧
    (run false [97, 98, 99, 100] 9 { argv := [[112], [45, 97, 98], [45, 99, 100]] }
      >>= fun r => .ok (r.1.map Event.ret)) = .ok [97, 98, 100] := by decide

/-- `prog -o` with options `o:`: the argument is missing, and every call reports this again: a program that calls
getopt until it returns -1 never terminates. -/
theorem getopt_missing_argument_violated (posix : Bool) (n : Nat) :
    run posix [111, 58] n { argv := [[112], [45, 111]] } = .ub := by
  have h1 : ∀ b, getopt b [111, 58] { argv := [[112], [45, 111]] }
      = .ok (63, { argv := [[112], [45, 111]], optopt := 111 }) := by decide
  have h2 : ∀ b, getopt b [111, 58] { argv := [[112], [45, 111]], optopt := 111 }
      = .ok (63, { argv := [[112], [45, 111]], optopt := 111 }) := by decide
  have h3 : ∀ n, run posix [111, 58] n { argv := [[112], [45, 111]], optopt := 111 } = .ub := by
    intro n
    induction n with
    | zero => rfl
    | succ n ih => simp [run, h2, ih]
  cases n with
  | zero => rfl
  | succ n => simp [run, h1, h3]

/-- `prog -o - x` with options `o:`: the argument `-` is not accepted. -/
theorem getopt_dash_argument_violated :
    getopt false [111, 58] { argv := [[112], [45, 111], [45], [120]] }
      = .ok (63, { argv := [[112], [45, 111], [45], [120]], optopt := 111 }) := by decide

/-- `prog -:` with options `a:`: the colon is reported as a valid option. -/
theorem getopt_colon_violated :
    getopt false [97, 58] { argv := [[112], [45, 58]] } = .ok (58, { argv := [[112], [45, 58]], optind := 2 }) := by
  decide

/-- A command line with every kind of item: options `ab:c::`, arguments `-a x -b V -bW -c -cZ - -q -- -a`. -/
example :
    let os : Str := [97, 98, 58, 99, 58, 58]
    let es : List Elem := [.opt (.flag 97), .operand [120], .opt (.separate 98 [86]), .opt (.attached 98 [87]),
      .opt (.omitted 99), .opt (.attached 99 [90]), .operand [45], .opt (.unknown 113)]
    Permuting os ∧ EndOfOptions [[45, 45], [45, 97]] ∧ ∀ e ∈ es, e.Valid os := by
  refine ⟨⟨by decide, by decide⟩, Or.inr ⟨_, rfl⟩, ?_⟩
  simp only [List.mem_cons, List.not_mem_nil, or_false]
  rintro e (rfl | rfl | rfl | rfl | rfl | rfl | rfl | rfl) <;> simp only [Elem.Valid, Item.Valid, Operand, Item.char] <;>
    decide
example : [(43 : UInt8), 97].head? = some plus ∧ PlusEnd [[120], [45, 97]] ∧
    ∀ it ∈ [Item.flag 97], it.Valid [43, 97] := by
  refine ⟨rfl, Or.inr (Or.inr ⟨_, _, rfl, Or.inl (by decide)⟩), ?_⟩
  simp only [List.mem_cons, List.not_mem_nil, or_false]
  rintro e rfl
  simp only [Item.Valid, Item.char]; decide

end Mlibc.Getopt
