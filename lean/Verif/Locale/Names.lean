import Verif.Base

/-
Locale names (options/internal/generic/locale.cpp): splitting a name into its parts and the list of names that are tried for it. The string views of
frigg are lists of character codes. Property C89.
-/
namespace Mlibc.Locale
open Mlibc

/-- Characters of a literal. -/
def txt (s : String) : List Nat := s.toList.map Char.toNat

/-! ## The code -/

/-- `find_first_of(chars, from)` and `find_first(c, from)` of frigg's string views (used at locale.cpp L96, L106, L119); `none` is `size_t(-1)`. -/
def findFrom (p : Nat → Bool) (s : List Nat) (start : Nat) : Option Nat := ((s.drop start).findIdx? p).map (· + start)

/-- `sub_string(from, size)` of frigg's string views (locale.cpp L98, L109). -/
def sub (s : List Nat) (start size : Nat) : List Nat := (s.drop start).take size

/-- locale.cpp L56-61 `DecomposedLocale`; the language is always there. -/
structure Parts where
  lang : List Nat
  terr : Option (List Nat)
  code : Option (List Nat)
  modi : Option (List Nat)
  deriving DecidableEq

/-- locale.cpp L133-136, the modifier. -/
def parseMod (name : List Nat) (lang : List Nat) (terr code : Option (List Nat)) (off : Nat) : Parts :=
  ⟨lang, terr, code, if name.length > off then some (sub name off (name.length - off)) else none⟩

/-- locale.cpp L118-136, the codeset; `at_` is where the character that ended the part before is. -/
def parseCode (name : List Nat) (lang : List Nat) (terr : Option (List Nat)) (at_ off : Nat) : Parts :=
  if name[at_]? = some 46 then
    match findFrom (· == 64) name off with
    | some e => parseMod name lang terr (if e > off then some (sub name off (e - off)) else none) (e + 1)
    | none => ⟨lang, terr, if name.length > off then some (sub name off (name.length - off)) else none, none⟩
  else parseMod name lang terr none off

/-- locale.cpp L87-137 `parseLocaleName`. -/
def parse (name : List Nat) : Parts :=
  match findFrom (fun c => c == 95 || c == 46 || c == 64) name 0 with
  | none => ⟨name, none, none, none⟩
  | some l =>
    if name[l]? = some 95 then
      match findFrom (fun c => c == 46 || c == 64) name (l + 1) with
      | some e => parseCode name (sub name 0 l) (if e > l + 1 then some (sub name (l + 1) (e - (l + 1))) else none) e (e + 1)
      | none => ⟨sub name 0 l, if name.length > l + 1 then some (sub name (l + 1) (name.length - (l + 1))) else none, none, none⟩
    else parseCode name (sub name 0 l) none l (l + 1)

def isDigit (c : Nat) : Bool := 48 ≤ c && c ≤ 57
def isAlpha (c : Nat) : Bool := (65 ≤ c && c ≤ 90) || (97 ≤ c && c ≤ 122)
def toLower (c : Nat) : Nat := if 65 ≤ c ∧ c ≤ 90 then c + 32 else c

/-- locale.cpp L63-84 `normalizeCodeset`; the classes are those of the C locale. -/
def normalize (code : List Nat) : List Nat :=
  (if code.all isDigit then [105, 115, 111] else []) ++
    code.filterMap fun c => if isAlpha c then some (toLower c) else if isDigit c then some c else none

/-- The `+=` sequences of `buildLocaleList` (locale.cpp L156-250): lang, then "_territory", ".codeset", "@modifier" if they are there. -/
def join (lang : List Nat) (terr code modi : Option (List Nat)) : List Nat :=
  lang ++ (match terr with | some t => 95 :: t | none => []) ++ (match code with | some c => 46 :: c | none => []) ++
    (match modi with | some m => 64 :: m | none => [])

/-- `if (cond) push_back(...)` -/
def pushIf (b : Bool) (x : List Nat) : List (List Nat) := if b then [x] else []

/-- locale.cpp L140-261 `buildLocaleList`. -/
def build (p : Parts) : List (List Nat) :=
  let norm := match p.code with | some c => normalize c | none => []
  let hasT := p.terr.isSome
  let hasM := p.modi.isSome
  let hasC := p.code.isSome && p.code != some norm
  let hasN := !norm.isEmpty
  pushIf (hasT && hasC && hasM) (join p.lang p.terr p.code p.modi) ++
  pushIf (hasT && hasN && hasM) (join p.lang p.terr (some norm) p.modi) ++
  pushIf (hasT && hasM) (join p.lang p.terr none p.modi) ++
  pushIf (hasT && hasC) (join p.lang p.terr p.code none) ++
  pushIf (hasT && hasN) (join p.lang p.terr (some norm) none) ++
  pushIf hasT (join p.lang p.terr none none) ++
  pushIf (hasM && hasC) (join p.lang none p.code p.modi) ++
  pushIf (hasM && hasN) (join p.lang none (some norm) p.modi) ++
  pushIf hasM (join p.lang none none p.modi) ++
  pushIf hasC (join p.lang none p.code none) ++
  pushIf hasN (join p.lang none (some norm) none) ++
  [join p.lang none none none]

/-! ## Specification -/

/-- The syntax of locale names: language[_territory][.codeset][@modifier], no part that is there empty, no part with a separator in it that would end it. -/
structure WellFormed (p : Parts) : Prop where
  lang : 95 ∉ p.lang ∧ 46 ∉ p.lang ∧ 64 ∉ p.lang
  terr : ∀ t, p.terr = some t → t ≠ [] ∧ 46 ∉ t ∧ 64 ∉ t
  code : ∀ c, p.code = some c → c ≠ [] ∧ 64 ∉ c
  modi : ∀ m, p.modi = some m → m ≠ []

/-- The name with these parts. -/
def Parts.text (p : Parts) : List Nat :=
  p.lang ++ (match p.terr with | none => [] | some t => txt "_" ++ t) ++ (match p.code with | none => [] | some c => txt "." ++ c) ++
    (match p.modi with | none => [] | some m => txt "@" ++ m)

/-- The variants of a codeset that are tried. -/
inductive CodeVariant where
  | exact_ | normal | none_
  deriving DecidableEq

/-- What of the name is kept. -/
structure Choice where
  terr : Bool
  modi : Bool
  code : CodeVariant
  deriving DecidableEq

/-- The name with what is kept. -/
def Choice.apply (ch : Choice) (norm : List Nat) (p : Parts) : Parts where
  lang := p.lang
  terr := if ch.terr then p.terr else none
  code := match ch.code with | .exact_ => p.code | .normal => some norm | .none_ => none
  modi := if ch.modi then p.modi else none

/-- A part can be kept only if it is there; the exact codeset only if it is not the normal form. -/
def Choice.Possible (ch : Choice) (norm : List Nat) (p : Parts) : Prop :=
  (ch.terr = true → p.terr ≠ none) ∧ (ch.modi = true → p.modi ≠ none) ∧
  (match ch.code with | .exact_ => p.code ≠ none ∧ p.code ≠ some norm | .normal => p.code ≠ none ∧ norm ≠ [] | .none_ => True)

/-- The order of preference: the territory counts most, then the modifier, then the codeset (exact, normal form, none). -/
def Choice.rank (ch : Choice) : Nat :=
  (if ch.terr then 6 else 0) + (if ch.modi then 3 else 0) + (match ch.code with | .exact_ => 2 | .normal => 1 | .none_ => 0)

/-- The normal form of a codeset: letters in lower case and digits; "iso" before a number. -/
def Normal (code norm : List Nat) : Prop :=
  norm = (if (∀ c ∈ code, 48 ≤ c ∧ c ≤ 57) then txt "iso" else []) ++
    ((code.filter fun c => (48 ≤ c ∧ c ≤ 57) ∨ (65 ≤ c ∧ c ≤ 90) ∨ (97 ≤ c ∧ c ≤ 122)).map fun c => if 65 ≤ c ∧ c ≤ 90 then c + 32 else c)

/-! ## Finding separators -/

theorem findFrom_some {p : Nat → Bool} (pre a b : List Nat) (x : Nat) (ha : ∀ c ∈ a, p c = false) (hx : p x = true) :
    findFrom p (pre ++ (a ++ x :: b)) pre.length = some (pre.length + a.length) := by
  unfold findFrom
  rw [List.drop_left]
  have : (a ++ x :: b).findIdx? p = some a.length := by
    induction a with
    | nil => simp [List.findIdx?_cons, hx]
    | cons c a ih =>
      rw [List.cons_append, List.findIdx?_cons, ha c (by simp)]
      simp only [Bool.false_eq_true, if_false]
      rw [ih (fun d hd => ha d (by simp [hd]))]
      rfl
  rw [this]
  simp [Nat.add_comm]

theorem findFrom_none {p : Nat → Bool} (pre a : List Nat) (ha : ∀ c ∈ a, p c = false) : findFrom p (pre ++ a) pre.length = none := by
  unfold findFrom
  rw [List.drop_left]
  have : a.findIdx? p = none := by
    rw [List.findIdx?_eq_none_iff]
    exact ha
  rw [this]
  rfl

/-- Either no separator, or a first one. -/
theorem split_first (p : Nat → Bool) (s : List Nat) : (∀ c ∈ s, p c = false) ∨ ∃ a x b, s = a ++ x :: b ∧ (∀ c ∈ a, p c = false) ∧ p x = true := by
  induction s with
  | nil => exact Or.inl (by simp)
  | cons c s ih =>
    by_cases hc : p c = true
    · exact Or.inr ⟨[], c, s, rfl, by simp, hc⟩
    · have hc' : p c = false := by simpa using hc
      rcases ih with h | ⟨a, x, b, rfl, h1, h2⟩
      · left
        intro d hd
        rcases List.mem_cons.1 hd with rfl | hd
        · exact hc'
        · exact h d hd
      · right
        refine ⟨c :: a, x, b, rfl, ?_, h2⟩
        intro d hd
        rcases List.mem_cons.1 hd with rfl | hd
        · exact hc'
        · exact h1 d hd

def opt (s : List Nat) : Option (List Nat) := if s = [] then none else some s

theorem opt_some {s t : List Nat} (h : opt s = some t) : s = t ∧ t ≠ [] := by
  unfold opt at h
  split at h
  · cases h
  · injection h with h
    subst h
    exact ⟨rfl, by assumption⟩

theorem parseMod_eq (pre m lang : List Nat) (terr code : Option (List Nat)) : parseMod (pre ++ m) lang terr code pre.length = ⟨lang, terr, code, opt m⟩ := by
  unfold parseMod opt sub
  rw [List.drop_left, List.length_append]
  cases m with
  | nil => simp
  | cons x m =>
    rw [if_pos (by simp), if_neg (by simp)]
    congr 2
    rw [List.take_of_length_le (by omega)]

/-- `parseCode` behind a "." -/
theorem parseCode_dot (pre r lang : List Nat) (terr : Option (List Nat)) :
    (64 ∉ r → parseCode (pre ++ 46 :: r) lang terr pre.length (pre.length + 1) = ⟨lang, terr, opt r, none⟩) ∧
    (∀ c m, r = c ++ 64 :: m → 64 ∉ c → parseCode (pre ++ 46 :: r) lang terr pre.length (pre.length + 1) = ⟨lang, terr, opt c, opt m⟩) := by
  have hat : (pre ++ 46 :: r)[pre.length]? = some 46 := by simp
  have hre : pre ++ 46 :: r = (pre ++ [46]) ++ r := by simp
  have hlen : (pre ++ [46]).length = pre.length + 1 := by simp
  constructor
  · intro h
    unfold parseCode
    rw [if_pos hat, hre, ← hlen, findFrom_none (pre ++ [46]) r (by intro c hc; simp; rintro rfl; exact h hc)]
    unfold opt sub
    dsimp only
    rw [List.drop_left, List.length_append]
    cases r with
    | nil => simp
    | cons x r =>
      rw [if_pos (by simp), if_neg (by simp), List.take_of_length_le (by omega)]
  · rintro c m rfl h
    unfold parseCode
    rw [if_pos hat, hre, ← hlen, findFrom_some (pre ++ [46]) c m 64 (by intro d hd; simp; rintro rfl; exact h hd) rfl]
    dsimp only
    have e1 : (pre ++ [46]) ++ (c ++ 64 :: m) = ((pre ++ [46]) ++ c ++ [64]) ++ m := by simp
    have e2 : (pre ++ [46]).length + c.length + 1 = ((pre ++ [46]) ++ c ++ [64]).length := by simp; omega
    have e3 : sub ((pre ++ [46]) ++ (c ++ 64 :: m)) (pre ++ [46]).length ((pre ++ [46]).length + c.length - (pre ++ [46]).length) = c := by
      unfold sub
      rw [List.drop_left, Nat.add_sub_cancel_left, List.take_left]
    rw [e3, e1, e2, parseMod_eq]
    congr 1
    unfold opt
    cases c with
    | nil => simp
    | cons x c => simp

/-- `parseCode` behind another separator. -/
theorem parseCode_other (pre r lang : List Nat) (x : Nat) (hx : x ≠ 46) (terr : Option (List Nat)) :
    parseCode (pre ++ x :: r) lang terr pre.length (pre.length + 1) = ⟨lang, terr, none, opt r⟩ := by
  have hat : (pre ++ x :: r)[pre.length]? = some x := by simp
  unfold parseCode
  rw [if_neg (by rw [hat]; simpa using hx)]
  have e1 : pre ++ x :: r = (pre ++ [x]) ++ r := by simp
  rw [e1, show pre.length + 1 = (pre ++ [x]).length by simp, parseMod_eq]

theorem parse_plain (name : List Nat) (h : 95 ∉ name ∧ 46 ∉ name ∧ 64 ∉ name) : parse name = ⟨name, none, none, none⟩ := by
  unfold parse
  have := findFrom_none (p := fun c => c == 95 || c == 46 || c == 64) [] name (by
    intro c hc
    simp only [Bool.or_eq_false_iff, beq_eq_false_iff_ne]
    refine ⟨⟨?_, ?_⟩, ?_⟩ <;> (rintro rfl; simp_all))
  simp only [List.nil_append, List.length_nil] at this
  rw [this]

theorem findSep (l r : List Nat) (x : Nat) (h : 95 ∉ l ∧ 46 ∉ l ∧ 64 ∉ l) (hx : x = 95 ∨ x = 46 ∨ x = 64) :
    findFrom (fun c => c == 95 || c == 46 || c == 64) (l ++ x :: r) 0 = some l.length := by
  have := findFrom_some (p := fun c => c == 95 || c == 46 || c == 64) [] l r x (by
    intro c hc
    simp only [Bool.or_eq_false_iff, beq_eq_false_iff_ne]
    refine ⟨⟨?_, ?_⟩, ?_⟩ <;> (rintro rfl; simp_all)) (by rcases hx with rfl | rfl | rfl <;> rfl)
  simp only [List.nil_append, List.length_nil, Nat.zero_add] at this
  exact this

theorem parse_other (l r : List Nat) (x : Nat) (h : 95 ∉ l ∧ 46 ∉ l ∧ 64 ∉ l) (hx : x = 46 ∨ x = 64) :
    parse (l ++ x :: r) = parseCode (l ++ x :: r) l none l.length (l.length + 1) := by
  have hs : sub (l ++ x :: r) 0 l.length = l := by
    unfold sub
    rw [List.drop_zero, List.take_left]
  unfold parse
  rw [findSep l r x h (Or.inr hx)]
  dsimp only
  rw [if_neg (by simp; omega), hs]

theorem parse_terr_end (l t : List Nat) (h : 95 ∉ l ∧ 46 ∉ l ∧ 64 ∉ l) (ht : 46 ∉ t ∧ 64 ∉ t) : parse (l ++ 95 :: t) = ⟨l, opt t, none, none⟩ := by
  have hs : sub (l ++ 95 :: t) 0 l.length = l := by
    unfold sub
    rw [List.drop_zero, List.take_left]
  have hre : l ++ 95 :: t = (l ++ [95]) ++ t := by simp
  have hlen : l.length + 1 = (l ++ [95]).length := by simp
  unfold parse
  rw [findSep l t 95 h (Or.inl rfl)]
  dsimp only
  rw [if_pos (by simp), hs, hre, hlen, findFrom_none (l ++ [95]) t (by
    intro c hc
    simp only [Bool.or_eq_false_iff, beq_eq_false_iff_ne]
    constructor <;> (rintro rfl; simp_all))]
  unfold opt sub
  dsimp only
  rw [List.drop_left, List.length_append]
  cases t with
  | nil => simp
  | cons x t => rw [if_pos (by simp), if_neg (by simp), List.take_of_length_le (by omega)]

theorem parse_terr (l t r : List Nat) (x : Nat) (h : 95 ∉ l ∧ 46 ∉ l ∧ 64 ∉ l) (ht : 46 ∉ t ∧ 64 ∉ t) (hx : x = 46 ∨ x = 64) :
    parse (l ++ 95 :: (t ++ x :: r)) = parseCode ((l ++ 95 :: t) ++ x :: r) l (opt t) (l ++ 95 :: t).length ((l ++ 95 :: t).length + 1) := by
  have hs : sub (l ++ 95 :: (t ++ x :: r)) 0 l.length = l := by
    unfold sub
    rw [List.drop_zero, List.take_left]
  have hre : l ++ 95 :: (t ++ x :: r) = (l ++ [95]) ++ (t ++ x :: r) := by simp
  have hlen : l.length + 1 = (l ++ [95]).length := by simp
  have hend : (l ++ [95]).length + t.length = (l ++ 95 :: t).length := by simp; omega
  have ht2 : sub ((l ++ [95]) ++ (t ++ x :: r)) (l ++ [95]).length ((l ++ [95]).length + t.length - (l ++ [95]).length) = t := by
    unfold sub
    rw [List.drop_left, Nat.add_sub_cancel_left, List.take_left]
  unfold parse
  rw [findSep l _ 95 h (Or.inl rfl)]
  dsimp only
  rw [if_pos (by simp), hs, hre, hlen, findFrom_some (l ++ [95]) t r x (by
    intro c hc
    simp only [Bool.or_eq_false_iff, beq_eq_false_iff_ne]
    constructor <;> (rintro rfl; simp_all)) (by rcases hx with rfl | rfl <;> rfl)]
  dsimp only
  rw [ht2, hend]
  have e1 : (l ++ [95]) ++ (t ++ x :: r) = (l ++ 95 :: t) ++ x :: r := by simp
  have e2 : (if (l ++ 95 :: t).length > (l ++ [95]).length then some t else none) = opt t := by
    unfold opt
    cases t with
    | nil => simp
    | cons y t => simp
  rw [e2, e1]

/-! ## Theorems on names -/

theorem join_text (p : Parts) : join p.lang p.terr p.code p.modi = p.text := by
  unfold join Parts.text
  have h1 : txt "_" = [95] := by decide
  have h2 : txt "." = [46] := by decide
  have h3 : txt "@" = [64] := by decide
  rw [h1, h2, h3]
  cases p.terr <;> cases p.code <;> cases p.modi <;> rfl

theorem opt_of_ne {s : List Nat} (h : s ≠ []) : opt s = some s := if_neg h

/-- **C89**: the parts of a name are found again: taking a well-formed name apart gives its parts. -/
theorem parse_text (p : Parts) (h : WellFormed p) : parse p.text = p := by
  rw [← join_text]
  obtain ⟨lang, terr, code, modi⟩ := p
  have hl := h.lang
  dsimp only at hl
  cases terr with
  | none =>
    cases code with
    | none =>
      cases modi with
      | none =>
        simp only [join, List.append_nil]
        exact parse_plain lang hl
      | some m =>
        simp only [join, List.append_nil]
        rw [parse_other lang m 64 hl (Or.inr rfl), parseCode_other lang m lang 64 (by omega) none, opt_of_ne (h.modi m rfl)]
    | some c =>
      have hc := h.code c rfl
      cases modi with
      | none =>
        simp only [join, List.append_nil]
        rw [parse_other lang c 46 hl (Or.inl rfl), (parseCode_dot lang c lang none).1 hc.2, opt_of_ne hc.1]
      | some m =>
        simp only [join, List.append_nil, List.append_assoc, List.cons_append]
        rw [parse_other lang _ 46 hl (Or.inl rfl), (parseCode_dot lang _ lang none).2 c m rfl hc.2, opt_of_ne hc.1, opt_of_ne (h.modi m rfl)]
  | some t =>
    have ht := h.terr t rfl
    cases code with
    | none =>
      cases modi with
      | none =>
        simp only [join, List.append_nil]
        rw [parse_terr_end lang t hl ht.2, opt_of_ne ht.1]
      | some m =>
        simp only [join, List.append_nil, List.append_assoc, List.cons_append]
        rw [parse_terr lang t m 64 hl ht.2 (Or.inr rfl), parseCode_other _ m lang 64 (by omega) _, opt_of_ne ht.1, opt_of_ne (h.modi m rfl)]
    | some c =>
      have hc := h.code c rfl
      cases modi with
      | none =>
        simp only [join, List.append_nil, List.append_assoc, List.cons_append]
        rw [parse_terr lang t c 46 hl ht.2 (Or.inl rfl), (parseCode_dot _ c lang _).1 hc.2, opt_of_ne ht.1, opt_of_ne hc.1]
      | some m =>
        simp only [join, List.append_assoc, List.cons_append]
        rw [parse_terr lang t _ 46 hl ht.2 (Or.inl rfl), (parseCode_dot _ _ lang _).2 c m rfl hc.2, opt_of_ne ht.1, opt_of_ne hc.1, opt_of_ne (h.modi m rfl)]

theorem wf_opts (l : List Nat) (t c m : List Nat) (hl : 95 ∉ l ∧ 46 ∉ l ∧ 64 ∉ l) (ht : 46 ∉ t ∧ 64 ∉ t) (hc : 64 ∉ c) :
    WellFormed ⟨l, opt t, opt c, opt m⟩ where
  lang := hl
  terr := by
    intro x hx
    obtain ⟨rfl, h⟩ := opt_some hx
    exact ⟨h, ht⟩
  code := by
    intro x hx
    obtain ⟨rfl, h⟩ := opt_some hx
    exact ⟨h, hc⟩
  modi := by
    intro x hx
    exact (opt_some hx).2

theorem opt_nil : opt [] = none := rfl

theorem notmem_of_sep3 {l : List Nat} (h : ∀ c ∈ l, (c == 95 || c == 46 || c == 64) = false) : 95 ∉ l ∧ 46 ∉ l ∧ 64 ∉ l := by
  refine ⟨?_, ?_, ?_⟩ <;> (intro hm; have := h _ hm; simp at this)

theorem notmem_of_sep2 {l : List Nat} (h : ∀ c ∈ l, (c == 46 || c == 64) = false) : 46 ∉ l ∧ 64 ∉ l := by
  refine ⟨?_, ?_⟩ <;> (intro hm; have := h _ hm; simp at this)

theorem notmem_of_at {l : List Nat} (h : ∀ c ∈ l, (c == 64) = false) : 64 ∉ l := by
  intro hm; have := h _ hm; simp at this

theorem parseCode_wf (pre r l t : List Nat) (x : Nat) (hl : 95 ∉ l ∧ 46 ∉ l ∧ 64 ∉ l) (ht : 46 ∉ t ∧ 64 ∉ t) :
    WellFormed (parseCode (pre ++ x :: r) l (opt t) pre.length (pre.length + 1)) := by
  by_cases hx : x = 46
  · subst hx
    rcases split_first (· == 64) r with h | ⟨c, y, m, rfl, h1, h2⟩
    · rw [(parseCode_dot pre r l _).1 (notmem_of_at h)]
      exact wf_opts l t r [] hl ht (notmem_of_at h)
    · have : y = 64 := by simpa using h2
      subst this
      rw [(parseCode_dot pre _ l _).2 c m rfl (notmem_of_at h1)]
      exact wf_opts l t c m hl ht (notmem_of_at h1)
  · rw [parseCode_other pre r l x hx]
    exact wf_opts l t [] r hl ht (by simp)

/-- **C89**: whatever the name, the parts found are well-formed. -/
theorem parse_wellFormed (name : List Nat) : WellFormed (parse name) := by
  rcases split_first (fun c => c == 95 || c == 46 || c == 64) name with h | ⟨l, x, r, rfl, h1, h2⟩
  · rw [parse_plain name (notmem_of_sep3 h)]
    exact wf_opts name [] [] [] (notmem_of_sep3 h) (by simp) (by simp)
  · have hl := notmem_of_sep3 h1
    by_cases hx : x = 95
    · subst hx
      rcases split_first (fun c => c == 46 || c == 64) r with h | ⟨t, y, r, rfl, h3, h4⟩
      · rw [parse_terr_end l r hl (notmem_of_sep2 h)]
        exact wf_opts l r [] [] hl (notmem_of_sep2 h) (by simp)
      · have hy : y = 46 ∨ y = 64 := by simpa using h4
        rw [parse_terr l t r y hl (notmem_of_sep2 h3) hy]
        exact parseCode_wf _ r l t y hl (notmem_of_sep2 h3)
    · have hx' : x = 46 ∨ x = 64 := by
        simp only [Bool.or_eq_true, beq_iff_eq] at h2
        omega
      rw [parse_other l r x hl hx']
      exact parseCode_wf l r l [] x hl (by simp)

/-- The code's normal form is the one of the specification. -/
theorem normalize_normal (code : List Nat) : Normal code (normalize code) := by
  unfold Normal normalize
  have h1 : txt "iso" = [105, 115, 111] := by decide
  rw [h1]
  congr 1
  · have : code.all isDigit = true ↔ ∀ c ∈ code, 48 ≤ c ∧ c ≤ 57 := by
      rw [List.all_eq_true]
      simp [isDigit]
    by_cases h : ∀ c ∈ code, 48 ≤ c ∧ c ≤ 57
    · rw [if_pos h, if_pos (this.2 h)]
    · rw [if_neg h, if_neg (fun e => h (this.1 e))]
  · induction code with
    | nil => rfl
    | cons c code ih =>
      rw [List.filterMap_cons, List.filter_cons]
      by_cases ha : isAlpha c = true
      · have ha' : (65 ≤ c ∧ c ≤ 90) ∨ (97 ≤ c ∧ c ≤ 122) := by simpa [isAlpha] using ha
        rw [if_pos ha, if_pos (by simp; omega)]
        dsimp only
        rw [ih]
        rfl
      · have ha' : ¬ ((65 ≤ c ∧ c ≤ 90) ∨ (97 ≤ c ∧ c ≤ 122)) := by
          intro h; exact ha (by simpa [isAlpha] using h)
        rw [if_neg ha]
        by_cases hd : isDigit c = true
        · have hd' : 48 ≤ c ∧ c ≤ 57 := by simpa [isDigit] using hd
          rw [if_pos hd, if_pos (by simp; omega)]
          dsimp only
          rw [ih, List.map_cons, if_neg (by omega)]
        · have hd' : ¬ (48 ≤ c ∧ c ≤ 57) := by
            intro h; exact hd (by simpa [isDigit] using h)
          rw [if_neg hd, if_neg (by simp; omega)]
          dsimp only
          exact ih

/-- All choices, best first. -/
def choices : List Choice :=
  [⟨true, true, .exact_⟩, ⟨true, true, .normal⟩, ⟨true, true, .none_⟩, ⟨true, false, .exact_⟩, ⟨true, false, .normal⟩, ⟨true, false, .none_⟩,
   ⟨false, true, .exact_⟩, ⟨false, true, .normal⟩, ⟨false, true, .none_⟩, ⟨false, false, .exact_⟩, ⟨false, false, .normal⟩, ⟨false, false, .none_⟩]

theorem choices_sorted : choices.Pairwise fun a b => a.rank > b.rank := by decide

theorem choices_all (ch : Choice) : ch ∈ choices := by
  obtain ⟨t, m, c⟩ := ch
  cases t <;> cases m <;> cases c <;> decide

def possible (ch : Choice) (norm : List Nat) (p : Parts) : Bool :=
  (!ch.terr || p.terr.isSome) && (!ch.modi || p.modi.isSome) &&
  (match ch.code with | .exact_ => p.code.isSome && p.code != some norm | .normal => p.code.isSome && !norm.isEmpty | .none_ => true)

theorem possible_iff (ch : Choice) (norm : List Nat) (p : Parts) : possible ch norm p = true ↔ ch.Possible norm p := by
  unfold possible Choice.Possible
  obtain ⟨t, m, c⟩ := ch
  cases t <;> cases m <;> cases c <;> simp [Option.isSome_iff_ne_none, and_assoc]

theorem push_filter (ch : Choice) (norm : List Nat) (p : Parts) (rest : List Choice) :
    ((ch :: rest).filter (possible · norm p)).map (fun c => (c.apply norm p).text) =
      pushIf (possible ch norm p) ((ch.apply norm p).text) ++ (rest.filter (possible · norm p)).map (fun c => (c.apply norm p).text) := by
  rw [List.filter_cons]
  unfold pushIf
  split <;> rfl

/-- The normal form that the list uses. -/
def normOf (p : Parts) : List Nat := match p.code with | some c => normalize c | none => []

theorem build_eq (p : Parts) : build p = (choices.filter (possible · (normOf p) p)).map (fun c => (c.apply (normOf p) p).text) := by
  have hn : p.code = none → normOf p = [] := by intro h; unfold normOf; rw [h]
  have hsn : (p.code.isSome && !(normOf p).isEmpty) = !(normOf p).isEmpty := by
    cases hc : p.code with
    | none => rw [hn hc]; rfl
    | some c => rfl
  unfold build choices
  rw [show (match p.code with | some c => normalize c | none => []) = normOf p from rfl]
  dsimp only
  simp only [push_filter]
  simp only [← join_text, Choice.apply, possible, hsn, List.filter_nil, List.map_nil, List.append_nil, Bool.not_true, Bool.not_false, Bool.false_or, Bool.true_or,
    Bool.true_and, Bool.and_true, if_true, if_false, Bool.false_eq_true, List.append_assoc]
  have hp : ∀ x, pushIf true x = [x] := fun _ => rfl
  have c1 : (p.terr.isSome && (p.code.isSome && p.code != some (normOf p)) && p.modi.isSome) = (p.terr.isSome && p.modi.isSome && (p.code.isSome && p.code != some (normOf p))) := by
    cases p.terr.isSome <;> cases p.modi.isSome <;> simp
  have c2 : (p.terr.isSome && !(normOf p).isEmpty && p.modi.isSome) = (p.terr.isSome && p.modi.isSome && !(normOf p).isEmpty) := by
    cases p.terr.isSome <;> cases p.modi.isSome <;> simp
  rw [c1, c2, hp]

/-- **C89**: the names tried are exactly those that keep some of the parts of the name given (the codeset exactly, in normal form, or not at all), in the
order of preference. -/
theorem build_spec (p : Parts) : ∃ (norm : List Nat) (chs : List Choice), (∀ c, p.code = some c → Normal c norm) ∧ (∀ ch, ch ∈ chs ↔ ch.Possible norm p) ∧
    chs.Pairwise (fun a b => a.rank > b.rank) ∧ build p = chs.map fun ch => (ch.apply norm p).text := by
  refine ⟨normOf p, choices.filter (possible · (normOf p) p), ?_, ?_, ?_, build_eq p⟩
  · intro c hc
    unfold normOf
    rw [hc]
    exact normalize_normal c
  · intro ch
    rw [List.mem_filter, possible_iff]
    exact ⟨fun h => h.2, fun h => ⟨choices_all ch, h⟩⟩
  · exact choices_sorted.sublist List.filter_sublist

/-- **C89**: the name itself is the first that is tried. -/
theorem build_head (p : Parts) (hc : p.code ≠ some []) : (build p).head? = some p.text := by
  rw [← join_text]
  obtain ⟨lang, terr, code, modi⟩ := p
  cases code with
  | none => cases terr <;> cases modi <;> rfl
  | some c =>
    have hc' : c ≠ [] := fun e => hc (by rw [e])
    by_cases hn : c = normalize c
    · have h1 : (some c != some (normalize c)) = false := by rw [← hn]; simp
      have h2 : (normalize c).isEmpty = false := by rw [← hn]; simpa using hc'
      cases terr <;> cases modi <;> simp [build, pushIf, h1, ← hn, hc']
    · have h1 : (some c != some (normalize c)) = true := by simpa using hn
      cases terr <;> cases modi <;> simp [build, pushIf, h1]

def german : Parts := ⟨txt "de", some (txt "DE"), some (txt "UTF-8"), some (txt "euro")⟩

example : parse (txt "de_DE.UTF-8@euro") = german := by decide +kernel

example : build german = [txt "de_DE.UTF-8@euro", txt "de_DE.utf8@euro", txt "de_DE@euro", txt "de_DE.UTF-8", txt "de_DE.utf8", txt "de_DE", txt "de.UTF-8@euro",
    txt "de.utf8@euro", txt "de@euro", txt "de.UTF-8", txt "de.utf8", txt "de"] := by decide +kernel

example : WellFormed german := by
  constructor
  · decide +kernel
  · intro t h; injection h with h; subst h; decide +kernel
  · intro t h; injection h with h; subst h; decide +kernel
  · intro t h; injection h with h; subst h; decide +kernel

end Mlibc.Locale
