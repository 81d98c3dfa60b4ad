/-
Character classification and case mapping: isalpha ... iscntrl, isascii, iswalpha ... iswcntrl,
wctype, iswctype, tolower, toupper, towlower, towupper, wctrans, towctrans and their `_l` variants.
options/ansi/generic/ctype.cpp, options/ansi/generic/wctype.cpp, options/posix/generic/posix_ctype.cpp,
options/internal/generic/charset.cpp, options/internal/generic/wide.cpp

A locale is its `LC_CTYPE` category: the array of class bits and the two narrow maps, the names, the
offsets, and the sequence of numbered tables. Reading a table outside its bounds is `ub`
(`frg::span::operator[]` does not check), as is shifting by 32 or more.
-/
import Verif.Base
import Verif.Utf8.Model
import Verif.Locale.CtypeTables

namespace Mlibc.Ctype

/-! ## Model -/

/-- `class_bits`, in the order of the enumeration. charset.cpp L8-L21 -/
inductive Class
  | upper | lower | alpha | digit | xdigit | space | print | graph | blank | cntrl | punct | alnum
  deriving DecidableEq, Repr

/-- `std::to_underlying(bit)`. charset.cpp L8-L21 -/
def Class.idx : Class → Nat
  | .upper => 0 | .lower => 1 | .alpha => 2 | .digit => 3 | .xdigit => 4 | .space => 5
  | .print => 6 | .graph => 7 | .blank => 8 | .cntrl => 9 | .punct => 10 | .alnum => 11

/-- The members of `nl_ctype` the functions use (options/internal/include/mlibc/locale.hpp L126-L179).
`tables` is the sequence of numbered entries: those below 86 are `members`, the others are found through
`offsets`. Numbers are 16-bit (`classBits`) and 32-bit units. -/
structure Loc where
  classBits : List Nat
  mapLower : List Nat
  mapUpper : List Nat
  classNames : List Nat
  mapNames : List Nat
  classOffset : Nat
  mapOffset : Nat
  tables : List (List Nat)

/-- `span[i]`. -/
def at32 (t : List Nat) (i : Nat) : Res Nat :=
  match t[i]? with
  | some v => .ok v
  | none => .ub

/-- `wc >> s` on 32-bit operands. -/
def shr (wc s : Nat) : Res Nat := if s < 32 then .ok (wc / 2 ^ s) else .ub

/-- `ctype_class_bit` on a little-endian machine. charset.cpp L23-L31 -/
def classBit (b : Class) : Nat := if b.idx < 8 then 2 ^ b.idx * 256 else 2 ^ b.idx / 256

/-- `wctype_table_lookup`. charset.cpp L34-L55 -/
def wctypeLookup (t : List Nat) (wc : Nat) : Res Nat := do
  let shift1 ← at32 t 0
  let index1 ← shr wc shift1
  let bound ← at32 t 1
  if index1 < bound then
    let lookup1 ← at32 t (5 + index1)
    if lookup1 ≠ 0 then
      let shift2 ← at32 t 2
      let mask2 ← at32 t 3
      let s ← shr wc shift2
      let lookup2 ← at32 t (lookup1 / 4 + (s &&& mask2))
      if lookup2 ≠ 0 then
        let mask3 ← at32 t 4
        let lookup3 ← at32 t (lookup2 / 4 + ((wc / 2 ^ 5) &&& mask3))
        .ok (lookup3 / 2 ^ (wc % 32) % 2)
      else .ok 0
    else .ok 0
  else .ok 0

/-- `wctrans_table_lookup`. charset.cpp L58-L79 -/
def wctransLookup (t : List Nat) (wc : Nat) : Res Nat := do
  let shift1 ← at32 t 0
  let index1 ← shr wc shift1
  let bound ← at32 t 1
  if index1 < bound then
    let lookup1 ← at32 t (5 + index1)
    if lookup1 ≠ 0 then
      let shift2 ← at32 t 2
      let mask2 ← at32 t 3
      let s ← shr wc shift2
      let lookup2 ← at32 t (lookup1 / 4 + (s &&& mask2))
      if lookup2 ≠ 0 then
        let mask3 ← at32 t 4
        let lookup3 ← at32 t (lookup2 / 4 + (wc &&& mask3))
        .ok ((wc + lookup3) % 2 ^ 32)
      else .ok wc
    else .ok wc
  else .ok wc

/-- `nl_ctype::class_table`. An index past the last entry fails the `__ensure`.
options/internal/include/mlibc/locale.hpp L129-L139 -/
def classTable (L : Loc) (i : Nat) : Res (List Nat) :=
  match L.tables[i]? with
  | some t => .ok t
  | none => .panic

/-- `ctype_class_check`. charset.cpp L81-L89 -/
def classCheck (L : Loc) (b : Class) (c : Nat) : Res Bool :=
  if c ≤ 0x7F then do
    let v ← at32 L.classBits (c + 128)
    .ok (v &&& classBit b != 0)
  else do
    let t ← classTable L (L.classOffset + b.idx)
    let v ← wctypeLookup t c
    .ok (v != 0)

/-- `polymorphic_charcode::promote`: the argument is converted to `char`. `ascii`: the codeset of the
active locale is "ANSI_X3.4-1968", otherwise UTF-8 (`current_charcode`, charcode.cpp L355-L361). `none`
is any status but `input_exhausted`. options/internal/include/mlibc/charcode.hpp L65-L83 -/
def promote (ascii : Bool) (nc : Int) : Option Nat :=
  let uc := (nc % 256).toNat
  if uc ≤ 0x7F then some uc
  else if ascii then some uc
  else match Utf8.step Utf8.St.init (UInt8.ofNat uc) with
    | none => none
    | some st => if st.progress = 0 then some st.cpoint else none

/-- `isalpha`, `isdigit`, ..., `iscntrl` (with `L` the active locale), and `isalpha_l`, ... (with `L` the
argument, but the codeset of the active locale). ctype.cpp L11-L107, posix_ctype.cpp L9-L103 -/
def isC (ascii : Bool) (L : Loc) (b : Class) (nc : Int) : Res Bool :=
  match promote ascii nc with
  | none => .ok false
  | some cp => classCheck L b cp

/-- `isascii`. ctype.cpp L109-L115 -/
def isascii (ascii : Bool) (nc : Int) : Bool :=
  match promote ascii nc with
  | none => false
  | some cp => cp ≤ 0x7F

/-- `iswalpha`, ..., `iswcntrl` and `iswalpha_l`, ...; promotion of a `wint_t` is the identity.
ctype.cpp L121-L213, posix_ctype.cpp L125-L217, charcode.cpp L367-L371 -/
def isW (L : Loc) (b : Class) (wc : Nat) : Res Bool := classCheck L b wc

/-- Conversion of a 32-bit value to `int`. -/
def toInt (v : Nat) : Int := if v < 2 ^ 31 then v else (v : Int) - 2 ^ 32

/-- `tolower`. ctype.cpp L231-L234 -/
def tolower (L : Loc) (c : Int) : Res Int :=
  if -128 ≤ c ∧ c < 256 then do
    let v ← at32 L.mapLower (c + 128).toNat
    .ok (toInt v)
  else .ok c

/-- `toupper`. ctype.cpp L236-L239 -/
def toupper (L : Loc) (c : Int) : Res Int :=
  if -128 ≤ c ∧ c < 256 then do
    let v ← at32 L.mapUpper (c + 128).toNat
    .ok (toInt v)
  else .ok c

/-- `charset::to_lower`, `towlower`, `towlower_l`. charset.cpp L150-L154, ctype.cpp L245-L251,
posix_ctype.cpp L231-L237 -/
def towlower (L : Loc) (wc : Nat) : Res Nat := do
  let t ← classTable L (L.mapOffset + 1)
  wctransLookup t wc

/-- `charset::to_upper`, `towupper`, `towupper_l`. charset.cpp L156-L160, ctype.cpp L253-L259,
posix_ctype.cpp L239-L245 -/
def towupper (L : Loc) (wc : Nat) : Res Nat := do
  let t ← classTable L L.mapOffset
  wctransLookup t wc

/-- `tolower_l`. posix_ctype.cpp L109-L115 -/
def tolowerL (ascii : Bool) (L : Loc) (nc : Int) : Res Int :=
  match promote ascii nc with
  | none => .ok 0
  | some cp => do let v ← towlower L cp; .ok (toInt v)

/-- `toupper_l`. posix_ctype.cpp L117-L123 -/
def toupperL (ascii : Bool) (L : Loc) (nc : Int) : Res Int :=
  match promote ascii nc with
  | none => .ok 0
  | some cp => do let v ← towupper L cp; .ok (toInt v)

/-- The loop of `charset::wctype`; `rest` is the names from `offset`. The first argument bounds the
iterations: each consumes a character. charset.cpp L166-L176 -/
def wctypeLoop (base : Nat) (name : List Nat) : Nat → List Nat → Nat → Nat
  | 0, _, _ => 0
  | f + 1, rest, i =>
    if rest = [] then 0
    else
      match rest.dropWhile (· ≠ 0) with
      | [] => 0
      | _ :: rest' =>
        if rest.takeWhile (· ≠ 0) = [] then 0
        else if name = rest.takeWhile (· ≠ 0) then base + i
        else wctypeLoop base name f rest' (i + 1)

/-- `wctype`, `wctype_l`. charset.cpp L162-L179, ctype.cpp L219-L221, posix_ctype.cpp L221-L224 -/
def wctype (L : Loc) (name : List Nat) : Nat :=
  wctypeLoop L.classOffset name L.classNames.length L.classNames 0

/-- `iswctype`, `iswctype_l`. `get` keeps 16 bits of the number and indexes the 86 members unchecked.
charset.cpp L186-L193, ctype.cpp L223-L225, posix_ctype.cpp L226-L229,
options/internal/include/mlibc/locale.hpp L95-L98, options/internal/include/bits/nl_item.h L14 -/
def iswctype (L : Loc) (wc t : Nat) : Res Bool :=
  if t = 0 ∨ wc = 2 ^ 32 - 1 then .ok false
  else if 86 ≤ t % 2 ^ 16 then .ub
  else
    match L.tables[t % 2 ^ 16]? with
    | none => .ub
    | some tab => do
      let v ← wctypeLookup tab wc
      .ok (v != 0)

/-- The loop of `find_wctrans`. If the last name has no terminator and does not match, the loop does not
advance: it runs forever, which is undefined (`ub`). options/internal/generic/wide.cpp L9-L20 -/
def wctransLoop (base : Nat) (name : List Nat) : Nat → List Nat → Nat → Res Nat
  | 0, _, _ => .ok 0
  | f + 1, rest, i =>
    if rest.head? = none ∨ rest.head? = some 0 then .ok 0
    else if rest.takeWhile (· ≠ 0) = name then .ok (base + i)
    else
      match rest.dropWhile (· ≠ 0) with
      | [] => .ub
      | _ :: rest' => wctransLoop base name f rest' (i + 1)

/-- `wctrans`, `wctrans_l`. options/internal/generic/wide.cpp L5-L23, wctype.cpp L10-L12,
posix_ctype.cpp L247-L249 -/
def wctrans (L : Loc) (name : List Nat) : Res Nat :=
  wctransLoop L.mapOffset name (L.mapNames.length + 1) L.mapNames 0

/-- `towctrans`, `towctrans_l`. charset.cpp L181-L184, wctype.cpp L14-L16, posix_ctype.cpp L251-L253 -/
def towctrans (L : Loc) (wc index : Nat) : Res Nat := do
  let t ← classTable L index
  wctransLookup t wc

/-- The characters of a string. -/
def chars (s : String) : List Nat := s.toList.map Char.toNat

/-- `defaultCtypeClassNames`: every name with its terminator, and the one of the literal.
options/internal/generic/locale-defaults.cpp L5-L16, L48 -/
def cClassNames : List Nat :=
  ((["upper", "lower", "alpha", "digit", "xdigit", "space", "print", "graph", "blank", "cntrl", "punct",
    "alnum"].map fun s => chars s ++ [0]).flatten) ++ [0]

/-- `defaultCtypeMapNames`. options/internal/generic/locale-defaults.cpp L18-L19, L49 -/
def cMapNames : List Nat := chars "toupper" ++ [0] ++ chars "tolower" ++ [0, 0]

/-- `nl_ctype::nl_ctype`: the C locale, whose codeset is "ANSI_X3.4-1968". The entries that are not
tables of classes are left empty. options/internal/generic/locale-defaults.cpp L43-L110 -/
def cLoc : Loc where
  classBits := cClassBits
  mapLower := cToLower
  mapUpper := cToUpper
  classNames := cClassNames
  mapNames := cMapNames
  classOffset := 72
  mapOffset := 84
  tables := List.replicate 72 [] ++ [cUpper, cLower, cAlpha, cDigit, cXdigit, cSpace, cPrint, cGraph, cBlank,
    cCntrl, cPunct, cAlnum, cMapUpper, cMapLower]

/-! ## Specification: the C locale -/

/-- The classes of the C locale: ISO C 7.4.1 on the ASCII characters. -/
def Std : Class → Nat → Prop
  | .upper, c => 0x41 ≤ c ∧ c ≤ 0x5A
  | .lower, c => 0x61 ≤ c ∧ c ≤ 0x7A
  | .alpha, c => (0x41 ≤ c ∧ c ≤ 0x5A) ∨ (0x61 ≤ c ∧ c ≤ 0x7A)
  | .digit, c => 0x30 ≤ c ∧ c ≤ 0x39
  | .xdigit, c => (0x30 ≤ c ∧ c ≤ 0x39) ∨ (0x41 ≤ c ∧ c ≤ 0x46) ∨ (0x61 ≤ c ∧ c ≤ 0x66)
  | .space, c => c = 0x20 ∨ (9 ≤ c ∧ c ≤ 13)
  | .print, c => 0x20 ≤ c ∧ c ≤ 0x7E
  | .graph, c => 0x21 ≤ c ∧ c ≤ 0x7E
  | .blank, c => c = 0x20 ∨ c = 9
  | .cntrl, c => c ≤ 0x1F ∨ c = 0x7F
  | .punct, c => (0x21 ≤ c ∧ c ≤ 0x2F) ∨ (0x3A ≤ c ∧ c ≤ 0x40) ∨ (0x5B ≤ c ∧ c ≤ 0x60) ∨ (0x7B ≤ c ∧ c ≤ 0x7E)
  | .alnum, c => (0x30 ≤ c ∧ c ≤ 0x39) ∨ (0x41 ≤ c ∧ c ≤ 0x5A) ∨ (0x61 ≤ c ∧ c ≤ 0x7A)

instance (b : Class) (c : Nat) : Decidable (Std b c) := by
  cases b <;> (unfold Std; infer_instance)

/-- The lower-case letter of an upper-case one, every other character itself. -/
def stdLower (c : Int) : Int := if 0x41 ≤ c ∧ c ≤ 0x5A then c + 0x20 else c

/-- The upper-case letter of a lower-case one, every other character itself. -/
def stdUpper (c : Int) : Int := if 0x61 ≤ c ∧ c ≤ 0x7A then c - 0x20 else c

/-- The names of the classes. -/
def className : Class → String
  | .upper => "upper" | .lower => "lower" | .alpha => "alpha" | .digit => "digit" | .xdigit => "xdigit"
  | .space => "space" | .print => "print" | .graph => "graph" | .blank => "blank" | .cntrl => "cntrl"
  | .punct => "punct" | .alnum => "alnum"

theorem Std.small {b : Class} {c : Nat} (h : Std b c) : c < 128 := by
  cases b <;> simp only [Std] at h <;> omega

/-- All the classes. -/
def Class.all : List Class :=
  [.upper, .lower, .alpha, .digit, .xdigit, .space, .print, .graph, .blank, .cntrl, .punct, .alnum]

theorem Class.mem_all (b : Class) : b ∈ Class.all := by cases b <;> decide

/-- Past the characters a table covers, the lookup finds nothing. -/
theorem lookup_past {t : List Nat} {s bound wc : Nat} (h0 : t[0]? = some s) (h1 : t[1]? = some bound)
    (hs : s < 32) (hw : bound ≤ wc / 2 ^ s) : wctypeLookup t wc = .ok 0 ∧ wctransLookup t wc = .ok wc := by
  constructor <;>
  · simp only [wctypeLookup, wctransLookup, at32, shr, h0, h1, hs, if_true, Res.ok_bind]
    rw [if_neg (by omega)]

theorem cTables_small : ∀ b ∈ Class.all, ∀ wc < 128,
    (do let t ← classTable cLoc (72 + b.idx); let v ← wctypeLookup t wc; .ok (v != 0)) =
      Res.ok (decide (Std b wc)) := by
  decide +kernel

theorem cBits_small : ∀ b ∈ Class.all, ∀ wc < 128,
    (do let v ← at32 cLoc.classBits (wc + 128); .ok (v &&& classBit b != 0)) =
      Res.ok (decide (Std b wc)) := by
  decide +kernel

theorem cTables_head : ∀ b ∈ Class.all, ∃ t s bound, classTable cLoc (72 + b.idx) = .ok t ∧ t[0]? = some s ∧
    t[1]? = some bound ∧ s < 32 ∧ bound * 2 ^ s ≤ 128 := by
  intro b _
  cases b <;> exact ⟨_, _, _, rfl, rfl, rfl, by decide, by decide⟩

theorem cTables (b : Class) (wc : Nat) :
    (do let t ← classTable cLoc (72 + b.idx); let v ← wctypeLookup t wc; .ok (v != 0)) =
      Res.ok (decide (Std b wc)) := by
  by_cases h : wc < 128
  · exact cTables_small b b.mem_all wc h
  · obtain ⟨t, s, bound, ht, h0, h1, hs, hb⟩ := cTables_head b b.mem_all
    have hw : bound ≤ wc / 2 ^ s := by
      rw [Nat.le_div_iff_mul_le (Nat.two_pow_pos s)]; omega
    simp only [ht, Res.ok_bind, (lookup_past h0 h1 hs hw).1]
    have : ¬ Std b wc := fun hh => h hh.small
    simp [this]

/-- **The wide classes of the C locale** are those of the standard, for every value of `wint_t`. -/
theorem c_isw (b : Class) (wc : Nat) : isW cLoc b wc = .ok (decide (Std b wc)) := by
  unfold isW classCheck
  by_cases h : wc ≤ 0x7F
  · rw [if_pos h]; exact cBits_small b b.mem_all wc (by omega)
  · rw [if_neg h]; exact cTables b wc

/-- Which character a byte is: in the C locale every byte is the character of the same number. -/
theorem promote_ascii {c : Int} (h0 : 0 ≤ c) (h1 : c < 256) : promote true c = some c.toNat := by
  unfold promote
  have : c % 256 = c := by omega
  simp only [this]
  split <;> simp

theorem promote_eof : promote true (-1) = some 255 := by decide

/-- **The narrow classes of the C locale**: for every argument the standard allows, `unsigned char` or EOF,
the answer is that of the standard; EOF and the bytes from 0x80 are in no class. -/
theorem c_is (b : Class) (c : Int) (h0 : -1 ≤ c) (h1 : c < 256) :
    isC true cLoc b c = .ok (decide (0 ≤ c ∧ Std b c.toNat)) := by
  unfold isC
  rcases (by omega : c = -1 ∨ 0 ≤ c) with rfl | h
  · rw [promote_eof]
    show isW cLoc b 255 = _
    rw [c_isw]
    have : ¬ Std b 255 := fun hh => by have := hh.small; omega
    simp [this]
  · rw [promote_ascii h h1]
    show isW cLoc b c.toNat = _
    rw [c_isw]; simp [h]

/-- **isascii** on the domain of the other functions. -/
theorem isascii_partial (a : Bool) (c : Int) (h0 : -128 ≤ c) (h1 : c < 256) :
    isascii a c = decide (0 ≤ c ∧ c ≤ 127) := by
  obtain ⟨n, hn, hc⟩ : ∃ n : Nat, n < 384 ∧ c = (n : Int) - 128 := ⟨(c + 128).toNat, by omega, by omega⟩
  subst hc
  have : ∀ a, ∀ n : Nat, n < 384 → isascii a ((n : Int) - 128) = decide (0 ≤ (n : Int) - 128 ∧ (n : Int) - 128 ≤ 127) := by
    decide +kernel
  exact this a n hn

/-- isascii is defined on every int, but only eight bits of its argument count: 0x141 is taken for 'A'. -/
theorem isascii_violated : isascii true 0x141 = true ∧ isascii false 0x141 = true := by decide

theorem cMaps_small : ∀ n : Nat, n < 257 →
    tolower cLoc ((n : Int) - 1) = .ok (stdLower ((n : Int) - 1)) ∧
    toupper cLoc ((n : Int) - 1) = .ok (stdUpper ((n : Int) - 1)) := by
  decide +kernel

/-- **tolower and toupper of the C locale**: the letters A-Z and a-z change places, every other argument,
EOF and those outside the domain from 256 on included, is returned as it is. -/
theorem c_tolower_toupper (c : Int) (h0 : -1 ≤ c ∨ c < -128) :
    tolower cLoc c = .ok (stdLower c) ∧ toupper cLoc c = .ok (stdUpper c) := by
  by_cases h : -1 ≤ c ∧ c < 256
  · obtain ⟨n, hn, hc⟩ : ∃ n : Nat, n < 257 ∧ c = (n : Int) - 1 := ⟨(c + 1).toNat, by omega, by omega⟩
    subst hc; exact cMaps_small n hn
  · have : ¬ (-128 ≤ c ∧ c < 256) := by omega
    unfold tolower toupper
    rw [if_neg this, if_neg this]
    unfold stdLower stdUpper
    rw [if_neg (by omega), if_neg (by omega)]
    exact ⟨rfl, rfl⟩

theorem cWMaps_small : ∀ n : Nat, n < 128 →
    (do let t ← classTable cLoc 85; wctransLookup t n) = Res.ok (stdLower n).toNat ∧
    (do let t ← classTable cLoc 84; wctransLookup t n) = Res.ok (stdUpper n).toNat := by
  decide +kernel

/-- **towlower and towupper of the C locale**, for every value of `wint_t`. -/
theorem c_towlower_towupper (wc : Nat) :
    towlower cLoc wc = .ok (stdLower wc).toNat ∧ towupper cLoc wc = .ok (stdUpper wc).toNat := by
  by_cases h : wc < 128
  · exact cWMaps_small wc h
  · have h1 : 1 ≤ wc / 2 ^ 7 := by omega
    have hl := (lookup_past (t := cMapLower) (s := 7) (bound := 1) rfl rfl (by omega) h1).2
    have hu := (lookup_past (t := cMapUpper) (s := 7) (bound := 1) rfl rfl (by omega) h1).2
    refine ⟨?_, ?_⟩
    · show wctransLookup cMapLower wc = _
      rw [hl]; unfold stdLower; rw [if_neg (by omega)]; simp
    · show wctransLookup cMapUpper wc = _
      rw [hu]; unfold stdUpper; rw [if_neg (by omega)]; simp

/-- **wctype and iswctype of the C locale**: the twelve names are known, no other one is, and testing with
the number of a name is the function of that class. -/
theorem c_wctype (b : Class) (wc : Nat) (hw : wc < 2 ^ 32) :
    iswctype cLoc wc (wctype cLoc (chars (className b))) = isW cLoc b wc := by
  have hn : wctype cLoc (chars (className b)) = 72 + b.idx := by cases b <;> decide +kernel
  have hb : b.idx < 12 := by cases b <;> decide
  rw [hn, c_isw]
  unfold iswctype
  by_cases he : wc = 2 ^ 32 - 1
  · rw [if_pos (Or.inr he)]
    have : ¬ Std b wc := fun hh => by have := hh.small; omega
    simp [this]
  · rw [if_neg (by omega), if_neg (by omega)]
    have := cTables b wc
    unfold classTable at this
    have hm : (72 + b.idx) % 2 ^ 16 = 72 + b.idx := by omega
    rw [hm]
    cases ht : cLoc.tables[72 + b.idx]? with
    | none => rw [ht] at this; simp at this
    | some t => rw [ht] at this; exact this

/-- EOF is in no class, whatever the class. -/
theorem iswctype_weof (L : Loc) (t : Nat) : iswctype L (2 ^ 32 - 1) t = .ok false := by
  unfold iswctype; rw [if_pos (Or.inr rfl)]

/-! ## Specification: any locale -/

/-- A definition of character classes and maps: what the tables of a locale are compiled from. -/
structure Def where
  /-- the twelve classes -/
  cls : Class → Nat → Bool
  /-- further classes -/
  extra : List (List Nat × (Nat → Bool))
  /-- the two maps -/
  upper : Nat → Nat
  lower : Nat → Nat
  /-- further maps -/
  maps : List (List Nat × (Nat → Nat))

/-- Names that can be put in a list of strings. -/
def Name (s : List Nat) : Prop := s ≠ [] ∧ 0 ∉ s

/-- The number with the given bits. -/
def bitsVal (f : Nat → Bool) : Nat → Nat
  | 0 => 0
  | n + 1 => (f 0).toNat + 2 * bitsVal (fun k => f (k + 1)) n

/-- The compiler of a three-level table with the given leaves: `p` and `q` are the numbers of bits of the
second and third index, `u` the number of bits that select inside a leaf, `bound` the number of entries of
the first level. Blocks in which all is zero are represented by the offset 0. -/
def build (leaf : Nat → Nat) (u p q bound : Nat) : List Nat :=
  [u + q + p, bound, u + q, 2 ^ p - 1, 2 ^ q - 1] ++
  ((List.range bound).map fun i =>
    if (List.range (2 ^ p * 2 ^ q)).all (fun k => leaf (i * (2 ^ p * 2 ^ q) + k) == 0) then 0
    else 4 * (5 + bound + i * 2 ^ p)) ++
  ((List.range (bound * 2 ^ p)).map fun i =>
    if (List.range (2 ^ q)).all (fun k => leaf (i * 2 ^ q + k) == 0) then 0
    else 4 * (5 + bound + bound * 2 ^ p + i * 2 ^ q)) ++
  (List.range (bound * 2 ^ p * 2 ^ q)).map leaf

/-- The table of a class: every leaf has the bits of 32 characters. -/
def classTab (P : Nat → Bool) (p q bound : Nat) : List Nat :=
  build (fun i => bitsVal (fun k => P (32 * i + k)) 32) 5 p q bound

/-- The table of a map: every leaf is the distance of a character to its image, modulo 2^32. -/
def mapTab (f : Nat → Nat) (p q bound : Nat) : List Nat :=
  build (fun i => (f i + (2 ^ 32 - i)) % 2 ^ 32) 0 p q bound

theorem bitsVal_bit (f : Nat → Bool) (n k : Nat) (h : k < n) : bitsVal f n / 2 ^ k % 2 = (f k).toNat := by
  induction n generalizing f k with
  | zero => omega
  | succ n ih =>
    have hf : (f 0).toNat < 2 := by cases f 0 <;> decide
    cases k with
    | zero => simp only [bitsVal, Nat.pow_zero, Nat.div_one]; omega
    | succ k =>
      have := ih (fun k => f (k + 1)) k (by omega)
      simp only [bitsVal]
      rw [Nat.pow_succ', ← Nat.div_div_eq_div_mul]
      rw [show ((f 0).toNat + 2 * bitsVal (fun k => f (k + 1)) n) / 2 = bitsVal (fun k => f (k + 1)) n by omega]
      exact this

section build
variable (leaf : Nat → Nat) (u p q bound : Nat)

theorem build_head : (build leaf u p q bound)[0]? = some (u + q + p) ∧
    (build leaf u p q bound)[1]? = some bound ∧ (build leaf u p q bound)[2]? = some (u + q) ∧
    (build leaf u p q bound)[3]? = some (2 ^ p - 1) ∧ (build leaf u p q bound)[4]? = some (2 ^ q - 1) := by
  simp [build]

theorem build_one {i : Nat} (h : i < bound) : (build leaf u p q bound)[5 + i]? =
    some (if (List.range (2 ^ p * 2 ^ q)).all (fun k => leaf (i * (2 ^ p * 2 ^ q) + k) == 0) then 0
      else 4 * (5 + bound + i * 2 ^ p)) := by
  unfold build
  rw [List.append_assoc, List.append_assoc, List.getElem?_append_right (by simp),
    List.getElem?_append_left (by simp; omega)]
  simp [h]

theorem build_two {i : Nat} (h : i < bound * 2 ^ p) : (build leaf u p q bound)[5 + bound + i]? =
    some (if (List.range (2 ^ q)).all (fun k => leaf (i * 2 ^ q + k) == 0) then 0
      else 4 * (5 + bound + bound * 2 ^ p + i * 2 ^ q)) := by
  unfold build
  rw [List.append_assoc, List.getElem?_append_right (by simp; omega), List.getElem?_append_left (by simp; omega)]
  simp only [List.length_append, List.length_map, List.length_range, List.length_cons, List.length_nil]
  rw [show 5 + bound + i - (0 + 1 + 1 + 1 + 1 + 1 + bound) = i by omega]
  simp [h]

theorem build_three {i : Nat} (h : i < bound * 2 ^ p * 2 ^ q) :
    (build leaf u p q bound)[5 + bound + bound * 2 ^ p + i]? = some (leaf i) := by
  unfold build
  rw [List.getElem?_append_right (by simp; omega)]
  simp only [List.length_append, List.length_map, List.length_range, List.length_cons, List.length_nil]
  rw [show 5 + bound + bound * 2 ^ p + i - (0 + 1 + 1 + 1 + 1 + 1 + bound + bound * 2 ^ p) = i by omega]
  simp [h]

end build

/-- Finding a leaf: both lookups reach the leaf of their character, or find that its block is zero. -/
theorem blocks {leaf : Nat → Nat} {n j k : Nat} (h : (List.range n).all (fun k => leaf (j * n + k) == 0))
    (hk : k < n) : leaf (j * n + k) = 0 := by
  rw [List.all_eq_true] at h
  simpa using h k (List.mem_range.2 hk)

section
variable (leaf : Nat → Nat) (u p q bound wc : Nat)

theorem index_facts (hw : wc / 2 ^ (u + q + p) < bound) :
    wc / 2 ^ (u + q) < bound * 2 ^ p ∧ wc / 2 ^ u < bound * 2 ^ p * 2 ^ q ∧
    wc / 2 ^ (u + q + p) * 2 ^ p + wc / 2 ^ (u + q) % 2 ^ p = wc / 2 ^ (u + q) ∧
    wc / 2 ^ (u + q) * 2 ^ q + wc / 2 ^ u % 2 ^ q = wc / 2 ^ u ∧
    (∃ k < 2 ^ p * 2 ^ q, wc / 2 ^ u = wc / 2 ^ (u + q + p) * (2 ^ p * 2 ^ q) + k) := by
  have e1 : wc / 2 ^ (u + q) / 2 ^ p = wc / 2 ^ (u + q + p) := by
    rw [Nat.div_div_eq_div_mul, ← Nat.pow_add]
  have e2 : wc / 2 ^ u / 2 ^ q = wc / 2 ^ (u + q) := by rw [Nat.div_div_eq_div_mul, ← Nat.pow_add]
  have hp := Nat.two_pow_pos p
  have hq := Nat.two_pow_pos q
  have a1 : wc / 2 ^ (u + q) < bound * 2 ^ p := by
    rw [← Nat.div_lt_iff_lt_mul hp, e1]; exact hw
  have a2 : wc / 2 ^ u < bound * 2 ^ p * 2 ^ q := by
    rw [← Nat.div_lt_iff_lt_mul hq, e2]; exact a1
  have d1 := Nat.div_add_mod' (wc / 2 ^ (u + q)) (2 ^ p)
  have d2 := Nat.div_add_mod' (wc / 2 ^ u) (2 ^ q)
  rw [e1] at d1
  rw [e2] at d2
  refine ⟨a1, a2, d1, d2, wc / 2 ^ u % (2 ^ p * 2 ^ q), Nat.mod_lt _ (Nat.mul_pos hp hq), ?_⟩
  have d3 := Nat.div_add_mod' (wc / 2 ^ u) (2 ^ p * 2 ^ q)
  rw [Nat.div_div_eq_div_mul, show 2 ^ u * (2 ^ p * 2 ^ q) = 2 ^ (u + q + p) by
    rw [Nat.pow_add, Nat.pow_add, Nat.mul_assoc, Nat.mul_comm (2 ^ q)]] at d3
  exact d3.symm

end

/-- **Classes**: looking up a character in the table of a class gives the class, for every class, every
layout of the table and every character. -/
theorem class_lookup (P : Nat → Bool) (p q bound wc : Nat) (hs : 5 + q + p < 32)
    (hP : ∀ w, bound * 2 ^ (5 + q + p) ≤ w → P w = false) :
    wctypeLookup (classTab P p q bound) wc = .ok (P wc).toNat := by
  have hbit : bitsVal (fun k => P (32 * (wc / 2 ^ 5) + k)) 32 / 2 ^ (wc % 32) % 2 = (P wc).toNat := by
    rw [bitsVal_bit _ _ _ (by omega)]
    rw [show 32 * (wc / 2 ^ 5) + wc % 32 = wc by omega]
  unfold classTab
  generalize hleaf : (fun i => bitsVal (fun k => P (32 * i + k)) 32) = leaf
  obtain ⟨h0, h1, h2, h3, h4⟩ := build_head leaf 5 p q bound
  by_cases hw : wc / 2 ^ (5 + q + p) < bound
  · obtain ⟨a1, a2, d1, d2, k, hk, d3⟩ := index_facts 5 p q bound wc hw
    have hl : leaf (wc / 2 ^ 5) / 2 ^ (wc % 32) % 2 = (P wc).toNat := by rw [← hleaf]; exact hbit
    have b1 := build_one leaf 5 p q bound hw
    have b2 := build_two leaf 5 p q bound a1
    have b3 := build_three leaf 5 p q bound a2
    simp only [wctypeLookup, at32, shr, h0, h1, h2, h3, h4, hs, if_true, Res.ok_bind, hw, b1]
    rw [if_pos (show 5 + q < 32 by omega)]
    by_cases he : (List.range (2 ^ p * 2 ^ q)).all
        (fun k => leaf (wc / 2 ^ (5 + q + p) * (2 ^ p * 2 ^ q) + k) == 0)
    · rw [if_pos he]
      have hz := blocks he hk
      rw [← d3] at hz
      rw [hz] at hl
      simp only [Nat.zero_div, Nat.zero_mod] at hl
      simp [← hl]
    · rw [if_neg he, if_pos (by omega), Nat.mul_div_cancel_left _ (by omega)]
      simp only [Res.ok_bind, Nat.and_two_pow_sub_one_eq_mod]
      rw [Nat.add_assoc (5 + bound), d1, b2]
      simp only [Res.ok_bind]
      by_cases he2 : (List.range (2 ^ q)).all (fun k => leaf (wc / 2 ^ (5 + q) * 2 ^ q + k) == 0)
      · rw [if_pos he2]
        have hz := blocks he2 (Nat.mod_lt (wc / 2 ^ 5) (Nat.two_pow_pos q))
        rw [d2] at hz
        rw [hz] at hl
        simp only [Nat.zero_div, Nat.zero_mod] at hl
        simp [← hl]
      · rw [if_neg he2, if_pos (by omega), Nat.mul_div_cancel_left _ (by omega)]
        rw [Nat.add_assoc (5 + bound + bound * 2 ^ p), d2, b3]
        simp only [Res.ok_bind, hl]
  · rw [(lookup_past h0 h1 hs (by omega)).1, hP wc ?_]
    · rfl
    · rw [← Nat.le_div_iff_mul_le (Nat.two_pow_pos _)]; omega

/-- **Maps**: looking up a character in the table of a map gives its image. -/
theorem map_lookup (f : Nat → Nat) (p q bound wc : Nat) (hs : q + p < 32) (hwc : wc < 2 ^ 32)
    (hf : ∀ w, f w < 2 ^ 32 ∨ 2 ^ 32 ≤ w) (hP : ∀ w, bound * 2 ^ (q + p) ≤ w → f w = w) :
    wctransLookup (mapTab f p q bound) wc = .ok (f wc) := by
  have hfw : f wc < 2 ^ 32 := by rcases hf wc with h | h <;> omega
  have hlf : (wc + (f wc + (2 ^ 32 - wc)) % 2 ^ 32) % 2 ^ 32 = f wc := by omega
  unfold mapTab
  generalize hleaf : (fun i => (f i + (2 ^ 32 - i)) % 2 ^ 32) = leaf
  obtain ⟨h0, h1, h2, h3, h4⟩ := build_head leaf 0 p q bound
  have hs' : 0 + q + p < 32 := by omega
  by_cases hw : wc / 2 ^ (0 + q + p) < bound
  · obtain ⟨a1, a2, d1, d2, k, hk, d3⟩ := index_facts 0 p q bound wc hw
    have hl : (wc + leaf (wc / 2 ^ 0)) % 2 ^ 32 = f wc := by
      rw [← hleaf, Nat.pow_zero, Nat.div_one]; exact hlf
    have b1 := build_one leaf 0 p q bound hw
    have b2 := build_two leaf 0 p q bound a1
    have b3 := build_three leaf 0 p q bound a2
    simp only [wctransLookup, at32, shr, h0, h1, h2, h3, h4, hs', if_true, Res.ok_bind, hw, b1]
    rw [if_pos (show 0 + q < 32 by omega)]
    by_cases he : (List.range (2 ^ p * 2 ^ q)).all
        (fun k => leaf (wc / 2 ^ (0 + q + p) * (2 ^ p * 2 ^ q) + k) == 0)
    · rw [if_pos he]
      have hz := blocks he hk
      rw [← d3] at hz
      rw [hz] at hl
      rw [Nat.add_zero, Nat.mod_eq_of_lt hwc] at hl
      simp [← hl]
    · rw [if_neg he, if_pos (by omega), Nat.mul_div_cancel_left _ (by omega)]
      simp only [Res.ok_bind, Nat.and_two_pow_sub_one_eq_mod]
      rw [Nat.add_assoc (5 + bound), d1, b2]
      simp only [Res.ok_bind]
      by_cases he2 : (List.range (2 ^ q)).all (fun k => leaf (wc / 2 ^ (0 + q) * 2 ^ q + k) == 0)
      · rw [if_pos he2]
        have hz := blocks he2 (Nat.mod_lt (wc / 2 ^ 0) (Nat.two_pow_pos q))
        rw [d2] at hz
        rw [hz] at hl
        rw [Nat.add_zero, Nat.mod_eq_of_lt hwc] at hl
        simp [← hl]
      · rw [if_neg he2, if_pos (by omega), Nat.mul_div_cancel_left _ (by omega)]
        have d2' : wc / 2 ^ (0 + q) * 2 ^ q + wc % 2 ^ q = wc / 2 ^ 0 := by
          rw [← d2]; simp
        rw [Nat.add_assoc (5 + bound + bound * 2 ^ p), d2', b3]
        simp only [Res.ok_bind, hl]
  · rw [(lookup_past h0 h1 hs' (by omega)).2, hP wc ?_]
    rw [Nat.zero_add] at hw
    rw [← Nat.le_div_iff_mul_le (Nat.two_pow_pos _)]; omega

example : wctypeLookup (classTab (fun c => c == 0x3B1 || c == 65) 2 1 16) 0x3B1 = .ok 1 := by decide +kernel
example : wctransLookup (mapTab (fun c => if c = 0x3B1 then 0x391 else c) 2 3 64) 0x3B1 = .ok 0x391 := by
  decide +kernel

/-! ### Names -/

/-- A list of names as it is stored: every name is followed by a null, and the list by one more. -/
def encNames (ns : List (List Nat)) : List Nat := (ns.map (· ++ [0])).flatten ++ [0]

theorem takeWhile_name {s rest : List Nat} (h : 0 ∉ s) :
    (s ++ 0 :: rest).takeWhile (· ≠ 0) = s ∧ (s ++ 0 :: rest).dropWhile (· ≠ 0) = 0 :: rest := by
  induction s with
  | nil => simp
  | cons a s ih =>
    simp only [List.mem_cons, not_or] at h
    have ha : a ≠ 0 := fun e => h.1 e.symm
    obtain ⟨h1, h2⟩ := ih h.2
    simp only [List.cons_append, ne_eq, decide_not] at h1 h2 ⊢
    simp [ha, h1, h2]

theorem encNames_cons (s : List Nat) (ns : List (List Nat)) : encNames (s :: ns) = s ++ 0 :: encNames ns := by
  simp [encNames]

theorem wctypeLoop_mem (base : Nat) (name : List Nat) (a b : List (List Nat)) (hn : ∀ s ∈ a, Name s)
    (hname : Name name) (hnot : name ∉ a) (f i : Nat) (hf : a.length < f) :
    wctypeLoop base name f (encNames (a ++ name :: b)) i = base + i + a.length := by
  induction a generalizing f i with
  | nil =>
    cases f with
    | zero => simp at hf
    | succ f =>
      rw [List.nil_append, encNames_cons]
      obtain ⟨h1, h2⟩ := takeWhile_name (rest := encNames b) hname.2
      unfold wctypeLoop
      rw [if_neg (by simp), h2, h1]
      simp [hname.1]
  | cons s a ih =>
    cases f with
    | zero => simp at hf
    | succ f =>
      rw [List.cons_append, encNames_cons]
      have hs := hn s (by simp)
      obtain ⟨h1, h2⟩ := takeWhile_name (rest := encNames (a ++ name :: b)) hs.2
      unfold wctypeLoop
      rw [if_neg (by simp), h2, h1]
      simp only [hs.1, if_false]
      rw [if_neg (by intro e; exact hnot (by simp [e]))]
      rw [ih (fun s h => hn s (by simp [h])) (fun h => hnot (by simp [h])) f (i + 1) (by simp at hf; omega)]
      simp; omega

theorem wctypeLoop_not (base : Nat) (name : List Nat) (ns : List (List Nat)) (hn : ∀ s ∈ ns, Name s)
    (hnot : name ∉ ns) (f i : Nat) : wctypeLoop base name f (encNames ns) i = 0 := by
  induction ns generalizing f i with
  | nil =>
    cases f with
    | zero => rfl
    | succ f => simp [wctypeLoop, encNames]
  | cons s a ih =>
    cases f with
    | zero => rfl
    | succ f =>
      rw [encNames_cons]
      have hs := hn s (by simp)
      obtain ⟨h1, h2⟩ := takeWhile_name (rest := encNames a) hs.2
      unfold wctypeLoop
      rw [if_neg (by simp), h2, h1]
      simp only [hs.1, if_false]
      rw [if_neg (by intro e; exact hnot (by simp [e]))]
      exact ih (fun s h => hn s (by simp [h])) (fun h => hnot (by simp [h])) f (i + 1)

theorem wctransLoop_mem (base : Nat) (name : List Nat) (a b : List (List Nat)) (hn : ∀ s ∈ a, Name s)
    (hname : Name name) (hnot : name ∉ a) (f i : Nat) (hf : a.length < f) :
    wctransLoop base name f (encNames (a ++ name :: b)) i = .ok (base + i + a.length) := by
  induction a generalizing f i with
  | nil =>
    cases f with
    | zero => simp at hf
    | succ f =>
      rw [List.nil_append, encNames_cons]
      obtain ⟨h1, h2⟩ := takeWhile_name (rest := encNames b) hname.2
      unfold wctransLoop
      rw [h1]
      obtain ⟨x, t, rfl⟩ : ∃ x t, name = x :: t := by
        cases name with
        | nil => exact absurd rfl hname.1
        | cons x t => exact ⟨x, t, rfl⟩
      have hx : x ≠ 0 := fun e => hname.2 (by simp [e])
      simp [hx]
  | cons s a ih =>
    cases f with
    | zero => simp at hf
    | succ f =>
      rw [List.cons_append, encNames_cons]
      have hs := hn s (by simp)
      obtain ⟨h1, h2⟩ := takeWhile_name (rest := encNames (a ++ name :: b)) hs.2
      unfold wctransLoop
      rw [h1, h2]
      rw [if_neg (show ¬ s = name from by intro e; exact hnot (by simp [e]))]
      obtain ⟨x, t, rfl⟩ : ∃ x t, s = x :: t := by
        cases s with
        | nil => exact absurd rfl hs.1
        | cons x t => exact ⟨x, t, rfl⟩
      have hx : x ≠ 0 := fun e => hs.2 (by simp [e])
      rw [if_neg (by simp [hx])]
      show wctransLoop base name f (encNames (a ++ name :: b)) (i + 1) = _
      rw [ih (fun s h => hn s (by simp [h])) (fun h => hnot (by simp [h])) f (i + 1) (by simp at hf; omega)]
      simp; omega

theorem wctransLoop_not (base : Nat) (name : List Nat) (ns : List (List Nat)) (hn : ∀ s ∈ ns, Name s)
    (hnot : name ∉ ns) (f i : Nat) : wctransLoop base name f (encNames ns) i = .ok 0 := by
  induction ns generalizing f i with
  | nil =>
    cases f with
    | zero => rfl
    | succ f => simp [wctransLoop, encNames]
  | cons s a ih =>
    cases f with
    | zero => rfl
    | succ f =>
      rw [encNames_cons]
      have hs := hn s (by simp)
      obtain ⟨h1, h2⟩ := takeWhile_name (rest := encNames a) hs.2
      unfold wctransLoop
      rw [h1, h2]
      rw [if_neg (show ¬ s = name from by intro e; exact hnot (by simp [e]))]
      obtain ⟨x, t, rfl⟩ : ∃ x t, s = x :: t := by
        cases s with
        | nil => exact absurd rfl hs.1
        | cons x t => exact ⟨x, t, rfl⟩
      have hx : x ≠ 0 := fun e => hs.2 (by simp [e])
      rw [if_neg (by simp [hx])]
      show wctransLoop base name f (encNames a) (i + 1) = _
      exact ih (fun s h => hn s (by simp [h])) (fun h => hnot (by simp [h])) f (i + 1)

/-! ### Locales -/

/-- All classes of a definition, with their names, the twelve first. -/
def Def.classes (D : Def) : List (List Nat × (Nat → Bool)) :=
  (Class.all.map fun b => (chars (className b), D.cls b)) ++ D.extra

/-- All maps of a definition. -/
def Def.allMaps (D : Def) : List (List Nat × (Nat → Nat)) :=
  [(chars "toupper", D.upper), (chars "tolower", D.lower)] ++ D.maps

/-- The class bits of a character: classes 0-7 in the second byte of the little-endian unit, the others
in the first. -/
def bits16 (D : Def) (c : Nat) : Nat :=
  let f := fun k => match Class.all[k]? with
    | some b => D.cls b c
    | none => false
  bitsVal f 8 * 256 + bitsVal (fun k => f (k + 8)) 4

/-- The narrow map of a UTF-8 locale: the entries are those of -128 ... 255. -/
def narrowMap (f : Nat → Nat) : List Nat :=
  (List.range 384).map fun i =>
    if i < 127 then i + 128 else if i = 127 then 2 ^ 32 - 1 else if i < 256 then f (i - 128) else i - 128

/-- The locale compiled from a definition. The entries below 72 are not tables of classes. -/
def compile (D : Def) (p q bound : Nat) : Loc where
  classBits := List.replicate 128 0 ++ (List.range 128).map (bits16 D) ++ List.replicate 128 0
  mapLower := narrowMap D.lower
  mapUpper := narrowMap D.upper
  classNames := encNames (D.classes.map Prod.fst)
  mapNames := encNames (D.allMaps.map Prod.fst)
  classOffset := 72
  mapOffset := 72 + D.classes.length
  tables := List.replicate 72 [] ++ (D.classes.map fun x => classTab x.2 p q bound) ++
    (D.allMaps.map fun x => mapTab x.2 p q bound)

/-- A definition for characters below `n`: the names are strings; classes have only such characters, maps
change only such characters, to characters; a table can be shifted through. -/
structure Def.Ok (D : Def) (p q bound : Nat) : Prop where
  shift : 5 + q + p < 32
  names : ∀ x ∈ D.classes, Name x.1
  mapNames : ∀ x ∈ D.allMaps, Name x.1
  cls : ∀ x ∈ D.classes, ∀ w, bound * 2 ^ (5 + q + p) ≤ w → x.2 w = false
  maps : ∀ x ∈ D.allMaps, ∀ w, bound * 2 ^ (q + p) ≤ w → x.2 w = w
  range : ∀ x ∈ D.allMaps, ∀ w, x.2 w < 2 ^ 32 ∨ 2 ^ 32 ≤ w

theorem classes_at {D : Def} {p q bound : Nat} (a b : List (List Nat × (Nat → Bool)))
    (x : List Nat × (Nat → Bool)) (h : D.classes = a ++ x :: b) :
    (compile D p q bound).tables[72 + a.length]? = some (classTab x.2 p q bound) := by
  simp only [compile, h]
  rw [List.append_assoc, List.getElem?_append_right (by simp), List.getElem?_append_left (by simp)]
  simp

theorem maps_at {D : Def} {p q bound : Nat} (a b : List (List Nat × (Nat → Nat)))
    (x : List Nat × (Nat → Nat)) (h : D.allMaps = a ++ x :: b) :
    (compile D p q bound).tables[72 + D.classes.length + a.length]? = some (mapTab x.2 p q bound) := by
  simp only [compile, h]
  rw [List.getElem?_append_right (by simp; omega)]
  simp only [List.length_append, List.length_replicate, List.length_map]
  rw [Nat.add_sub_cancel_left]
  simp

theorem bits16_bit (D : Def) (b : Class) (c : Nat) : (bits16 D c &&& classBit b != 0) = D.cls b c := by
  have key : ∀ b0 b1 b2 b3 b4 b5 b6 b7 b8 b9 b10 b11 : Bool,
      let v := (b0.toNat + 2 * (b1.toNat + 2 * (b2.toNat + 2 * (b3.toNat + 2 * (b4.toNat + 2 * (b5.toNat +
        2 * (b6.toNat + 2 * (b7.toNat + 2 * 0)))))))) * 256 +
        (b8.toNat + 2 * (b9.toNat + 2 * (b10.toNat + 2 * (b11.toNat + 2 * 0))))
      (v &&& classBit .upper != 0) = b0 ∧ (v &&& classBit .lower != 0) = b1 ∧
      (v &&& classBit .alpha != 0) = b2 ∧ (v &&& classBit .digit != 0) = b3 ∧
      (v &&& classBit .xdigit != 0) = b4 ∧ (v &&& classBit .space != 0) = b5 ∧
      (v &&& classBit .print != 0) = b6 ∧ (v &&& classBit .graph != 0) = b7 ∧
      (v &&& classBit .blank != 0) = b8 ∧ (v &&& classBit .cntrl != 0) = b9 ∧
      (v &&& classBit .punct != 0) = b10 ∧ (v &&& classBit .alnum != 0) = b11 := by
    decide +kernel
  obtain ⟨k0, k1, k2, k3, k4, k5, k6, k7, k8, k9, k10, k11⟩ := key (D.cls .upper c) (D.cls .lower c)
    (D.cls .alpha c) (D.cls .digit c) (D.cls .xdigit c) (D.cls .space c) (D.cls .print c) (D.cls .graph c)
    (D.cls .blank c) (D.cls .cntrl c) (D.cls .punct c) (D.cls .alnum c)
  cases b
  · exact k0
  · exact k1
  · exact k2
  · exact k3
  · exact k4
  · exact k5
  · exact k6
  · exact k7
  · exact k8
  · exact k9
  · exact k10
  · exact k11

theorem class_split (D : Def) (b : Class) : ∃ a r, D.classes = a ++ (chars (className b), D.cls b) :: r ∧
    a.length = b.idx ∧ chars (className b) ∉ a.map Prod.fst := by
  have : ∀ b ∈ Class.all, Class.all = Class.all.take b.idx ++ b :: Class.all.drop (b.idx + 1) ∧
      (Class.all.take b.idx).length = b.idx ∧
      chars (className b) ∉ (Class.all.take b.idx).map (fun b => chars (className b)) := by decide +kernel
  obtain ⟨h1, h2, h3⟩ := this b b.mem_all
  refine ⟨(Class.all.take b.idx).map fun b => (chars (className b), D.cls b),
    (Class.all.drop (b.idx + 1)).map (fun b => (chars (className b), D.cls b)) ++ D.extra, ?_, ?_, ?_⟩
  · unfold Def.classes
    conv => lhs; rw [h1]
    simp
  · simpa using h2
  · simpa [Function.comp_def] using h3

/-- **The wide classes of any locale**: iswalpha and the others answer what the definition of the locale
says, for every character. -/
theorem isw_def (D : Def) (p q bound : Nat) (h : D.Ok p q bound) (b : Class) (wc : Nat) :
    isW (compile D p q bound) b wc = .ok (D.cls b wc) := by
  unfold isW classCheck
  by_cases hc : wc ≤ 0x7F
  · rw [if_pos hc]
    have : (compile D p q bound).classBits[wc + 128]? = some (bits16 D wc) := by
      simp only [compile]
      rw [List.append_assoc, List.getElem?_append_right (by simp), List.getElem?_append_left (by simp; omega)]
      simp [show wc < 128 by omega]
    simp only [at32, this, Res.ok_bind, bits16_bit]
  · rw [if_neg hc]
    obtain ⟨a, r, hsp, hlen, _⟩ := class_split D b
    have ht := classes_at (p := p) (q := q) (bound := bound) a r _ hsp
    rw [hlen] at ht
    have hoff : (compile D p q bound).classOffset = 72 := rfl
    simp only [classTable, hoff, ht, Res.ok_bind]
    rw [class_lookup _ _ _ _ _ h.shift (h.cls (chars (className b), D.cls b) (by rw [hsp]; simp))]
    simp only [Res.ok_bind]
    cases D.cls b wc <;> rfl

/-- **wctype and iswctype of any locale**: every class whose number an application can use - the twelve and
two more - is found by its name and tested by its number; no character but EOF is treated specially. -/
theorem iswctype_partial (D : Def) (p q bound : Nat) (h : D.Ok p q bound) (a b : List (List Nat × (Nat → Bool)))
    (name : List Nat) (P : Nat → Bool) (hsp : D.classes = a ++ (name, P) :: b) (hnot : name ∉ a.map Prod.fst)
    (hlen : a.length < 14) (wc : Nat) (hw : wc < 2 ^ 32 - 1) :
    iswctype (compile D p q bound) wc (wctype (compile D p q bound) name) = .ok (P wc) := by
  have hn : wctype (compile D p q bound) name = 72 + a.length := by
    unfold wctype
    show wctypeLoop 72 name (encNames (D.classes.map Prod.fst)).length (encNames (D.classes.map Prod.fst)) 0 = _
    rw [hsp, List.map_append, List.map_cons]
    have hlong : ∀ ns : List (List Nat), ns.length < (encNames ns).length := by
      intro ns
      induction ns with
      | nil => simp [encNames]
      | cons s ns ih => rw [encNames_cons]; simp; omega
    rw [wctypeLoop_mem 72 name _ _ ?_ (h.names (name, P) (by rw [hsp]; simp)) hnot _ 0 ?_]
    · simp
    · intro s hs
      obtain ⟨x, hx, rfl⟩ := List.mem_map.1 hs
      exact h.names x (by rw [hsp]; simp [hx])
    · have := hlong (a.map Prod.fst ++ name :: b.map Prod.fst)
      simp only [List.length_append, List.length_map, List.length_cons] at this ⊢
      omega
  rw [hn]
  unfold iswctype
  rw [if_neg (by omega), if_neg (by omega)]
  rw [show (72 + a.length) % 2 ^ 16 = 72 + a.length by omega, classes_at a b _ hsp]
  simp only
  rw [class_lookup _ _ _ _ _ h.shift (h.cls (name, P) (by rw [hsp]; simp))]
  simp only [Res.ok_bind]
  cases P wc <;> rfl

/-- **iswctype agrees with the function of the class**, in any locale. -/
theorem iswctype_isw (D : Def) (p q bound : Nat) (h : D.Ok p q bound) (b : Class) (wc : Nat) (hw : wc < 2 ^ 32 - 1) :
    iswctype (compile D p q bound) wc (wctype (compile D p q bound) (chars (className b))) =
      isW (compile D p q bound) b wc := by
  obtain ⟨a, r, hsp, hlen, hnot⟩ := class_split D b
  rw [iswctype_partial D p q bound h a r _ _ hsp hnot (by rw [hlen]; cases b <;> decide) wc hw, isw_def D p q bound h]

/-- **A name that is none of the locale's classes** gives 0, and 0 is the class without characters. -/
theorem wctype_unknown (D : Def) (p q bound : Nat) (h : D.Ok p q bound) (name : List Nat)
    (hn : name ∉ D.classes.map Prod.fst) (wc : Nat) :
    wctype (compile D p q bound) name = 0 ∧ iswctype (compile D p q bound) wc 0 = .ok false := by
  refine ⟨?_, by unfold iswctype; rw [if_pos (Or.inl rfl)]⟩
  unfold wctype
  apply wctypeLoop_not _ _ _ _ hn
  intro s hs
  obtain ⟨x, hx, rfl⟩ := List.mem_map.1 hs
  exact h.names x hx

/-- **towupper and towlower of any locale.** -/
theorem tow_def (D : Def) (p q bound : Nat) (h : D.Ok p q bound) (wc : Nat) (hw : wc < 2 ^ 32) :
    towupper (compile D p q bound) wc = .ok (D.upper wc) ∧ towlower (compile D p q bound) wc = .ok (D.lower wc) := by
  have hs := h.shift
  have hu : D.allMaps = [] ++ (chars "toupper", D.upper) :: ((chars "tolower", D.lower) :: D.maps) := rfl
  have hl : D.allMaps = [(chars "toupper", D.upper)] ++ (chars "tolower", D.lower) :: D.maps := rfl
  have ho : (compile D p q bound).mapOffset = 72 + D.classes.length := rfl
  have tu := maps_at (p := p) (q := q) (bound := bound) _ _ _ hu
  have tl := maps_at (p := p) (q := q) (bound := bound) _ _ _ hl
  constructor
  · simp only [List.length_nil, Nat.add_zero] at tu
    simp only [towupper, classTable, ho, tu, Res.ok_bind]
    exact map_lookup _ _ _ _ _ (by omega) hw (h.range (chars "toupper", D.upper) (by rw [hu]; simp))
      (h.maps (chars "toupper", D.upper) (by rw [hu]; simp))
  · simp only [List.length_cons, List.length_nil, Nat.zero_add] at tl
    simp only [towlower, classTable, ho, tl, Res.ok_bind]
    exact map_lookup _ _ _ _ _ (by omega) hw (h.range (chars "tolower", D.lower) (by rw [hl]; simp))
      (h.maps (chars "tolower", D.lower) (by rw [hl]; simp))

/-- **wctrans and towctrans of any locale**: every map is found by its name and applied by its number, and
an unknown name gives 0. -/
theorem towctrans_def (D : Def) (p q bound : Nat) (h : D.Ok p q bound) (a b : List (List Nat × (Nat → Nat)))
    (name : List Nat) (f : Nat → Nat) (hsp : D.allMaps = a ++ (name, f) :: b) (hnot : name ∉ a.map Prod.fst)
    (wc : Nat) (hw : wc < 2 ^ 32) :
    ∃ n, wctrans (compile D p q bound) name = .ok n ∧ n ≠ 0 ∧ towctrans (compile D p q bound) wc n = .ok (f wc) := by
  have hs := h.shift
  refine ⟨72 + D.classes.length + a.length, ?_, by omega, ?_⟩
  · unfold wctrans
    show wctransLoop (72 + D.classes.length) name ((encNames (D.allMaps.map Prod.fst)).length + 1)
      (encNames (D.allMaps.map Prod.fst)) 0 = _
    rw [hsp, List.map_append, List.map_cons]
    have hlong : ∀ ns : List (List Nat), ns.length < (encNames ns).length := by
      intro ns
      induction ns with
      | nil => simp [encNames]
      | cons s ns ih => rw [encNames_cons]; simp; omega
    rw [wctransLoop_mem (72 + D.classes.length) name _ _ ?_ (h.mapNames (name, f) (by rw [hsp]; simp)) hnot _ 0 ?_]
    · simp
    · intro s hs
      obtain ⟨x, hx, rfl⟩ := List.mem_map.1 hs
      exact h.mapNames x (by rw [hsp]; simp [hx])
    · have := hlong (a.map Prod.fst ++ name :: b.map Prod.fst)
      simp only [List.length_append, List.length_map, List.length_cons] at this ⊢
      omega
  · simp only [towctrans, classTable, maps_at a b _ hsp, Res.ok_bind]
    exact map_lookup _ _ _ _ _ (by omega) hw (h.range (name, f) (by rw [hsp]; simp)) (h.maps (name, f) (by rw [hsp]; simp))

theorem wctrans_unknown (D : Def) (p q bound : Nat) (h : D.Ok p q bound) (name : List Nat)
    (hn : name ∉ D.allMaps.map Prod.fst) : wctrans (compile D p q bound) name = .ok 0 := by
  unfold wctrans
  apply wctransLoop_not _ _ _ _ hn
  intro s hs
  obtain ⟨x, hx, rfl⟩ := List.mem_map.1 hs
  exact h.mapNames x hx

/-- No byte from 0x80 on is a character by itself in UTF-8; the others are the character of the same
number. -/
theorem promote_utf8 (c : Int) (h0 : -128 ≤ c) (h1 : c < 256) :
    promote false c = if 0 ≤ c ∧ c ≤ 127 then some c.toNat else none := by
  obtain ⟨n, hn, hc⟩ : ∃ n : Nat, n < 384 ∧ c = (n : Int) - 128 := ⟨(c + 128).toNat, by omega, by omega⟩
  subst hc
  have : ∀ n : Nat, n < 384 → promote false ((n : Int) - 128) =
      if 0 ≤ (n : Int) - 128 ∧ (n : Int) - 128 ≤ 127 then some ((n : Int) - 128).toNat else none := by
    decide +kernel
  exact this n hn

/-- **The narrow classes of a UTF-8 locale**: for every `unsigned char` and EOF, the class of the character
the byte is; EOF and bytes that are not characters are in no class. -/
theorem is_def (D : Def) (p q bound : Nat) (h : D.Ok p q bound) (b : Class) (c : Int) (h0 : -1 ≤ c) (h1 : c < 256) :
    isC false (compile D p q bound) b c = .ok (decide (0 ≤ c ∧ c ≤ 127) && D.cls b c.toNat) := by
  unfold isC
  rw [promote_utf8 c (by omega) h1]
  by_cases hc : 0 ≤ c ∧ c ≤ 127
  · rw [if_pos hc]
    show isW (compile D p q bound) b c.toNat = _
    rw [isw_def D p q bound h]
    simp [hc]
  · rw [if_neg hc]; simp [hc]

/-- **tolower and toupper of a UTF-8 locale**: the maps of the locale on the characters that are bytes, and
every other argument, EOF included, as it is. -/
theorem to_def (D : Def) (p q bound : Nat) (c : Int) (h0 : -1 ≤ c) (hl : ∀ w, w < 128 → D.lower w < 2 ^ 31)
    (hu : ∀ w, w < 128 → D.upper w < 2 ^ 31) :
    tolower (compile D p q bound) c = .ok (if 0 ≤ c ∧ c ≤ 127 then (D.lower c.toNat : Int) else c) ∧
    toupper (compile D p q bound) c = .ok (if 0 ≤ c ∧ c ≤ 127 then (D.upper c.toNat : Int) else c) := by
  have key : ∀ f : Nat → Nat, (∀ w, w < 128 → f w < 2 ^ 31) → c < 256 →
      (do let v ← at32 (narrowMap f) (c + 128).toNat; .ok (toInt v)) =
        Res.ok (if 0 ≤ c ∧ c ≤ 127 then (f c.toNat : Int) else c) := by
    intro f hf hc
    have hlt : (c + 128).toNat < 384 := by omega
    simp only [at32, narrowMap, List.getElem?_map, List.getElem?_range hlt, Option.map_some, Res.ok_bind]
    congr 1
    rcases (by omega : c = -1 ∨ (0 ≤ c ∧ c ≤ 127) ∨ 128 ≤ c) with rfl | h | h
    · rw [if_neg (show ¬ (0 ≤ (-1 : Int) ∧ (-1 : Int) ≤ 127) by omega),
        if_neg (show ¬ (-1 + 128 : Int).toNat < 127 by decide), if_pos (show (-1 + 128 : Int).toNat = 127 by decide)]
      decide
    · rw [if_pos h, if_neg (by omega), if_neg (by omega), if_pos (by omega)]
      rw [show (c + 128).toNat - 128 = c.toNat by omega]
      unfold toInt; rw [if_pos (hf _ (by omega))]
    · rw [if_neg (by omega), if_neg (by omega), if_neg (by omega), if_neg (by omega)]
      unfold toInt; rw [if_pos (by omega)]; omega
  unfold tolower toupper
  by_cases hc : c < 256
  · have hd : -128 ≤ c ∧ c < 256 := by omega
    rw [if_pos hd, if_pos hd]
    exact ⟨key _ hl hc, key _ hu hc⟩
  · have hd : ¬ (-128 ≤ c ∧ c < 256) := by omega
    have he : ¬ (0 ≤ c ∧ c ≤ 127) := by omega
    rw [if_neg hd, if_neg hd, if_neg he, if_neg he]
    exact ⟨rfl, rfl⟩

/-! ### The variants with a locale argument -/

/-- **tolower_l and toupper_l** on the characters of ASCII are the maps of the locale. -/
theorem to_l_partial (D : Def) (p q bound : Nat) (h : D.Ok p q bound) (ascii : Bool) (c : Int) (h0 : 0 ≤ c) (h1 : c ≤ 127)
    (hl : D.lower c.toNat < 2 ^ 31) (hu : D.upper c.toNat < 2 ^ 31) :
    tolowerL ascii (compile D p q bound) c = .ok (D.lower c.toNat : Int) ∧
    toupperL ascii (compile D p q bound) c = .ok (D.upper c.toNat : Int) := by
  have hp : promote ascii c = some c.toNat := by
    cases ascii
    · rw [promote_utf8 c (by omega) (by omega), if_pos ⟨h0, h1⟩]
    · exact promote_ascii h0 (by omega)
  obtain ⟨t1, t2⟩ := tow_def D p q bound h c.toNat (by omega)
  constructor
  · simp only [tolowerL, hp, t2, Res.ok_bind, toInt, hl, if_true]
  · simp only [toupperL, hp, t1, Res.ok_bind, toInt, hu, if_true]

/-- **The classes with a locale argument** on the characters of ASCII are those of the locale, whatever
the active locale. -/
theorem is_l_partial (D : Def) (p q bound : Nat) (h : D.Ok p q bound) (ascii : Bool) (b : Class) (c : Int) (h0 : 0 ≤ c)
    (h1 : c ≤ 127) : isC ascii (compile D p q bound) b c = .ok (D.cls b c.toNat) := by
  have hp : promote ascii c = some c.toNat := by
    cases ascii
    · rw [promote_utf8 c (by omega) (by omega), if_pos ⟨h0, h1⟩]
    · exact promote_ascii h0 (by omega)
  unfold isC; rw [hp]; exact isw_def D p q bound h b c.toNat

/-- A small definition with letters outside ASCII: ÿ (0xFF) is alphabetic, with the capital 0x178. -/
def sample : Def where
  cls b c := match b with
    | .alpha => (decide (0x41 ≤ c ∧ c ≤ 0x5A)) || (decide (0x61 ≤ c ∧ c ≤ 0x7A)) || c == 0xFF || c == 0x178
    | .upper => (decide (0x41 ≤ c ∧ c ≤ 0x5A)) || c == 0x178
    | .lower => (decide (0x61 ≤ c ∧ c ≤ 0x7A)) || c == 0xFF
    | _ => false
  extra := [(chars "even", fun c => c < 0x178 && c % 2 == 0), (chars "two", fun c => c == 2), (chars "three", fun c => c == 3)]
  upper c := if 0x61 ≤ c ∧ c ≤ 0x7A then c - 0x20 else if c = 0xFF then 0x178 else c
  lower c := if 0x41 ≤ c ∧ c ≤ 0x5A then c + 0x20 else if c = 0x178 then 0xFF else c
  maps := []

theorem sample_ok : sample.Ok 2 1 128 := by
  refine ⟨by decide, ?_, ?_, ?_, ?_, ?_⟩
  · have : ∀ s ∈ sample.classes.map Prod.fst, s ≠ [] ∧ 0 ∉ s := by decide
    intro x hx; exact this x.1 (List.mem_map.2 ⟨x, hx, rfl⟩)
  · have : ∀ s ∈ sample.allMaps.map Prod.fst, s ≠ [] ∧ 0 ∉ s := by decide
    intro x hx; exact this x.1 (List.mem_map.2 ⟨x, hx, rfl⟩)
  · intro x hx w hw
    simp only [Def.classes, Class.all, sample, List.map_cons, List.map_nil, List.cons_append, List.nil_append,
      List.mem_cons, List.not_mem_nil, or_false] at hx
    rcases hx with rfl | rfl | rfl | rfl | rfl | rfl | rfl | rfl | rfl | rfl | rfl | rfl | rfl | rfl | rfl <;>
      simp only [Bool.or_eq_false_iff, Bool.and_eq_false_iff, decide_eq_false_iff_not, beq_eq_false_iff_ne] <;> omega
  · intro x hx w hw
    simp only [Def.allMaps, sample, List.cons_append, List.nil_append, List.mem_cons, List.not_mem_nil,
      or_false] at hx
    rcases hx with rfl | rfl <;> simp only <;> rw [if_neg (by omega), if_neg (by omega)]
  · intro x hx w
    simp only [Def.allMaps, sample, List.cons_append, List.nil_append, List.mem_cons, List.not_mem_nil,
      or_false] at hx
    rcases hx with rfl | rfl <;> simp only <;> split <;> (try split) <;> omega

example : isW (compile sample 2 1 128) .alpha 0x178 = .ok true ∧ isC false (compile sample 2 1 128) .alpha 0xFF = .ok false := by
  rw [isw_def _ _ _ _ sample_ok, is_def _ _ _ _ sample_ok _ _ (by omega) (by omega)]
  decide

example : iswctype (compile sample 2 1 128) 6 (wctype (compile sample 2 1 128) (chars "even")) = .ok true :=
  iswctype_partial sample 2 1 128 sample_ok (sample.classes.take 12) (sample.classes.drop 13) _ _ rfl (by decide)
    (by decide) 6 (by omega)

/-- tolower_l(EOF) is not EOF: 0 when the active locale is UTF-8, 255 in the C locale; and a byte that is
not a character gives 0 and not itself. -/
theorem tolower_l_violated : tolowerL true cLoc (-1) = .ok 255 ∧ tolowerL false cLoc (-1) = .ok 0 ∧
    toupperL false cLoc 0xE9 = .ok 0 ∧ tolower cLoc (-1) = .ok (-1) := by decide +kernel

/-- isalpha_l decodes its argument with the codeset of the active locale, so that, with the C locale active,
EOF is taken for the character 0xFF of the locale passed: a letter in most locales. -/
theorem isalpha_l_eof_violated : isC true (compile sample 2 1 128) .alpha (-1) = .ok true := by
  unfold isC
  rw [promote_eof]
  show isW (compile sample 2 1 128) .alpha 255 = _
  rw [isw_def _ _ _ _ sample_ok]
  decide

/-- iswctype reads beyond the members of the category for the fifteenth class of a locale and later ones. -/
theorem iswctype_many_violated : wctype (compile sample 2 1 128) (chars "three") = 86 ∧
    iswctype (compile sample 2 1 128) 3 86 = .ub := by
  refine ⟨?_, by unfold iswctype; rw [if_neg (by omega), if_pos (by omega)]⟩
  show wctypeLoop 72 _ (encNames (sample.classes.map Prod.fst)).length (encNames (sample.classes.map Prod.fst)) 0 = 86
  decide +kernel

/-- The names of the C locale are those of a definition without further classes: an unknown name gives 0. -/
theorem c_wctype_unknown (name : List Nat) (hn : ∀ b, name ≠ chars (className b)) : wctype cLoc name = 0 := by
  have he : cLoc.classNames = encNames (Class.all.map fun b => chars (className b)) := by decide
  unfold wctype
  rw [he]
  apply wctypeLoop_not
  · show ∀ s ∈ _, s ≠ [] ∧ 0 ∉ s
    decide
  · intro h
    obtain ⟨b, _, rfl⟩ := List.mem_map.1 h
    exact hn b rfl

/-- **wctrans and towctrans of the C locale**: the two names are known and are the two functions. -/
theorem c_towctrans (wc : Nat) :
    (do let n ← wctrans cLoc (chars "toupper"); towctrans cLoc wc n) = towupper cLoc wc ∧
    (do let n ← wctrans cLoc (chars "tolower"); towctrans cLoc wc n) = towlower cLoc wc := by
  have h1 : wctrans cLoc (chars "toupper") = .ok 84 := by decide +kernel
  have h2 : wctrans cLoc (chars "tolower") = .ok 85 := by decide +kernel
  rw [h1, h2]; exact ⟨rfl, rfl⟩

end Mlibc.Ctype
