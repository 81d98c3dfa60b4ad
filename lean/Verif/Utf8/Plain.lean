import Verif.Utf8.Conv
import Mathlib.Data.List.Forall2
/-
C105: the conversion functions with a hidden state: mblen, mbtowc, wctomb (options/ansi/generic/stdlib.cpp),
the string functions mbstowcs and wcstombs, and mbrtoc32 / c32rtomb (options/ansi/generic/uchar.cpp), for
the UTF-8 charset.
-/
set_option linter.unusedSimpArgs false
namespace Mlibc.Utf8
open Mlibc

/-! ### Model -/

/-- The hidden conversion states of a thread. stdlib.cpp L35-39 `mblen_state`, `mbtowc_state`, L503 the
`state` of wctomb, wchar.cpp `wcsrtombs_state` (used by wcstombs), uchar.cpp L10 `internal_state`. -/
structure Hidden where
  mblen : St := St.init
  mbtowc : St := St.init
  wctomb : St := St.init
  wcsrtombs : St := St.init
  deriving DecidableEq, Repr

/-- stdlib.cpp L434-456 `mblen`. `none` is the null pointer; UTF-8 has no shift states. -/
def mblen (H : Hidden) (s : Option (List UInt8)) (n : Nat) : Res (Int × Hidden) :=
  match s with
  | none => .ok (0, { H with mblen := St.init })
  | some s => do
    let (e, k, _, st) ← decodeWtranscode s n 1 H.mblen
    match e with
    | .inputExhausted | .outputExhausted => return ((k : Int), { H with mblen := st })
    | .nullTerminator => return (0, { H with mblen := st })
    | .illegalInput | .inputUnderflow => return (-1, { H with mblen := st })
    | .outputOverflow => .panic

/-- stdlib.cpp L458-500 `mbtowc`: the result, the character stored in `*wc` (if any), the new states. -/
def mbtowc (H : Hidden) (s : Option (List UInt8)) (n : Nat) : Res (Int × Option Nat × Hidden) :=
  match s with
  | none => .ok (0, none, { H with mblen := St.init })
  | some [] => .ub
  | some (b :: r) =>
    if b ≠ 0 then
      if n = 0 then .ok (-1, none, H)
      else do
        let (e, k, out, st) ← decodeWtranscode (b :: r) (min n 4) 1 H.mbtowc
        match e with
        | .inputUnderflow | .inputExhausted | .outputExhausted | .nullTerminator =>
          return ((k : Int), out.head?, { H with mbtowc := st })
        | .illegalInput => return (-1, none, { H with mbtowc := st })
        | .outputOverflow => .panic
    else .ok (0, some 0, H)

/-- The conversion of a size_t result to int: (size_t)-1 becomes -1, (size_t)-2 becomes -2. stdlib.cpp L510. -/
def Ret.toInt : Ret → Int
  | .count n => n
  | .eilseq => -1
  | .incomplete => -2

/-- stdlib.cpp L502-511 `wctomb`: result, new content of the destination. -/
def wctomb (H : Hidden) (s : Option (List UInt8)) (wc : Nat) : Res (Int × Option (List UInt8) × Hidden) :=
  match s with
  | none => .ok (0, none, { H with wctomb := St.init })
  | some dst => do
    let (r, d, st) ← wcrtomb dst wc H.wctomb
    return (r.toInt, some d, { H with wctomb := st })

/-- stdlib.cpp L513-542 `mbstowcs` with `wcs` not NULL: result and new content of the destination. -/
def mbstowcs (dst : List Nat) (mbs : List UInt8) (limit : Nat) : Res (Ret × List Nat) := do
  let (e, _, out, _) ← decodeWtranscode mbs (mbs.length + 1) limit St.init
  let dst ← storeAt dst out
  match e with
  | .nullTerminator | .outputExhausted =>
    let dst ← if out.length < limit then storeAt dst (out ++ [0]) else .ok dst
    return (.count out.length, dst)
  | .inputExhausted => .panic
  | _ => return (.eilseq, dst)

/-- stdlib.cpp L519-527 `mbstowcs` with `wcs` = NULL. -/
def mbstowcsLen (mbs : List UInt8) : Res Ret := do
  let (e, n) ← decodeLenLoop mbs (mbs.length + 1) St.init
  match e with
  | .nullTerminator | .inputExhausted => return .count n
  | .illegalInput | .inputUnderflow => return .eilseq
  | _ => .panic

/-- stdlib.cpp L544-547 `wcstombs` with `mb_string` not NULL. -/
def wcstombs (H : Hidden) (dst : List UInt8) (wcs : List Nat) (limit : Nat) :
    Res (Ret × List UInt8 × Hidden) := do
  let r ← wcsrtombs dst wcs limit H.wcsrtombs
  return (r.ret, r.dst, { H with wcsrtombs := r.st })

/-- stdlib.cpp L544-547 `wcstombs` with `mb_string` = NULL: only the length is computed. -/
def wcstombsLen (H : Hidden) (wcs : List Nat) : Res Ret := wcsrtombsLen wcs H.wcsrtombs

/-- uchar.cpp L9-25 `mbrtoc32` (with `pc32` not NULL): result, the character stored, new state. Storing the
local `wc` which mbrtowc left uninitialised is undefined. -/
def mbrtoc32 (s : Option (List UInt8)) (n : Nat) (st : St) : Res (Ret × Option Nat × St) :=
  match s with
  | none => do
    let (r, _, st) ← mbrtowc [0] 1 st
    return (r, none, st)
  | some s => do
    let (r, w, st) ← mbrtowc s n st
    match r with
    | .count k => if k ≤ 4 then (match w with | some c => return (r, some c, st) | none => .ub) else return (r, none, st)
    | _ => return (r, none, st)

/-- uchar.cpp L5-7 `c32rtomb`. -/
def c32rtomb (s : List UInt8) (c : Nat) (st : St) : Res (Ret × List UInt8 × St) := wcrtomb s c st

/-! ### Specification -/

/-- What the first at most `n` bytes of `s` are: the null character, a character of `k` bytes, or neither
(no prefix of the bytes that may be examined is a character). -/
inductive First (s : List UInt8) (n : Nat) : Int → Option Nat → Prop
  | null : n ≠ 0 → s.head? = some 0 → First s n 0 (some 0)
  | char (k c : Nat) : k ≤ n → k ≤ s.length → c ≠ 0 → Encodes (s.take k) c → First s n k (some c)
  | none : (∀ k c, k ≤ n → ¬ Encodes (s.take k) c) → First s n (-1) none

/-- The caller may let the function examine `n` bytes at `s`: either the object has that many bytes, or what
there is already decides (as in every NUL-terminated string). -/
def Readable (s : List UInt8) (n : Nat) : Prop :=
  ∃ m, m ≤ n ∧ m ≤ s.length ∧ (m = n ∨ (m ≠ 0 ∧ ¬ Incomplete (s.take m)))

/-- Every NUL-terminated string may be examined with every limit. -/
theorem readable_string (s rest : List UInt8) (n : Nat) : Readable (s ++ 0 :: rest) n := by
  by_cases h : n ≤ (s ++ 0 :: rest).length
  · exact ⟨n, Nat.le_refl _, h, Or.inl rfl⟩
  · have hl : (s ++ 0 :: rest).length = s.length + 1 + rest.length := by simp; omega
    refine ⟨s.length + 1, by omega, by omega, Or.inr ⟨by omega, ?_⟩⟩
    have : (s ++ 0 :: rest).take (s.length + 1) = s ++ [0] := by
      rw [List.take_append, List.take_of_length_le (by omega)]; simp
    rw [this]
    intro hi
    obtain ⟨⟨st, hs⟩, _⟩ := incomplete_pend _ hi
    rw [List.map_append] at hs
    by_cases h0 : s = []
    · subst h0; simp [Pend] at hs
    · exact not_pend_zero _ st (by simpa using h0) hs

/-! ### One character -/

theorem encodes_not_incomplete {b : List UInt8} {c : Nat} (h : Encodes b c) : ¬ Incomplete b :=
  fun hi => (incomplete_pend _ hi).2 c h

/-- The three outcomes of decoding one character in the initial state. -/
theorem decode_one (s : List UInt8) (n : Nat) (st : St) (hst : st.progress = 0) (hn : n ≠ 0)
    (hr : Readable s n) :
    (∃ k c, k ≤ n ∧ k ≤ s.length ∧ c ≠ 0 ∧ Encodes (s.take k) c ∧
      (decodeWtranscode s n 1 st = .ok (.inputExhausted, k, [c], ⟨0, c⟩) ∨
       decodeWtranscode s n 1 st = .ok (.outputExhausted, k, [c], ⟨0, c⟩))) ∨
    (s.head? = some 0 ∧ decodeWtranscode s n 1 st = .ok (.nullTerminator, 1, [], st)) ∨
    (n ≤ s.length ∧ Incomplete (s.take n) ∧ (∀ k c, k ≤ n → ¬ Encodes (s.take k) c) ∧
      ∃ ds, ds.progress ≠ 0 ∧ decodeWtranscode s n 1 st = .ok (.inputUnderflow, n, [], ds)) ∨
    (¬ Incomplete (s.take n) ∧ (∀ k c, k ≤ n → ¬ Encodes (s.take k) c) ∧
      ∃ k, decodeWtranscode s n 1 st = .ok (.illegalInput, k, [], st)) := by
  by_cases he : ∃ k c, k ≤ n ∧ k ≤ s.length ∧ Encodes (s.take k) c
  · obtain ⟨k, c, h1, h2, h3⟩ := he
    obtain ⟨d, rfl⟩ := Nat.exists_eq_add_of_le h1
    have hne : s.take k ≠ [] := by intro e; rw [e] at h3; simp [Encodes, scalarN] at h3
    have hlen : (s.take k).length = k := by rw [List.length_take]; omega
    have h := decode_char (s.take k) [] st c (s.drop k) d 0 (Or.inl ⟨rfl, hst⟩) hne (by simpa using h3)
    rw [List.take_append_drop, hlen] at h
    by_cases hc : c = 0
    · subst hc
      right; left
      have hz := encodes_zero _ h3
      rw [hz] at hlen
      simp only [List.length_cons, List.length_nil, Nat.zero_add] at hlen
      subst hlen
      refine ⟨?_, ?_⟩
      · cases s with
        | nil => simp at h2
        | cons a r => simp at hz; simp [hz]
      · unfold decodeWtranscode; rw [h]; simp [ensure]
    · left
      refine ⟨k, c, h1, h2, hc, h3, ?_⟩
      unfold decodeWtranscode
      rw [h, if_neg hc, decodeLoop_zero_room]
      by_cases hd : d = 0
      · left; simp [ensure, stopStatus, hd]
      · right; simp [ensure, stopStatus, hd]
  · have hno : ∀ k c, k ≤ n → ¬ Encodes (s.take k) c := by
      intro k c hk hec
      by_cases h2 : k ≤ s.length
      · exact he ⟨k, c, hk, h2, hec⟩
      · rw [List.take_of_length_le (by omega)] at hec
        exact he ⟨s.length, c, by omega, Nat.le_refl _, by rwa [List.take_of_length_le (Nat.le_refl _)]⟩
    obtain ⟨m, hm1, hm2, hm3⟩ := hr
    by_cases hi : n ≤ s.length ∧ Incomplete (s.take n)
    · right; right; left
      refine ⟨hi.1, hi.2, hno, ?_⟩
      obtain ⟨ds, h1, h2⟩ := decode_incomplete (s.take n) [] st (s.drop n) 0 (Or.inl ⟨rfl, hst⟩) (by simpa using hi.2)
      rw [List.take_append_drop, List.length_take, Nat.min_eq_left hi.1] at h1
      refine ⟨ds, h2.progress, ?_⟩
      unfold decodeWtranscode; rw [h1]; simp [ensure]
    · right; right; right
      have hmi : m ≠ 0 ∧ ¬ Incomplete (s.take m) := by
        rcases hm3 with rfl | h
        · exact ⟨hn, fun h => hi ⟨hm2, h⟩⟩
        · exact h
      have hni : ¬ Incomplete (s.take n) := by
        intro h
        by_cases hmn : m = n
        · subst hmn; exact hmi.2 h
        · obtain ⟨h1, q, c, h2, h3⟩ := h
          apply hmi.2
          refine ⟨?_, (s.take n).drop m ++ q, c, by simp [h2], ?_⟩
          · intro e
            have := congrArg List.length e
            rw [List.length_take, List.length_nil] at this
            omega
          · have e : s.take m = (s.take n).take m := by rw [List.take_take, Nat.min_eq_left hm1]
            rw [e, ← List.append_assoc, List.take_append_drop]; exact h3
      refine ⟨hni, hno, ?_⟩
      obtain ⟨d, rfl⟩ := Nat.exists_eq_add_of_le hm1
      obtain ⟨k, ds, h⟩ := decode_illegal (s.take m) [] st (s.drop m) d 0 (Or.inl ⟨rfl, hst⟩) (by
          simp only [List.nil_append]
          intro e
          have := congrArg List.length e
          rw [List.length_take, List.length_nil] at this
          omega) (by simpa using hmi.2) (by
          intro k c _ hk
          rw [List.length_take] at hk
          rw [List.nil_append, List.take_take, Nat.min_eq_left (by omega)]
          exact hno k c (by omega))
      rw [List.take_append_drop, List.length_take, Nat.min_eq_left hm2] at h
      refine ⟨k, ?_⟩
      unfold decodeWtranscode; rw [h]; simp [ensure]

/-! ### mblen -/

/-- **mblen, one call** in the initial state: the length of the first character, 0 for the null character, −1
if no character starts there. The state is initial again unless the bytes were an incomplete character. -/
theorem mblen_call (H : Hidden) (s : List UInt8) (n : Nat) (hst : H.mblen.progress = 0) (hn : n ≠ 0)
    (hr : Readable s n) :
    ∃ r c H', mblen H (some s) n = .ok (r, H') ∧ First s n r c ∧
      (¬ Incomplete (s.take n) → H'.mblen.progress = 0) := by
  unfold mblen
  rcases decode_one s n H.mblen hst hn hr with ⟨k, c, h1, h2, h3, h4, h5⟩ | ⟨h1, h2⟩ | ⟨h1, h2, h3, ds, h4, h5⟩ |
    ⟨h1, h2, k, h3⟩
  · rcases h5 with h5 | h5
    · exact ⟨k, some c, { H with mblen := ⟨0, c⟩ }, by simp [h5], .char k c h1 h2 h3 h4, fun _ => rfl⟩
    · exact ⟨k, some c, { H with mblen := ⟨0, c⟩ }, by simp [h5], .char k c h1 h2 h3 h4, fun _ => rfl⟩
  · exact ⟨0, some 0, H, by simp [h2], .null hn h1, fun _ => hst⟩
  · exact ⟨-1, none, { H with mblen := ds }, by simp [h5], .none h3, fun h => absurd h2 h⟩
  · exact ⟨-1, none, H, by simp [h3], .none h2, fun _ => hst⟩

/-- `mblen(NULL, n)` reports that there are no shift states and resets the state. -/
theorem mblen_null (H : Hidden) (n : Nat) : mblen H none n = .ok (0, { H with mblen := ⟨0, 0⟩ }) := rfl

/-- A history of mblen calls and their results. -/
def runMblen (H : Hidden) : List (Option (List UInt8) × Nat) → Res (List Int × Hidden)
  | [] => .ok ([], H)
  | (s, n) :: cs => do
    let (r, H) ← mblen H s n
    let (rs, H) ← runMblen H cs
    return (r :: rs, H)

/-- The answers a caller is owed. -/
inductive Answers : List (Option (List UInt8) × Nat) → List Int → Prop
  | nil : Answers [] []
  | null {n cs rs} : Answers cs rs → Answers ((none, n) :: cs) (0 :: rs)
  | call {s n r c cs rs} : First s n r c → Answers cs rs → Answers ((some s, n) :: cs) (r :: rs)

/-- **mblen over every history** of calls none of which is handed an incomplete character: every answer is
right, whatever came before (also after ill-formed input). -/
theorem mblen_history_partial (cs : List (Option (List UInt8) × Nat)) (H : Hidden) (hst : H.mblen.progress = 0)
    (h : ∀ s n, (some s, n) ∈ cs → n ≠ 0 ∧ Readable s n ∧ ¬ Incomplete (s.take n)) :
    ∃ rs H', runMblen H cs = .ok (rs, H') ∧ Answers cs rs := by
  induction cs generalizing H with
  | nil => exact ⟨[], H, rfl, .nil⟩
  | cons x cs ih =>
    obtain ⟨s, n⟩ := x
    cases s with
    | none =>
      obtain ⟨rs, H', h1, h2⟩ := ih { H with mblen := St.init } rfl (fun s n hm => h s n (List.mem_cons_of_mem _ hm))
      exact ⟨0 :: rs, H', by simp [runMblen, mblen, h1], .null h2⟩
    | some s =>
      obtain ⟨g1, g2, g3⟩ := h s n (List.mem_cons_self ..)
      obtain ⟨r, c, H1, e1, e2, e3⟩ := mblen_call H s n hst g1 g2
      obtain ⟨rs, H', h1, h2⟩ := ih H1 (e3 g3) (fun s n hm => h s n (List.mem_cons_of_mem _ hm))
      exact ⟨r :: rs, H', by simp [runMblen, e1, h1], .call e2 h2⟩

/-- **Not so after an incomplete character.** The partial character is kept: once mblen has been asked for the
length of a truncated "é", it answers −1 for every "A" until it is reset. -/
theorem mblen_sticky_violated :
    (∃ H', runMblen {} [(some [0xC3], 1), (some [0x41, 0], 1), (some [0x41, 0], 1)] = .ok ([-1, -1, -1], H')) ∧
    First [0x41, 0] 1 1 (some 0x41) := by
  refine ⟨⟨_, rfl⟩, ?_⟩
  exact .char 1 0x41 (by omega) (by simp) (by omega) (by simp [Encodes, scalarN])

/-- A limit of 0 bytes contains no character, but mblen answers 0 as for the null character. -/
theorem mblen_zero_violated (H : Hidden) (s : List UInt8) (hst : H.mblen.progress = 0) :
    (∃ H', mblen H (some s) 0 = .ok (0, H')) ∧ ∀ c, First s 0 0 c → False := by
  constructor
  · refine ⟨H, ?_⟩
    unfold mblen decodeWtranscode
    cases s <;> simp [decodeLoop, ensure, stopStatus, hst]
  · intro c h
    generalize hz : (0 : Int) = z at h
    cases h with
    | null h => exact h rfl
    | char k c hk _ _ he =>
      have : k = 0 := by omega
      subst this
      simp [Encodes, scalarN] at he
    | none => omega

/-! ### mbtowc -/

/-- Examining more than four bytes makes no difference to what the first character is. -/
theorem first_four {s : List UInt8} {n : Nat} {r : Int} {c : Option Nat} (hi : ¬ Incomplete (s.take (min n 4)))
    (h : First s (min n 4) r c) : First s n r c := by
  cases h with
  | null h1 h2 => exact .null (by omega) h2
  | char k c h1 h2 h3 h4 => exact .char k c (by omega) h2 h3 h4
  | none h =>
    refine .none ?_
    intro k c hk he
    have hl := encodes_length _ _ he
    rw [List.length_take] at hl
    by_cases h4 : k ≤ 4
    · exact h k c (by omega) he
    · have hs : s.length ≤ 4 := by omega
      rw [List.take_of_length_le (by omega)] at he
      refine h 4 c (by omega) ?_
      rwa [List.take_of_length_le hs]

theorem incomplete_length {b : List UInt8} (h : Incomplete b) : b.length ≤ 3 := by
  obtain ⟨_, q, c, hq, he⟩ := h
  have := (encodes_length _ _ he).2
  cases q with
  | nil => exact absurd rfl hq
  | cons a q => simp at this; omega

/-- **mbtowc, one call** in the initial state, unless the bytes are an incomplete character: the length of the
first character (which is stored), 0 for the null character, −1 and nothing stored if no character starts
there; the state is initial again. -/
theorem mbtowc_call_partial (H : Hidden) (s : List UInt8) (n : Nat) (hst : H.mbtowc.progress = 0) (hn : n ≠ 0)
    (hs : s ≠ []) (hr : Readable s (min n 4)) (hi : ¬ Incomplete (s.take n)) :
    ∃ r c H', mbtowc H (some s) n = .ok (r, c, H') ∧ First s n r c ∧ H'.mbtowc.progress = 0 := by
  have hi4 : ¬ Incomplete (s.take (min n 4)) := by
    intro h
    have hl := incomplete_length h
    rw [List.length_take] at hl
    by_cases h4 : n ≤ 4
    · rw [Nat.min_eq_left h4] at h; exact hi h
    · have : s.take (min n 4) = s.take n := by
        rw [List.take_of_length_le (by omega), List.take_of_length_le (by omega)]
      rw [this] at h; exact hi h
  cases s with
  | nil => exact absurd rfl hs
  | cons b r =>
    unfold mbtowc
    by_cases hb : b = 0
    · subst hb
      exact ⟨0, some 0, H, by simp, .null hn rfl, hst⟩
    · simp only [ne_eq, hb, not_false_eq_true, if_true, hn, if_false]
      rcases decode_one (b :: r) (min n 4) H.mbtowc hst (by omega) hr with ⟨k, c, h1, h2, h3, h4, h5⟩ | ⟨h1, h2⟩ |
        ⟨h1, h2, h3, ds, h4, h5⟩ | ⟨h1, h2, k, h3⟩
      · rcases h5 with h5 | h5
        · exact ⟨k, some c, { H with mbtowc := ⟨0, c⟩ }, by simp [h5], first_four hi4 (.char k c h1 h2 h3 h4), rfl⟩
        · exact ⟨k, some c, { H with mbtowc := ⟨0, c⟩ }, by simp [h5], first_four hi4 (.char k c h1 h2 h3 h4), rfl⟩
      · simp at h1; exact absurd h1 hb
      · exact absurd h2 hi4
      · exact ⟨-1, none, H, by simp [h3], first_four hi4 (.none h2), hst⟩

/-- A history of mbtowc calls. -/
def runMbtowc (H : Hidden) : List (Option (List UInt8) × Nat) → Res (List (Int × Option Nat) × Hidden)
  | [] => .ok ([], H)
  | (s, n) :: cs => do
    let (r, c, H) ← mbtowc H s n
    let (rs, H) ← runMbtowc H cs
    return ((r, c) :: rs, H)

/-- **mbtowc over every history** without incomplete characters. -/
theorem mbtowc_history_partial (cs : List (Option (List UInt8) × Nat)) (H : Hidden)
    (hst : H.mbtowc.progress = 0)
    (h : ∀ s n, (some s, n) ∈ cs → n ≠ 0 ∧ s ≠ [] ∧ Readable s (min n 4) ∧ ¬ Incomplete (s.take n)) :
    ∃ rs H', runMbtowc H cs = .ok (rs, H') ∧
      List.Forall₂ (fun x (r : Int × Option Nat) => match x.1 with
        | none => r = (0, none)
        | some s => First s x.2 r.1 r.2) cs rs := by
  induction cs generalizing H with
  | nil => exact ⟨[], H, rfl, .nil⟩
  | cons x cs ih =>
    obtain ⟨s, n⟩ := x
    cases s with
    | none =>
      obtain ⟨rs, H', h1, h2⟩ := ih { H with mblen := St.init } hst (fun s n hm => h s n (List.mem_cons_of_mem _ hm))
      exact ⟨(0, none) :: rs, H', by simp [runMbtowc, mbtowc, h1], .cons rfl h2⟩
    | some s =>
      obtain ⟨g1, g2, g3, g4⟩ := h s n (List.mem_cons_self ..)
      obtain ⟨r, c, H1, e1, e2, e3⟩ := mbtowc_call_partial H s n hst g1 g2 g3 g4
      obtain ⟨rs, H', h1, h2⟩ := ih H1 e3 (fun s n hm => h s n (List.mem_cons_of_mem _ hm))
      exact ⟨(r, c) :: rs, H', by simp [runMbtowc, e1, h1], .cons e2 h2⟩

/-- **An incomplete character is reported as a character**: for every incomplete character of `n` bytes mbtowc
returns `n` instead of −1, and stores nothing. -/
theorem mbtowc_incomplete_violated (H : Hidden) (s : List UInt8) (n : Nat) (hst : H.mbtowc.progress = 0)
    (hn : n ≤ s.length) (hi : Incomplete (s.take n)) :
    (∃ H', mbtowc H (some s) n = .ok ((n : Int), none, H')) ∧ First s n (-1) none := by
  have hl := incomplete_length hi
  rw [List.length_take, Nat.min_eq_left hn] at hl
  have h0 : n ≠ 0 := by rintro rfl; exact hi.1 (by simp)
  have hr : Readable s n := ⟨n, Nat.le_refl _, hn, Or.inl rfl⟩
  rcases decode_one s n H.mbtowc hst h0 hr with ⟨k, c, h1, h2, h3, h4, _⟩ | ⟨h1, _⟩ | ⟨h1, h2, h3, ds, h4, h5⟩ |
    ⟨h1, _, _⟩
  · exfalso
    obtain ⟨_, q, c', hq, he⟩ := hi
    have hp : s.take k <+: s.take n ++ q := by
      refine List.IsPrefix.trans ?_ (List.prefix_append _ _)
      have e : s.take k = (s.take n).take k := by rw [List.take_take, Nat.min_eq_left h1]
      rw [e]; exact List.take_prefix _ _
    have := (encodings_prefix_free _ _ _ _ h4 he hp).1
    have hlen := congrArg List.length this
    rw [List.length_append, List.length_take, List.length_take] at hlen
    have : q.length = 0 := by omega
    exact hq (List.length_eq_zero_iff.1 this)
  · exfalso
    cases s with
    | nil => simp at h1
    | cons b r =>
      simp at h1
      subst h1
      obtain ⟨⟨st, hs⟩, _⟩ := incomplete_pend _ hi
      match n with
      | 1 => simp [Pend] at hs
      | 2 => cases r <;> simp [Pend] at hs
      | 3 => match r with
        | [] => simp [Pend] at hs
        | [_] => simp [Pend] at hs
        | _ :: _ :: _ => simp [Pend] at hs
  · refine ⟨⟨{ H with mbtowc := ds }, ?_⟩, .none h3⟩
    cases s with
    | nil => simp at hn; exact absurd hn h0
    | cons b r =>
      have hb : b ≠ 0 := by
        rintro rfl
        refine h3 1 0 (by omega) ?_
        simp [Encodes, scalarN]
      have h4' : min n 4 = n := by omega
      unfold mbtowc
      simp [hb, h0, h4', h5]
  · exact absurd hi h1

/-- **`mbtowc(NULL)` does not reset mbtowc** (it resets mblen): after a truncated "é" and the reset, "A" is
rejected. -/
theorem mbtowc_reset_violated :
    ∃ H', runMbtowc {} [(some [0xC3], 1), (none, 0), (some [0x41, 0], 1)]
      = .ok ([(1, none), (0, none), (-1, none)], H') := ⟨_, rfl⟩

/-! ### wctomb -/

/-- The call `wctomb(s, c)` of a history: the destination (if not NULL) and the character. -/
def runWctomb (H : Hidden) : List (Option (List UInt8) × Nat) → Res (List (Int × Option (List UInt8)) × Hidden)
  | [] => .ok ([], H)
  | (s, c) :: cs => do
    let (r, d, H) ← wctomb H s c
    let (rs, H) ← runWctomb H cs
    return ((r, d) :: rs, H)

/-- What wctomb owes: 0 for NULL; the number of bytes of the encoding, which is at the start of the
destination; −1 for a number above the last code point. -/
def OwedByte (s : Option (List UInt8)) (c : Nat) (r : Int × Option (List UInt8)) : Prop :=
  match s with
  | none => r = (0, none)
  | some dst =>
    (∃ bs, Encodes bs c ∧ r = ((bs.length : Int), some (bs ++ dst.drop bs.length))) ∨
    (0x10FFFF < c ∧ r = (-1, some dst))

theorem wctomb_call (H : Hidden) (dst : List UInt8) (c : Nat) (hst : H.wctomb.progress = 0)
    (hd : 4 ≤ dst.length) (hc : isScalar c ∨ 0x10FFFF < c) :
    ∃ r H', wctomb H (some dst) c = .ok (r.1, r.2, H') ∧ OwedByte (some dst) c r ∧ H'.wctomb.progress = 0 := by
  rcases hc with hc | hc
  · obtain ⟨bs, h1, _, _, h2⟩ := wcrtomb_encodes dst hd c hc H.wctomb hst
    exact ⟨(bs.length, some (bs ++ dst.drop bs.length)), { H with wctomb := St.init },
      by simp [wctomb, h2, Ret.toInt], Or.inl ⟨bs, h1, rfl⟩, rfl⟩
  · refine ⟨(-1, some dst), H, ?_, Or.inr ⟨hc, rfl⟩, hst⟩
    have he : encode c = none := by
      unfold encode
      rw [if_neg (by omega), if_neg (by omega), if_neg (by omega), if_neg (by omega)]
    have h0 : c ≠ 0 := by omega
    simp [wctomb, wcrtomb, encodeLoop, he, h0, ensure, hst, storeAt, Ret.toInt]

/-- **wctomb over every history** of calls. -/
theorem wctomb_history (cs : List (Option (List UInt8) × Nat)) (H : Hidden) (hst : H.wctomb.progress = 0)
    (h : ∀ dst c, (some dst, c) ∈ cs → 4 ≤ dst.length ∧ (isScalar c ∨ 0x10FFFF < c)) :
    ∃ rs H', runWctomb H cs = .ok (rs, H') ∧ List.Forall₂ (fun x r => OwedByte x.1 x.2 r) cs rs := by
  induction cs generalizing H with
  | nil => exact ⟨[], H, rfl, .nil⟩
  | cons x cs ih =>
    obtain ⟨s, c⟩ := x
    cases s with
    | none =>
      obtain ⟨rs, H', h1, h2⟩ := ih { H with wctomb := St.init } rfl (fun s n hm => h s n (List.mem_cons_of_mem _ hm))
      exact ⟨(0, none) :: rs, H', by simp [runWctomb, wctomb, h1], .cons rfl h2⟩
    | some dst =>
      obtain ⟨g1, g2⟩ := h dst c (List.mem_cons_self ..)
      obtain ⟨r, H1, e1, e2, e3⟩ := wctomb_call H dst c hst g1 g2
      obtain ⟨rs, H', h1, h2⟩ := ih H1 e3 (fun s n hm => h s n (List.mem_cons_of_mem _ hm))
      exact ⟨r :: rs, H', by simp [runWctomb, e1, h1], .cons e2 h2⟩

/-! ### mbstowcs -/

/-- **mbstowcs, the whole string fits**: all characters and a terminator are stored. -/
theorem mbstowcs_fits (dst : List Nat) (bs rest : List UInt8) (cs : List Nat) (limit : Nat)
    (h : EncodesStr bs cs) (h0 : 0 ∉ cs) (hl : cs.length < limit) (hd : limit ≤ dst.length) :
    mbstowcs dst (bs ++ 0 :: rest) limit = .ok (.count cs.length, cs ++ 0 :: dst.drop (cs.length + 1)) := by
  obtain ⟨w, rfl⟩ := Nat.exists_eq_add_of_lt hl
  obtain ⟨st', h1, h2⟩ := decode_str h h0 St.init (0 :: rest) ((0 :: rest).length + 1) (w + 1) rfl
  unfold mbstowcs decodeWtranscode
  have e : (bs ++ 0 :: rest).length + 1 = bs.length + ((0 :: rest).length + 1) := by simp; omega
  have e2 : cs.length + w + 1 = cs.length + (w + 1) := by omega
  have hd1 : cs.length ≤ dst.length := by omega
  have hd2 : cs.length + 1 ≤ dst.length := by omega
  have hd4 : cs.drop (cs.length + 1) = [] := List.drop_eq_nil_of_le (by omega)
  have hd3 : cs.length < cs.length + (w + 1) := by omega
  rw [e, e2, h2, decode_null rest _ w st' h1]
  simp [ensure, storeAt, hd1, hd2, hd4, hd3, List.drop_append, Nat.add_comm 1]

/-- **mbstowcs, the limit is reached**: exactly `limit` characters are stored and no terminator. -/
theorem mbstowcs_limit (dst : List Nat) (bs bs' : List UInt8) (cs : List Nat)
    (h : EncodesStr bs cs) (h0 : 0 ∉ cs) (hl : 1 ≤ cs.length) (hd : cs.length ≤ dst.length) :
    mbstowcs dst (bs ++ bs') cs.length = .ok (.count cs.length, cs ++ dst.drop cs.length) := by
  obtain ⟨st', h1, h2⟩ := decode_str h h0 St.init bs' (bs'.length + 1) 0 rfl
  unfold mbstowcs decodeWtranscode
  have e : (bs ++ bs').length + 1 = bs.length + (bs'.length + 1) := by simp; omega
  have hl' : cs.length ≠ 0 := by omega
  simp only [Nat.add_zero] at h2
  rw [e, h2, decodeLoop_zero_room]
  simp [ensure, storeAt, hd, hl', stopStatus, h1]

/-- **mbstowcs, ill-formed input** before the limit: EILSEQ, nothing stored behind the good characters. -/
theorem mbstowcs_illformed (dst : List Nat) (bs b rest : List UInt8) (cs : List Nat) (limit : Nat)
    (h : EncodesStr bs cs) (h0 : 0 ∉ cs) (hb : Bad b) (hl : cs.length < limit) (hd : limit ≤ dst.length) :
    mbstowcs dst (bs ++ b ++ 0 :: rest) limit = .ok (.eilseq, cs ++ dst.drop cs.length) := by
  obtain ⟨w, rfl⟩ := Nat.exists_eq_add_of_lt hl
  obtain ⟨st', h1, h2⟩ := decode_str h h0 St.init (b ++ 0 :: rest) ((b ++ 0 :: rest).length + 1) (w + 1) rfl
  obtain ⟨k, ds, h3⟩ := decode_bad b rest ((b ++ 0 :: rest).length + 1) w st' h1 hb (by simp)
  unfold mbstowcs decodeWtranscode
  have e : (bs ++ b ++ 0 :: rest).length + 1 = bs.length + ((b ++ 0 :: rest).length + 1) := by simp; omega
  have e2 : cs.length + w + 1 = cs.length + (w + 1) := by omega
  have hd1 : cs.length ≤ dst.length := by omega
  rw [e, e2, List.append_assoc, h2, h3]
  simp [ensure, storeAt, hd1]

/-- **mbstowcs(NULL, s, n)** gives the number of characters of a well-formed string, and EILSEQ otherwise. -/
theorem mbstowcs_len (bs rest : List UInt8) (cs : List Nat) (h : EncodesStr bs cs) (h0 : 0 ∉ cs) :
    mbstowcsLen (bs ++ 0 :: rest) = .ok (.count cs.length) := by
  unfold mbstowcsLen
  rw [decodeLen_eq _ _ (cs.length + ((bs ++ 0 :: rest).length + 1 + 1)) St.init (by omega)]
  obtain ⟨st', h1, h2⟩ := decode_str h h0 St.init (0 :: rest) ((0 :: rest).length + 1)
    ((bs ++ 0 :: rest).length + 1 + 1) rfl
  have e : (bs ++ 0 :: rest).length + 1 = bs.length + ((0 :: rest).length + 1) := by simp; omega
  rw [e] at h2 ⊢
  rw [h2, decode_null rest _ _ st' h1]
  simp

theorem mbstowcs_len_illformed (bs b rest : List UInt8) (cs : List Nat) (h : EncodesStr bs cs) (h0 : 0 ∉ cs)
    (hb : Bad b) : mbstowcsLen (bs ++ b ++ 0 :: rest) = .ok .eilseq := by
  unfold mbstowcsLen
  rw [decodeLen_eq _ _ (cs.length + ((bs ++ b ++ 0 :: rest).length + 1 + 1)) St.init (by omega)]
  obtain ⟨st', h1, h2⟩ := decode_str h h0 St.init (b ++ 0 :: rest) ((b ++ 0 :: rest).length + 1)
    ((bs ++ b ++ 0 :: rest).length + 1 + 1) rfl
  obtain ⟨k, ds, h3⟩ := decode_bad b rest ((b ++ 0 :: rest).length + 1) ((bs ++ b ++ 0 :: rest).length + 1) st' h1 hb
    (by simp)
  have e : (bs ++ b ++ 0 :: rest).length + 1 = bs.length + ((b ++ 0 :: rest).length + 1) := by simp; omega
  rw [e] at h2 h3 ⊢
  rw [← List.append_assoc] at h2
  rw [h2, h3]
  simp

/-- A limit of 0 aborts instead of storing nothing and returning 0. -/
theorem mbstowcs_zero_limit_violated (dst : List Nat) (s : List UInt8) : mbstowcs dst s 0 = .panic := by
  simp [mbstowcs, decodeWtranscode, ensure]

/-! ### wcstombs -/

/-- **wcstombs** leaves its hidden state initial whatever happens, so it has no memory: a call in any history
does what a first call does. -/
theorem wcstombs_memoryless (H : Hidden) (hst : H.wcsrtombs.progress = 0) (dst : List UInt8) (wcs : List Nat)
    (limit : Nat) (r : Ret) (d : List UInt8) (H' : Hidden) (h : wcstombs H dst wcs limit = .ok (r, d, H')) :
    H'.wcsrtombs.progress = 0 ∧ ∃ K, wcstombs {} dst wcs limit = .ok (r, d, K) := by
  unfold wcstombs wcsrtombs at h ⊢
  simp only [ensure, hst, decide_true, if_true, Res.ok_bind, St.init] at h ⊢
  cases he : encodeLoop wcs (wcs.length + 1) limit with
  | ub => simp [he] at h
  | panic => simp [he] at h
  | ok o =>
    simp only [he, Res.ok_bind] at h ⊢
    cases hs : storeAt dst (o.committed ++ o.partialBytes) with
    | ub => simp [hs] at h
    | panic => simp [hs] at h
    | ok d1 =>
      simp only [hs, Res.ok_bind] at h ⊢
      cases ho : o.status <;> simp only [ho] at h ⊢
      · split at h
        · rename_i hlt
          simp only [hlt, if_true]
          cases hs2 : storeAt d1 (o.committed ++ [0]) with
          | ub => simp [hs2] at h
          | panic => simp [hs2] at h
          | ok d2 =>
            simp [hs2] at h ⊢
            obtain ⟨rfl, rfl, rfl⟩ := h
            exact ⟨rfl, rfl, rfl⟩
        · rename_i hlt
          simp only [hlt, if_false]
          simp at h ⊢
          obtain ⟨rfl, rfl, rfl⟩ := h
          exact ⟨rfl, rfl, rfl⟩
      all_goals first
        | (simp at h ⊢
           obtain ⟨rfl, rfl, rfl⟩ := h
           exact ⟨hst, rfl, rfl⟩)
        | (simp at h)

/-- **wcstombs, the whole string fits.** -/
theorem wcstombs_fits (H : Hidden) (hst : H.wcsrtombs.progress = 0) (dst : List UInt8) (bs : List UInt8)
    (cs rest : List Nat) (limit : Nat) (h : EncodesStr bs cs) (h0 : 0 ∉ cs) (hl : bs.length < limit)
    (hd : limit ≤ dst.length) :
    ∃ H', wcstombs H dst (cs ++ 0 :: rest) limit
      = .ok (.count bs.length, bs ++ 0 :: dst.drop (bs.length + 1), H') := by
  obtain ⟨cap, rfl⟩ := Nat.exists_eq_add_of_lt hl
  have hs := encode_str h h0 (0 :: rest) ((0 :: rest).length + 1) (cap + 1)
  have hd1 : bs.length ≤ dst.length := by omega
  have hd2 : bs.length + 1 ≤ dst.length := by omega
  have hd4 : bs.drop (bs.length + 1) = [] := List.drop_eq_nil_of_le (by omega)
  have e : (cs ++ 0 :: rest).length + 1 = cs.length + ((0 :: rest).length + 1) := by simp; omega
  refine ⟨{ H with wcsrtombs := St.init }, ?_⟩
  unfold wcstombs wcsrtombs
  rw [e, Nat.add_assoc bs.length cap 1, hs]
  simp [encodeLoop, ensure, hst, St.init, storeAt, hd1, hd2, hd4, List.drop_append, Nat.add_comm 1]

/-- **wcstombs(NULL, s, n)** gives the number of bytes the conversion needs. -/
theorem wcstombs_len (H : Hidden) (hst : H.wcsrtombs.progress = 0) (bs : List UInt8) (cs rest : List Nat)
    (h : EncodesStr bs cs) (h0 : 0 ∉ cs) : wcstombsLen H (cs ++ 0 :: rest) = .ok (.count bs.length) := by
  unfold wcstombsLen wcsrtombsLen
  have e : (cs ++ 0 :: rest).length + 1 = cs.length + ((0 :: rest).length + 1) := by simp; omega
  rw [encodeLen_eq _ _ (bs.length + (4 * ((cs ++ 0 :: rest).length + 1) + 1)) (by omega), e,
    encode_str h h0 (0 :: rest) ((0 :: rest).length + 1)]
  simp [encodeLoop, ensure, hst]

/-- A character that does not fit makes wcstombs abort; it should stop in front of it. -/
theorem wcstombs_cut_violated :
    Encodes [0xC3, 0xA9] 0xE9 ∧ wcstombs {} [0, 0] [0xE9, 0] 1 = .panic := ⟨rfl, by decide⟩

/-! ### mbrtoc32 and c32rtomb -/

/-- **mbrtoc32** in the initial state with at least one byte: the first character is stored, and the result is
its length; incomplete input gives (size_t)−2 and ill-formed input (size_t)−1, storing nothing. -/
theorem mbrtoc32_call (s : List UInt8) (n : Nat) (st : St) (hst : st.progress = 0) (hn : n ≠ 0)
    (hr : Readable s n) :
    ∃ r c st', mbrtoc32 (some s) n st = .ok (r, c, st') ∧
      ((∃ k : Nat, r = .count k ∧ First s n k c ∧ st'.progress = 0) ∨
       (r = .incomplete ∧ c = none ∧ n ≤ s.length ∧ Incomplete (s.take n)) ∨
       (r = .eilseq ∧ c = none ∧ ¬ Incomplete (s.take n) ∧ First s n (-1) none)) := by
  unfold mbrtoc32 mbrtowc
  rcases decode_one s n st hst hn hr with ⟨k, c, h1, h2, h3, h4, h5⟩ | ⟨h1, h2⟩ | ⟨h1, h2, h3, ds, h4, h5⟩ |
    ⟨h1, h2, k, h3⟩
  · have hk : k ≤ 4 := by
      have := (encodes_length _ _ h4).2
      rw [List.length_take] at this; omega
    rcases h5 with h5 | h5
    · exact ⟨.count k, some c, ⟨0, c⟩, by simp [h5, hk], Or.inl ⟨k, rfl, .char k c h1 h2 h3 h4, rfl⟩⟩
    · exact ⟨.count k, some c, ⟨0, c⟩, by simp [h5, hk], Or.inl ⟨k, rfl, .char k c h1 h2 h3 h4, rfl⟩⟩
  · exact ⟨.count 0, some 0, St.init, by simp [h2], Or.inl ⟨0, rfl, .null hn h1, rfl⟩⟩
  · exact ⟨.incomplete, none, ds, by simp [h5], Or.inr (Or.inl ⟨rfl, rfl, h1, h2⟩)⟩
  · exact ⟨.eilseq, none, st, by simp [h3], Or.inr (Or.inr ⟨rfl, rfl, h1, .none h2⟩)⟩

/-- `mbrtoc32(p, s, 0, st)` stores an uninitialised variable. -/
theorem mbrtoc32_zero_violated (s : List UInt8) (st : St) (hst : st.progress = 0) :
    mbrtoc32 (some s) 0 st = .ub := by
  unfold mbrtoc32 mbrtowc decodeWtranscode
  cases s <;> simp [decodeLoop, ensure, stopStatus, hst]

/-- **Round trip** of c32rtomb and mbrtoc32 for every scalar value. -/
theorem c32_roundtrip (dst : List UInt8) (hd : 4 ≤ dst.length) (c : Nat) (hc : isScalar c) (n : Nat) (hn : 4 ≤ n) :
    ∃ k out st', c32rtomb dst c St.init = .ok (.count k, out, St.init) ∧
      mbrtoc32 (some out) n St.init = .ok (.count (if c = 0 then 0 else k), some c, st') ∧ st'.progress = 0 := by
  obtain ⟨bs, he, h1, h4, hw⟩ := wcrtomb_encodes dst hd c hc St.init rfl
  by_cases h0 : c = 0
  · subst h0
    have := encodes_zero bs he
    subst this
    exact ⟨1, _, St.init, hw, by simp [mbrtoc32, mbrtowc_null _ n St.init rfl (by omega)], rfl⟩
  · obtain ⟨st', hm, hp⟩ := mbrtowc_accepts bs (dst.drop bs.length) c n St.init rfl he h0 (by omega)
    exact ⟨bs.length, _, st', hw, by simp [mbrtoc32, hm, h4, h0], hp⟩

/-! ### Concrete cases -/

example : Readable [0xC3, 0xA9, 0x41] 3 := ⟨3, by simp, by simp, Or.inl rfl⟩
example : ¬ Incomplete (([0xC3, 0xA9, 0x41] : List UInt8).take 2) :=
  encodes_not_incomplete (c := 0xE9) (by simp [Encodes, scalarN, isCont])
example : Incomplete ([0xC3] : List UInt8) := ⟨by simp, [0xA9], 0xE9, by simp, by simp [Encodes, scalarN, isCont]⟩
example : First [0xC3, 0xA9, 0x41] 3 2 (some 0xE9) :=
  .char 2 0xE9 (by omega) (by simp) (by omega) (by simp [Encodes, scalarN, isCont])
example : EncodesStr [0xC3, 0xA9, 0x41] [0xE9, 0x41] :=
  .cons (b := [0xC3, 0xA9]) (by simp [Encodes, scalarN, isCont])
    (.cons (b := [0x41]) (by simp [Encodes, scalarN]) .nil)
example : (mbtowc {} (some [0xC3, 0xA9, 0x41]) 7).bind (fun r => .ok (r.1, r.2.1)) = .ok (2, some 0xE9) := by decide
example : mbstowcs [9, 9, 9, 9] [0xC3, 0xA9, 0x41, 0] 4 = .ok (.count 2, [0xE9, 0x41, 0, 9]) := by decide
example : mbstowcs [9, 9, 9, 9] [0x41, 0x80, 0] 4 = .ok (.eilseq, [0x41, 9, 9, 9]) := by decide
example : (wctomb {} (some [9, 9, 9, 9]) 0x20AC).bind (fun r => .ok (r.1, r.2.1))
    = .ok (3, some [0xE2, 0x82, 0xAC, 9]) := by decide

end Mlibc.Utf8
