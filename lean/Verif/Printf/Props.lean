import Verif.Base
/-
The output side of `snprintf` and `vasprintf` (options/ansi/generic/stdio.cpp): `LimitedPrinter<char>` and
`ResizePrinter`. Properties C32, C33.

The conversion of the arguments to text is done by frigg (`frg::printf_format`), which is not part of this
repository; a call is represented by the sequence of pieces frigg and `PrintfAgent` hand to the printer.
Memory is a list of bytes; storing outside it is `Res.ub`.
-/
set_option linter.unusedSimpArgs false
namespace Mlibc.Printf

/-! ## Model -/

/-- What the formatter hands to the printer. -/
inductive Piece where
  /-- `append(char)` -/
  | ch (c : UInt8)
  /-- `append(const char *str, size_t n)`; `s` are the bytes at `str`. -/
  | chars (s : List UInt8) (n : Nat)
  deriving DecidableEq, Repr

/-- `LimitedPrinter<char>`. stdio.cpp L568-675 -/
structure Limited where
  buf : List UInt8
  limit : Nat
  count : Nat
  deriving DecidableEq, Repr

/-- `buffer[i] = c`. -/
def put (buf : List UInt8) (i : Nat) (c : UInt8) : Res (List UInt8) :=
  if i < buf.length then .ok (buf.set i c) else .ub

/-- Storing bytes from position `i` on; stands for `strncpy` of bytes without a terminator among them
(`Mlibc.Str.strncpy_exact_partial`). -/
def puts : List UInt8 → Nat → List UInt8 → Res (List UInt8)
  | buf, _, [] => .ok buf
  | buf, i, c :: cs => (put buf i c).bind fun b => puts b (i + 1) cs

/-- `mlibc::strnlen`: reading past the bytes is undefined. strings.cpp -/
def strnlen : List UInt8 → Nat → Res Nat
  | _, 0 => .ok 0
  | [], _ + 1 => .ub
  | c :: s, n + 1 => if c = 0 then .ok 0 else (strnlen s n).bind fun m => .ok (m + 1)

/-- `append(char)`, `append(const char *, size_t)` (through the three-argument form with
`dest_max = SIZE_MAX`), `remaining()`. stdio.cpp L575-579, L615-626, L663-667 -/
def Limited.append (p : Limited) : Piece → Res Limited
  | .ch c =>
    if p.count < p.limit then
      (put p.buf p.count c).bind fun b => .ok { p with buf := b, count := p.count + 1 }
    else .ok { p with count := p.count + 1 }
  | .chars s n =>
    (strnlen s n).bind fun len =>
    let copy := min len (if p.count < p.limit then p.limit - p.count else 0)
    (puts p.buf p.count (s.take copy)).bind fun b => .ok { p with buf := b, count := p.count + len }

/-- All pieces in turn. -/
def Limited.appendAll : Limited → List Piece → Res Limited
  | p, [] => .ok p
  | p, x :: xs => (p.append x).bind fun p' => p'.appendAll xs

/-- `vsnprintf`: the buffer afterwards and the value returned. stdio.cpp L1809-1827 -/
def snprintf (buf : List UInt8) (n : Nat) (xs : List Piece) : Res (List UInt8 × Nat) :=
  (Limited.appendAll ⟨buf, if n ≠ 0 then n - 1 else 0, 0⟩ xs).bind fun p =>
  if n ≠ 0 then (put p.buf (min (n - 1) p.count) 0).bind fun b => .ok (b, p.count)
  else .ok (p.buf, p.count)

/-- `ResizePrinter`; `buf` is the allocated block. stdio.cpp L682-753 -/
structure Resize where
  buf : List UInt8
  limit : Nat
  count : Nat
  deriving DecidableEq, Repr

/-- `expand`; new memory contains `junk`. stdio.cpp L688-699 -/
def Resize.expand (junk : UInt8) (p : Resize) : Res Resize :=
  (if p.count = p.limit then
    let l := max (2 * p.limit) 16
    if p.count ≤ p.buf.length ∧ p.count ≤ l then
      Res.ok { p with buf := p.buf.take p.count ++ List.replicate (l - p.count) junk, limit := l }
    else .ub
  else .ok p).bind fun q => if q.count < q.limit then .ok q else .panic

/-- `append(char)`. stdio.cpp L701-705 -/
def Resize.appendChar (junk : UInt8) (p : Resize) (c : UInt8) : Res Resize :=
  (p.expand junk).bind fun q =>
  (put q.buf q.count c).bind fun b => .ok { q with buf := b, count := q.count + 1 }

/-- The loop of `append(const char *, size_t)`. stdio.cpp L712-715 -/
def Resize.appendChars (junk : UInt8) : Resize → List UInt8 → Nat → Res Resize
  | p, _, 0 => .ok p
  | _, [], _ + 1 => .ub
  | p, c :: s, n + 1 => (p.appendChar junk c).bind fun q => q.appendChars junk s n

/-- All pieces in turn. -/
def Resize.appendAll (junk : UInt8) : Resize → List Piece → Res Resize
  | p, [] => .ok p
  | p, .ch c :: xs => (p.appendChar junk c).bind fun q => q.appendAll junk xs
  | p, .chars s n :: xs => (p.appendChars junk s n).bind fun q => q.appendAll junk xs

/-- `vasprintf`: the block stored in `*out` and the value returned. stdio.cpp L2397-2415 -/
def vasprintf (junk : UInt8) (xs : List Piece) : Res (List UInt8 × Nat) :=
  (Resize.appendAll junk ⟨[], 0, 0⟩ xs).bind fun p =>
  (p.expand junk).bind fun q =>
  (put q.buf q.count 0).bind fun b => .ok (b, q.count)

/-! ## Specification -/

/-- The text of a piece. -/
def Piece.text : Piece → List UInt8
  | .ch c => [c]
  | .chars s n => s.take n

/-- The full output. -/
def output (xs : List Piece) : List UInt8 := xs.flatMap Piece.text

/-- The piece is readable: a block has the length announced. -/
def Piece.Ok : Piece → Prop
  | .ch _ => True
  | .chars s n => n ≤ s.length

/-- A block contains no zero byte (a string conversion never does). -/
def Piece.NoNul : Piece → Prop
  | .ch _ => True
  | .chars s n => (0 : UInt8) ∉ s.take n

/-! ## snprintf -/

theorem puts_exact : ∀ (cs buf : List UInt8) (i : Nat), i + cs.length ≤ buf.length →
    puts buf i cs = .ok (buf.take i ++ cs ++ buf.drop (i + cs.length))
  | [], buf, i, h => by simp [puts]
  | c :: cs, buf, i, h => by
    simp only [List.length_cons] at h
    rw [puts, put, if_pos (by omega)]
    simp only [Res.bind]
    rw [puts_exact cs _ (i + 1) (by simp; omega)]
    rw [List.drop_set_of_lt (by omega), List.take_add_one, List.getElem?_set_self (by omega),
      List.take_set_of_le (Nat.le_refl _)]
    simp [Nat.add_assoc, Nat.add_comm 1]

theorem strnlen_noNul : ∀ (s : List UInt8) (n : Nat), n ≤ s.length → (0 : UInt8) ∉ s.take n →
    strnlen s n = .ok n
  | _, 0, _, _ => by simp [strnlen]
  | [], n + 1, h, _ => by simp at h
  | c :: s, n + 1, h, h0 => by
    simp only [List.take_succ_cons, List.mem_cons, not_or] at h0
    rw [strnlen, if_neg (fun h => h0.1 h.symm),
      strnlen_noNul s n (by simpa using h) h0.2]
    rfl

/-- What the printer's buffer looks like after the output `out`: its first `limit` bytes are the
beginning of the output. -/
def After (buf0 : List UInt8) (limit : Nat) (out : List UInt8) (p : Limited) : Prop :=
  p.limit = limit ∧ p.count = out.length ∧
  p.buf = out.take limit ++ buf0.drop (min limit out.length)

theorem After.append {buf0 : List UInt8} {limit : Nat} (hl : limit ≤ buf0.length) {out : List UInt8}
    {p : Limited} (h : After buf0 limit out p) (x : Piece) (hok : x.Ok) (hn : x.NoNul) :
    ∃ p', p.append x = .ok p' ∧ After buf0 limit (out ++ x.text) p' := by
  obtain ⟨h1, h2, h3⟩ := h
  have hbl : p.buf.length = buf0.length := by rw [h3]; simp; omega
  cases x with
  | ch c =>
    rw [Limited.append, h1, h2]
    by_cases hc : out.length < limit
    · have hput : put p.buf out.length c = .ok (out ++ [c] ++ buf0.drop (out.length + 1)) := by
        have := puts_exact [c] p.buf out.length (by simp; omega)
        rw [puts] at this
        rw [put, if_pos (by omega)] at this ⊢
        simp only [Res.bind, puts, List.length_singleton] at this
        rw [this, h3, List.take_of_length_le (l := out) (by omega), Nat.min_eq_right (by omega)]
        simp [List.drop_append, List.drop_of_length_le]
      rw [if_pos hc, hput]
      refine ⟨_, rfl, rfl, by simp [Piece.text], ?_⟩
      rw [List.take_of_length_le (by simp [Piece.text]; omega), Nat.min_eq_right (by simp [Piece.text]; omega)]
      simp [Piece.text]
    · rw [if_neg hc]
      refine ⟨_, rfl, rfl, by simp [Piece.text], ?_⟩
      rw [h3, List.take_append_of_le_length (by omega)]
      congr 2
      simp; omega
  | chars s n =>
    have hok' : n ≤ s.length := hok
    rw [Limited.append, strnlen_noNul s n hok hn, h1, h2]
    simp only [Res.bind, Piece.text]
    by_cases hc : out.length < limit
    · rw [if_pos hc]
      have hput := puts_exact (s.take (min n (limit - out.length))) p.buf out.length (by simp; omega)
      rw [hput]
      refine ⟨_, rfl, rfl, by simp; omega, ?_⟩
      have e1 : p.buf.take out.length = out := by
        rw [h3, List.take_of_length_le (l := out) (by omega)]; simp
      have e2 : p.buf.drop (out.length + (s.take (min n (limit - out.length))).length)
          = buf0.drop (min limit (out ++ s.take n).length) := by
        rw [h3, List.take_of_length_le (l := out) (by omega), Nat.min_eq_right (by omega : out.length ≤ limit)]
        rw [List.drop_append, List.drop_of_length_le (by omega), List.nil_append, List.drop_drop]
        congr 1
        simp; omega
      have e3 : (out ++ s.take n).take limit = out ++ s.take (min n (limit - out.length)) := by
        rw [List.take_append, List.take_of_length_le (l := out) (by omega), List.take_take]
        congr 2; omega
      rw [e1, e2, e3]
    · rw [if_neg hc]
      simp only [Nat.min_zero, List.take_zero, puts]
      refine ⟨_, rfl, rfl, by simp; omega, ?_⟩
      rw [h3, List.take_append_of_le_length (by omega)]
      congr 2
      simp; omega

theorem After.appendAll {buf0 : List UInt8} {limit : Nat} (hl : limit ≤ buf0.length) :
    ∀ (xs : List Piece) (out : List UInt8) (p : Limited), After buf0 limit out p →
      (∀ x ∈ xs, x.Ok ∧ x.NoNul) →
      ∃ p', p.appendAll xs = .ok p' ∧ After buf0 limit (out ++ output xs) p'
  | [], out, p, h, _ => ⟨p, rfl, by simpa [output] using h⟩
  | x :: xs, out, p, h, hx => by
    obtain ⟨p1, e1, e2⟩ := h.append hl x (hx x (by simp)).1 (hx x (by simp)).2
    obtain ⟨p2, e3, e4⟩ := After.appendAll hl xs _ _ e2 (fun y hy => hx y (by simp [hy]))
    refine ⟨p2, by rw [Limited.appendAll, e1]; exact e3, ?_⟩
    simpa [output, List.append_assoc] using e4

/-- **C32.** `snprintf(buf, n, ...)` into a buffer of at least `n` bytes writes only the first `n` bytes: with
`n > 0`, the first `n - 1` characters of the full output and a terminator; with `n = 0` nothing. The rest of the
buffer keeps its contents, and the length of the full output is returned. What is missing: a piece
containing a zero byte, which `%lc` can produce (`snprintf_lc_zero_violated`). -/
theorem snprintf_exact_partial (buf : List UInt8) (n : Nat) (hn : n ≤ buf.length) (xs : List Piece)
    (hx : ∀ x ∈ xs, x.Ok ∧ x.NoNul) :
    snprintf buf n xs = .ok
      (if n = 0 then buf
        else (output xs).take (n - 1) ++ [0] ++ buf.drop (min (n - 1) (output xs).length + 1),
       (output xs).length) := by
  have h0 : After buf (if n ≠ 0 then n - 1 else 0) [] ⟨buf, if n ≠ 0 then n - 1 else 0, 0⟩ := by
    refine ⟨rfl, rfl, by simp⟩
  obtain ⟨p, e1, e2, e3, e4⟩ := After.appendAll (by split <;> omega) xs [] _ h0 hx
  rw [List.nil_append] at e3 e4
  rw [snprintf, e1]
  simp only [Res.bind]
  by_cases hz : n = 0
  · subst hz
    simp only [ne_eq, not_true, if_false, if_true] at e4 ⊢
    rw [e4, e3]; simp
  · rw [if_pos hz, if_neg hz, e3]
    rw [if_pos hz] at e4
    have hbl : p.buf.length = buf.length := by rw [e4]; simp; omega
    rw [put, if_pos (by omega)]
    simp only [Res.bind]
    have hl : ((output xs).take (n - 1)).length = min (n - 1) (output xs).length := by simp
    rw [List.set_eq_take_append_cons_drop, if_pos (by omega), e4, ← hl]
    congr 2
    rw [List.take_left', List.append_assoc, List.drop_append, List.drop_of_length_le (by omega),
      List.nil_append, List.drop_drop]
    · simp
    · rfl

example : snprintf [9, 9, 9, 9, 9, 9] 4 [.chars [104, 101] 2, .ch 108, .chars [108, 111, 33] 2]
    = .ok ([104, 101, 108, 0, 9, 9], 5) := by decide

/-- `snprintf(buf, n, "%lc", L'\0')` formats one byte, zero, which `PrintfAgent` (stdio.cpp L65-72) hands over as a
block of length one; it is not counted, so 0 is returned instead of 1. -/
theorem snprintf_lc_zero_violated :
    snprintf [9, 9, 9] 3 [.chars [0] 1] = .ok ([0, 9, 9], 0) ∧ (output [.chars [0] 1]).length = 1 := by
  decide

/-! ## vasprintf -/

/-- The block holds `out`, has the recorded size, and its fill level is right. -/
def Holds (out : List UInt8) (p : Resize) : Prop :=
  p.buf.length = p.limit ∧ p.count = out.length ∧ p.count ≤ p.limit ∧ p.buf.take p.count = out

theorem Holds.expand {out : List UInt8} {p : Resize} (h : Holds out p) (junk : UInt8) :
    ∃ q, p.expand junk = .ok q ∧ Holds out q ∧ q.count < q.limit := by
  obtain ⟨h1, h2, h3, h4⟩ := h
  rw [Resize.expand]
  by_cases hc : p.count = p.limit
  · have hlt : p.count < max (2 * p.limit) 16 := by omega
    rw [if_pos hc]
    simp only [show p.count ≤ p.buf.length ∧ p.count ≤ max (2 * p.limit) 16 by omega, if_true, and_self,
      Res.bind, hlt]
    refine ⟨_, rfl, ⟨?_, h2, by simp only; omega, ?_⟩, hlt⟩
    · simp; omega
    · simp only
      rw [h4, h2]; simp
  · rw [if_neg hc]
    simp only [Res.bind, show p.count < p.limit by omega, if_true]
    exact ⟨p, rfl, ⟨h1, h2, h3, h4⟩, by omega⟩

theorem Holds.appendChar {out : List UInt8} {p : Resize} (h : Holds out p) (junk c : UInt8) :
    ∃ q, p.appendChar junk c = .ok q ∧ Holds (out ++ [c]) q := by
  obtain ⟨q, e1, ⟨h1, h2, h3, h4⟩, e3⟩ := h.expand junk
  rw [Resize.appendChar, e1]
  simp only [Res.bind, put, show q.count < q.buf.length by omega, if_true]
  refine ⟨_, rfl, ?_⟩
  refine ⟨by simpa using h1, by simp [h2], by simp only; omega, ?_⟩
  simp only
  rw [List.take_add_one, List.getElem?_set_self (by omega), List.take_set_of_le (Nat.le_refl _), h4]
  rfl

theorem Holds.appendChars (junk : UInt8) : ∀ (s : List UInt8) (n : Nat) (out : List UInt8) (p : Resize),
    Holds out p → n ≤ s.length →
    ∃ q, p.appendChars junk s n = .ok q ∧ Holds (out ++ s.take n) q
  | s, 0, out, p, h, _ => ⟨p, by rw [Resize.appendChars], by simpa using h⟩
  | [], n + 1, _, _, _, hn => by simp at hn
  | c :: s, n + 1, out, p, h, hn => by
    obtain ⟨q, e1, e2⟩ := h.appendChar junk c
    obtain ⟨q', e3, e4⟩ := Holds.appendChars junk s n _ q e2 (by simpa using hn)
    refine ⟨q', by rw [Resize.appendChars, e1]; exact e3, ?_⟩
    simpa [List.append_assoc] using e4

theorem Holds.appendAll (junk : UInt8) : ∀ (xs : List Piece) (out : List UInt8) (p : Resize), Holds out p →
    (∀ x ∈ xs, x.Ok) → ∃ q, p.appendAll junk xs = .ok q ∧ Holds (out ++ output xs) q
  | [], out, p, h, _ => ⟨p, rfl, by simpa [output] using h⟩
  | .ch c :: xs, out, p, h, hx => by
    obtain ⟨q, e1, e2⟩ := h.appendChar junk c
    obtain ⟨q', e3, e4⟩ := Holds.appendAll junk xs _ q e2 (fun y hy => hx y (by simp [hy]))
    refine ⟨q', by rw [Resize.appendAll, e1]; exact e3, ?_⟩
    simpa [output, Piece.text, List.append_assoc] using e4
  | .chars s n :: xs, out, p, h, hx => by
    obtain ⟨q, e1, e2⟩ := Holds.appendChars junk s n out p h (hx (.chars s n) (by simp))
    obtain ⟨q', e3, e4⟩ := Holds.appendAll junk xs _ q e2 (fun y hy => hx y (by simp [hy]))
    refine ⟨q', by rw [Resize.appendAll, e1]; exact e3, ?_⟩
    simpa [output, Piece.text, List.append_assoc] using e4

/-- **C33.** `vasprintf` never stores outside the block it has allocated (nor aborts), and hands out a block that
begins with exactly the full output and a terminator; the length of the output is returned. -/
theorem vasprintf_exact (junk : UInt8) (xs : List Piece) (hx : ∀ x ∈ xs, x.Ok) :
    ∃ rest, vasprintf junk xs = .ok (output xs ++ [0] ++ rest, (output xs).length) := by
  have h0 : Holds [] ⟨[], 0, 0⟩ := ⟨rfl, rfl, by simp, rfl⟩
  obtain ⟨p, e1, e2⟩ := Holds.appendAll junk xs [] _ h0 hx
  obtain ⟨q, e3, ⟨h1, h2, h3, h4⟩, e5⟩ := e2.expand junk
  rw [List.nil_append] at h2 h4
  rw [vasprintf, e1]
  simp only [Res.bind, e3, put, show q.count < q.buf.length by omega, if_true]
  refine ⟨q.buf.drop (q.count + 1), ?_⟩
  rw [h2] at h4 ⊢
  congr 2
  have hsplit : q.buf = output xs ++ q.buf.drop (output xs).length := by
    conv => lhs; rw [← List.take_append_drop (output xs).length q.buf, h4]
  rw [List.set_eq_take_append_cons_drop, if_pos (by omega), h4]
  simp

example : vasprintf 7 [.chars [104, 105, 0, 1] 3, .ch 33] =
    .ok ([104, 105, 0, 33, 0, 7, 7, 7, 7, 7, 7, 7, 7, 7, 7, 7], 4) := by decide

end Mlibc.Printf
