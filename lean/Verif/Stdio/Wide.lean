import Verif.Utf8.Conv

/-!
# Wide characters on streams

`fputwc`, `fgetwc`, `ungetwc`, `fputws`, `fgetws`, `fwide`: options/ansi/generic/stdio.cpp L240-361, L2156-2212, on top of a stream
of bytes as in C24 to C27 (bytes are read in order, pushed back bytes first; at most 8 bytes are pushed back; a device may refuse to
take more bytes), and of the conversion functions of C11 to C14.  The conversion state of a stream is always initial, as UTF-8 has no
shift states and all characters are written as a whole.  Property C122.
-/
namespace Mlibc.Wide
open Mlibc Utf8

/-- What a read of one byte gives; a stream with nothing left is at its end. -/
inductive Ev
  | byte (b : UInt8)
  | error (e : Nat)
deriving DecidableEq, Repr

/-- A stream: what can be read, how many of these bytes were pushed back, what has been written, how much the device still takes
    (`none`: any number of bytes), the indicators, and the orientation (0 none, 1 wide, -1 byte). -/
structure Stream where
  data : List Ev := []
  pushed : Nat := 0
  out : List UInt8 := []
  room : Option Nat := none
  eof : Bool := false
  err : Bool := false
  orient : Int := 0
deriving DecidableEq, Repr

/-! ## The code -/

/-- options/ansi/generic/file-io.cpp L348-357 `check_orientation(wide)`. -/
def wide (s : Stream) : Bool × Stream :=
  if s.orient = 1 then (true, s) else if s.orient = 0 then (true, { s with orient := 1 }) else (false, s)

/-- stdio.cpp L187-238 `fwrite_unlocked_ignore_orientation` of single bytes: the number of bytes taken. -/
def emit (s : Stream) (bs : List UInt8) : Nat × Stream :=
  match s.room with
  | none => (bs.length, { s with out := s.out ++ bs })
  | some r => (min r bs.length, { s with out := s.out ++ bs.take r, room := some (r - bs.length) })

/-- stdio.cpp L240-268 `fputwc_unlocked`; WEOF is `none`. -/
def fputwc (s : Stream) (c : Nat) : Res (Option Nat × Stream) :=
  if (wide s).1 = false then .ok (none, { (wide s).2 with err := true })
  else
    let s := (wide s).2
    if c ≤ 127 then
      let (k, s) := emit s [UInt8.ofNat c]
      .ok (if k ≠ 1 then none else some c, s)
    else do
      match ← wcrtomb (List.replicate 4 0) c St.init with
      | (.count n, buf, _) =>
        let (k, s) := emit s (buf.take n)
        if k ≠ n then .ok (none, { s with err := true }) else .ok (some c, s)
      | _ => .ok (none, { s with err := true })

/-- How the loop of `fgetwc_unlocked` ends. -/
inductive Got
  | char (c : Nat) | eof | failed
deriving DecidableEq, Repr

/-- stdio.cpp L281-306, the loop of `fgetwc_unlocked`. -/
def getLoop (st : St) : List Ev → Res (Got × List Ev)
  | [] => .ok (.eof, [])
  | .error _ :: r => .ok (.failed, r)
  | .byte b :: r => do
    match ← mbrtowc [b] 1 st with
    | (.eilseq, _, _) => .ok (.failed, r)
    | (.incomplete, _, st') => getLoop st' r
    | (.count _, wc, _) => .ok (.char (wc.getD 0), r)

/-- stdio.cpp L270-307 `fgetwc_unlocked`. -/
def fgetwc (s : Stream) : Res (Option Nat × Stream) :=
  if (wide s).1 = false then .ok (none, { (wide s).2 with err := true })
  else
    let s := (wide s).2
    if s.eof then .ok (none, s)                                                     -- L278-279
    else do
      let (g, d) ← getLoop St.init s.data
      let s := { s with data := d, pushed := s.pushed - (s.data.length - d.length) }
      match g with
      | .char c => .ok (some c, s)
      | .eof => .ok (none, { s with eof := true })
      | .failed => .ok (none, { s with err := true })

/-- stdio.cpp L324-328 with file-io.cpp L259-274 `unget`: the bytes from the last to the first. -/
def pushBack (s : Stream) : List UInt8 → Bool × Stream
  | [] => (true, s)
  | b :: bs => if s.pushed + 1 > 8 then (false, s) else pushBack { s with data := .byte b :: s.data, pushed := s.pushed + 1 } bs

/-- stdio.cpp L309-336 `ungetwc_unlocked`; WEOF is `none`. -/
def ungetwc (s : Stream) (c : Option Nat) : Res (Option Nat × Stream) :=
  if (wide s).1 = false then .ok (none, { (wide s).2 with err := true })
  else
    let s := (wide s).2
    match c with
    | none => .ok (none, s)
    | some c => do
      match ← wcrtomb (List.replicate 4 0) c St.init with
      | (.count n, buf, _) =>
        let (ok, s) := pushBack s (buf.take n).reverse
        if ok then .ok (some c, if n ≠ 0 then { s with eof := false } else s) else .ok (none, s)
      | _ => .ok (none, s)

/-- stdio.cpp L345-358, the loop of `fputws_unlocked`, at most `fuel` rounds (undefined here if these do not suffice). -/
def fputwsLoop : Nat → List Nat → Stream → Res (Int × Stream)
  | 0, _, _ => .ub
  | fuel + 1, ws, s => do
    let r ← wcsrtombs (List.replicate 512 0) ws 512 St.init                         -- L348
    match r.ret with
    | .count n =>
      let (k, s) := emit s (r.dst.take n)                                           -- L352
      if k ≠ n then .ok (1, s)                                                      -- L353-354
      else if n = 0 then .ok (1, s)                                                 -- L356-357
      else
        match r.src with
        | none => .ok (1, s)
        | some k => fputwsLoop fuel (ws.drop k) s
    | _ => .ok (-1, s)                                                              -- L349-350

/-- stdio.cpp L338-361 `fputws_unlocked`. -/
def fputws (s : Stream) (ws : List Nat) : Res (Int × Stream) :=
  if (wide s).1 = false then .ok (-1, { (wide s).2 with err := true })
  else fputwsLoop (ws.length + 2) ws (wide s).2

/-- stdio.cpp L2170-2177, the loop of `fgetws`: the characters stored. -/
def lineLoop : Nat → Stream → Res (List Nat × Stream)
  | 0, s => .ok ([], s)
  | k + 1, s => do
    let (c, s) ← fgetwc s
    match c with
    | none => .ok ([], s)
    | some c =>
      if c = 10 then .ok ([c], s)
      else do
        let (l, s) ← lineLoop k s
        .ok (c :: l, s)

/-- stdio.cpp L2163-2185 `fgetws`: the pointer returned as a distance from the start of the buffer (`none`: null), what is stored,
    the stream. -/
def fgetws (s : Stream) (n : Nat) : Res (Option Nat × List Nat × Stream) :=
  if n = 0 then .ok (some 0, [], s)
  else do
    let (l, s) ← lineLoop (n - 1) s
    .ok (if s.err then none else some l.length, l ++ [0], s)                        -- L2179-2184: `ws` was advanced

/-- stdio.cpp L2201-2211 `fwide`. -/
def fwide (s : Stream) (mode : Int) : Int × Stream :=
  let s := if mode > 0 ∧ s.orient = 0 then { s with orient := 1 }
    else if mode < 0 ∧ s.orient = 0 then { s with orient := -1 } else s
  (s.orient, s)

/-! ## Reading -/

theorem bok {α β : Type} (a : α) (f : α → Res β) : (Res.ok a).bind f = f a := rfl

/-- A byte that completes a character. -/
theorem mbrtowc_last (p : List UInt8) (b : UInt8) (st : St) (c : Nat) (h : PI p st) (he : Encodes (p ++ [b]) c) :
    ∃ k wc st', mbrtowc [b] 1 st = .ok (.count k, wc, st') ∧ wc.getD 0 = c := by
  have := decode_char [b] p st c [] 0 0 h (by simp) he
  simp only [List.append_nil, List.length_cons, List.length_nil, Nat.zero_add, Nat.add_zero] at this
  unfold mbrtowc decodeWtranscode
  rw [this]
  by_cases hc : c = 0
  · exact ⟨0, some 0, St.init, by simp [hc, ensure], by simp [hc]⟩
  · exact ⟨1, some c, ⟨0, c⟩, by simp [hc, ensure, decodeLoop_zero_room, stopStatus], rfl⟩

/-- A byte that does not complete a character. -/
theorem mbrtowc_more (p : List UInt8) (b : UInt8) (st : St) (h : PI p st) (hi : Incomplete (p ++ [b])) :
    ∃ wc st', mbrtowc [b] 1 st = .ok (.incomplete, wc, st') ∧ PI (p ++ [b]) st' := by
  obtain ⟨ds, h1, h2⟩ := decode_incomplete [b] p st [] 0 h hi
  simp only [List.append_nil, List.length_cons, List.length_nil, Nat.zero_add] at h1
  refine ⟨none, ds, ?_, Or.inr h2⟩
  unfold mbrtowc decodeWtranscode
  rw [h1]
  simp [ensure]

theorem getLoop_char (q : List UInt8) : ∀ (p : List UInt8) (st : St) (c : Nat) (r : List Ev), PI p st → q ≠ [] →
    Encodes (p ++ q) c → getLoop st (q.map .byte ++ r) = .ok (.char c, r) := by
  induction q with
  | nil => intro p st c r _ h; exact absurd rfl h
  | cons b q ih =>
    intro p st c r hp _ he
    rw [List.map_cons, List.cons_append, getLoop]
    by_cases hq : q = []
    · subst hq
      obtain ⟨k, wc, st', h1, h2⟩ := mbrtowc_last p b st c hp he
      rw [h1, Res.ok_bind]
      simp [h2]
    · obtain ⟨wc, st', h1, h2⟩ := mbrtowc_more p b st hp ⟨by simp, q, c, hq, by simpa using he⟩
      rw [h1, Res.ok_bind]
      exact ih (p ++ [b]) st' c r h2 hq (by simpa using he)

/-- **C122.** On a stream that is not byte oriented and not at its end, `fgetwc` gives the next character and takes exactly its
    bytes. -/
theorem fgetwc_char (s : Stream) (bs : List UInt8) (c : Nat) (r : List Ev) (ho : s.orient = 0 ∨ s.orient = 1) (he : s.eof = false)
    (hb : Encodes bs c) (hd : s.data = bs.map .byte ++ r) :
    fgetwc s = .ok (some c, { s with orient := 1, data := r, pushed := s.pushed - bs.length }) := by
  have hne : bs ≠ [] := by rintro rfl; simp [Encodes, scalarN] at hb
  have hw : wide s = (true, { s with orient := 1 }) := by
    unfold wide
    rcases ho with h | h
    · simp [h]
    · rw [if_pos h]
      cases s
      simp_all
  unfold fgetwc
  rw [hw]
  simp only [Bool.true_eq_false, if_false, he, Bool.false_eq_true]
  rw [hd, getLoop_char bs [] St.init c r PI.init hne hb, Res.ok_bind]
  simp

/-- **C122.** At the end of the stream, `fgetwc` gives WEOF and sets the indicator, and keeps doing so. -/
theorem fgetwc_end (s : Stream) (ho : s.orient = 0 ∨ s.orient = 1) (hd : s.data = []) :
    fgetwc s = .ok (none, { s with orient := 1, eof := true }) := by
  have hw : wide s = (true, { s with orient := 1 }) := by
    unfold wide
    rcases ho with h | h
    · simp [h]
    · rw [if_pos h]
      cases s
      simp_all
  unfold fgetwc
  rw [hw]
  cases h : s.eof
  · simp [hd, getLoop, Res.ok_bind]
  · simp only [Bool.true_eq_false, if_false, h, if_true]

/-- **C122.** Bytes that are no character, or an error of the device, give WEOF and set the error indicator, not the other. -/
theorem fgetwc_bad (s : Stream) (r : List Ev) (ho : s.orient = 0 ∨ s.orient = 1) (he : s.eof = false) :
    (∀ e, s.data = .error e :: r → fgetwc s = .ok (none, { s with orient := 1, data := r, err := true, pushed := s.pushed - 1 })) ∧
    (∀ b : UInt8, ¬ Incomplete [b] → (∀ c, ¬ Encodes [b] c) → s.data = .byte b :: r →
      fgetwc s = .ok (none, { s with orient := 1, data := r, err := true, pushed := s.pushed - 1 })) := by
  have hw : wide s = (true, { s with orient := 1 }) := by
    unfold wide
    rcases ho with h | h
    · simp [h]
    · rw [if_pos h]
      cases s
      simp_all
  constructor
  · intro e hd
    unfold fgetwc
    rw [hw]
    simp only [Bool.true_eq_false, if_false, he, Bool.false_eq_true]
    rw [hd, getLoop, Res.ok_bind]
    simp
  · intro b h1 h2 hd
    have := mbrtowc_rejects [b] 1 St.init rfl (by simp) (by omega) h1 (by
      intro k c hk
      rcases (by omega : k = 0 ∨ k = 1) with rfl | rfl
      · simp [Encodes, scalarN]
      · exact h2 c)
    unfold fgetwc
    rw [hw]
    simp only [Bool.true_eq_false, if_false, he, Bool.false_eq_true]
    rw [hd, getLoop, this, Res.ok_bind]
    simp only [Res.ok_bind]
    simp

/-- The line that `fgetws` has to store: a part of what there is, of at most `n - 1` characters, with a newline only at its end, and
    no shorter than this allows. -/
def IsLine (n : Nat) (cs l : List Nat) : Prop :=
  l <+: cs ∧ l.length ≤ n - 1 ∧ 10 ∉ l.dropLast ∧ (l.length = n - 1 ∨ l = cs ∨ l.getLast? = some 10)

theorem lineLoop_line (k : Nat) : ∀ (s : Stream) (bs : List UInt8) (cs : List Nat), s.orient = 0 ∨ s.orient = 1 → s.eof = false →
    EncodesStr bs cs → s.data = bs.map .byte →
    ∃ l s' bs', lineLoop k s = .ok (l, s') ∧ IsLine (k + 1) cs l ∧ EncodesStr bs' (cs.drop l.length) ∧ s'.data = bs'.map .byte ∧
      s'.err = s.err ∧ (s'.eof = true ↔ l.length < k ∧ l = cs ∧ l.getLast? ≠ some 10) ∧ (1 ≤ k → s'.orient = 1) := by
  induction k with
  | zero =>
    intro s bs cs ho he h hd
    exact ⟨[], s, bs, rfl, ⟨List.nil_prefix, by simp, by simp, Or.inl rfl⟩, h, hd, rfl, by simp [he], fun h => absurd h (by omega)⟩
  | succ k ih =>
    intro s bs cs ho he h hd
    rw [lineLoop]
    cases h with
    | nil =>
      rw [fgetwc_end s ho hd, Res.ok_bind]
      exact ⟨[], _, [], rfl, ⟨List.nil_prefix, by simp, by simp, Or.inr (Or.inl rfl)⟩, .nil, hd, rfl, by simp, fun _ => rfl⟩
    | @cons b c bs cs hb hs =>
      rw [fgetwc_char s b c (bs.map .byte) ho he hb (by rw [hd, List.map_append]), Res.ok_bind]
      dsimp only
      by_cases h10 : c = 10
      · rw [if_pos h10]
        exact ⟨[c], _, bs, rfl, ⟨⟨cs, rfl⟩, by simp, by simp, Or.inr (Or.inr (by simp [h10]))⟩, hs, rfl, rfl, by simp [he, h10],
          fun _ => rfl⟩
      · rw [if_neg h10]
        obtain ⟨l, s', bs', h1, ⟨h2, h3, h4, h5⟩, h6, h7, h8, h9, h11⟩ := ih
          ⟨bs.map .byte, s.pushed - b.length, s.out, s.room, s.eof, s.err, 1⟩ bs cs (Or.inr rfl) he hs rfl
        rw [h1, Res.ok_bind]
        have hlast : (c :: l).getLast? = some 10 ↔ l.getLast? = some 10 := by
          cases l with
          | nil => simp [h10]
          | cons a l => rw [List.getLast?_cons_cons]
        refine ⟨c :: l, s', bs', rfl, ⟨?_, ?_, ?_, ?_⟩, h6, h7, h8, ?_, fun _ => ?_⟩
        · exact List.cons_prefix_cons.mpr ⟨rfl, h2⟩
        · simp only [List.length_cons]; omega
        · cases l with
          | nil => simp
          | cons a l =>
            rw [List.dropLast_cons_cons]
            intro hm
            rcases List.mem_cons.mp hm with h | h
            · exact h10 h.symm
            · exact h4 h
        · rcases h5 with h5 | h5 | h5
          · left; simp only [List.length_cons]; omega
          · right; left; rw [h5]
          · right; right; exact hlast.mpr h5
        · rw [h9, ne_eq, ne_eq, hlast, List.length_cons, List.cons.injEq]
          constructor
          · rintro ⟨a, b, c⟩; exact ⟨by omega, ⟨rfl, b⟩, c⟩
          · rintro ⟨a, ⟨-, b⟩, c⟩; exact ⟨by omega, b, c⟩
        · cases k with
          | zero =>
            rw [lineLoop] at h1
            injection h1 with h1
            injection h1 with h1 h12
            rw [← h12]
          | succ k => exact h11 (by omega)

/-- **C122.** `fgetws` on text stores the next line, at most `n - 1` characters, with a terminator, takes exactly its bytes, and
    does not give a null pointer unless the error indicator was set.  Missing: the pointer, see `fgetws_pointer_violated` and
    `fgetws_end_violated`. -/
theorem fgetws_line_partial (s : Stream) (n : Nat) (hn : 1 ≤ n) (bs : List UInt8) (cs : List Nat) (ho : s.orient = 0 ∨ s.orient = 1)
    (he : s.eof = false) (h : EncodesStr bs cs) (hd : s.data = bs.map .byte) :
    ∃ p l s' bs', fgetws s n = .ok (p, l ++ [0], s') ∧ IsLine n cs l ∧ EncodesStr bs' (cs.drop l.length) ∧
      s'.data = bs'.map .byte ∧ s'.err = s.err ∧ (s.err = false → p ≠ none) ∧
      (s'.eof = true ↔ l.length < n - 1 ∧ l = cs ∧ l.getLast? ≠ some 10) := by
  obtain ⟨m, rfl⟩ := Nat.exists_eq_add_of_le' hn
  obtain ⟨l, s', bs', h1, h2, h3, h4, h5, h6, -⟩ := lineLoop_line m s bs cs ho he h hd
  refine ⟨if s'.err then none else some l.length, l, s', bs', ?_, h2, h3, h4, h5, ?_, by simpa using h6⟩
  · unfold fgetws
    rw [if_neg (by omega), Nat.add_sub_cancel, h1, Res.ok_bind]
  · intro h
    rw [h5, h]
    simp

/-- "ab\n" and then "é". -/
example : fgetws { data := [.byte 97, .byte 98, .byte 10, .byte 0xC3, .byte 0xA9] } 9 =
    .ok (some 3, [97, 98, 10, 0], { data := [.byte 0xC3, .byte 0xA9], orient := 1 }) := by decide +kernel

/-- **C122 is violated.** `fgetws` returns a pointer behind the line that it has stored instead of the buffer. -/
theorem fgetws_pointer_violated (s : Stream) (n : Nat) (c : Nat) (l : List Nat) (s' : Stream) (hn : 1 ≤ n) (he : s'.err = false)
    (h : lineLoop (n - 1) s = .ok (c :: l, s')) : fgetws s n = .ok (some (l.length + 1), c :: l ++ [0], s') := by
  unfold fgetws
  rw [if_neg (by omega), h, Res.ok_bind]
  simp [he]

/-- **C122 is violated.** At the end of the stream `fgetws` does not return a null pointer, and stores a terminator. -/
theorem fgetws_end_violated : fgetws {} 80 = .ok (some 0, [0], { eof := true, orient := 1 }) := by decide +kernel

/-- **C122 is violated.** `fgetws` returns a null pointer for a line that it has read when the error indicator was set before. -/
theorem fgetws_stale_violated : fgetws { data := [.byte 97, .byte 10], err := true } 80 =
    .ok (none, [97, 10, 0], { err := true, orient := 1 }) := by decide +kernel

/-! ## Pushing back -/

theorem pushBack_ok (bs : List UInt8) : ∀ s : Stream, s.pushed + bs.length ≤ 8 →
    pushBack s bs = (true, { s with data := (bs.map .byte).reverse ++ s.data, pushed := s.pushed + bs.length }) := by
  induction bs with
  | nil => intro s _; rfl
  | cons b bs ih =>
    intro s h
    rw [List.length_cons] at h
    rw [pushBack, if_neg (by omega), ih _ (by dsimp only; omega)]
    simp
    omega

/-- **C122.** A character pushed back is the next one that is read, and then the stream is as before, if there is room for it.
    Missing: if there is not, see `ungetwc_violated`. -/
theorem ungetwc_then_fgetwc_partial (s : Stream) (c : Nat) (hc : isScalar c) (ho : s.orient = 0 ∨ s.orient = 1)
    (hr : s.pushed + 4 ≤ 8) :
    ∃ s', ungetwc s (some c) = .ok (some c, s') ∧ s'.eof = false ∧
      fgetwc s' = .ok (some c, { s with orient := 1, eof := false }) := by
  have hw : wide s = (true, { s with orient := 1 }) := by
    unfold wide
    rcases ho with h | h
    · simp [h]
    · rw [if_pos h]
      cases s
      simp_all
  obtain ⟨bs, he, hl1, hl2, h⟩ := wcrtomb_encodes (List.replicate 4 0) (by simp) c hc St.init rfl
  have hp := pushBack_ok bs.reverse { s with orient := 1 } (by simp; omega)
  simp only [List.map_reverse, List.reverse_reverse, List.length_reverse] at hp
  refine ⟨_, ?_, rfl, fgetwc_char { s with orient := 1, eof := false, data := bs.map .byte ++ s.data, pushed := s.pushed + bs.length }
    bs c s.data (Or.inr rfl) rfl he rfl |>.trans ?_⟩
  · unfold ungetwc
    rw [hw]
    simp only [Bool.true_eq_false, if_false]
    rw [h, Res.ok_bind]
    have hn : bs.length ≠ 0 := by omega
    simp only [List.take_left, hp, if_true, ne_eq, hn, not_false_eq_true]
  · simp

/-- **C122.** WEOF is not pushed back. -/
theorem ungetwc_weof (s : Stream) (ho : s.orient = 0 ∨ s.orient = 1) : ungetwc s none = .ok (none, { s with orient := 1 }) := by
  have hw : wide s = (true, { s with orient := 1 }) := by
    unfold wide
    rcases ho with h | h
    · simp [h]
    · rw [if_pos h]
      cases s
      simp_all
  unfold ungetwc
  rw [hw]
  rfl

/-- **C122 is violated.** When the third of three characters of three bytes does not fit, two of its bytes stay in the stream, and
    the next read fails. -/
theorem ungetwc_violated : (do
    let (_, s) ← ungetwc {} (some 0x20AC)
    let (_, s) ← ungetwc s (some 0x20AC)
    let (r, s) ← ungetwc s (some 0x20AC)
    let (c, s) ← fgetwc s
    .ok (r, c, s.err) : Res (Option Nat × Option Nat × Bool)) = .ok (none, none, true) := by decide +kernel

/-! ## Writing -/

/-- **C122.** `fputwc` writes the encoding of the character, on a device that takes it. -/
theorem fputwc_writes (s : Stream) (c : Nat) (hc : isScalar c) (ho : s.orient = 0 ∨ s.orient = 1) (hr : s.room = none) :
    ∃ bs, Encodes bs c ∧ fputwc s c = .ok (some c, { s with orient := 1, out := s.out ++ bs }) := by
  have hw : wide s = (true, { s with orient := 1 }) := by
    unfold wide
    rcases ho with h | h
    · simp [h]
    · rw [if_pos h]
      cases s
      simp_all
  by_cases h : c ≤ 127
  · have hu : (UInt8.ofNat c).toNat = c := by
      rw [UInt8.toNat_ofNat']
      omega
    refine ⟨[UInt8.ofNat c], ?_, ?_⟩
    · simp only [Encodes, List.map_cons, List.map_nil, scalarN, hu]
      rw [if_pos (by omega)]
    · unfold fputwc
      rw [hw]
      simp only [Bool.true_eq_false, if_false, if_pos h, emit, hr]
      rfl
  · obtain ⟨bs, he, hl1, hl2, hx⟩ := wcrtomb_encodes (List.replicate 4 0) (by simp) c hc St.init rfl
    refine ⟨bs, he, ?_⟩
    unfold fputwc
    rw [hw]
    simp only [Bool.true_eq_false, if_false, if_neg h]
    rw [hx, Res.ok_bind]
    simp [emit, hr]

/-- **C122.** `fputwc` to a device that takes too few bytes gives WEOF; the error indicator is set, except for an ASCII character, see
    `fputwc_ascii_violated`. -/
theorem fputwc_full_partial (s : Stream) (c r : Nat) (hc : isScalar c) (h : 128 ≤ c) (ho : s.orient = 0 ∨ s.orient = 1)
    (hr : s.room = some r) (hs : ∀ bs, Encodes bs c → r < bs.length) :
    ∃ s', fputwc s c = .ok (none, s') ∧ s'.err = true := by
  have hw : wide s = (true, { s with orient := 1 }) := by
    unfold wide
    rcases ho with h | h
    · simp [h]
    · rw [if_pos h]
      cases s
      simp_all
  obtain ⟨bs, he, hl1, hl2, hx⟩ := wcrtomb_encodes (List.replicate 4 0) (by simp) c hc St.init rfl
  have hlt := hs bs he
  have hm : min r bs.length ≠ bs.length := by omega
  unfold fputwc
  rw [hw]
  simp only [Bool.true_eq_false, if_false, if_neg (by omega : ¬ c ≤ 127)]
  rw [hx, Res.ok_bind]
  simp only [emit, hr, List.take_left, if_pos hm]
  exact ⟨_, rfl, rfl⟩

/-- **C122 is violated.** `fputwc` of an ASCII character to a full device does not set the error indicator. -/
theorem fputwc_ascii_violated : fputwc { room := some 0 } 97 = .ok (none, { room := some 0, orient := 1 }) := by decide +kernel

/-- **C122.** `fputwc` of a number behind the last character gives WEOF and sets the error indicator; nothing is written.  For the
    surrogates see `fputwc_surrogate_violated`. -/
theorem fputwc_invalid_partial (s : Stream) (c : Nat) (h : 0x10FFFF < c) (ho : s.orient = 0 ∨ s.orient = 1) :
    fputwc s c = .ok (none, { s with orient := 1, err := true }) := by
  have hw : wide s = (true, { s with orient := 1 }) := by
    unfold wide
    rcases ho with h | h
    · simp [h]
    · rw [if_pos h]
      cases s
      simp_all
  have he : encode c = none := by
    unfold encode
    simp only
    rw [if_neg (by omega), if_neg (by omega), if_neg (by omega), if_neg (by omega)]
  have hx : wcrtomb (List.replicate 4 0) c St.init = .ok (.eilseq, List.replicate 4 0, St.init) := by
    have hl : encodeLoop [c] 1 4 = .ok ⟨.illegalInput, [], [], 0⟩ := by
      unfold encodeLoop
      rw [if_neg (by omega), he]
    unfold wcrtomb
    rw [hl]
    rfl
  unfold fputwc
  rw [hw]
  simp only [Bool.true_eq_false, if_false, if_neg (by omega : ¬ c ≤ 127)]
  rw [hx, Res.ok_bind]

example : fputwc {} 0x110000 = .ok (none, { orient := 1, err := true }) := fputwc_invalid_partial {} _ (by decide) (Or.inl rfl)

/-- **C122 is violated.** `fputwc` of a surrogate, which is no character, writes three bytes that `fgetwc` does not accept. -/
theorem fputwc_surrogate_violated : ¬ isScalar 0xD800 ∧
    fputwc {} 0xD800 = .ok (some 0xD800, { orient := 1, out := [0xED, 0xA0, 0x80] }) :=
  ⟨by unfold isScalar; omega, by decide +kernel⟩

/-- Texts in which no character lies across a multiple of 512 bytes. -/
inductive Blocks : List UInt8 → List Nat → Prop
  | last {bs cs} : EncodesStr bs cs → bs.length < 512 → Blocks bs cs
  | more {b c bs cs} : EncodesStr b c → b.length = 512 → Blocks bs cs → Blocks (b ++ bs) (c ++ cs)

theorem emit_none (s : Stream) (bs : List UInt8) (hr : s.room = none) : emit s bs = (bs.length, { s with out := s.out ++ bs }) := by
  unfold emit
  rw [hr]

theorem fputwsLoop_blocks {bs : List UInt8} {cs : List Nat} (h : Blocks bs cs) : 0 ∉ cs → ∀ (rest : List Nat) (fuel : Nat) (s : Stream),
    cs.length < fuel → s.room = none → fputwsLoop fuel (cs ++ 0 :: rest) s = .ok (1, { s with out := s.out ++ bs }) := by
  induction h with
  | @last bs cs h hl =>
    intro h0 rest fuel s hf hr
    obtain ⟨f, rfl⟩ : ∃ f, fuel = f + 1 := ⟨fuel - 1, by omega⟩
    rw [fputwsLoop, wcsrtombs_fits (List.replicate 512 0) bs cs rest 512 h h0 hl (Nat.le_of_eq List.length_replicate.symm),
      Res.ok_bind]
    simp only [List.take_left, emit_none _ _ hr, ne_eq, not_true_eq_false, if_false]
    split <;> rfl
  | @more b c bs cs h hl _ ih =>
    intro h0 rest fuel s hf hr
    rw [List.mem_append, not_or] at h0
    obtain ⟨f, rfl⟩ : ∃ f, fuel = f + 1 := ⟨fuel - 1, by omega⟩
    have := wcsrtombs_limit_partial (List.replicate 512 0) b c (cs ++ 0 :: rest) h h0.1 (Nat.le_of_eq (hl.trans List.length_replicate.symm))
    rw [hl] at this
    have hc : 1 ≤ c.length := by
      cases h with
      | nil => simp at hl
      | cons => simp
    rw [List.length_append] at hf
    have e1 : (b ++ (List.replicate 512 (0 : UInt8)).drop 512).take 512 = b := by
      rw [← hl, List.take_left]
    have e2 : (c ++ (cs ++ 0 :: rest)).drop c.length = cs ++ 0 :: rest := by simp
    rw [List.append_assoc, fputwsLoop, this, Res.ok_bind]
    simp only [e1, emit_none _ _ hr, hl, e2, ne_eq, not_true_eq_false, if_false]
    rw [if_neg (by omega), ih h0.2 rest f { s with out := s.out ++ b } (by omega) hr]
    simp only [List.append_assoc]

/-- **C122.** `fputws` writes the encoding of all characters of the string, if none lies across a multiple of 512 bytes.
    Missing: otherwise see `fputws_violated`; and a full device, `fputws_full_violated`. -/
theorem fputws_writes_partial (s : Stream) (bs : List UInt8) (cs rest : List Nat) (h : Blocks bs cs) (h0 : 0 ∉ cs)
    (ho : s.orient = 0 ∨ s.orient = 1) (hr : s.room = none) :
    fputws s (cs ++ 0 :: rest) = .ok (1, { s with orient := 1, out := s.out ++ bs }) := by
  have hw : wide s = (true, { s with orient := 1 }) := by
    unfold wide
    rcases ho with h | h
    · simp [h]
    · rw [if_pos h]
      cases s
      simp_all
  unfold fputws
  rw [hw]
  simp only [Bool.true_eq_false, if_false]
  exact fputwsLoop_blocks h h0 rest _ { s with orient := 1 } (by rw [List.length_append, List.length_cons]; omega) hr

example : Blocks [0xC3, 0xA9, 97] [0xE9, 97] ∧ fputws {} [0xE9, 97, 0] = .ok (1, { orient := 1, out := [0xC3, 0xA9, 97] }) :=
  ⟨.last (.cons (b := [0xC3, 0xA9]) rfl (.cons (b := [97]) rfl .nil)) (by decide), by decide +kernel⟩

/-- **C122 is violated.** A string with a character of two bytes at byte 511 ends the process. -/
theorem fputws_violated : fputws {} (List.replicate 511 97 ++ [0xE9, 0]) = .panic := by decide +kernel

/-- **C122 is violated.** `fputws` to a device that takes nothing reports success and does not set the error indicator. -/
theorem fputws_full_violated : fputws { room := some 0 } [97, 0] = .ok (1, { room := some 0, orient := 1 }) := by decide +kernel

theorem encodes_append {a b : List UInt8} {x y : List Nat} (h : EncodesStr a x) (h2 : EncodesStr b y) : EncodesStr (a ++ b) (x ++ y) := by
  induction h with
  | nil => exact h2
  | cons h1 _ ih => rw [List.append_assoc, List.cons_append]; exact .cons h1 ih

/-- **C122.** What `fputws` has written, read from the beginning, is read by `fgetws` as the lines of the string. -/
theorem wide_roundtrip_partial (bs : List UInt8) (cs rest : List Nat) (h : Blocks bs cs) (h0 : 0 ∉ cs) (n : Nat) (hn : 1 ≤ n) :
    ∃ s, fputws {} (cs ++ 0 :: rest) = .ok (1, s) ∧ s.out = bs ∧
      ∃ p l s', fgetws { data := s.out.map .byte } n = .ok (p, l ++ [0], s') ∧ IsLine n cs l := by
  have hs : ∀ {bs cs}, Blocks bs cs → EncodesStr bs cs := by
    intro bs cs h
    induction h with
    | last h _ => exact h
    | more h _ _ ih => exact encodes_append h ih
  refine ⟨_, fputws_writes_partial {} bs cs rest h h0 (Or.inl rfl) rfl, rfl, ?_⟩
  obtain ⟨p, l, s', bs', h1, h2, -⟩ := fgetws_line_partial { data := bs.map .byte } n hn bs cs (Or.inl rfl) rfl (hs h) rfl
  exact ⟨p, l, s', h1, h2⟩

/-! ## Orientation -/

/-- **C122.** On a byte oriented stream all of these functions fail, set the error indicator and change nothing else. -/
theorem byte_oriented (s : Stream) (h : s.orient = -1) :
    fgetwc s = .ok (none, { s with err := true }) ∧ (∀ c, fputwc s c = .ok (none, { s with err := true })) ∧
    (∀ c, ungetwc s c = .ok (none, { s with err := true })) ∧ (∀ ws, fputws s ws = .ok (-1, { s with err := true })) := by
  have hw : wide s = (false, s) := by
    unfold wide
    rw [if_neg (by omega), if_neg (by omega)]
  refine ⟨?_, fun c => ?_, fun c => ?_, fun ws => ?_⟩
  · unfold fgetwc; rw [hw]; simp
  · unfold fputwc; rw [hw]; simp
  · unfold ungetwc; rw [hw]; simp
  · unfold fputws; rw [hw]; simp

/-- **C122.** `fwide` sets the orientation that is asked for if there is none yet, never changes one, and returns it. -/
theorem fwide_spec (s : Stream) (mode : Int) (ho : s.orient = 0 ∨ s.orient = 1 ∨ s.orient = -1) :
    (s.orient ≠ 0 → fwide s mode = (s.orient, s)) ∧
    (s.orient = 0 → fwide s mode = (mode.sign, { s with orient := mode.sign })) := by
  constructor
  · intro h
    simp only [fwide]
    rw [if_neg (by omega), if_neg (by omega)]
  · intro h
    rcases Int.lt_trichotomy mode 0 with hm | hm | hm
    · rw [Int.sign_eq_neg_one_of_neg hm]
      simp only [fwide]
      rw [if_neg (by omega), if_pos ⟨hm, h⟩]
    · subst hm
      simp only [fwide, Int.sign_zero]
      rw [if_neg (by omega), if_neg (by omega), ← h]
    · rw [Int.sign_eq_one_of_pos hm]
      simp only [fwide]
      rw [if_pos ⟨hm, h⟩]

end Mlibc.Wide
