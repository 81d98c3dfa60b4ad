import Verif.Stdio.Props
/-
The block and line functions on top of the buffering layer: `fread`, `fwrite`, `fgetc`, `fgets`,
`getdelim` (options/ansi/generic/stdio.cpp). Properties C28, C29, C30.

Simplifications: locking and the orientation check (`check_orientation`, a byte-oriented stream
passes it) are left out; the caller's buffer is represented by the list of bytes stored into it from
its start.
-/
set_option linter.unusedSimpArgs false
namespace Mlibc.Stdio

variable {κ σ : Type} {nfail : κ → Nat}

/-! ## Model -/

/-- The loop of `fread_unlocked` around `abstract_file::read`: read `n` more bytes after the bytes `acc`
already stored; reports whether an error ended it. stdio.cpp L2457-2471, L2477-2490. Running out of
`fuel` is `ub`, so a normal outcome includes termination. -/
def readLoop (io : Io κ) (cfg : Cfg) : Nat → File → κ → Nat → List UInt8 →
    Res ((Bool × List UInt8) × File × κ)
  | 0, _, _, _, _ => .ub
  | fuel + 1, f, k, n, acc =>
    if n = 0 then .ok ((false, acc), f, k)
    else (read io cfg f k n).bind fun
      | (none, f', k') => .ok ((true, acc), f', k')
      | (some d, f', k') =>
        if d = [] then .ok ((false, acc), f', k')
        else readLoop io cfg fuel f' k' (n - d.length) (acc ++ d)

/-- The loop over items of `fread_unlocked`: `c` items to go, `i` items complete. stdio.cpp L2475-2496 -/
def freadItems (io : Io κ) (cfg : Cfg) (size : Nat) : Nat → Nat → File → κ → List UInt8 →
    Res ((Nat × List UInt8) × File × κ)
  | 0, i, f, k, acc => .ok ((i, acc), f, k)
  | c + 1, i, f, k, acc =>
    (readLoop io cfg (size + 1) f k size []).bind fun ((err, bs), f', k') =>
      if err then .ok ((0, acc ++ bs), f', k')
      else if bs.length < size then .ok ((i, acc ++ bs), f', k')
      else freadItems io cfg size c (i + 1) f' k' (acc ++ bs)

/-- `fread_unlocked`: the value returned and the bytes stored. stdio.cpp L2450-2498 -/
def fread (io : Io κ) (cfg : Cfg) (f : File) (k : κ) (size count : Nat) :
    Res ((Nat × List UInt8) × File × κ) :=
  if size = 0 ∨ count = 0 then .ok ((0, []), f, k)
  else if size = 1 then
    (readLoop io cfg (count + 1) f k count []).bind fun ((err, bs), f', k') =>
      .ok ((if err then 0 else bs.length, bs), f', k')
  else freadItems io cfg size count 0 f k []

/-- The loop of `fwrite` around `abstract_file::write`: how many of the bytes `d` were written.
stdio.cpp L196-214, L217-233 -/
def fwriteLoop (io : Io κ) (cfg : Cfg) : Nat → File → κ → List UInt8 → Nat →
    Res (Nat × File × κ)
  | 0, _, _, _, _ => .ub
  | fuel + 1, f, k, d, progress =>
    if d = [] then .ok (progress, f, k)
    else (write io cfg f k d).bind fun
      | (none, f', k') => .ok (progress, f', k')
      | (some n, f', k') =>
        if n = 0 then .ok (progress, f', k')
        else fwriteLoop io cfg fuel f' k' (d.drop n) (progress + n)

/-- The loop over items of `fwrite`. stdio.cpp L216-236 -/
def fwriteItems (io : Io κ) (cfg : Cfg) (size : Nat) : Nat → Nat → File → κ → List UInt8 →
    Res (Nat × File × κ)
  | 0, i, f, k, _ => .ok (i, f, k)
  | c + 1, i, f, k, d =>
    (fwriteLoop io cfg (size + 1) f k (d.take size) 0).bind fun (progress, f', k') =>
      if progress < size then .ok (i, f', k')
      else fwriteItems io cfg size c (i + 1) f' k' (d.drop size)

/-- `fwrite` of `count` items of `size` bytes from the bytes `d` (reading past their end would be
undefined). stdio.cpp L188-238 -/
def fwrite (io : Io κ) (cfg : Cfg) (f : File) (k : κ) (d : List UInt8) (size count : Nat) :
    Res (Nat × File × κ) :=
  if size = 0 ∨ count = 0 then .ok (0, f, k)
  else if d.length < size * count then .ub
  else if size = 1 then fwriteLoop io cfg (count + 1) f k (d.take count) 0
  else fwriteItems io cfg size count 0 f k d

/-- `fgetc_unlocked`: `none` is `EOF`. stdio.cpp L2442-2447 -/
def fgetc (io : Io κ) (cfg : Cfg) (f : File) (k : κ) : Res (Option UInt8 × File × κ) :=
  (fread io cfg f k 1 1).bind fun ((r, bs), f', k') =>
    .ok (if r = 1 then bs.head? else none, f', k')

/-- The loop of `fgets_unlocked` with room for `r` more bytes and the terminator; `none` is `NULL` with the
buffer untouched, otherwise the bytes stored in the buffer. stdio.cpp L2512-2540 -/
def fgetsLoop (io : Io κ) (cfg : Cfg) : Nat → File → κ → List UInt8 →
    Res (Option (List UInt8) × File × κ)
  | 0, f, k, acc => .ok (some (acc ++ [0]), f, k)
  | r + 1, f, k, acc =>
    (fgetc io cfg f k).bind fun
      | (none, f', k') => .ok (if acc = [] then none else some (acc ++ [0]), f', k')
      | (some c, f', k') =>
        if c = 10 then .ok (some (acc ++ [c, 0]), f', k')
        else fgetsLoop io cfg r f' k' (acc ++ [c])

/-- `fgets_unlocked` with a buffer of `n` bytes. stdio.cpp L2512-2540 -/
def fgets (io : Io κ) (cfg : Cfg) (f : File) (k : κ) (n : Nat) :
    Res (Option (List UInt8) × File × κ) :=
  if n = 0 then .panic else fgetsLoop io cfg (n - 1) f k []

/-- A store into an allocated block. -/
def store (mem : List UInt8) (i : Nat) (c : UInt8) : Res (List UInt8) :=
  if i < mem.length then .ok (mem.set i c) else .ub

/-- What `getdelim` leaves behind: its result (`none` is -1), `*line` (`none` is `NULL`, else the contents of
the block), `*n`. -/
structure Gd where
  ret : Option Nat
  line : Option (List UInt8)
  n : Nat
  deriving DecidableEq, Repr

/-- The two nested loops of `getdelim`; `cap` is the local `capacity`, `nw` the bytes stored so far. New memory
contains `junk`. Simplified: allocation does not fail. stdio.cpp L2358-2383 -/
def getdelimLoop (io : Io κ) (cfg : Cfg) (delim : Nat) (junk : UInt8) :
    Nat → File → κ → Option (List UInt8) → Nat → Nat → Nat → Res (Gd × File × κ)
  | 0, _, _, _, _, _, _ => .ub
  | fuel + 1, f, k, line, n, cap, nw =>
    if line.isSome && decide (0 < cap ∧ nw < cap - 1) then
      (fgetc io cfg f k).bind fun (r, f', k') =>
        if f'.err then .ok (⟨none, line, n⟩, f', k')
        else match r with
          | none => (store (line.getD []) nw 0).bind fun m => .ok (⟨some nw, some m, n⟩, f', k')
          | some c =>
            (store (line.getD []) nw c).bind fun m =>
              if c.toNat = delim then
                (store m (nw + 1) 0).bind fun m' => .ok (⟨some (nw + 1), some m', n⟩, f', k')
              else getdelimLoop io cfg delim junk fuel f' k' (some m) n cap (nw + 1)
    else
      let cap' := if 1024 ≤ cap then cap * 2 else 1024
      let m := (line.getD []).take cap'
      getdelimLoop io cfg delim junk fuel f k
        (some (m ++ List.replicate (cap' - m.length) junk)) cap' cap' nw

/-- `getdelim` with a given bound on the number of loop iterations. stdio.cpp L2331-2384 -/
def getdelim (io : Io κ) (cfg : Cfg) (junk : UInt8) (fuel : Nat) (f : File) (k : κ)
    (line : Option (List UInt8)) (n delim : Nat) : Res (Gd × File × κ) :=
  (fgetc io cfg f k).bind fun (r, f', k') =>
    match r with
    | none => .ok (⟨none, line, n⟩, f', k')
    | some c =>
      if f'.err then .ok (⟨none, line, n⟩, f', k')
      else getdelimLoop io cfg delim junk fuel (unget f' c).2 k' line n
        (if line.isNone then 512 else n) 0

/-! ## Specification -/

/-- Everything reads from this stream will deliver: the pushed-back bytes, then the device's. -/
def Stream.rest (dev : Device σ) (a : Stream σ) : List UInt8 := a.unget ++ dev.avail a.s

/-- The stream (device and pushed-back bytes) after `m` bytes have been read. -/
def Stream.SkipTo (dev : Device σ) (a : Stream σ) (m : Nat) (a' : Stream σ) : Prop :=
  a'.s = dev.adv a.s (m - a.unget.length) ∧ a'.unget = a.unget.drop m

/-- The bytes up to and including the first `delim`, or all of them. -/
def firstLine (delim : Nat) : List UInt8 → List UInt8
  | [] => []
  | c :: cs => if c.toNat = delim then [c] else c :: firstLine delim cs

/-- A read of `n` bytes does not run past pushed-back bytes into end-of-file (where the code is wrong,
`unget_eof_violated`). -/
def NoEofBug (cfg : Cfg) (dev : Device σ) (a : Stream σ) (n : Nat) : Prop :=
  cfg.mode = .none ∨ a.unget = [] ∨ n ≤ a.unget.length ∨ dev.avail a.s ≠ []

theorem skip_rest {dev : Device σ} (hdev : dev.Lawful) {a a' : Stream σ} {m : Nat}
    (h : a.SkipTo dev m a') : a'.rest dev = (a.rest dev).drop m := by
  rw [Stream.rest, Stream.rest, h.1, h.2, hdev.avail_adv, List.drop_append]

theorem skip_skip {dev : Device σ} (hdev : dev.Lawful) {a b c : Stream σ} {m n : Nat}
    (h1 : a.SkipTo dev m b) (h2 : b.SkipTo dev n c) : a.SkipTo dev (m + n) c := by
  refine ⟨?_, ?_⟩
  · rw [h2.1, h1.1, h1.2, hdev.adv_adv]
    congr 1
    simp; omega
  · rw [h2.2, h1.2, List.drop_drop]

theorem skip_zero {dev : Device σ} (hdev : dev.Lawful) {a b : Stream σ}
    (h1 : b.s = a.s) (h2 : b.unget = a.unget) : a.SkipTo dev 0 b := by
  refine ⟨?_, ?_⟩
  · rw [h1, Nat.zero_sub, hdev.adv_zero]
  · rw [h2, List.drop_zero]

theorem noEofBug_skip {cfg : Cfg} {dev : Device σ} (hdev : dev.Lawful) {a a' : Stream σ} {m n : Nat}
    (h : a.SkipTo dev m a') (hb : NoEofBug cfg dev a n) (hm : m ≤ n) :
    NoEofBug cfg dev a' (n - m) := by
  by_cases hu : a'.unget = []
  · exact Or.inr (Or.inl hu)
  · have hlen : 0 < a'.unget.length := List.length_pos_iff.mpr hu
    rw [h.2] at hlen
    simp at hlen
    have hs : a'.s = a.s := by
      rw [h.1, show m - a.unget.length = 0 by omega, hdev.adv_zero]
    rcases hb with hb | hb | hb | hb
    · exact Or.inl hb
    · rw [hb] at hlen; simp at hlen
    · refine Or.inr (Or.inr (Or.inl ?_))
      rw [h.2]; simp; omega
    · exact Or.inr (Or.inr (Or.inr (by rw [hs]; exact hb)))

/-! ## fread -/

/-- `read_refines` without the wrapper `step`. -/
theorem read_spec {io : Io κ} {cfg : Cfg} {dev : Device σ} {view : κ → σ} (hdev : dev.Lawful)
    (hk : Kernel io dev view nfail) (hB : 0 < cfg.bufSize) {f : File} {k : κ} {a : Stream σ}
    (hrep : Rep cfg dev view f k a) (hdir : a.dir ≠ .writing) {n : Nat} (hn : 0 < n)
    (hb : NoEofBug cfg dev a n) :
    ∃ r f' k' a', read io cfg f k n = .ok (r, f', k') ∧ Rep cfg dev view f' k' a' ∧
      a'.dir ≠ .writing ∧ Honest nfail k k' (r = none) ∧
      (∀ d, r = some d → d.length ≤ n ∧ d <+: a.rest dev ∧ a.SkipTo dev d.length a' ∧
        (d = [] → a.rest dev = [])) := by
  obtain ⟨o, f', k', a', e1, e2, e3, e4⟩ := read_refines hdev hk hrep hB (n := n) ⟨hn, hdir, hb⟩
  rw [step] at e1
  cases hr : read io cfg f k n with
  | ub => rw [hr] at e1; simp [Res.bind] at e1
  | panic => rw [hr] at e1; simp [Res.bind] at e1
  | ok res =>
    obtain ⟨r, f2, k2⟩ := res
    rw [hr] at e1
    cases r with
    | none =>
      simp only [Res.bind] at e1
      cases e1
      refine ⟨none, f', k', a', rfl, e3, ?_, honest_fail rfl (e4.1 rfl), by simp⟩
      cases e2 with
      | readError h => rcases h with h | h
                       · exact h
                       · rw [h]; exact hdir
    | some d =>
      simp only [Res.bind] at e1
      cases e1
      refine ⟨some d, f', k', a', rfl, e3, ?_, honest_fine (by simp) (e4.2 (by simp)), ?_⟩
      · cases e2 with
        | read _ _ _ h => rcases h with h | h
                          · exact h
                          · rw [h]; exact hdir
        | eof => simp
      · intro d' hd'
        cases hd'
        cases e2 with
        | read h1 h2 h3 h4 => exact ⟨h2, h3, ⟨rfl, rfl⟩, fun h => absurd h h1⟩
        | eof h1 h2 =>
          refine ⟨by simp, List.nil_prefix, skip_zero hdev rfl (by rw [h1]), ?_⟩
          intro _
          rw [Stream.rest, h1, h2]; rfl

theorem readLoop_spec {io : Io κ} {cfg : Cfg} {dev : Device σ} {view : κ → σ} (hdev : dev.Lawful)
    (hk : Kernel io dev view nfail) (hB : 0 < cfg.bufSize) :
    ∀ (fuel : Nat) (f : File) (k : κ) (a : Stream σ) (n : Nat) (acc : List UInt8), n < fuel →
      Rep cfg dev view f k a → a.dir ≠ .writing → NoEofBug cfg dev a n →
      ∃ err bs f' k' a', readLoop io cfg fuel f k n acc = .ok ((err, acc ++ bs), f', k') ∧
        Rep cfg dev view f' k' a' ∧ a'.dir ≠ .writing ∧ Honest nfail k k' (err = true) ∧
        bs <+: a.rest dev ∧ bs.length ≤ n ∧
        (err = false → bs = (a.rest dev).take n ∧ a.SkipTo dev bs.length a') := by
  intro fuel
  induction fuel with
  | zero => intro f k a n acc h; omega
  | succ fuel ih =>
    intro f k a n acc hf hrep hdir hb
    rw [readLoop]
    by_cases hn : n = 0
    · subst hn
      simp only [if_true]
      exact ⟨false, [], f, k, a, by simp, hrep, hdir, honest_fine (by simp) rfl, List.nil_prefix,
        by simp, fun _ => ⟨by simp, skip_zero hdev rfl rfl⟩⟩
    · simp only [hn, if_false]
      obtain ⟨r, f1, k1, a1, e1, e2, e3, e4, e5⟩ := read_spec hdev hk hB hrep hdir
        (Nat.pos_of_ne_zero hn) hb
      rw [e1]
      simp only [Res.bind]
      cases r with
      | none =>
        exact ⟨true, [], f1, k1, a1, by simp, e2, e3, honest_fail rfl (e4.1 rfl), List.nil_prefix,
          by simp, by simp⟩
      | some d =>
        obtain ⟨h1, h2, h3, h4⟩ := e5 d rfl
        by_cases hd : d = []
        · simp only [hd, if_true]
          refine ⟨false, [], f1, k1, a1, by simp, e2, e3, honest_fine (by simp) (e4.2 (by simp)),
            List.nil_prefix, by simp, fun _ => ⟨by rw [h4 hd]; simp, ?_⟩⟩
          rw [hd] at h3; exact h3
        · simp only [hd, if_false]
          have hdl : 0 < d.length := List.length_pos_iff.mpr hd
          obtain ⟨err, bs, f2, k2, a2, g1, g2, g3, g4, g5, g6, g7⟩ := ih f1 k1 a1 (n - d.length)
            (acc ++ d) (by omega) e2 e3 (noEofBug_skip hdev h3 hb h1)
          obtain ⟨t, ht⟩ := h2
          have hrest : a1.rest dev = t := by
            rw [skip_rest hdev h3, ← ht]; simp
          rw [hrest] at g5 g7
          refine ⟨err, d ++ bs, f2, k2, a2, by rw [g1, List.append_assoc], g2, g3, ?_, ?_, ?_, ?_⟩
          · exact g4.trans_fine (e4.2 (by simp))
          · rw [← ht]; exact (List.prefix_append_right_inj _).mpr g5
          · simp; omega
          · intro he
            obtain ⟨q1, q2⟩ := g7 he
            refine ⟨?_, ?_⟩
            · rw [← ht, q1, List.take_append, List.take_of_length_le (l := d) h1]
            · rw [List.length_append]; exact skip_skip hdev h3 q2

theorem freadItems_spec {io : Io κ} {cfg : Cfg} {dev : Device σ} {view : κ → σ} (hdev : dev.Lawful)
    (hk : Kernel io dev view nfail) (hB : 0 < cfg.bufSize) {size : Nat} (hs : 0 < size) :
    ∀ (c i : Nat) (f : File) (k : κ) (a : Stream σ) (acc : List UInt8),
      Rep cfg dev view f k a → a.dir ≠ .writing → NoEofBug cfg dev a (size * c) →
      ∃ r bs f' k' a', freadItems io cfg size c i f k acc = .ok ((r, acc ++ bs), f', k') ∧
        Rep cfg dev view f' k' a' ∧ a'.dir ≠ .writing ∧ bs <+: a.rest dev ∧ bs.length ≤ size * c ∧
        (nfail k' = nfail k → r = i + bs.length / size ∧ bs = (a.rest dev).take (size * c) ∧
          a.SkipTo dev bs.length a') ∧ (nfail k' ≠ nfail k → r = 0 ∧ nfail k < nfail k') := by
  intro c
  induction c with
  | zero =>
    intro i f k a acc hrep hdir _
    exact ⟨i, [], f, k, a, by simp [freadItems], hrep, hdir, List.nil_prefix, by simp,
      fun _ => ⟨by simp, by simp, skip_zero hdev rfl rfl⟩, by simp⟩
  | succ c ih =>
    intro i f k a acc hrep hdir hb
    have hmul : size * (c + 1) = size * c + size := Nat.mul_succ _ _
    have hb1 : NoEofBug cfg dev a size := by
      rcases hb with hb | hb | hb | hb
      · exact Or.inl hb
      · exact Or.inr (Or.inl hb)
      · exact Or.inr (Or.inr (Or.inl (by omega)))
      · exact Or.inr (Or.inr (Or.inr hb))
    obtain ⟨err, bs, f1, k1, a1, e1, e2, e3, e4, e5, e6, e7⟩ := readLoop_spec hdev hk hB (size + 1)
      f k a size [] (by omega) hrep hdir hb1
    rw [freadItems, e1]
    simp only [Res.bind, List.nil_append]
    cases err with
    | true =>
      simp only [if_true]
      have := e4.1 rfl
      exact ⟨0, bs, f1, k1, a1, rfl, e2, e3, e5, by omega, fun h => by omega, fun _ => ⟨rfl, this⟩⟩
    | false =>
      obtain ⟨h1, h2⟩ := e7 rfl
      have hf1 := e4.2 (by simp)
      simp only [Bool.false_eq_true, if_false]
      by_cases hlt : bs.length < size
      · simp only [hlt, if_true]
        refine ⟨i, bs, f1, k1, a1, rfl, e2, e3, e5, by omega, fun _ => ⟨?_, ?_, h2⟩, by simp [hf1]⟩
        · rw [Nat.div_eq_of_lt hlt]; rfl
        · have hl := congrArg List.length h1
          rw [List.length_take] at hl
          rw [h1, List.take_of_length_le (by omega), List.take_of_length_le (by omega)]
      · simp only [hlt, if_false]
        have hbl : bs.length = size := by omega
        obtain ⟨r, bs2, f2, k2, a2, g1, g2, g3, g4, g5, g6, g7⟩ := ih (i + 1) f1 k1 a1 (acc ++ bs) e2 e3
          (by
            have := noEofBug_skip hdev h2 hb (by omega)
            rwa [hbl, show size * (c + 1) - size = size * c by omega] at this)
        have hrest : a1.rest dev = (a.rest dev).drop bs.length := skip_rest hdev h2
        have hsplit : a.rest dev = bs ++ (a.rest dev).drop bs.length := by
          obtain ⟨t, ht⟩ := e5
          rw [← ht]; simp
        refine ⟨r, bs ++ bs2, f2, k2, a2, by rw [g1, List.append_assoc], g2, g3, ?_, ?_, ?_, ?_⟩
        · rw [hsplit, ← hrest]; exact (List.prefix_append_right_inj _).mpr g4
        · rw [List.length_append]; omega
        · intro hf
          obtain ⟨q1, q2, q3⟩ := g6 (by omega)
          refine ⟨?_, ?_, ?_⟩
          · rw [q1, List.length_append, hbl, Nat.add_comm size, Nat.add_div_right _ hs]; omega
          · have : (a.rest dev).take (size * (c + 1)) = bs ++ (a1.rest dev).take (size * c) := by
              rw [hrest]
              conv => lhs; rw [hsplit]
              rw [List.take_append, List.take_of_length_le (l := bs) (by omega),
                show size * (c + 1) - bs.length = size * c by omega]
            rw [this, ← q2]
          · rw [List.length_append]; exact skip_skip hdev h2 q3
        · intro hf
          obtain ⟨q1, q2⟩ := g7 (by omega)
          exact ⟨q1, by omega⟩

/-- **C28**, `fread`. The bytes stored are always the next bytes of the stream, at most `size * count` of
them. When no read of the kernel fails, they are all of the next `size * count` bytes up to
end-of-file, the stream has moved past exactly them, and the number of complete items is returned.
What is missing: when a read fails, zero is returned whatever was transferred before
(`fread_error_violated`); and pushed-back bytes at end-of-file (`unget_eof_violated`). -/
theorem fread_partial {io : Io κ} {cfg : Cfg} {dev : Device σ} {view : κ → σ} (hdev : dev.Lawful)
    (hk : Kernel io dev view nfail) (hB : 0 < cfg.bufSize) {f : File} {k : κ} {a : Stream σ}
    (hrep : Rep cfg dev view f k a) (hdir : a.dir ≠ .writing) (size count : Nat)
    (hb : NoEofBug cfg dev a (size * count)) :
    ∃ r bs f' k' a', fread io cfg f k size count = .ok ((r, bs), f', k') ∧
      Rep cfg dev view f' k' a' ∧ a'.dir ≠ .writing ∧ bs <+: a.rest dev ∧ bs.length ≤ size * count ∧
      (nfail k' = nfail k → r = bs.length / size ∧ bs = (a.rest dev).take (size * count) ∧
        a.SkipTo dev bs.length a') ∧
      (nfail k' ≠ nfail k → r = 0 ∧ nfail k < nfail k') := by
  rw [fread]
  by_cases h0 : size = 0 ∨ count = 0
  · rw [if_pos h0]
    refine ⟨0, [], f, k, a, rfl, hrep, hdir, List.nil_prefix, by simp, fun _ => ⟨by simp, ?_,
      skip_zero hdev rfl rfl⟩, by simp⟩
    rcases h0 with h | h <;> simp [h]
  · rw [if_neg h0]
    simp only [not_or] at h0
    by_cases h1 : size = 1
    · rw [if_pos h1]
      subst h1
      rw [Nat.one_mul] at hb
      obtain ⟨err, bs, f1, k1, a1, e1, e2, e3, e4, e5, e6, e7⟩ := readLoop_spec hdev hk hB (count + 1)
        f k a count [] (by omega) hrep hdir hb
      rw [e1]
      simp only [Res.bind, List.nil_append]
      refine ⟨_, bs, f1, k1, a1, rfl, e2, e3, e5, by omega, ?_, ?_⟩
      · intro hf
        cases err with
        | true => have := e4.1 rfl; omega
        | false =>
          obtain ⟨q1, q2⟩ := e7 rfl
          refine ⟨by simp, ?_, q2⟩
          rw [Nat.one_mul]; exact q1
      · intro hf
        cases err with
        | true => exact ⟨by simp, e4.1 rfl⟩
        | false => exact absurd (e4.2 (by simp)) hf
    · rw [if_neg h1]
      obtain ⟨r, bs, f1, k1, a1, e1, e2, e3, e4, e5, e6, e7⟩ := freadItems_spec hdev hk hB
        (Nat.pos_of_ne_zero h0.1) count 0 f k a [] hrep hdir hb
      refine ⟨r, bs, f1, k1, a1, e1, e2, e3, e4, e5, ?_, e7⟩
      intro hf
      obtain ⟨q1, q2, q3⟩ := e6 hf
      exact ⟨by rw [q1, Nat.zero_add], q2, q3⟩

example : fread (schedIo fileDev true) cfg4 (File.fresh buf4) (file [1, 2, 3, 4, 5, 6, 7] [some 1, some 0]) 3 5
    = .ok ((2, [1, 2, 3, 4, 5, 6, 7]),
        { File.fresh [4, 5, 6, 7] with eof := true }, ⟨⟨[1, 2, 3, 4, 5, 6, 7], 7⟩, [], 0⟩) := by decide

/-- Four one-byte items are read, the next read fails: `fread` returns zero. -/
theorem fread_error_violated :
    (fread (schedIo fileDev true) cfg4 (File.fresh buf4) (file [1, 2, 3, 4, 5, 6] [some 3, none]) 1 6).bind
      (fun r => .ok r.1) = .ok (0, [1, 2, 3, 4]) := by decide

/-! ## fwrite -/

theorem write_spec {io : Io κ} {cfg : Cfg} {dev : Device σ} {view : κ → σ} (hdev : dev.Lawful)
    (hk : Kernel io dev view nfail) (hB : 0 < cfg.bufSize) {f : File} {k : κ} {a : Stream σ}
    (hrep : Rep cfg dev view f k a) (hdir : a.dir ≠ .reading) {d : List UInt8} (hd : d ≠ []) :
    ∃ r f' k' n dir, write io cfg f k d = .ok (r, f', k') ∧
      Rep cfg dev view f' k' ⟨dev.put a.s (d.take n), a.unget, dir⟩ ∧
      dir ≠ .reading ∧ n ≤ d.length ∧ (r = none ∨ r = some n ∧ 0 < n) ∧ Honest nfail k k' (r = none) := by
  obtain ⟨o, f', k', a', e1, e2, e3, e4⟩ := write_refines hdev hk hrep hB (d := d) ⟨hd, hdir⟩
  rw [step] at e1
  cases hr : write io cfg f k d with
  | ub => rw [hr] at e1; simp [Res.bind] at e1
  | panic => rw [hr] at e1; simp [Res.bind] at e1
  | ok res =>
    obtain ⟨r, f2, k2⟩ := res
    rw [hr] at e1
    cases r with
    | none =>
      simp only [Res.bind] at e1
      cases e1
      cases e2 with
      | @writeError _ n dir h1 h2 =>
        refine ⟨none, f', k', n, dir, rfl, e3, ?_, h1, Or.inl rfl, honest_fail rfl (e4.1 rfl)⟩
        rcases h2 with h | h
        · exact h
        · rw [h]; exact hdir
    | some m =>
      simp only [Res.bind] at e1
      cases e1
      cases e2 with
      | @write _ _ dir h0 h1 h2 =>
        refine ⟨some m, f', k', m, dir, rfl, e3, ?_, h1, Or.inr ⟨rfl, h0⟩,
          honest_fine (by simp) (e4.2 (by simp))⟩
        rcases h2 with h | h
        · exact h
        · rw [h]; exact hdir

theorem fwriteLoop_spec {io : Io κ} {cfg : Cfg} {dev : Device σ} {view : κ → σ} (hdev : dev.Lawful)
    (hk : Kernel io dev view nfail) (hB : 0 < cfg.bufSize) :
    ∀ (fuel : Nat) (f : File) (k : κ) (a : Stream σ) (d : List UInt8) (p : Nat), d.length < fuel →
      Rep cfg dev view f k a → a.dir ≠ .reading →
      ∃ m n f' k' dir, fwriteLoop io cfg fuel f k d p = .ok (p + m, f', k') ∧
        Rep cfg dev view f' k' ⟨dev.put a.s (d.take n), a.unget, dir⟩ ∧ dir ≠ .reading ∧
        m ≤ n ∧ n ≤ d.length ∧ (nfail k' = nfail k → m = d.length) ∧
        (nfail k' ≠ nfail k → m < d.length ∧ nfail k < nfail k') := by
  intro fuel
  induction fuel with
  | zero => intro f k a d p h; omega
  | succ fuel ih =>
    intro f k a d p hf hrep hdir
    rw [fwriteLoop]
    by_cases hd : d = []
    · subst hd
      simp only [if_true]
      refine ⟨0, 0, f, k, a.dir, rfl, ?_, hdir, by simp, by simp, by simp, by simp⟩
      rw [List.take_nil, hdev.put_nil]; exact hrep
    · simp only [hd, if_false]
      have hdl : 0 < d.length := List.length_pos_iff.mpr hd
      obtain ⟨r, f1, k1, n, dir, e1, e2, e3, e4, e5, e6⟩ := write_spec hdev hk hB hrep hdir hd
      rw [e1]
      simp only [Res.bind]
      rcases e5 with rfl | ⟨rfl, hn⟩
      · have := e6.1 rfl
        exact ⟨0, n, f1, k1, dir, rfl, e2, e3, by omega, e4, fun h => by omega,
          fun _ => ⟨hdl, this⟩⟩
      · have hfk := e6.2 (by simp)
        simp only [show n ≠ 0 by omega, if_false]
        obtain ⟨m2, n2, f2, k2, dir2, g1, g2, g3, g4, g5, g6, g7⟩ := ih f1 k1 _ (d.drop n) (p + n)
          (by simp; omega) e2 e3
        simp only [List.length_drop] at g5 g6 g7
        refine ⟨n + m2, n + n2, f2, k2, dir2, ?_, ?_, g3, by omega, by omega, ?_, ?_⟩
        · rw [g1, Nat.add_assoc]
        · rw [List.take_add, ← hdev.put_put]; exact g2
        · intro h; have := g6 (by omega); omega
        · intro h; have := g7 (by omega); omega

theorem fwriteItems_spec {io : Io κ} {cfg : Cfg} {dev : Device σ} {view : κ → σ} (hdev : dev.Lawful)
    (hk : Kernel io dev view nfail) (hB : 0 < cfg.bufSize) {size : Nat} (hs : 0 < size) :
    ∀ (c i : Nat) (f : File) (k : κ) (a : Stream σ) (d : List UInt8), size * c ≤ d.length →
      Rep cfg dev view f k a → a.dir ≠ .reading →
      ∃ r n f' k' dir, fwriteItems io cfg size c i f k d = .ok (i + r, f', k') ∧
        Rep cfg dev view f' k' ⟨dev.put a.s (d.take n), a.unget, dir⟩ ∧ dir ≠ .reading ∧
        size * r ≤ n ∧ n ≤ size * c ∧ r ≤ c ∧ (nfail k' = nfail k → r = c) ∧
        (nfail k' ≠ nfail k → r < c ∧ nfail k < nfail k') := by
  intro c
  induction c with
  | zero =>
    intro i f k a d _ hrep hdir
    refine ⟨0, 0, f, k, a.dir, rfl, ?_, hdir, by simp, by simp, by simp, by simp, by simp⟩
    rw [List.take_zero, hdev.put_nil]; exact hrep
  | succ c ih =>
    intro i f k a d hl hrep hdir
    have hmul : size * (c + 1) = size * c + size := Nat.mul_succ _ _
    have htl : (d.take size).length = size := by simp; omega
    obtain ⟨m, n, f1, k1, dir, e1, e2, e3, e4, e5, e6, e7⟩ := fwriteLoop_spec hdev hk hB (size + 1)
      f k a (d.take size) 0 (by omega) hrep hdir
    rw [htl] at e5 e6 e7
    rw [fwriteItems, e1]
    simp only [Res.bind, Nat.zero_add]
    rw [List.take_take, Nat.min_eq_left e5] at e2
    by_cases hm : m < size
    · simp only [hm, if_true]
      refine ⟨0, n, f1, k1, dir, rfl, e2, e3, by simp, by omega, by omega, ?_, ?_⟩
      · intro h; have := e6 h; omega
      · intro h; exact ⟨by omega, (e7 h).2⟩
    · simp only [hm, if_false]
      have hmn : m = size := by omega
      have hn : n = size := by omega
      have hfk : nfail k1 = nfail k := by
        by_cases h : nfail k1 = nfail k
        · exact h
        · have := e7 h; omega
      subst hn
      obtain ⟨r, n2, f2, k2, dir2, g1, g2, g3, g4, g5, g6, g7, g8⟩ := ih (i + 1) f1 k1 _ (d.drop n)
        (by simp; omega) e2 e3
      refine ⟨r + 1, n + n2, f2, k2, dir2, ?_, ?_, g3, ?_, by omega, by omega, ?_, ?_⟩
      · rw [g1]; congr 2; omega
      · rw [List.take_add, ← hdev.put_put]; exact g2
      · rw [Nat.mul_succ]; omega
      · intro h; have := g7 (by omega); omega
      · intro h; have := g8 (by omega); omega

/-- **C28**, `fwrite`. The stream takes a prefix of the data containing every item reported. When no call
to the kernel fails all items are written and `count` is returned; when one fails fewer than
`count` are reported. -/
theorem fwrite_exact {io : Io κ} {cfg : Cfg} {dev : Device σ} {view : κ → σ} (hdev : dev.Lawful)
    (hk : Kernel io dev view nfail) (hB : 0 < cfg.bufSize) {f : File} {k : κ} {a : Stream σ}
    (hrep : Rep cfg dev view f k a) (hdir : a.dir ≠ .reading) {d : List UInt8} {size count : Nat}
    (hs : 0 < size) (hl : d.length = size * count) :
    ∃ r t f' k' dir, fwrite io cfg f k d size count = .ok (r, f', k') ∧ t <+: d ∧
      Rep cfg dev view f' k' ⟨dev.put a.s t, a.unget, dir⟩ ∧ dir ≠ .reading ∧
      size * r ≤ t.length ∧ (nfail k' = nfail k → r = count ∧ t = d) ∧
      (nfail k' ≠ nfail k → r < count ∧ nfail k < nfail k') := by
  rw [fwrite]
  by_cases hc : count = 0
  · subst hc
    simp only [or_true, if_true]
    have : d = [] := by
      rw [Nat.mul_zero] at hl; exact List.length_eq_zero_iff.mp hl
    refine ⟨0, [], f, k, a.dir, rfl, List.nil_prefix, ?_, hdir, by simp, fun _ => ⟨rfl, this.symm⟩,
      by simp⟩
    rw [hdev.put_nil]; exact hrep
  · rw [if_neg (by omega), if_neg (by omega)]
    by_cases h1 : size = 1
    · subst h1
      rw [if_pos rfl, List.take_of_length_le (by omega)]
      obtain ⟨m, n, f1, k1, dir, e1, e2, e3, e4, e5, e6, e7⟩ := fwriteLoop_spec hdev hk hB (count + 1)
        f k a d 0 (by omega) hrep hdir
      rw [Nat.zero_add] at e1
      refine ⟨m, d.take n, f1, k1, dir, e1, List.take_prefix _ _, e2, e3, by simp; omega, ?_, ?_⟩
      · intro h
        have := e6 h
        exact ⟨by omega, List.take_of_length_le (by omega)⟩
      · intro h; have := e7 h; omega
    · rw [if_neg h1]
      obtain ⟨r, n, f1, k1, dir, e1, e2, e3, e4, e5, e6, e7, e8⟩ := fwriteItems_spec hdev hk hB hs count
        0 f k a d (by omega) hrep hdir
      rw [Nat.zero_add] at e1
      refine ⟨r, d.take n, f1, k1, dir, e1, List.take_prefix _ _, e2, e3, by simp; omega, ?_, e8⟩
      intro h
      have := e7 h
      subst this
      exact ⟨rfl, List.take_of_length_le (by omega)⟩

example : (fwrite (schedIo fileDev true) ⟨4, true, .none⟩ (File.fresh buf4) (file [] [some 0, some 1, none])
      [1, 2, 3, 4, 5, 6] 3 2).bind (fun r => .ok (r.1, r.2.2.st.content)) = .ok (1, [1, 2, 3]) := by decide

/-! ## fgetc and fgets -/

theorem fgetc_spec {io : Io κ} {cfg : Cfg} {dev : Device σ} {view : κ → σ} (hdev : dev.Lawful)
    (hk : Kernel io dev view nfail) (hB : 0 < cfg.bufSize) {f : File} {k : κ} {a : Stream σ}
    (hrep : Rep cfg dev view f k a) (hdir : a.dir ≠ .writing) :
    ∃ r f' k' a', fgetc io cfg f k = .ok (r, f', k') ∧ Rep cfg dev view f' k' a' ∧
      a'.dir ≠ .writing ∧
      (nfail k' = nfail k → r = (a.rest dev).head? ∧ a'.rest dev = (a.rest dev).tail ∧
        (r ≠ none → a.SkipTo dev 1 a') ∧ (r = none → a.SkipTo dev 0 a')) ∧
      (nfail k' ≠ nfail k → r = none ∧ nfail k < nfail k') := by
  have hb : NoEofBug cfg dev a (1 * 1) := by
    by_cases hu : a.unget = []
    · exact Or.inr (Or.inl hu)
    · exact Or.inr (Or.inr (Or.inl (List.length_pos_iff.mpr hu)))
  obtain ⟨r, bs, f1, k1, a1, e1, e2, e3, e4, e5, e6, e7⟩ := fread_partial hdev hk hB hrep hdir 1 1 hb
  rw [fgetc, e1]
  simp only [Res.bind]
  refine ⟨_, f1, k1, a1, rfl, e2, e3, ?_, ?_⟩
  · intro hf
    obtain ⟨q1, q2, q3⟩ := e6 hf
    rw [Nat.div_one] at q1
    have hsk := skip_rest hdev q3
    cases hr : a.rest dev with
    | nil =>
      rw [hr] at q2 hsk
      simp only [List.take_nil] at q2
      subst q2
      subst q1
      simp at hsk
      exact ⟨by simp, by simpa using hsk, by simp, fun _ => q3⟩
    | cons c cs =>
      rw [hr] at q2 hsk
      simp only [Nat.mul_one, List.take_succ_cons, List.take_zero] at q2
      subst q2
      subst q1
      simp at hsk
      exact ⟨by simp, by simpa using hsk, fun _ => q3, by simp⟩
  · intro hf
    obtain ⟨q1, q2⟩ := e7 hf
    subst q1
    exact ⟨by simp, q2⟩

theorem fgetsLoop_spec {io : Io κ} {cfg : Cfg} {dev : Device σ} {view : κ → σ} (hdev : dev.Lawful)
    (hk : Kernel io dev view nfail) (hB : 0 < cfg.bufSize) :
    ∀ (r : Nat) (f : File) (k : κ) (a : Stream σ) (acc : List UInt8),
      Rep cfg dev view f k a → a.dir ≠ .writing →
      ∃ l f' k' a', Rep cfg dev view f' k' a' ∧ a'.dir ≠ .writing ∧
        l <+: firstLine 10 (a.rest dev) ∧ l.length ≤ r ∧
        (nfail k' = nfail k → l = (firstLine 10 (a.rest dev)).take r ∧ a.SkipTo dev l.length a') ∧
        nfail k ≤ nfail k' ∧
        fgetsLoop io cfg r f k acc
          = .ok (if acc = [] ∧ l = [] ∧ 0 < r then none else some (acc ++ l ++ [0]), f', k') := by
  intro r
  induction r with
  | zero =>
    intro f k a acc hrep hdir
    exact ⟨[], f, k, a, hrep, hdir, List.nil_prefix, by simp, fun _ => ⟨by simp, skip_zero hdev rfl rfl⟩,
      Nat.le_refl _, by simp [fgetsLoop]⟩
  | succ r ih =>
    intro f k a acc hrep hdir
    obtain ⟨c, f1, k1, a1, e1, e2, e3, e4, e5⟩ := fgetc_spec hdev hk hB hrep hdir
    rw [fgetsLoop, e1]
    simp only [Res.bind]
    have hmono : nfail k ≤ nfail k1 := by
      by_cases h : nfail k1 = nfail k
      · omega
      · have := (e5 h).2; omega
    cases c with
    | none =>
      refine ⟨[], f1, k1, a1, e2, e3, List.nil_prefix, by simp, ?_, hmono, ?_⟩
      · intro hf
        obtain ⟨q1, q2, _, q3⟩ := e4 hf
        have : a.rest dev = [] := by
          cases h : a.rest dev with
          | nil => rfl
          | cons => rw [h] at q1; simp at q1
        rw [this]
        exact ⟨by simp [firstLine], q3 rfl⟩
      · simp
    | some c =>
      have hf1 : nfail k1 = nfail k := by
        by_cases h : nfail k1 = nfail k
        · exact h
        · have := (e5 h).1; simp at this
      obtain ⟨q1, q2, q3, _⟩ := e4 hf1
      have hrest : a.rest dev = c :: a1.rest dev := by
        rw [q2]
        cases h : a.rest dev with
        | nil => rw [h] at q1; simp at q1
        | cons x xs => rw [h] at q1; simp at q1; rw [q1]; rfl
      simp only
      by_cases hc : c = 10
      · simp only [hc, if_true]
        have hfl : firstLine 10 (a.rest dev) = [10] := by
          rw [hrest, hc, firstLine]; simp
        refine ⟨[10], f1, k1, a1, e2, e3, by rw [hfl]; exact List.prefix_rfl, by simp, ?_, hmono, ?_⟩
        · intro _
          rw [hfl]
          exact ⟨by simp, q3 (by simp)⟩
        · simp
      · simp only [hc, if_false]
        have hc' : ¬ c.toNat = 10 := by
          intro h; apply hc; exact UInt8.toNat.inj (by simpa using h)
        have hfl : firstLine 10 (a.rest dev) = c :: firstLine 10 (a1.rest dev) := by
          rw [hrest, firstLine, if_neg hc']
        obtain ⟨l, f2, k2, a2, g1, g2, g3, g4, g5, g6, g7⟩ := ih f1 k1 a1 (acc ++ [c]) e2 e3
        refine ⟨c :: l, f2, k2, a2, g1, g2, ?_, by simp; omega, ?_, by omega, ?_⟩
        · rw [hfl]; exact List.cons_prefix_cons.mpr ⟨rfl, g3⟩
        · intro hf
          obtain ⟨p1, p2⟩ := g5 (by omega)
          refine ⟨by rw [hfl, List.take_succ_cons, ← p1], ?_⟩
          have := skip_skip hdev (q3 (by simp)) p2
          rwa [Nat.add_comm, ← List.length_cons (a := c)] at this
        · rw [g7]; simp

/-- **C29.** `fgets(buf, n, f)`, `n > 0`: whenever it does not return `NULL`, the bytes stored are a prefix of the
next line, at most `n - 1` of them, and a terminator. When no read of the kernel fails: with `n ≥ 2` it
returns `NULL`, storing nothing, exactly if there is no byte left; otherwise the bytes stored are the next
bytes up to and including the first newline, cut at `n - 1`, and a terminator, and the stream has moved
past exactly those bytes. What is missing: when a read fails after some bytes, they are returned as
if they were a line (`fgets_error_violated`), whereas ISO C demands `NULL`. -/
theorem fgets_partial {io : Io κ} {cfg : Cfg} {dev : Device σ} {view : κ → σ} (hdev : dev.Lawful)
    (hk : Kernel io dev view nfail) (hB : 0 < cfg.bufSize) {f : File} {k : κ} {a : Stream σ}
    (hrep : Rep cfg dev view f k a) (hdir : a.dir ≠ .writing) {n : Nat} (hn : 0 < n) :
    ∃ r f' k' a', fgets io cfg f k n = .ok (r, f', k') ∧ Rep cfg dev view f' k' a' ∧
      (∀ b, r = some b → ∃ l, b = l ++ [0] ∧ l <+: firstLine 10 (a.rest dev) ∧ b.length ≤ n) ∧
      (nfail k' = nfail k →
        (r = none ↔ a.rest dev = [] ∧ 2 ≤ n) ∧
        (∀ b, r = some b → b = (firstLine 10 (a.rest dev)).take (n - 1) ++ [0] ∧
          a.SkipTo dev (b.length - 1) a')) := by
  obtain ⟨l, f1, k1, a1, e1, e2, e3, e4, e5, _, e6⟩ := fgetsLoop_spec hdev hk hB (n - 1) f k a [] hrep hdir
  rw [fgets, if_neg (by omega), e6]
  refine ⟨_, f1, k1, a1, rfl, e1, ?_, ?_⟩
  · intro b hb
    by_cases h : ([] : List UInt8) = [] ∧ l = [] ∧ 0 < n - 1
    · rw [if_pos h] at hb; simp at hb
    · rw [if_neg h] at hb
      simp at hb
      refine ⟨l, hb.symm, e3, ?_⟩
      rw [← hb]; simp; omega
  · intro hf
    obtain ⟨q1, q2⟩ := e5 hf
    have hnil : firstLine 10 (a.rest dev) = [] ↔ a.rest dev = [] := by
      cases a.rest dev with
      | nil => simp [firstLine]
      | cons c cs => simp [firstLine]; split <;> simp
    refine ⟨?_, ?_⟩
    · by_cases h2 : 2 ≤ n
      · have hl : l = [] ↔ a.rest dev = [] := by
          rw [q1, List.take_eq_nil_iff, ← hnil]
          constructor
          · rintro (h | h)
            · omega
            · exact h
          · exact Or.inr
        simp only [true_and, show 0 < n - 1 by omega, and_true, h2, ← hl]
        by_cases h : l = [] <;> simp [h]
      · have : ¬ 0 < n - 1 := by omega
        simp [this, h2]
    · intro b hb
      by_cases h : ([] : List UInt8) = [] ∧ l = [] ∧ 0 < n - 1
      · rw [if_pos h] at hb; simp at hb
      · rw [if_neg h] at hb
        simp at hb
        rw [← hb, ← q1]
        exact ⟨rfl, by simpa using q2⟩

example : (fgets (schedIo fileDev true) cfg4 (File.fresh buf4) (file [97, 98, 99, 10, 100] [some 1]) 10).bind
      (fun r => .ok (r.1)) = .ok (some [97, 98, 99, 10, 0]) := by decide

/-- Two bytes are read, then a read fails: the two bytes are returned as a line. -/
theorem fgets_error_violated :
    (fgets (schedIo fileDev true) cfg4 (File.fresh buf4) (file [97, 98, 99, 10] [some 1, none]) 10).bind
      (fun r => .ok (r.1, r.2.1.err)) = .ok (some [97, 98, 0], true) := by decide

end Mlibc.Stdio
