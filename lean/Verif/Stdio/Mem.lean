import Verif.Stdio.Spec
import Verif.Base
/-
Memory streams: `fmemopen` and `open_memstream` (options/posix/generic/posix-file-io.cpp). Property C31.

These streams are unbuffered (`mem_file::determine_bufmode`, L20-23), so `abstract_file` passes reads, writes
and seeks on to the three functions modelled here (`Mlibc.Stdio.read`, `write` in mode `none`).
Memory is a list of bytes; access outside it is `Res.ub`. Offsets are integers (no overflow of `off_t`).
-/
set_option linter.unusedSimpArgs false
namespace Mlibc.Stdio

/-! ## fmemopen: model -/

/-- `fmemopen_mem_file`: the buffer (`_inBuffer`, `_inBufferSize` bytes), `_pos`, `_max_size`, and whether `_flags`
has `O_RDWR`. posix-file-io.hpp L12-26, L55-78 -/
structure FMem where
  buf : List UInt8
  pos : Nat
  max : Nat
  rdwr : Bool
  deriving DecidableEq, Repr

/-- The kinds of mode string `fmemopen` distinguishes. -/
inductive FMode where
  | append | truncate | keep
  deriving DecidableEq, Repr

/-- The constructor; `own` says that the caller passed no buffer. posix-file-io.cpp L98-116 -/
def FMem.open (buf : List UInt8) (m : FMode) (rdwr own : Bool) : FMem :=
  match m with
  | .append =>
    let n := if own then 0 else (buf.takeWhile (· ≠ 0)).length
    ⟨buf, n, n, rdwr⟩
  | .truncate => ⟨buf, 0, 0, rdwr⟩
  | .keep => ⟨buf, 0, buf.length, rdwr⟩

/-- `io_read`. posix-file-io.cpp L126-137 -/
def FMem.ioRead (f : FMem) (n : Nat) : Res (List UInt8 × FMem) :=
  if f.max ≤ f.pos ∨ n = 0 then .ok ([], f)
  else
    let m := min (f.max - f.pos) n
    if f.pos + m ≤ f.buf.length then .ok ((f.buf.drop f.pos).take m, { f with pos := f.pos + m }) else .ub

/-- `io_write`. posix-file-io.cpp L139-163. `_buffer_size() - _pos` is unsigned, so a position beyond the
buffer would make it huge: modelled as `ub` (it never happens, `fmem_safe`). -/
def FMem.ioWrite (f : FMem) (d : List UInt8) : Res (Nat × FMem) :=
  if f.buf.length < f.pos then .ub
  else
    let m := min (f.buf.length - f.pos) d.length
    let buf := f.buf.take f.pos ++ d.take m ++ f.buf.drop (f.pos + m)
    let pos := f.pos + m
    let null := if f.buf.length ≤ pos ∨ f.rdwr = true then f.buf.length - 1 else pos
    if f.buf.length = 0 then .ok (m, { f with buf := buf, pos := pos, max := Nat.max f.max pos })
    else if null < f.buf.length then
      .ok (m, { f with buf := buf.set null 0, pos := pos, max := Nat.max f.max pos })
    else .ub

/-- `io_seek`; `none` is `EINVAL`. posix-file-io.cpp L165-194 -/
def FMem.ioSeek (f : FMem) (off : Int) (w : Whence) : Option Int × FMem :=
  let t : Int := match w with
    | .set => off
    | .cur => f.pos + off
    | .end_ => f.max + off
  if t < 0 ∨ (f.buf.length : Int) < t then (none, f) else (some t, { f with pos := t.toNat })

/-- A request to a memory stream. -/
inductive MOp where
  | read (n : Nat)
  | write (d : List UInt8)
  | seek (off : Int) (w : Whence)
  deriving DecidableEq, Repr

/-- An outcome. -/
inductive MOut where
  | data (d : List UInt8)
  | count (n : Nat)
  | moved (p : Int)
  | einval
  deriving DecidableEq, Repr

/-- One request to an `fmemopen` stream. -/
def FMem.step (f : FMem) : MOp → Res (MOut × FMem)
  | .read n => (f.ioRead n).bind fun (d, f') => .ok (.data d, f')
  | .write d => (f.ioWrite d).bind fun (n, f') => .ok (.count n, f')
  | .seek off w => match f.ioSeek off w with
    | (none, f') => .ok (.einval, f')
    | (some p, f') => .ok (.moved p, f')

/-- A history of requests. -/
def FMem.steps : FMem → List MOp → Res (List MOut × FMem)
  | f, [] => .ok ([], f)
  | f, op :: ops => (f.step op).bind fun (o, f1) => (f1.steps ops).bind fun (os, f2) => .ok (o :: os, f2)

/-! ## fmemopen: properties -/

/-- Position and recorded size are inside the buffer of `size` bytes. -/
def FMem.Inside (size : Nat) (f : FMem) : Prop :=
  f.buf.length = size ∧ f.pos ≤ size ∧ f.max ≤ size

theorem fmem_open_inside (buf : List UInt8) (m : FMode) (rdwr own : Bool) :
    (FMem.open buf m rdwr own).Inside buf.length := by
  cases m with
  | append =>
    have := (List.takeWhile_sublist (fun c : UInt8 => decide (c ≠ 0)) (l := buf)).length_le
    cases own <;> simp [FMem.open, FMem.Inside] <;> simpa using this
  | truncate => simp [FMem.open, FMem.Inside]
  | keep => simp [FMem.open, FMem.Inside]

/-- What a seek is relative to. -/
def FMem.origin (f : FMem) : Whence → Int
  | .set => 0
  | .cur => f.pos
  | .end_ => f.max

/-- What a request does to a stream inside its buffer: outcome and effect, in terms of the buffer's bytes,
the position and the recorded size. -/
inductive FStep (f : FMem) : MOp → MOut → FMem → Prop where
  | read (n : Nat) : FStep f (.read n) (.data ((f.buf.take f.max).drop f.pos |>.take n))
      { f with pos := f.pos + ((f.buf.take f.max).drop f.pos |>.take n).length }
  | write (d : List UInt8) (m : Nat) (hm : m = min (f.buf.length - f.pos) d.length) (f' : FMem)
      (hp : f'.pos = f.pos + m) (hx : f'.max = Nat.max f.max (f.pos + m)) (hr : f'.rdwr = f.rdwr)
      (hl : f'.buf.length = f.buf.length)
      (hb : ∀ i : Nat, f'.buf[i]? =
        if i = (if f.rdwr = true ∨ f.buf.length ≤ f.pos + m then f.buf.length - 1 else f.pos + m) ∧ i < f.buf.length
        then some 0
        else if f.pos ≤ i ∧ i < f.pos + m then d[i - f.pos]? else f.buf[i]?) :
      FStep f (.write d) (.count m) f'
  | seek (off : Int) (w : Whence) (t : Nat)
      (ht : (t : Int) = off + f.origin w)
      (hs : t ≤ f.buf.length) : FStep f (.seek off w) (.moved t) { f with pos := t }
  | seekBad (off : Int) (w : Whence)
      (ht : ¬ ∃ t : Nat, t ≤ f.buf.length ∧
        (t : Int) = off + f.origin w) :
      FStep f (.seek off w) .einval f

theorem ioWrite_bytes {buf d : List UInt8} {pos m : Nat} (hp : pos + m ≤ buf.length) (hm : m ≤ d.length)
    (i : Nat) : (buf.take pos ++ d.take m ++ buf.drop (pos + m))[i]?
      = if pos ≤ i ∧ i < pos + m then d[i - pos]? else buf[i]? := by
  have hl1 : (buf.take pos).length = pos := by simp; omega
  have hl2 : (d.take m).length = m := by simp; omega
  rw [List.append_assoc, List.getElem?_append, hl1]
  by_cases h1 : i < pos
  · rw [if_pos h1, if_neg (by omega), List.getElem?_take_of_lt h1]
  · rw [if_neg h1, List.getElem?_append, hl2]
    by_cases h2 : i - pos < m
    · rw [if_pos h2, if_pos (by omega), List.getElem?_take_of_lt h2]
    · rw [if_neg h2, if_neg (by omega), List.getElem?_drop]
      congr 1; omega

/-- Every request to a stream inside its buffer stays inside it, accesses nothing else, and does what
`FStep` says. -/
theorem fmem_step {size : Nat} {f : FMem} (h : f.Inside size) (op : MOp) :
    ∃ o f', f.step op = .ok (o, f') ∧ FStep f op o f' ∧ f'.Inside size := by
  obtain ⟨h1, h2, h3⟩ := h
  cases op with
  | read n =>
    rw [FMem.step, FMem.ioRead]
    by_cases hc : f.max ≤ f.pos ∨ n = 0
    · rw [if_pos hc]
      have hnil : ((f.buf.take f.max).drop f.pos |>.take n) = [] := by
        rcases hc with hc | hc
        · rw [List.drop_of_length_le (by simp; omega)]; simp
        · simp [hc]
      refine ⟨_, _, rfl, ?_, h1, h2, h3⟩
      have := FStep.read (f := f) n
      rw [hnil] at this
      simpa using this
    · rw [if_neg hc]
      simp only
      rw [if_pos (by omega)]
      have he : (f.buf.drop f.pos).take (min (f.max - f.pos) n) = ((f.buf.take f.max).drop f.pos |>.take n) := by
        rw [List.drop_take, List.take_take, Nat.min_comm]
      have hl : ((f.buf.take f.max).drop f.pos |>.take n).length = min (f.max - f.pos) n := by
        simp; omega
      refine ⟨_, _, rfl, ?_, h1, by simp only; omega, h3⟩
      have := FStep.read (f := f) n
      rw [hl, ← he] at this
      exact this
  | write d =>
    rw [FMem.step, FMem.ioWrite, if_neg (by omega)]
    simp only
    have hbl : (f.buf.take f.pos ++ d.take (min (f.buf.length - f.pos) d.length) ++
        f.buf.drop (f.pos + min (f.buf.length - f.pos) d.length)).length = f.buf.length := by
      simp; omega
    have hbytes := ioWrite_bytes (buf := f.buf) (d := d) (pos := f.pos)
      (m := min (f.buf.length - f.pos) d.length) (by omega) (by omega)
    by_cases hz : f.buf.length = 0
    · rw [if_pos hz]
      refine ⟨_, _, rfl, FStep.write d _ rfl _ rfl rfl rfl hbl ?_, ?_⟩
      · intro i
        simp only
        rw [hbytes i, if_neg (by omega : ¬ (_ ∧ i < f.buf.length))]
      · refine ⟨by simp only; omega, by simp only; omega, ?_⟩
        simp only [Nat.max_def]; split <;> omega
    · rw [if_neg hz]
      have hnull : (if f.buf.length ≤ f.pos + min (f.buf.length - f.pos) d.length ∨ f.rdwr = true
          then f.buf.length - 1 else f.pos + min (f.buf.length - f.pos) d.length) < f.buf.length := by
        split <;> omega
      rw [if_pos hnull]
      refine ⟨_, _, rfl, FStep.write d _ rfl _ rfl rfl rfl (by simp only [List.length_set]; exact hbl) ?_, ?_⟩
      · intro i
        simp only
        rw [List.getElem?_set, hbytes i, hbl]
        simp only [or_comm (a := f.rdwr = true)]
        generalize (if f.buf.length ≤ f.pos + min (f.buf.length - f.pos) d.length ∨ f.rdwr = true
          then f.buf.length - 1 else f.pos + min (f.buf.length - f.pos) d.length) = z at hnull ⊢
        by_cases hi : z = i
        · subst hi; simp [hnull]
        · rw [if_neg hi, if_neg (c := i = z ∧ i < f.buf.length) (fun h => hi h.1.symm)]
      · refine ⟨by simp only [List.length_set]; omega, by simp only; omega, ?_⟩
        simp only [Nat.max_def]; split <;> omega
  | seek off w =>
    have key : (match w with | .set => off | .cur => (f.pos : Int) + off | .end_ => (f.max : Int) + off)
        = off + f.origin w := by
      cases w <;> simp [FMem.origin] <;> omega
    rw [FMem.step, FMem.ioSeek.eq_def, key]
    have hS := fun t => FStep.seek (f := f) off w t
    have hB := FStep.seekBad (f := f) off w
    generalize off + f.origin w = t at hS hB ⊢
    simp only
    by_cases hb : t < 0 ∨ (f.buf.length : Int) < t
    · rw [if_pos hb]
      refine ⟨_, _, rfl, hB ?_, h1, h2, h3⟩
      rintro ⟨u, hu1, hu2⟩
      omega
    · rw [if_neg hb]
      have ht : t = (t.toNat : Int) := by omega
      refine ⟨_, _, rfl, ?_, h1, by simp only; omega, h3⟩
      rw [ht]
      simp only [Int.toNat_natCast]
      exact hS t.toNat ht.symm (by omega)

/-- The history with these outcomes follows `FStep` throughout. -/
inductive FSteps : FMem → List MOp → List MOut → FMem → Prop where
  | nil (f) : FSteps f [] [] f
  | cons {f f1 f2 op ops o os} : FStep f op o f1 → FSteps f1 ops os f2 → FSteps f (op :: ops) (o :: os) f2

/-- **C31**, `fmemopen`: after any history of reads, writes and seeks on a stream opened in any mode over any
buffer, no access was outside the buffer, every outcome and effect was as `FStep` says (in particular seeks
outside the buffer were rejected without effect), and position and size are inside the buffer.
What is missing is that `FStep` puts a zero byte where data was (`fmem_nul_violated`,
`fmem_last_byte_violated`). -/
theorem fmem_history_partial (buf : List UInt8) (m : FMode) (rdwr own : Bool) (ops : List MOp) :
    ∃ os f', (FMem.open buf m rdwr own).steps ops = .ok (os, f') ∧
      FSteps (FMem.open buf m rdwr own) ops os f' ∧ f'.buf.length = buf.length ∧ f'.pos ≤ buf.length ∧
      f'.max ≤ buf.length := by
  have key : ∀ (ops : List MOp) (f : FMem), f.Inside buf.length →
      ∃ os f', f.steps ops = .ok (os, f') ∧ FSteps f ops os f' ∧ f'.Inside buf.length := by
    intro ops
    induction ops with
    | nil => intro f h; exact ⟨[], f, rfl, .nil f, h⟩
    | cons op ops ih =>
      intro f h
      obtain ⟨o, f1, e1, e2, e3⟩ := fmem_step h op
      obtain ⟨os, f2, e4, e5, e6⟩ := ih f1 e3
      refine ⟨o :: os, f2, ?_, .cons e2 e5, e6⟩
      rw [FMem.steps, e1]
      simp only [Res.bind, e4]
  obtain ⟨os, f', e1, e2, e3, e4, e5⟩ := key ops _ (fmem_open_inside buf m rdwr own)
  exact ⟨os, f', e1, e2, e3, e4, e5⟩

/-- **C31**, reading back: data written to an `fmemopen` stream with at least one byte of room after it is returned
by seeking back and reading. -/
theorem fmem_read_back_partial {size : Nat} {f : FMem} (h : f.Inside size) (d : List UInt8)
    (hroom : f.pos + d.length < size) :
    ∃ f', f.steps [.write d, .seek f.pos .set, .read d.length]
      = .ok ([.count d.length, .moved f.pos, .data d], f') := by
  obtain ⟨h1, h2, h3⟩ := h
  obtain ⟨o1, f1, a1, a2, a3⟩ := fmem_step ⟨h1, h2, h3⟩ (.write d)
  obtain ⟨o2, f2, b1, b2, b3⟩ := fmem_step a3 (.seek f.pos .set)
  obtain ⟨o3, f3, c1, c2, c3⟩ := fmem_step b3 (.read d.length)
  refine ⟨f3, ?_⟩
  simp only [FMem.steps, a1, b1, c1, Res.bind]
  cases a2 with
  | write _ m hm _ hp hx hr hl hb =>
    have hm' : m = d.length := by omega
    subst hm'
    cases b2 with
    | seekBad _ _ ht => exact absurd ⟨f.pos, by omega, by simp [FMem.origin]⟩ ht
    | seek _ _ t ht hs =>
      have : t = f.pos := by simp [FMem.origin] at ht; omega
      subst this
      cases c2 with
      | read =>
        have hmax : f.pos + d.length ≤ f1.max := by rw [hx]; exact Nat.le_max_right _ _
        have hdata : ((f1.buf.take f1.max).drop f.pos |>.take d.length) = d := by
          apply List.ext_getElem?
          intro i
          by_cases hi : i < d.length
          · rw [List.getElem?_take_of_lt hi, List.getElem?_drop, List.getElem?_take_of_lt (by omega), hb,
              if_neg, if_pos (by omega)]
            · congr 1; omega
            · intro hh
              have := hh.1
              split at this <;> omega
          · rw [List.getElem?_eq_none (by simp; omega), List.getElem?_eq_none (by omega)]
        simp only [hdata]

example : (FMem.open [1, 2, 3, 4, 5, 6] .truncate true false).Inside 6 ∧
    (FMem.open [1, 2, 3, 4, 5, 6] .truncate true false).pos + [7, 8].length < 6 := by
  unfold FMem.Inside; decide
/-- Where the contents of a stream opened over a buffer end and where it starts: mode "r" has the whole buffer and
starts at its beginning, mode "w" has no contents, mode "a" has the bytes up to the first zero byte (the whole buffer
if there is none; nothing if the buffer is the stream's own) and starts after them. -/
def StartsAt (buf : List UInt8) (own : Bool) : FMode → Nat → Nat → Prop
  | .keep, size, pos => size = buf.length ∧ pos = 0
  | .truncate, size, pos => size = 0 ∧ pos = 0
  | .append, size, pos => pos = size ∧ (own = true → size = 0) ∧ (own = false → size ≤ buf.length ∧
      (∀ i < size, buf[i]? ≠ some 0) ∧ (size = buf.length ∨ buf[size]? = some 0))

/-- **C31**, `fmemopen`, opening: `ftell`, seeking to the end and reading everything from the beginning report the
position, size and contents the mode asks for. -/
theorem fmem_open_contents (buf : List UInt8) (m : FMode) (rdwr own : Bool) : ∃ size pos, StartsAt buf own m size pos ∧
    (∃ f', (FMem.open buf m rdwr own).steps [.seek 0 .cur, .seek 0 .end_, .seek 0 .set, .read buf.length] =
      .ok ([.moved pos, .moved size, .moved 0, .data (buf.take size)], f')) := by
  refine ⟨(FMem.open buf m rdwr own).max, (FMem.open buf m rdwr own).pos, ?_, ?_⟩
  · cases m with
    | keep => exact ⟨rfl, rfl⟩
    | truncate => exact ⟨rfl, rfl⟩
    | append =>
      refine ⟨rfl, fun h => by simp [FMem.open, h], fun h => ?_⟩
      simp only [FMem.open, h, Bool.false_eq_true, if_false]
      have hle := (List.takeWhile_sublist (fun c : UInt8 => decide (c ≠ 0)) (l := buf)).length_le
      refine ⟨hle, ?_, ?_⟩
      · clear hle
        induction buf with
        | nil => simp
        | cons c cs ih =>
          intro i hi
          by_cases hc : c = 0
          · simp [hc] at hi
          · rw [List.takeWhile_cons_of_pos (by simpa using hc)] at hi
            cases i with
            | zero => simpa using hc
            | succ i => simpa using ih i (by simpa using hi)
      · clear hle
        induction buf with
        | nil => simp
        | cons c cs ih =>
          by_cases hc : c = 0
          · simp [hc]
          · rw [List.takeWhile_cons_of_pos (by simpa using hc)]
            simpa using ih
  · have h := fmem_open_inside buf m rdwr own
    obtain ⟨h1, h2, h3⟩ := h
    have hb : (FMem.open buf m rdwr own).buf = buf := by cases m <;> rfl
    generalize FMem.open buf m rdwr own = f at *
    refine ⟨⟨f.buf, min f.max buf.length, f.max, f.rdwr⟩, ?_⟩
    have e1 : f.step (.seek 0 .cur) = .ok (.moved f.pos, f) := by
      simp only [FMem.step, FMem.ioSeek]
      rw [if_neg (by omega)]
      simp
    have e2 : f.step (.seek 0 .end_) = .ok (.moved f.max, { f with pos := f.max }) := by
      simp only [FMem.step, FMem.ioSeek]
      rw [if_neg (by omega)]
      simp
    have e3 : FMem.step { f with pos := f.max } (.seek 0 .set) = .ok (.moved 0, { f with pos := 0 }) := by
      simp only [FMem.step, FMem.ioSeek]
      rw [if_neg (by simp)]
      simp
    have e4 : FMem.step { f with pos := 0 } (.read buf.length) =
        .ok (.data (buf.take f.max), ⟨f.buf, min f.max buf.length, f.max, f.rdwr⟩) := by
      simp only [FMem.step, FMem.ioRead]
      by_cases hz : f.max ≤ 0 ∨ buf.length = 0
      · have : f.max = 0 := by omega
        rw [if_pos hz]
        simp [this, Res.bind]
      · rw [if_neg hz]
        simp only [Nat.sub_zero, Nat.zero_add, List.drop_zero]
        rw [if_pos (by omega), Nat.min_eq_left h3, hb]
        rfl
    simp only [FMem.steps, e1, e2, e3, e4, Res.bind]

example : StartsAt [97, 98, 0, 99] false .append 2 2 := by
  simp [StartsAt]; intro i hi; match i, hi with | 0, _ => decide | 1, _ => decide

/-- Writing one byte over the middle of the data, in mode "w", destroys the byte after it: POSIX has the
terminator written only when the size grows. -/
theorem fmem_nul_violated :
    (FMem.open [0, 0, 0, 0, 0, 0] .truncate false false).steps
      [.write [97, 98, 99], .seek 0 .set, .write [120]]
      = .ok ([.count 3, .moved 0, .count 1], ⟨[120, 0, 99, 0, 0, 0], 1, 3, false⟩) := by decide

/-- A write filling the buffer to the end is reported complete, but its last byte reads back as zero: POSIX has
the terminator written only if it fits. -/
theorem fmem_last_byte_violated :
    (FMem.open [0, 0, 0] .truncate true false).steps
      [.write [97, 98, 99], .seek 0 .set, .read 3]
      = .ok ([.count 3, .moved 0, .data [97, 98, 0]], ⟨[97, 98, 0], 3, 3, true⟩) := by decide

/-! ## open_memstream -/

/-- `memstream_mem_file`: the vector `_buf` and `_pos`. posix-file-io.hpp L28-53 -/
structure MemStream where
  buf : List UInt8
  pos : Int
  deriving DecidableEq, Repr

/-- The constructor. posix-file-io.cpp L25-29 -/
def MemStream.new : MemStream := ⟨[0], 0⟩

/-- `_buf.resize(n, '\0')`. -/
def resize (buf : List UInt8) (n : Nat) : List UInt8 := buf.take n ++ List.replicate (n - buf.length) 0

/-- `io_write`. posix-file-io.cpp L57-68. With a negative position `_pos + max_size` is computed in `size_t`; the
access before the buffer is `ub`. -/
def MemStream.ioWrite (f : MemStream) (d : List UInt8) : Res (Nat × MemStream) :=
  if f.pos < 0 then .ub
  else
    let p := f.pos.toNat
    let buf := if f.buf.length ≤ p + d.length then resize f.buf (p + d.length + 1) else f.buf
    let m := min (buf.length - p) d.length
    if p + m ≤ buf.length then
      .ok (d.length, ⟨buf.take p ++ d.take m ++ buf.drop (p + m), f.pos + d.length⟩)
    else .ub

/-- `io_seek`. posix-file-io.cpp L70-92. `resize` to a negative size is `ub`. -/
def MemStream.ioSeek (f : MemStream) (off : Int) (w : Whence) : Res (Int × MemStream) :=
  match w with
  | .set =>
    let p := off
    .ok (p, ⟨if 0 ≤ p ∧ f.buf.length ≤ p.toNat then resize f.buf (p.toNat + 1) else f.buf, p⟩)
  | .cur =>
    let p := f.pos + off
    .ok (p, ⟨if 0 ≤ p ∧ f.buf.length ≤ p.toNat then resize f.buf (p.toNat + 1) else f.buf, p⟩)
  | .end_ =>
    let p := if f.buf.length ≠ 0 then (f.buf.length : Int) - 1 + off else f.buf.length + off
    if p + 1 < 0 then .ub else .ok (p, ⟨resize f.buf (p + 1).toNat, p⟩)

/-- `_update_ptrs`: the bytes at `*_bufloc` and `*_sizeloc` after `fflush` or `fclose`. posix-file-io.cpp L94-97 -/
def MemStream.update (f : MemStream) : List UInt8 × Nat := (f.buf, f.buf.length - 1)

/-- A request to an `open_memstream` stream (write only). -/
inductive WOp where
  | write (d : List UInt8)
  | seek (off : Int) (w : Whence)
  deriving DecidableEq, Repr

/-- One request. -/
def MemStream.step (f : MemStream) : WOp → Res MemStream
  | .write d => (f.ioWrite d).bind fun (_, f') => .ok f'
  | .seek off w => (f.ioSeek off w).bind fun (_, f') => .ok f'

/-- A history. -/
def MemStream.steps : MemStream → List WOp → Res MemStream
  | f, [] => .ok f
  | f, op :: ops => (f.step op).bind fun f1 => f1.steps ops

/-- What a seek is relative to. -/
def growOrigin (c : List UInt8) (p : Nat) : Whence → Int
  | .set => 0
  | .cur => p
  | .end_ => c.length

/-- Specification: the contents and the position of a growing file; positioning beyond the end fills it
with zero bytes. `none`: a request outside what the code handles (a negative target, or before the end with
`SEEK_END`). -/
def growSpec (c : List UInt8) (p : Nat) : WOp → Option (List UInt8 × Nat)
  | .write d => some (overwrite c p d, p + d.length)
  | .seek off w =>
    let t : Int := off + growOrigin c p w
    if t < 0 ∨ (w = .end_ ∧ off < 0) then none
    else some (c ++ List.replicate (t.toNat - c.length) 0, t.toNat)

/-- Specification of a history. -/
def growSpecs : List UInt8 → Nat → List WOp → Option (List UInt8 × Nat)
  | c, p, [] => some (c, p)
  | c, p, op :: ops => (growSpec c p op).bind fun (c', p') => growSpecs c' p' ops

theorem resize_terminated (c : List UInt8) (n : Nat) (h : c.length ≤ n) :
    resize (c ++ [0]) (n + 1) = c ++ List.replicate (n - c.length) 0 ++ [0] := by
  rw [resize, List.take_of_length_le (by simp; omega), List.append_assoc, List.append_assoc]
  congr 1
  rw [List.length_append, List.length_singleton, Nat.add_sub_add_right, ← List.replicate_succ',
    List.replicate_succ]
  rfl

theorem overwrite_inside {c d : List UInt8} {p : Nat} (hp : p ≤ c.length) :
    overwrite c p d = c.take p ++ d ++ c.drop (p + d.length) := by
  rw [overwrite]
  split
  · next h => subst h; simp
  · rw [show p - c.length = 0 by omega]; simp

theorem seek_grow (c : List UInt8) (n : Nat) :
    (if (0 : Int) ≤ (n : Int) ∧ (c ++ [0]).length ≤ (n : Int).toNat then resize (c ++ [0]) ((n : Int).toNat + 1)
      else c ++ [0]) = c ++ List.replicate (n - c.length) 0 ++ [0] := by
  simp only [Int.toNat_natCast, List.length_append, List.length_singleton]
  by_cases h : c.length + 1 ≤ n
  · rw [if_pos ⟨by omega, h⟩, resize_terminated _ _ (by omega)]
  · rw [if_neg (fun hh => h hh.2), show n - c.length = 0 by omega]; simp

theorem memstream_step {c : List UInt8} {p : Nat} (op : WOp) {c' : List UInt8} {p' : Nat} (hp : p ≤ c.length)
    (h : growSpec c p op = some (c', p')) :
    (⟨c ++ [0], p⟩ : MemStream).step op = .ok ⟨c' ++ [0], p'⟩ ∧ p' ≤ c'.length := by
  cases op with
  | write d =>
    simp only [growSpec, Option.some.injEq, Prod.mk.injEq] at h
    obtain ⟨rfl, rfl⟩ := h
    rw [overwrite_inside hp]
    refine ⟨?_, by simp; omega⟩
    rw [MemStream.step, MemStream.ioWrite, if_neg (by simp)]
    simp only [Int.toNat_natCast, List.length_append, List.length_singleton]
    by_cases hg : c.length + 1 ≤ p + d.length
    · rw [if_pos hg, resize_terminated _ _ (by omega)]
      have hl : (c ++ List.replicate (p + d.length - c.length) 0 ++ [0]).length = p + d.length + 1 := by
        simp; omega
      rw [hl, show min (p + d.length + 1 - p) d.length = d.length by omega, if_pos (by omega)]
      simp only [Res.bind, List.take_length]
      rw [List.append_assoc c, List.take_append_of_le_length hp, ← List.append_assoc c,
        List.drop_append_of_le_length (by simp; omega), List.drop_of_length_le (by simp; omega),
        List.drop_of_length_le (by omega)]
      simp
    · rw [if_neg hg]
      simp only [List.length_append, List.length_singleton]
      rw [show min (c.length + 1 - p) d.length = d.length by omega, if_pos (by omega)]
      simp only [Res.bind, List.take_length]
      rw [List.take_append_of_le_length hp, List.drop_append_of_le_length (by omega)]
      simp
  | seek off w =>
    rw [growSpec] at h
    split at h
    · simp at h
    · next hc =>
      simp only [Option.some.injEq, Prod.mk.injEq] at h
      obtain ⟨rfl, rfl⟩ := h
      refine ⟨?_, by simp; omega⟩
      simp only [not_or, not_and, Int.not_lt] at hc
      obtain ⟨h0, h1⟩ := hc
      cases w with
      | set =>
        simp only [growOrigin, Int.add_zero] at h0 ⊢
        obtain ⟨n, rfl⟩ := Int.eq_ofNat_of_zero_le h0
        rw [MemStream.step, MemStream.ioSeek]
        have := seek_grow c n
        simp only [Int.toNat_natCast] at this
        simp only [Res.bind, Int.toNat_natCast, this]
      | cur =>
        simp only [growOrigin] at h0 ⊢
        obtain ⟨n, hn⟩ := Int.eq_ofNat_of_zero_le h0
        have hn' : (p : Int) + off = n := by omega
        rw [MemStream.step, MemStream.ioSeek]
        have := seek_grow c n
        simp only [Int.toNat_natCast] at this
        simp only [Res.bind, hn', hn, Int.toNat_natCast, this]
      | end_ =>
        simp only [growOrigin] at h0 ⊢
        have ho := h1 rfl
        obtain ⟨n, rfl⟩ := Int.eq_ofNat_of_zero_le ho
        rw [MemStream.step, MemStream.ioSeek]
        have e1 : ((c ++ [0]).length : Int) - 1 + n = (n + c.length : Nat) := by simp; omega
        have e2 : ((n : Int) + c.length).toNat = n + c.length := by omega
        have e3 : (((n + c.length : Nat) : Int) + 1).toNat = n + c.length + 1 := by omega
        simp only [List.length_append, List.length_singleton, ne_eq, Nat.succ_ne_zero, not_false_eq_true, if_true]
        simp only [List.length_append, List.length_singleton] at e1
        rw [e1, if_neg (by omega), e2, e3, resize_terminated _ _ (by omega)]
        rfl

/-- **C31**, `open_memstream`: after any history of writes and seeks to non-negative positions (relative to the end:
forward), nothing outside the stream's own memory was accessed, and what a flush hands to the caller is exactly
the contents a growing file would have, followed by a terminator, with its size.
What is missing: seeks to a negative position are not rejected (`memstream_negative_violated`), and seeking
before the end with `SEEK_END` truncates the data (`memstream_truncate_violated`). -/
theorem memstream_exact_partial (ops : List WOp) (c : List UInt8) (p : Nat)
    (h : growSpecs [] 0 ops = some (c, p)) :
    ∃ f, MemStream.new.steps ops = .ok f ∧ f.update = (c ++ [0], c.length) := by
  have key : ∀ (ops : List WOp) (c0 : List UInt8) (p0 : Nat), p0 ≤ c0.length →
      growSpecs c0 p0 ops = some (c, p) →
      (⟨c0 ++ [0], p0⟩ : MemStream).steps ops = .ok ⟨c ++ [0], p⟩ := by
    intro ops
    induction ops with
    | nil => intro c0 p0 _ h; simp only [growSpecs, Option.some.injEq, Prod.mk.injEq] at h; rw [h.1, h.2]; rfl
    | cons op ops ih =>
      intro c0 p0 hp h
      rw [growSpecs] at h
      cases hs : growSpec c0 p0 op with
      | none => rw [hs] at h; simp at h
      | some r =>
        obtain ⟨c1, p1⟩ := r
        rw [hs] at h
        obtain ⟨e1, e2⟩ := memstream_step op hp hs
        rw [MemStream.steps, e1]
        exact ih c1 p1 e2 h
  refine ⟨_, key ops [] 0 (by simp) h, ?_⟩
  simp [MemStream.update]

example : growSpecs [] 0 [.write [1, 2, 3], .seek 6 .set, .write [9], .seek (-3) .cur, .write [8]]
    = some ([1, 2, 3, 0, 8, 0, 9], 5) := by decide

/-- A seek to a negative position succeeds and the next write is outside the memory. -/
theorem memstream_negative_violated :
    MemStream.new.steps [.write [1, 2, 3], .seek (-5) .set] = .ok ⟨[1, 2, 3, 0], -5⟩ ∧
    MemStream.new.steps [.write [1, 2, 3], .seek (-5) .set, .write [1]] = .ub := by decide

/-- Seeking two bytes before the end discards them. -/
theorem memstream_truncate_violated :
    MemStream.new.steps [.write [1, 2, 3], .seek (-2) .end_] = .ok ⟨[1, 2], 1⟩ := by decide

end Mlibc.Stdio
