/-
What a C program may rely on from a stdio stream, stated without reference to any buffer.

* `Device`: what is behind a stream: the bytes a reader gets next, and the effect of writing.
  `fileDev` is a regular file (contents and position), `pipeDev` a pipe, terminal or socket.
* `Stream`: an abstract stream: the device *as the program sees it*, the pushed-back bytes and the
  direction of the last transfer (ISO C 7.21.5.3p7: input and output must not directly follow each
  other without a flush or a reposition in between).
* `Step`: what each call may return and what it does to the abstract stream.
-/
namespace Mlibc.Stdio

/-- `whence` of `fseek`/`lseek`. options/ansi/include/stdio.h -/
inductive Whence where
  | set | cur | end_
  deriving DecidableEq, Repr

/-- What is behind a stream, in states of type `σ`. -/
structure Device (σ : Type) where
  /-- the bytes reads will deliver from here on, in order -/
  avail : σ → List UInt8
  /-- the state after `n` bytes have been read -/
  adv : σ → Nat → σ
  /-- the state after the given bytes have been written -/
  put : σ → List UInt8 → σ
  /-- the current position (meaningless when not seekable) -/
  pos : σ → Int
  /-- the size of the file (meaningless when not seekable) -/
  size : σ → Int
  /-- the state at the given position -/
  seekTo : σ → Int → σ

/-- Absolute position a seek request names. -/
def Device.target {σ : Type} (dev : Device σ) (s : σ) (off : Int) : Whence → Int
  | .set => off
  | .cur => dev.pos s + off
  | .end_ => dev.size s + off

/-- The laws every device obeys. -/
structure Device.Lawful {σ : Type} (dev : Device σ) : Prop where
  avail_adv : ∀ s n, dev.avail (dev.adv s n) = (dev.avail s).drop n
  adv_zero : ∀ s, dev.adv s 0 = s
  adv_adv : ∀ s m n, dev.adv (dev.adv s m) n = dev.adv s (m + n)
  put_nil : ∀ s, dev.put s [] = s
  put_put : ∀ s a b, dev.put (dev.put s a) b = dev.put s (a ++ b)

/-- The laws of a seekable device. -/
structure Device.Seekable {σ : Type} (dev : Device σ) : Prop where
  pos_nonneg : ∀ s, 0 ≤ dev.pos s
  pos_adv : ∀ s n, dev.pos (dev.adv s n) = dev.pos s + n
  pos_put : ∀ s d, dev.pos (dev.put s d) = dev.pos s + d.length
  size_adv : ∀ s n, dev.size (dev.adv s n) = dev.size s
  seekTo_pos : ∀ s, dev.seekTo s (dev.pos s) = s
  seekTo_adv : ∀ s n t, 0 ≤ t → dev.seekTo (dev.adv s n) t = dev.seekTo s t

/-- Contents of a file after writing `d` at offset `p`: bytes before `p` are kept (a gap reads as
zeros), then `d`, then whatever followed. -/
def overwrite (c : List UInt8) (p : Nat) (d : List UInt8) : List UInt8 :=
  if d = [] then c
  else c.take p ++ List.replicate (p - c.length) 0 ++ d ++ c.drop (p + d.length)

/-- A regular file: its contents and the position of the descriptor. -/
structure FileSt where
  content : List UInt8
  pos : Nat
  deriving DecidableEq, Repr

/-- A regular file as a device. -/
def fileDev : Device FileSt where
  avail s := s.content.drop s.pos
  adv s n := { s with pos := s.pos + n }
  put s d := { content := overwrite s.content s.pos d, pos := s.pos + d.length }
  pos s := s.pos
  size s := s.content.length
  seekTo s t := { s with pos := t.toNat }

/-- A pipe, terminal or socket: the bytes still to arrive and the bytes sent so far. -/
structure PipeSt where
  input : List UInt8
  output : List UInt8
  deriving DecidableEq, Repr

/-- A pipe as a device; it has no position. -/
def pipeDev : Device PipeSt where
  avail s := s.input
  adv s n := { s with input := s.input.drop n }
  put s d := { s with output := s.output ++ d }
  pos _ := 0
  size _ := 0
  seekTo s _ := s

/-- Direction of the last transfer on a stream. `idle`: nothing transferred since the stream was
opened, flushed or repositioned, or the last read met end-of-file. -/
inductive Dir where
  | idle | reading | writing
  deriving DecidableEq, Repr

/-- A stream as the program sees it. -/
structure Stream (σ : Type) where
  /-- the device, with everything the program has read and written accounted for -/
  s : σ
  /-- pushed-back bytes, the next one to be read first -/
  unget : List UInt8
  dir : Dir

/-- The requests of the stdio layer. -/
inductive Op where
  /-- read up to `n` bytes -/
  | read (n : Nat)
  /-- write bytes -/
  | write (d : List UInt8)
  | unget (c : UInt8)
  | flush
  | seek (off : Int) (w : Whence)
  | tell
  deriving DecidableEq, Repr

/-- What a request returns. -/
inductive Out where
  | error
  /-- the bytes read -/
  | data (d : List UInt8)
  /-- how many bytes were taken -/
  | count (n : Nat)
  /-- success without a result -/
  | done
  /-- an offset -/
  | offset (p : Int)
  deriving DecidableEq, Repr

/-- What each request may return and do. An error leaves the device as the program sees it alone,
except that a failing write may have taken some of the bytes, and a failing read may have consumed
pushed-back bytes. -/
inductive Step {σ : Type} (dev : Device σ) : Stream σ → Op → Out → Stream σ → Prop where
  /-- a read delivers a non-empty prefix, at most `n` long, of the pushed-back bytes followed by the
  bytes of the device -/
  | read {a : Stream σ} {n : Nat} {d : List UInt8} {dir : Dir} :
      d ≠ [] → d.length ≤ n → d <+: a.unget ++ dev.avail a.s → (dir ≠ .writing ∨ dir = a.dir) →
      Step dev a (.read n) (.data d)
        ⟨dev.adv a.s (d.length - a.unget.length), a.unget.drop d.length, dir⟩
  /-- a read delivers nothing only at end-of-file -/
  | eof {a : Stream σ} {n : Nat} :
      a.unget = [] → dev.avail a.s = [] →
      Step dev a (.read n) (.data []) ⟨a.s, [], .idle⟩
  | readError {a : Stream σ} {n : Nat} {dir : Dir} :
      (dir ≠ .writing ∨ dir = a.dir) →
      Step dev a (.read n) .error ⟨a.s, a.unget.drop n, dir⟩
  /-- a write takes a non-empty prefix -/
  | write {a : Stream σ} {d : List UInt8} {n : Nat} {dir : Dir} :
      0 < n → n ≤ d.length → (dir ≠ .reading ∨ dir = a.dir) →
      Step dev a (.write d) (.count n) ⟨dev.put a.s (d.take n), a.unget, dir⟩
  | writeError {a : Stream σ} {d : List UInt8} {n : Nat} {dir : Dir} :
      n ≤ d.length → (dir ≠ .reading ∨ dir = a.dir) →
      Step dev a (.write d) .error ⟨dev.put a.s (d.take n), a.unget, dir⟩
  | unget {a : Stream σ} {c : UInt8} :
      Step dev a (.unget c) .done ⟨a.s, c :: a.unget, a.dir⟩
  /-- only a full push-back buffer (8 bytes) is a reason for `ungetc` to fail -/
  | ungetFull {a : Stream σ} {c : UInt8} : 8 ≤ a.unget.length → Step dev a (.unget c) .error a
  | flush {a : Stream σ} : Step dev a .flush .done ⟨a.s, [], .idle⟩
  | flushError {a : Stream σ} : Step dev a .flush .error a
  /-- a seek is relative to the start, to the stream's position, or to the end of the file as the
  program sees it -/
  | seek {a : Stream σ} {off : Int} {w : Whence} :
      0 ≤ dev.target a.s off w →
      Step dev a (.seek off w) .done ⟨dev.seekTo a.s (dev.target a.s off w), [], .idle⟩
  | seekError {a : Stream σ} {off : Int} {w : Whence} : Step dev a (.seek off w) .error a
  /-- `ftell`: the position of the next byte; each pushed-back byte counts one back -/
  | tell {a : Stream σ} : Step dev a .tell (.offset (dev.pos a.s - a.unget.length)) a
  | tellError {a : Stream σ} : Step dev a .tell .error a

/-- Sequences of requests with the results they got. -/
inductive Steps {σ : Type} (dev : Device σ) : Stream σ → List Op → List Out → Stream σ → Prop where
  | nil {a : Stream σ} : Steps dev a [] [] a
  | cons {a b c : Stream σ} {op : Op} {ops : List Op} {o : Out} {os : List Out} :
      Step dev a op o b → Steps dev b ops os c → Steps dev a (op :: ops) (o :: os) c

theorem overwrite_length (c : List UInt8) (p : Nat) (d : List UInt8) (h : d ≠ []) :
    (overwrite c p d).length = max c.length (p + d.length) := by
  simp only [overwrite, h, if_false, List.length_append, List.length_take, List.length_replicate,
    List.length_drop]
  have : 0 < d.length := List.length_pos_iff.mpr h
  omega

/-- Byte `i` of a file after a write. -/
theorem overwrite_getElem? (c : List UInt8) (p : Nat) (d : List UInt8) (h : d ≠ []) (i : Nat) :
    (overwrite c p d)[i]? =
      if i < p then (if i < c.length then c[i]? else some 0)
      else if i < p + d.length then d[i - p]? else c[i]? := by
  have hd : 0 < d.length := List.length_pos_iff.mpr h
  simp only [overwrite, h, if_false, List.getElem?_append, List.length_append, List.length_take,
    List.length_replicate, List.getElem?_take, List.getElem?_drop, List.getElem?_replicate]
  have e1 : min p c.length + (p - c.length) = p := by omega
  rw [e1]
  by_cases h1 : i < p
  · rw [if_pos (by omega), if_pos h1, if_pos h1]
    by_cases h2 : i < c.length
    · rw [if_pos (by omega), if_pos h2]; simp [h1]
    · rw [if_neg (by omega), if_neg h2, if_pos (by omega), if_pos h1]
  · rw [if_neg h1]
    by_cases h2 : i < p + d.length
    · rw [if_pos h2, if_neg h1, if_pos h2]
    · rw [if_neg h2, if_neg h1, if_neg h2]
      congr 1; omega

/-- Two adjacent writes are one write. -/
theorem overwrite_overwrite (c : List UInt8) (p : Nat) (a b : List UInt8) :
    overwrite (overwrite c p a) (p + a.length) b = overwrite c p (a ++ b) := by
  by_cases ha : a = []
  · subst ha; simp [overwrite]
  by_cases hb : b = []
  · subst hb; simp [overwrite]
  have hab : a ++ b ≠ [] := by simp [ha]
  have hla : 0 < a.length := List.length_pos_iff.mpr ha
  apply List.ext_getElem?
  intro i
  rw [overwrite_getElem? _ _ _ hb, overwrite_getElem? _ _ _ ha, overwrite_getElem? _ _ _ hab,
    overwrite_length _ _ _ ha]
  simp only [List.length_append, List.getElem?_append]
  by_cases h1 : i < p
  · rw [if_pos (by omega), if_pos (by omega), if_pos h1, if_pos h1]
  · by_cases h2 : i < p + a.length
    · rw [if_pos h2, if_pos (by omega), if_neg h1, if_pos h2, if_neg h1, if_pos (by omega),
        if_pos (by omega)]
    · rw [if_neg h2, if_neg h1, if_neg h2, if_neg h1]
      by_cases h3 : i < p + a.length + b.length
      · rw [if_pos h3, if_pos (by omega), if_neg (by omega)]; congr 1; omega
      · rw [if_neg h3, if_neg (by omega)]

/-- What has been written can be read back. -/
theorem overwrite_readback (c : List UInt8) (p : Nat) (d : List UInt8) :
    ((overwrite c p d).drop p).take d.length = d := by
  by_cases hd : d = []
  · subst hd; simp
  apply List.ext_getElem?
  intro i
  rw [List.getElem?_take, List.getElem?_drop, overwrite_getElem? _ _ _ hd]
  by_cases h : i < d.length
  · rw [if_pos h, if_neg (by omega), if_pos (by omega)]; congr 1; omega
  · rw [if_neg h, List.getElem?_eq_none (by omega)]

theorem fileDev_lawful : fileDev.Lawful where
  avail_adv s n := by simp [fileDev, List.drop_drop]
  adv_zero s := by simp [fileDev]
  adv_adv s m n := by simp [fileDev, Nat.add_assoc]
  put_nil s := by simp [fileDev, overwrite]
  put_put s a b := by simp [fileDev, overwrite_overwrite, Nat.add_assoc]

theorem fileDev_seekable : fileDev.Seekable where
  pos_nonneg s := by simp [fileDev]
  pos_adv s n := by simp [fileDev]
  pos_put s d := by simp [fileDev]
  size_adv s n := by simp [fileDev]
  seekTo_pos s := by simp [fileDev]
  seekTo_adv s n t _ := by simp [fileDev]

theorem pipeDev_lawful : pipeDev.Lawful where
  avail_adv s n := by simp [pipeDev]
  adv_zero s := by simp [pipeDev]
  adv_adv s m n := by simp [pipeDev, List.drop_drop]
  put_nil s := by simp [pipeDev]
  put_put s a b := by simp [pipeDev]

end Mlibc.Stdio
