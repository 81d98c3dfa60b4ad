import Verif.Base
import Verif.Stdio.Spec
/-
Model of `mlibc::abstract_file` (options/ansi/generic/file-io.cpp), the buffering layer under all of
stdio.

Simplifications: the type and the buffering mode of the stream (`_type`, `_bufmode`), which the code
determines at the first operation and caches (`_init_type`, `_init_bufmode`, L356-377), are a fixed
parameter `Cfg`; the buffer, which the code allocates on first use (`_ensure_allocation`, L454-461),
is always present with arbitrary contents; the push-back area between `__unget_ptr` and
`__buffer_ptr` is the list `unget`, its next byte first; the code's numeric error codes are one
outcome, `none`; `globallyDisableBuffering` is false (file-io.cpp L26).
-/
namespace Mlibc.Stdio

/-- The virtual functions `io_read`, `io_write`, `io_seek` of a stream, over kernel states `κ`. `none` is a
failure. options/ansi/include/mlibc/file-io.hpp L72-76 -/
structure Io (κ : Type) where
  read : κ → Nat → Option (List UInt8) × κ
  write : κ → List UInt8 → Option Nat × κ
  seek : κ → Int → Whence → Option Int × κ

/-- `buffer_mode`. options/ansi/include/mlibc/file-io.hpp L24-29 -/
inductive BufMode where
  | none | line | full
  deriving DecidableEq, Repr

/-- The fixed parameters of a stream: `__buffer_size` (4096, file-io.cpp L75), whether `_type` is
`file_like` (else `pipe_like`), and `_bufmode`. -/
structure Cfg where
  bufSize : Nat
  fileLike : Bool
  mode : BufMode

/-- The fields of `abstract_file`. options/ansi/include/stdio.h `struct __mlibc_file_base`,
file-io.cpp L70-82 -/
structure File where
  buf : List UInt8
  unget : List UInt8
  offset : Nat
  ioOffset : Nat
  validLimit : Nat
  dirtyBegin : Nat
  dirtyEnd : Nat
  ioMode : Bool
  eof : Bool
  err : Bool
  deriving DecidableEq, Repr

/-- A freshly constructed stream. file-io.cpp L70-86 -/
def File.fresh (buf : List UInt8) : File :=
  { buf := buf, unget := [], offset := 0, ioOffset := 0, validLimit := 0, dirtyBegin := 0,
    dirtyEnd := 0, ioMode := false, eof := false, err := false }

/-- `ungetBufferSize`. file-io.cpp L24 -/
def ungetBufferSize : Nat := 8

/-- `memcpy(__buffer_ptr + off, d, size)`: stores outside the buffer are undefined behaviour. -/
def storeAt (buf : List UInt8) (off : Nat) (d : List UInt8) : Res (List UInt8) :=
  if off + d.length ≤ buf.length then .ok (buf.take off ++ d ++ buf.drop (off + d.length)) else .ub

/-- `memcpy(dest, __buffer_ptr + off, n)`: loads outside the buffer are undefined behaviour. -/
def loadAt (buf : List UInt8) (off n : Nat) : Res (List UInt8) :=
  if off + n ≤ buf.length then .ok ((buf.drop off).take n) else .ub

variable {κ : Type}

/-- The writing loop of `_write_back`. file-io.cpp L400-411. Running out of `fuel` is `ub`, so a
normal outcome includes termination. -/
def writeLoop (io : Io κ) : Nat → File → κ → Res (Option Unit × File × κ)
  | 0, _, _ => .ub
  | fuel + 1, f, k =>
    if f.ioOffset < f.dirtyEnd then
      (loadAt f.buf f.ioOffset (f.dirtyEnd - f.ioOffset)).bind fun d =>
      match io.write k d with
      | (none, k') => .ok (none, { f with err := true }, k')
      | (some n, k') =>
        if n = 0 then .panic
        else writeLoop io fuel
          { f with ioOffset := f.ioOffset + n, dirtyBegin := f.dirtyBegin + n } k'
    else .ok (some (), f, k)

/-- `abstract_file::_write_back`. file-io.cpp L379-414 -/
def writeBack (io : Io κ) (cfg : Cfg) (f : File) (k : κ) : Res (Option Unit × File × κ) :=
  if f.dirtyBegin = f.dirtyEnd then .ok (some (), f, k)
  else if cfg.fileLike then
    if f.ioOffset ≠ f.dirtyBegin then
      match io.seek k ((f.dirtyBegin : Int) - f.ioOffset) .cur with
      | (none, k') => .ok (none, f, k')
      | (some _, k') =>
        writeLoop io (f.dirtyEnd - f.dirtyBegin + 1) { f with ioOffset := f.dirtyBegin } k'
    else writeLoop io (f.dirtyEnd - f.dirtyBegin + 1) f k
  else if f.ioOffset = f.dirtyBegin then writeLoop io (f.dirtyEnd - f.dirtyBegin + 1) f k
  else .panic

/-- `abstract_file::_reset`. file-io.cpp L436-451 -/
def reset (cfg : Cfg) (f : File) : Res File :=
  if !cfg.fileLike && f.offset ≠ f.validLimit then .panic
  else if f.dirtyBegin ≠ f.dirtyEnd then .panic
  else .ok { f with offset := 0, ioOffset := 0, validLimit := 0 }

/-- The end of `abstract_file::read`: hand out buffered bytes, after the pushed-back ones `u`.
file-io.cpp L176-184 -/
def readTail (f : File) (k : κ) (u : List UInt8) (n : Nat) :
    Res (Option (List UInt8) × File × κ) :=
  if f.offset < f.validLimit then
    let chunk := min (f.validLimit - f.offset) n
    (loadAt f.buf f.offset chunk).bind fun d =>
    .ok (some (u ++ d), { f with offset := f.offset + chunk }, k)
  else .panic

/-- `abstract_file::read`; the result is the first `*actual_size` bytes of the caller's buffer.
file-io.cpp L111-185 -/
def read (io : Io κ) (cfg : Cfg) (f : File) (k : κ) (n : Nat) :
    Res (Option (List UInt8) × File × κ) :=
  if n = 0 then .panic else
  let u := f.unget.take n
  let f1 := { f with unget := f.unget.drop n }
  let n1 := n - u.length
  if n1 = 0 then .ok (some u, f1, k)
  else if cfg.mode = .none then
    match io.read k n1 with
    | (none, k') => .ok (none, { f1 with err := true }, k')
    | (some d, k') => .ok (some (u ++ d), { f1 with eof := f1.eof || d.isEmpty }, k')
  else if f1.ioMode && f1.validLimit ≠ 0 then .panic
  else
    let f2 := { f1 with ioMode := false }
    if f2.offset = f2.validLimit then
      (writeBack io cfg f2 k).bind fun
      | (none, f3, k3) => .ok (none, f3, k3)
      | (some _, f3, k3) =>
        (reset cfg f3).bind fun f4 =>
        match io.read k3 cfg.bufSize with
        | (none, k4) => .ok (none, { f4 with err := true }, k4)
        | (some d, k4) =>
          if d = [] then .ok (some [], { f4 with eof := true }, k4)
          else
            (storeAt f4.buf 0 d).bind fun buf =>
            readTail { f4 with buf := buf, ioOffset := d.length, validLimit := d.length } k4 u n1
    else readTail f2 k u n1

/-- How much of the data `abstract_file::write` buffers at once, and whether it ends a line.
file-io.cpp L222-234 -/
def writeChunk (cfg : Cfg) (f : File) (d : List UInt8) : Nat × Bool :=
  let chunk := min (cfg.bufSize - f.offset) d.length
  if cfg.mode = .line then
    match (d.take chunk).findIdx? (· == 10) with
    | some i => (i + 1, true)
    | none => (chunk, false)
  else (chunk, false)

/-- The part of `abstract_file::write` after the buffer has room. file-io.cpp L216-256 -/
def writeTail (io : Io κ) (cfg : Cfg) (f : File) (k : κ) (d : List UInt8) :
    Res (Option Nat × File × κ) :=
  if !f.ioMode && f.validLimit ≠ 0 then .panic
  else if cfg.bufSize ≤ f.offset then .panic
  else
    let c := writeChunk cfg f d
    if c.1 = 0 then .panic else
    (storeAt f.buf f.offset (d.take c.1)).bind fun buf =>
    let f1 : File :=
      if f.dirtyBegin ≠ f.dirtyEnd then
        { f with ioMode := true, buf := buf, dirtyBegin := min f.dirtyBegin f.offset,
                 dirtyEnd := max f.dirtyEnd (f.offset + c.1),
                 validLimit := max (f.offset + c.1) f.validLimit, offset := f.offset + c.1 }
      else
        { f with ioMode := true, buf := buf, dirtyBegin := f.offset,
                 dirtyEnd := f.offset + c.1,
                 validLimit := max (f.offset + c.1) f.validLimit, offset := f.offset + c.1 }
    if c.2 then
      (writeBack io cfg f1 k).bind fun
      | (none, f2, k2) => .ok (none, f2, k2)
      | (some _, f2, k2) => .ok (some c.1, f2, k2)
    else .ok (some c.1, f1, k)

/-- `abstract_file::write`. file-io.cpp L187-257 -/
def write (io : Io κ) (cfg : Cfg) (f : File) (k : κ) (d : List UInt8) :
    Res (Option Nat × File × κ) :=
  if d = [] then .panic
  else if cfg.mode = .none then
    if f.dirtyBegin ≠ f.dirtyEnd then .panic
    else match io.write k d with
      | (none, k') => .ok (none, { f with err := true }, k')
      | (some n, k') => .ok (some n, f, k')
  else if f.offset = cfg.bufSize then
    (writeBack io cfg f k).bind fun
    | (none, f2, k2) => .ok (none, f2, k2)
    | (some _, f2, k2) => (reset cfg f2).bind fun f3 => writeTail io cfg f3 k2 d
  else writeTail io cfg f k d

/-- `abstract_file::unget`; `none` is `EOF`, otherwise the byte pushed. file-io.cpp L259-274 -/
def unget (f : File) (c : UInt8) : Option UInt8 × File :=
  if f.unget.length + 1 > ungetBufferSize then (none, f)
  else (some c, { f with unget := c :: f.unget })

/-- `abstract_file::purge`. file-io.cpp L284-290 -/
def purge (f : File) : File :=
  { f with offset := 0, ioOffset := 0, validLimit := 0, dirtyEnd := f.dirtyBegin, unget := [] }

/-- `abstract_file::_save_pos`. file-io.cpp L416-434 -/
def savePos (io : Io κ) (cfg : Cfg) (f : File) (k : κ) : Option Unit × File × κ :=
  if cfg.fileLike && cfg.mode ≠ .none then
    match io.seek k ((f.offset : Int) - f.ioOffset) .cur with
    | (none, k') => (none, { f with err := true }, k')
    | (some _, k') => (some (), f, k')
  else (some (), f, k)

/-- `abstract_file::flush` (`post_flush` does nothing for descriptors, L292). file-io.cpp L296-306 -/
def flush (io : Io κ) (cfg : Cfg) (f : File) (k : κ) : Res (Option Unit × File × κ) :=
  (writeBack io cfg f k).bind fun
  | (none, f1, k1) => .ok (none, f1, k1)
  | (some _, f1, k1) =>
    match savePos io cfg f1 k1 with
    | (none, f2, k2) => .ok (none, f2, k2)
    | (some _, f2, k2) => .ok (some (), purge f2, k2)

/-- `abstract_file::tell`. file-io.cpp L308-317 -/
def tell (io : Io κ) (f : File) (k : κ) : Option Int × κ :=
  match io.seek k 0 .cur with
  | (none, k') => (none, k')
  | (some p, k') => (some (p + ((f.offset : Int) - f.ioOffset) - f.unget.length), k')

/-- `abstract_file::seek`. file-io.cpp L319-346 -/
def seek (io : Io κ) (cfg : Cfg) (f : File) (k : κ) (off : Int) (w : Whence) :
    Res (Option Unit × File × κ) :=
  (writeBack io cfg f k).bind fun
  | (none, f1, k1) => .ok (none, f1, k1)
  | (some _, f1, k1) =>
    match io.seek k1 (if w = .cur then off + ((f1.offset : Int) - f1.ioOffset) else off) w with
    | (none, k2) => .ok (none, { f1 with err := true }, k2)
    | (some _, k2) => .ok (some (), { purge f1 with eof := false }, k2)

/-- One request to the stream, with its outcome. -/
def step (io : Io κ) (cfg : Cfg) (f : File) (k : κ) : Op → Res (Out × File × κ)
  | .read n => (read io cfg f k n).bind fun
    | (none, f', k') => .ok (.error, f', k')
    | (some d, f', k') => .ok (.data d, f', k')
  | .write d => (write io cfg f k d).bind fun
    | (none, f', k') => .ok (.error, f', k')
    | (some n, f', k') => .ok (.count n, f', k')
  | .unget c => match unget f c with
    | (none, f') => .ok (.error, f', k)
    | (some _, f') => .ok (.done, f', k)
  | .flush => (flush io cfg f k).bind fun
    | (none, f', k') => .ok (.error, f', k')
    | (some _, f', k') => .ok (.done, f', k')
  | .seek off w => (seek io cfg f k off w).bind fun
    | (none, f', k') => .ok (.error, f', k')
    | (some _, f', k') => .ok (.done, f', k')
  | .tell => match tell io f k with
    | (none, k') => .ok (.error, f, k')
    | (some p, k') => .ok (.offset p, f, k')

/-- A sequence of requests. -/
def steps (io : Io κ) (cfg : Cfg) : List Op → File → κ → Res (List Out × File × κ)
  | [], f, k => .ok ([], f, k)
  | op :: ops, f, k =>
    (step io cfg f k op).bind fun (o, f1, k1) =>
    (steps io cfg ops f1 k1).bind fun (os, f2, k2) =>
    .ok (o :: os, f2, k2)

end Mlibc.Stdio
