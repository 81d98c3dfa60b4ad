import Verif.Base
/-
Model of options/internal/generic/charcode.cpp (utf8_charcode, polymorphic_charcode_adapter, mbrtowc,
wcrtomb) and of the conversion functions in options/ansi/generic/wchar.cpp, for the UTF-8 charset.

Bytes are `UInt8`; code points and wide characters are natural numbers (`wchar_t` taken as its unsigned
32-bit value, as in the conversion to `codepoint`). A source pointer is the list of units from the pointer
to the end of the object; reading past it is `Res.ub`. Simplification: the output of the inner loops is
returned as a list and stored into the destination by `storeAt` (out of bounds = `ub`).
-/
namespace Mlibc.Utf8
open Mlibc

/-- bits/mbstate.h: `__mlibc_mbstate` (`__shift` is unused by UTF-8). -/
structure St where
  progress : Nat
  cpoint : Nat
  deriving DecidableEq, Repr

/-- `__MLIBC_MBSTATE_INITIALIZER`. -/
def St.init : St := ⟨0, 0⟩

/-- charcode.hpp:13-37 `transcode_status`. -/
inductive Status
  | nullTerminator | illegalInput | inputUnderflow | outputOverflow | inputExhausted | outputExhausted
  deriving DecidableEq, Repr

/-- charcode.cpp:75-127 `utf8_charcode::decode_state::operator()`: `none` = illegal_input (input not
advanced), `some` = unit consumed. The `__ensure` at L99 always holds and is omitted. Code points stay
below 2^21, so the 32-bit `codepoint` never wraps and is a natural number here. -/
def step (s : St) (b : UInt8) : Option St :=
  let uc := b.toNat
  if s.progress = 0 then
    if uc &&& 0x80 = 0 then some ⟨0, uc⟩
    else if uc &&& 0xE0 = 0xC0 then
      if uc < 0xC2 then none else some ⟨1, uc &&& 0x1F⟩
    else if uc &&& 0xF0 = 0xE0 then some ⟨2, uc &&& 0xF⟩
    else if uc &&& 0xF8 = 0xF0 then
      if uc ≥ 0xF5 then none else some ⟨3, uc &&& 7⟩
    else none
  else
    if uc &&& 0xC0 = 0x80 then
      if s.progress = 2 ∧ s.cpoint = 0 ∧ uc < 0xA0 then none
      else if s.progress = 2 ∧ s.cpoint = 0x0D ∧ uc ≥ 0xA0 then none
      else if s.progress = 3 ∧ s.cpoint = 0 ∧ uc < 0x90 then none
      else if s.progress = 3 ∧ s.cpoint = 4 ∧ uc ≥ 0x90 then none
      else some ⟨s.progress - 1, (s.cpoint <<< 6) ||| (uc &&& 0x3F)⟩
    else none

/-- charcode.cpp:133-183 `utf8_charcode::encode_state::operator()`: the bytes to push, `none` = illegal. -/
def encode (wc : Nat) : Option (List UInt8) :=
  let cont (v : Nat) : UInt8 := UInt8.ofNat (0x80 ||| (v &&& 0x3F))
  if wc ≤ 0x7F then some [UInt8.ofNat wc]
  else if wc ≤ 0x7FF then some [UInt8.ofNat (0xC0 ||| (wc >>> 6)), cont wc]
  else if wc ≤ 0xFFFF then some [UInt8.ofNat (0xE0 ||| (wc >>> 12)), cont (wc >>> 6), cont wc]
  else if wc ≤ 0x10FFFF then
    some [UInt8.ofNat (0xF0 ||| (wc >>> 18)), cont (wc >>> 12), cont (wc >>> 6), cont wc]
  else none

/-- Result of the decoding loop. -/
structure DecOut where
  status : Status
  consumed : Nat
  out : List Nat
  ds : St
  deriving DecidableEq, Repr

/-- Status when the loop ends because of `nseq` or `wseq`. charcode.cpp:258-265. -/
def stopStatus (ds : St) (nleft : Nat) : Status :=
  if ds.progress ≠ 0 then .inputUnderflow else if nleft = 0 then .inputExhausted else .outputExhausted

/-- charcode.cpp:243-256, the loop of `decode_wtranscode`: object, bytes left in `nseq`, room left in `wseq`. -/
def decodeLoop : List UInt8 → Nat → Nat → St → Res DecOut
  | _, n, 0, ds => .ok ⟨stopStatus ds n, 0, [], ds⟩
  | _, 0, _ + 1, ds => .ok ⟨stopStatus ds 0, 0, [], ds⟩
  | [], _ + 1, _ + 1, _ => .ub
  | b :: obj, n + 1, w + 1, ds =>
    match step ds b with
    | none => .ok ⟨.illegalInput, 0, [], ds⟩
    | some ds' =>
      if ds'.progress = 0 then
        if ds'.cpoint = 0 then .ok ⟨.nullTerminator, 1, [], ds'⟩
        else do
          let r ← decodeLoop obj n w ds'
          return { r with consumed := r.consumed + 1, out := ds'.cpoint :: r.out }
      else do
        let r ← decodeLoop obj n (w + 1) ds'
        return { r with consumed := r.consumed + 1 }

/-- charcode.cpp:238-266 `decode_wtranscode`: status, bytes consumed, characters produced, new `st`
(`st` is only written when the loop ends normally). -/
def decodeWtranscode (obj : List UInt8) (n w : Nat) (st : St) : Res (Status × Nat × List Nat × St) := do
  ensure (w ≠ 0)
  let r ← decodeLoop obj n w st
  let st' := if r.status = .illegalInput ∨ r.status = .nullTerminator then st else r.ds
  return (r.status, r.consumed, r.out, st')

/-- charcode.cpp:275-292, the loop of `decode_wtranscode_length`: status and number of characters. -/
def decodeLenLoop : List UInt8 → Nat → St → Res (Status × Nat)
  | _, 0, ds => .ok (if ds.progress ≠ 0 then .inputUnderflow else .inputExhausted, 0)
  | [], _ + 1, _ => .ub
  | b :: obj, n + 1, ds =>
    match step ds b with
    | none => .ok (.illegalInput, 0)
    | some ds' =>
      if ds'.progress = 0 then
        if ds'.cpoint = 0 then .ok (.nullTerminator, 0)
        else do
          let (s, k) ← decodeLenLoop obj n ds'
          return (s, k + 1)
      else decodeLenLoop obj n ds'

/-- A return value of the multibyte functions: a count, (size_t)-1 with EILSEQ, or (size_t)-2. -/
inductive Ret
  | count (n : Nat) | eilseq | incomplete
  deriving DecidableEq, Repr

/-- charcode.cpp:382-408 `mlibc::mbrtowc` with `mbs` not NULL: return value, the character stored
(`none`: nothing stored), new state. -/
def mbrtowc (mbs : List UInt8) (limit : Nat) (st : St) : Res (Ret × Option Nat × St) := do
  let (e, n, out, st') ← decodeWtranscode mbs limit 1 st
  match e with
  | .inputExhausted | .outputExhausted => return (.count n, out.head?, st')
  | .nullTerminator => return (.count 0, some 0, St.init)
  | .inputUnderflow => return (.incomplete, out.head?, st')
  | .illegalInput => return (.eilseq, out.head?, st')
  | .outputOverflow => .panic

/-- State of the encoding loop: bytes committed to `nseq`, bytes written but not committed, position in
`wseq`. -/
structure EncOut where
  status : Status
  committed : List UInt8
  partialBytes : List UInt8
  consumed : Nat
  deriving DecidableEq, Repr

/-- charcode.cpp:297-324, `encode_wtranscode`: wide object, units left in `wseq`, room left in `nseq`.
On output_overflow the bytes of the character that still fit have been written behind the committed
ones (the `push` helper, L141-149). -/
def encodeLoop : List Nat → Nat → Nat → Res EncOut
  | _, n, 0 => .ok ⟨if n = 0 then .inputExhausted else .outputExhausted, [], [], 0⟩
  | _, 0, _ + 1 => .ok ⟨.inputExhausted, [], [], 0⟩
  | [], _ + 1, _ + 1 => .ub
  | wc :: obj, n + 1, cap + 1 =>
    if wc = 0 then .ok ⟨.nullTerminator, [], [], 0⟩
    else
      match encode wc with
      | none => .ok ⟨.illegalInput, [], [], 0⟩
      | some bytes =>
        if bytes.length ≤ cap + 1 then do
          let r ← encodeLoop obj n (cap + 1 - bytes.length)
          return { r with committed := bytes ++ r.committed, consumed := r.consumed + 1 }
        else .ok ⟨.outputOverflow, [], bytes.take (cap + 1), 0⟩

/-- charcode.cpp:330-353, `encode_wtranscode_length` (every encoding fits in MB_LEN_MAX = 4 bytes). -/
def encodeLenLoop : List Nat → Nat → Res (Status × Nat)
  | _, 0 => .ok (.inputExhausted, 0)
  | [], _ + 1 => .ub
  | wc :: obj, n + 1 =>
    if wc = 0 then .ok (.nullTerminator, 0)
    else
      match encode wc with
      | none => .ok (.illegalInput, 0)
      | some bytes => do
        let (s, k) ← encodeLenLoop obj n
        return (s, k + bytes.length)

/-- Stores `xs` at the start of the destination object. -/
def storeAt {α} (dst xs : List α) : Res (List α) :=
  if xs.length ≤ dst.length then .ok (xs ++ dst.drop xs.length) else .ub

/-- charcode.cpp:410-432 `mlibc::wcrtomb`: return value and new content of the destination. MB_LEN_MAX = 4. -/
def wcrtomb (mbs : List UInt8) (wc : Nat) (st : St) : Res (Ret × List UInt8 × St) := do
  ensure (st.progress = 0)
  let r ← encodeLoop [wc] 1 4
  let mbs ← storeAt mbs (r.committed ++ r.partialBytes)
  match r.status with
  | .inputExhausted => return (.count r.committed.length, mbs, St.init)
  | .nullTerminator => do
    let mbs ← storeAt mbs [0]
    return (.count 1, mbs, St.init)
  | .illegalInput => return (.eilseq, mbs, st)
  | _ => .panic

/-- What a string conversion leaves behind: return value, `*srcp` (as an offset; `none` = NULL), the
destination and the state. -/
structure Conv (α : Type) where
  ret : Ret
  src : Option Nat
  dst : List α
  st : St
  deriving DecidableEq, Repr

/-- wchar.cpp:106-144 `mbsrtowcs` with `wcs` not NULL. `nseq.end` is NULL, so `nseq` never runs out; that is
expressed by a byte count larger than the object. -/
def mbsrtowcs (dst : List Nat) (mbs : List UInt8) (limit : Nat) (st : St) : Res (Conv Nat) := do
  let (e, n, out, st') ← decodeWtranscode mbs (mbs.length + 1) limit st
  let dst ← storeAt dst out
  match e with
  | .nullTerminator =>
    let dst ← if out.length < limit then storeAt dst (out ++ [0]) else .ok dst
    return ⟨.count out.length, none, dst, St.init⟩
  | .inputExhausted | .outputExhausted => return ⟨.count out.length, some n, dst, st'⟩
  | .inputUnderflow | .illegalInput => return ⟨.eilseq, some 0, dst, st'⟩
  | .outputOverflow => .panic

/-- wchar.cpp:115-123 `mbsrtowcs` with `wcs` = NULL. -/
def mbsrtowcsLen (mbs : List UInt8) (st : St) : Res Ret := do
  let (e, n) ← decodeLenLoop mbs (mbs.length + 1) st
  match e with
  | .nullTerminator => return .count n
  | .illegalInput | .inputUnderflow => return .eilseq
  | _ => .panic

/-- wchar.cpp:146-184 `mbsnrtowcs` with `wcs` not NULL. -/
def mbsnrtowcs (dst : List Nat) (mbs : List UInt8) (nmc limit : Nat) (st : St) : Res (Conv Nat) := do
  let (e, n, out, st') ← decodeWtranscode mbs nmc limit st
  let dst ← storeAt dst out
  match e with
  | .nullTerminator =>
    let dst ← if out.length < limit then storeAt dst (out ++ [0]) else .ok dst
    return ⟨.count out.length, none, dst, St.init⟩
  | .inputUnderflow | .inputExhausted | .outputExhausted => return ⟨.count out.length, some n, dst, st'⟩
  | .illegalInput => return ⟨.eilseq, some 0, dst, st'⟩
  | .outputOverflow => .panic

/-- wchar.cpp:156-163 `mbsnrtowcs` with `wcs` = NULL. -/
def mbsnrtowcsLen (mbs : List UInt8) (nmc : Nat) (st : St) : Res Ret := do
  let (e, n) ← decodeLenLoop mbs nmc st
  match e with
  | .nullTerminator | .inputExhausted | .inputUnderflow => return .count n
  | .illegalInput => return .eilseq
  | _ => .panic

/-- wchar.cpp:186-224 `wcsrtombs` with `mbs` not NULL. On illegal input `*wcsp` is left alone. -/
def wcsrtombs (dst : List UInt8) (wcs : List Nat) (limit : Nat) (st : St) : Res (Conv UInt8) := do
  ensure (st.progress = 0)
  let r ← encodeLoop wcs (wcs.length + 1) limit
  let dst ← storeAt dst (r.committed ++ r.partialBytes)
  match r.status with
  | .nullTerminator =>
    let dst ← if r.committed.length < limit then storeAt dst (r.committed ++ [0]) else .ok dst
    return ⟨.count r.committed.length, none, dst, St.init⟩
  | .inputUnderflow | .outputExhausted => return ⟨.count r.committed.length, some r.consumed, dst, st⟩
  | .illegalInput => return ⟨.eilseq, some 0, dst, st⟩
  | _ => .panic

/-- wchar.cpp:194-202 `wcsrtombs` with `mbs` = NULL. -/
def wcsrtombsLen (wcs : List Nat) (st : St) : Res Ret := do
  ensure (st.progress = 0)
  let (e, n) ← encodeLenLoop wcs (wcs.length + 1)
  match e with
  | .nullTerminator => return .count n
  | .illegalInput | .inputUnderflow => return .eilseq
  | _ => .panic

/-- wchar.cpp:226-270 `wcsnrtombs` with `mbs` not NULL. -/
def wcsnrtombs (dst : List UInt8) (wcs : List Nat) (nwc limit : Nat) (st : St) : Res (Conv UInt8) := do
  ensure (st.progress = 0)
  let r ← encodeLoop wcs nwc limit
  let dst ← storeAt dst (r.committed ++ r.partialBytes)
  match r.status with
  | .nullTerminator =>
    let dst ← if r.committed.length < limit then storeAt dst (r.committed ++ [0]) else .ok dst
    return ⟨.count r.committed.length, none, dst, St.init⟩
  | .illegalInput => return ⟨.eilseq, some 0, dst, st⟩
  | _ => return ⟨.count r.committed.length, some r.consumed, dst, st⟩

/-- wchar.cpp:235-242 `wcsnrtombs` with `mbs` = NULL. -/
def wcsnrtombsLen (wcs : List Nat) (nwc : Nat) (st : St) : Res Ret := do
  ensure (st.progress = 0)
  let (e, n) ← encodeLenLoop wcs nwc
  match e with
  | .nullTerminator | .inputExhausted | .inputUnderflow => return .count n
  | .illegalInput => return .eilseq
  | _ => .panic

end Mlibc.Utf8
