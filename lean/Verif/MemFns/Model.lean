import Verif.Memory
/-
Model of options/internal/generic/essential.cpp: forward_copy, memcpy, memset, memmove (LP64 variants).
-/
namespace Mlibc.MemFns
open Mlibc Mem

/-- Loading `cnt` values of `size` bytes with `alias_load`, advancing the source pointer.
essential.cpp:5-12. A value is represented by its object representation (its bytes), which is what
`__builtin_memcpy(&value, p, sizeof(value))` copies. -/
def loadWords (m : Mem) (src size : Nat) : Nat → Res (List (List UInt8))
  | 0 => .ok []
  | cnt + 1 => do
    let w ← m.loadN src size
    let ws ← loadWords m (src + size) size cnt
    return w :: ws

/-- Storing values with `alias_store`, advancing the destination pointer. essential.cpp:14-19. -/
def storeWords (m : Mem) (dest size : Nat) : List (List UInt8) → Res Mem
  | [] => .ok m
  | w :: ws => do
    let m' ← m.storeN dest w
    storeWords m' (dest + size) size ws

/-- One block of `forward_copy`: `cnt` loads followed by `cnt` stores. essential.cpp:27-43 (8 x 8),
46-54 (4 x 8), 57-61 (2 x 8), 64-66, 69-71, 74-76. -/
def copyBlock (m : Mem) (dest src size cnt : Nat) : Res Mem := do
  let ws ← loadWords m src size cnt
  storeWords m dest size ws

/-- `if(n >= size*cnt) { block; n -= size*cnt; }`, threading `(memory, curDest, curSrc, n)`. -/
def copyIf (size cnt : Nat) (st : Mem × Nat × Nat × Nat) : Res (Mem × Nat × Nat × Nat) :=
  let (m, dest, src, n) := st
  if n ≥ size * cnt then do
    let m' ← copyBlock m dest src size cnt
    return (m', dest + size * cnt, src + size * cnt, n - size * cnt)
  else return (m, dest, src, n)

/-- `while(n >= 8 * 8) { ... }`. essential.cpp:26-44. -/
def copyLoop (m : Mem) (dest src n : Nat) : Res (Mem × Nat × Nat × Nat) :=
  if n ≥ 64 then do
    let m' ← copyBlock m dest src 8 8
    copyLoop m' (dest + 64) (src + 64) (n - 64)
  else return (m, dest, src, n)
termination_by n

/-- essential.cpp:22-81 `forward_copy` (LP64). Returns `dest` and the new memory.
Simplification: the `__restrict` qualifiers are ignored (memmove calls it with overlapping ranges). -/
def forwardCopy (m : Mem) (dest src n : Nat) : Res (Nat × Mem) := do
  let st ← copyLoop m dest src n
  let st ← copyIf 8 4 st
  let st ← copyIf 8 2 st
  let st ← copyIf 8 1 st
  let st ← copyIf 4 1 st
  let (m, curDest, curSrc, n) ← copyIf 2 1 st
  if n ≠ 0 then
    let b ← m.load curSrc
    let m ← m.store curDest b
    return (dest, m)
  else return (dest, m)

/-- essential.cpp:96-98 `memcpy`. -/
def memcpy (m : Mem) (dest src n : Nat) : Res (Nat × Mem) := forwardCopy m dest src n

/-- The backward loop of memmove: `for(i = 0; i < size; i++) dest[size-i-1] = src[size-i-1]`.
essential.cpp:202-203; the argument is the number of bytes still to copy. -/
def backwardCopy (m : Mem) (dest src : Nat) : Nat → Res Mem
  | 0 => .ok m
  | k + 1 => do
    let b ← m.load (src + k)
    let m' ← m.store (dest + k) b
    backwardCopy m' dest src k

/-- essential.cpp:191-207 `memmove`. -/
def memmove (m : Mem) (dest src size : Nat) : Res (Nat × Mem) := do
  if dest < src ∨ src + size ≤ dest then
    forwardCopy m dest src size
  else if dest > src then
    let m' ← backwardCopy m dest src size
    return (dest, m')
  else return (dest, m)

/-- The bytes of an unsigned value of `k` bytes in little-endian order (object representation on the
targets LP64 mlibc supports; all patterns used are byte-palindromes). -/
def leBytes : Nat → Nat → List UInt8
  | 0, _ => []
  | k + 1, v => UInt8.ofNat v :: leBytes k (v >>> 8)

/-- `pattern64`. essential.cpp:117-125. -/
def pattern64 (b : UInt8) : UInt64 :=
  b.toUInt64 ||| (b.toUInt64 <<< 8) ||| (b.toUInt64 <<< 16) ||| (b.toUInt64 <<< 24)
    ||| (b.toUInt64 <<< 32) ||| (b.toUInt64 <<< 40) ||| (b.toUInt64 <<< 48) ||| (b.toUInt64 <<< 56)

/-- `pattern32`. essential.cpp:127-131. -/
def pattern32 (b : UInt8) : UInt32 :=
  b.toUInt32 ||| (b.toUInt32 <<< 8) ||| (b.toUInt32 <<< 16) ||| (b.toUInt32 <<< 24)

/-- `pattern16`. essential.cpp:133-135. -/
def pattern16 (b : UInt8) : UInt16 := b.toUInt16 ||| (b.toUInt16 <<< 8)

/-- `while(n && (uintptr_t(curDest) & 7)) { *curDest++ = byte; --n; }`. essential.cpp:112-115. -/
def setHead (m : Mem) (dest : Nat) (b : UInt8) : Nat → Res (Mem × Nat × Nat)
  | 0 => .ok (m, dest, 0)
  | n + 1 =>
    if dest &&& 7 ≠ 0 then do
      let m' ← m.store dest b
      setHead m' (dest + 1) b n
    else .ok (m, dest, n + 1)

/-- `while(n >= 8 * 8) { 8 stores of pattern64 }`. essential.cpp:137-147. -/
def setLoop (m : Mem) (dest : Nat) (w : List UInt8) (n : Nat) : Res (Mem × Nat × Nat) :=
  if n ≥ 64 then do
    let m' ← storeWords m dest 8 (List.replicate 8 w)
    setLoop m' (dest + 64) w (n - 64)
  else return (m, dest, n)
termination_by n

/-- `if(n >= size*cnt) { cnt stores; n -= size*cnt; }`. essential.cpp:148-170. -/
def setIf (size cnt : Nat) (w : List UInt8) (st : Mem × Nat × Nat) : Res (Mem × Nat × Nat) :=
  let (m, dest, n) := st
  if n ≥ size * cnt then do
    let m' ← storeWords m dest size (List.replicate cnt w)
    return (m', dest + size * cnt, n - size * cnt)
  else return (m, dest, n)

/-- essential.cpp:107-174 `memset` (LP64); `val` is converted to `unsigned char`. -/
def memset (m : Mem) (dest : Nat) (val : Int) (n : Nat) : Res (Nat × Mem) := do
  let byte := UInt8.ofInt val
  let p64 := leBytes 8 (pattern64 byte).toNat
  let p32 := leBytes 4 (pattern32 byte).toNat
  let p16 := leBytes 2 (pattern16 byte).toNat
  let (m, cur, n) ← setHead m dest byte n
  let st ← setLoop m cur p64 n
  let st ← setIf 8 4 p64 st
  let st ← setIf 8 2 p64 st
  let st ← setIf 8 1 p64 st
  let st ← setIf 4 1 p32 st
  let (m, cur, n) ← setIf 2 1 p16 st
  if n ≠ 0 then
    let m ← m.store cur byte
    return (dest, m)
  else return (dest, m)

end Mlibc.MemFns
