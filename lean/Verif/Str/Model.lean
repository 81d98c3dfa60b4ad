import Verif.Base
/-
Model of the string functions in options/ansi/generic/string.cpp, options/internal/generic/strings.cpp,
options/internal/generic/essential.cpp, options/posix/generic/posix_string.cpp and
options/posix/generic/strings.cpp.

A `const char *` / `const wchar_t *` argument is modelled by the list of the characters from the pointer
to the end of the object it points into; dereferencing past the end is `Res.ub`. Incrementing the pointer
is taking the tail. A returned pointer is the offset from the argument pointer (`none` = NULL).
A destination buffer is the list of its characters from the pointer to the end of the object; the result
is the new content of that list. Source and destination are distinct objects (`__restrict`).
The narrow and wide functions with identical code share one definition, generic in the character type.
-/
namespace Mlibc.Str
open Mlibc

variable {α : Type} [DecidableEq α] [OfNat α 0]

/-- Byte `s[i]`; undefined behaviour when out of the object. -/
def rd (s : List α) (i : Nat) : Res α :=
  match s[i]? with
  | some c => .ok c
  | none => .ub

/-- essential.cpp:210-215 `strlen`; string.cpp:466-470 `wcslen`. -/
def strlen : List α → Res Nat
  | [] => .ub
  | c :: s => if c = 0 then .ok 0 else do
      let n ← strlen s
      return n + 1

/-- strings.cpp:26-31 `mlibc::strnlen`; posix_string.cpp:55-60 `strnlen`. -/
def strnlen : List α → Nat → Res Nat
  | _, 0 => .ok 0
  | [], _ + 1 => .ub
  | c :: s, n + 1 => if c = 0 then .ok 0 else do
      let k ← strnlen s n
      return k + 1

/-- string.cpp:61-71 `memcmp` (bytes compared as `unsigned char`). -/
def memcmp : List UInt8 → List UInt8 → Nat → Res Int
  | _, _, 0 => .ok 0
  | a :: as, b :: bs, n + 1 =>
      if a < b then .ok (-1) else if a > b then .ok 1 else memcmp as bs n
  | _, _, _ + 1 => .ub

/-- string.cpp:74-88 `__mlibc_strcmp_default` (`strcmp`). -/
def strcmp : List UInt8 → List UInt8 → Res Int
  | a :: as, b :: bs =>
      if a = 0 ∧ b = 0 then .ok 0
      else if a < b then .ok (-1)
      else if a > b then .ok 1
      else strcmp as bs
  | _, _ => .ub

/-- string.cpp:99-114 `strncmp`. -/
def strncmp : List UInt8 → List UInt8 → Nat → Res Int
  | _, _, 0 => .ok 0
  | a :: as, b :: bs, n + 1 =>
      if a = 0 ∧ b = 0 then .ok 0
      else if a < b then .ok (-1)
      else if a > b then .ok 1
      else strncmp as bs n
  | _, _, _ + 1 => .ub

/-- posix strings.cpp:75-93 `strcasecmp`. `low` is the locale's `tolower` on bytes. Simplification: the
`a == b` pointer shortcut is not represented (it returns 0, as does the loop on equal strings). -/
def strcasecmp (low : UInt8 → UInt8) : List UInt8 → List UInt8 → Res Int
  | a :: as, b :: bs =>
      if low a = 0 ∧ low b = 0 then .ok 0
      else if low a < low b then .ok (-1)
      else if low a > low b then .ok 1
      else strcasecmp low as bs
  | _, _ => .ub

/-- strings.cpp:8-24 `mlibc::strncasecmp` (same remark on the `a == b` shortcut). -/
def strncasecmp (low : UInt8 → UInt8) : List UInt8 → List UInt8 → Nat → Res Int
  | _, _, 0 => .ok 0
  | a :: as, b :: bs, n + 1 =>
      if low a = 0 ∧ low b = 0 then .ok 0
      else if low a < low b then .ok (-1)
      else if low a > low b then .ok 1
      else strncasecmp low as bs n
  | _, _, _ + 1 => .ub

/-- string.cpp:328-331 `wcscmp`; `wchar_t` is a 32-bit `int`, so `*l - *r` may overflow, which is
undefined behaviour. -/
def wcscmp : List Int32 → List Int32 → Res Int
  | a :: as, b :: bs =>
      if a = b ∧ a ≠ 0 ∧ b ≠ 0 then wcscmp as bs
      else
        let d := a.toInt - b.toInt
        if -2147483648 ≤ d ∧ d ≤ 2147483647 then .ok d else .ub
  | _, _ => .ub

/-- string.cpp:338-341 `wcsncmp`. -/
def wcsncmp : List Int32 → List Int32 → Nat → Res Int
  | _, _, 0 => .ok 0
  | a :: as, b :: bs, n + 1 =>
      if a = b ∧ a ≠ 0 ∧ b ≠ 0 then wcsncmp as bs n
      else if a < b then .ok (-1) else if a > b then .ok 1 else .ok 0
  | _, _, _ + 1 => .ub

/-- string.cpp:362-372 `wmemcmp`. -/
def wmemcmp : List Int32 → List Int32 → Nat → Res Int
  | _, _, 0 => .ok 0
  | a :: as, b :: bs, n + 1 =>
      if a < b then .ok (-1) else if a > b then .ok 1 else wmemcmp as bs n
  | _, _, _ + 1 => .ub

/-- string.cpp:137-143 `memchr`; string.cpp:458-464 `wmemchr`. -/
def memchr : List α → α → Nat → Res (Option Nat)
  | _, _, 0 => .ok none
  | [], _, _ + 1 => .ub
  | b :: s, c, n + 1 => if b = c then .ok (some 0) else do
      let r ← memchr s c n
      return r.map (· + 1)

/-- posix_string.cpp:156-164 `memrchr`: `while(n--) if(s[n] == c) return s + n;`. -/
def memrchr (s : List α) (c : α) : Nat → Res (Option Nat)
  | 0 => .ok none
  | n + 1 => do
      let b ← rd s n
      if b = c then return some n else memrchr s c n

/-- string.cpp:144-156 `strchr`. -/
def strchr : List α → α → Res (Option Nat)
  | [], _ => .ub
  | b :: s, c =>
      if b ≠ 0 then
        if b = c then .ok (some 0) else do
          let r ← strchr s c
          return r.map (· + 1)
      else if c = 0 then .ok (some 0)
      else .ok none

/-- string.cpp:250-259 `strchrnul`. -/
def strchrnul : List α → α → Res Nat
  | [], _ => .ub
  | b :: s, c =>
      if b ≠ 0 then
        if b = c then .ok 0 else do
          let r ← strchrnul s c
          return r + 1
      else .ok 0

/-- string.cpp:157-164 `strcspn`. -/
def strcspn : List α → List α → Res Nat
  | [], _ => .ub
  | c :: s, chrs => do
      if c = 0 then return 0
      let r ← strchr chrs c
      if r.isSome then return 0
      let n ← strcspn s chrs
      return n + 1

/-- string.cpp:185-192 `strspn`. -/
def strspn : List α → List α → Res Nat
  | [], _ => .ub
  | c :: s, chrs => do
      if c = 0 then return 0
      let r ← strchr chrs c
      if r.isNone then return 0
      let n ← strspn s chrs
      return n + 1

/-- string.cpp:165-173 `strpbrk`. -/
def strpbrk : List α → List α → Res (Option Nat)
  | [], _ => .ub
  | c :: s, chrs => do
      if c = 0 then return none
      let r ← strchr chrs c
      if r.isSome then return some 0
      let n ← strpbrk s chrs
      return n.map (· + 1)

/-- The loop of `strrchr`: `for(i = 0; i <= length; i++) if(s[length - i] == cc) ...`; the argument is
`length - i`. string.cpp:179-182. -/
def strrchrLoop (s : List α) (c : α) : Nat → Res (Option Nat)
  | 0 => do
      let b ← rd s 0
      if b = c then return some 0 else return none
  | k + 1 => do
      let b ← rd s (k + 1)
      if b = c then return some (k + 1) else strrchrLoop s c k

/-- string.cpp:174-184 `strrchr`. -/
def strrchr (s : List α) (c : α) : Res (Option Nat) := do
  let length ← strlen s
  strrchrLoop s c length

/-- string.cpp:374-379 `wcschr`. -/
def wcschr : List α → α → Res (Option Nat)
  | s, c =>
    if c = 0 then do
      let n ← strlen s
      return some n
    else go s c
where
  /-- `for(; *s && *s != c; s++); return *s ? s : nullptr;` -/
  go : List α → α → Res (Option Nat)
    | [], _ => .ub
    | b :: s, c =>
      if b ≠ 0 ∧ b ≠ c then do
        let r ← go s c
        return r.map (· + 1)
      else if b ≠ 0 then .ok (some 0) else .ok none

/-- The inner loop of strstr: `while(pattern[j] && s[i+j] && s[i+j] == pattern[j]) j++;` followed by
`!pattern[j]`. string.cpp:200-204. -/
def strstrMatch : List α → List α → Res Bool
  | _, [] => .ub
  | s, p :: ps =>
      if p = 0 then .ok true
      else match s with
        | [] => .ub
        | c :: cs => if c ≠ 0 ∧ c = p then strstrMatch cs ps else .ok false

/-- The outer loop `for(i = 0; s[i]; i++)` of strstr. string.cpp:199-208. -/
def strstrLoop : List α → List α → Res (Option Nat)
  | [], _ => .ub
  | c :: s, pat =>
      if c = 0 then .ok none else do
        let b ← strstrMatch (c :: s) pat
        if b then return some 0
        let r ← strstrLoop s pat
        return r.map (· + 1)

/-- string.cpp:193-209 `strstr`. -/
def strstr (s pat : List α) : Res (Option Nat) := do
  let p0 ← rd pat 0
  if p0 = 0 then return some 0
  strstrLoop s pat

/-- The inner loop of wcsstr. string.cpp:424-430. -/
def wcsstrMatch : List α → List α → Res Bool
  | _, [] => .ub
  | s, p :: ps =>
      if p = 0 then .ok true
      else match s with
        | [] => .ub
        | c :: cs => if c = p then wcsstrMatch cs ps else .ok false

/-- string.cpp:421-437 `wcsstr`. -/
def wcsstr : List α → List α → Res (Option Nat)
  | [], _ => .ub
  | c :: s, pat =>
      if c = 0 then .ok none else do
        let b ← wcsstrMatch (c :: s) pat
        if b then return some 0
        let r ← wcsstr s pat
        return r.map (· + 1)

/-- The inner loop of memmem: compare `m` needle bytes with a haystack of which `k` bytes remain.
posix_string.cpp:178-183. -/
def memmemMatch : List α → Nat → List α → Nat → Res Bool
  | _, _, _, 0 => .ok true
  | _, 0, _, _ + 1 => .ok false
  | h :: hs, k + 1, p :: ps, m + 1 => if h ≠ p then .ok false else memmemMatch hs k ps m
  | _, _ + 1, _, _ + 1 => .ub

/-- posix_string.cpp:171-190 `memmem`: `hlen` haystack bytes from the pointer, `nlen` needle bytes. -/
def memmem : List α → Nat → List α → Nat → Res (Option Nat)
  | _, 0, _, _ => .ok none
  | hs, k + 1, nd, nlen => do
      let b ← memmemMatch hs (k + 1) nd nlen
      if b then return some 0
      let r ← memmem hs.tail k nd nlen
      return r.map (· + 1)

/-- The loop of strcasestr. posix_string.cpp:128-134. -/
def strcasestrLoop (low : UInt8 → UInt8) (pat : List UInt8) (plen : Nat) : List UInt8 → Res (Option Nat)
  | [] => .ub
  | c :: s =>
      if c = 0 then .ok none else do
        let r ← strncasecmp low (c :: s) pat plen
        if r = 0 then return some 0
        let k ← strcasestrLoop low pat plen s
        return k.map (· + 1)

/-- posix_string.cpp:125-135 `strcasestr`. -/
def strcasestr (low : UInt8 → UInt8) (s pat : List UInt8) : Res (Option Nat) := do
  let plen ← strlen pat
  strcasestrLoop low pat plen s

/-! ### Copies -/

/-- string.cpp:21-28 `strcpy`; string.cpp:286-290 `wcscpy`. -/
def strcpy : List α → List α → Res (List α)
  | _, [] => .ub
  | [], _ :: _ => .ub
  | _ :: d, c :: s => if c = 0 then .ok (0 :: d) else do
      let r ← strcpy d s
      return c :: r

/-- `while(i < max_size) { *(dest++) = 0; i++; }` string.cpp:37-40; `wmemset(dest, 0, n)`. -/
def fill (c : α) : List α → Nat → Res (List α)
  | d, 0 => .ok d
  | [], _ + 1 => .ub
  | _ :: d, n + 1 => do
      let r ← fill c d n
      return c :: r

/-- string.cpp:29-42 `strncpy`; `n` counts `max_size - i`. Note that `*src_bytes` is evaluated before the
bound is tested. -/
def strncpy : List α → List α → Nat → Res (List α)
  | _, [], _ => .ub
  | d, c :: s, n =>
      if c ≠ 0 then
        match n, d with
        | 0, d => .ok d
        | _ + 1, [] => .ub
        | n + 1, _ :: d => do
            let r ← strncpy d s n
            return c :: r
      else fill 0 d n

/-- string.cpp:292-298 `wcsncpy` (the bound is tested first). -/
def wcsncpy : List α → List α → Nat → Res (List α)
  | d, _, 0 => .ok d
  | _, [], _ + 1 => .ub
  | d, c :: s, n + 1 =>
      if c ≠ 0 then
        match d with
        | [] => .ub
        | _ :: d => do
            let r ← wcsncpy d s n
            return c :: r
      else fill 0 d (n + 1)

/-- Apply an operation to the buffer at offset `k`. -/
def atOff (d : List α) (k : Nat) (f : List α → Res (List α)) : Res (List α) := do
  let r ← f (d.drop k)
  return d.take k ++ r

/-- string.cpp:44-47 `strcat`; string.cpp:310-313 `wcscat`. -/
def strcat (d s : List α) : Res (List α) := do
  let n ← strlen d
  atOff d n (fun d => strcpy d s)

/-- The copy loop of strncat and its final `*dest_bytes = 0`. string.cpp:53-58. `*src_bytes` is evaluated
before the bound is tested. -/
def strncatLoop : List α → List α → Nat → Res (List α)
  | _, [], _ => .ub
  | d, c :: s, n =>
      match d with
      | [] => .ub
      | _ :: d =>
        if c ≠ 0 ∧ 0 < n then do
          let r ← strncatLoop d s (n - 1)
          return c :: r
        else .ok (0 :: d)

/-- string.cpp:48-59 `strncat`; string.cpp:315-326 `wcsncat`. -/
def strncat (d s : List α) (n : Nat) : Res (List α) := do
  let k ← strlen d
  atOff d k (fun d => strncatLoop d s n)

/-- strings.cpp:38-42, the copy loop of strlcpy `while (--left > 0) if ((*dst++ = *src++) == 0) break;`.
`left` is the value before the decrement (at least 1). Returns the destination from the start of the loop,
the number of characters advanced, whether the loop ended by `break` (`left ≠ 0`). -/
def strlcpyLoop : List α → List α → Nat → Res (List α × Nat × Bool)
  | d, _, 0 => .ok (d, 0, false)        -- not reached (`left ≥ 1`)
  | d, _, 1 => .ok (d, 0, false)        -- `--left == 0`
  | _, [], _ + 2 => .ub
  | [], _, _ + 2 => .ub
  | _ :: d, c :: s, k + 2 =>
      if c = 0 then .ok (c :: d, 1, true)
      else do
        let (r, n, b) ← strlcpyLoop d s (k + 1)
        return (c :: r, n + 1, b)

/-- `*dst = '\0'` at an offset. -/
def put (d : List α) (i : Nat) (c : α) : Res (List α) :=
  if i < d.length then .ok (d.set i c) else .ub

/-- strings.cpp:33-51 `mlibc::strlcpy`; posix wchar.cpp L658-676 `wcslcpy` has the same statements. Returns `(src - s - 1, destination)`. -/
def strlcpy (d s : List α) (n : Nat) : Res (Nat × List α) := do
  if n = 0 then
    let k ← strlen s                     -- `while (*src++);`
    return (k, d)
  else
    let (d, i, broke) ← strlcpyLoop d s n
    if broke then return (i - 1, d)
    else
      let d ← put d i 0
      let k ← strlen (s.drop i)
      return (i + k, d)

/-- posix_string.cpp:197-203 `strlcat`. -/
def strlcat (d s : List α) (n : Nat) : Res (Nat × List α) := do
  let l ← strnlen d n
  if l = n then
    let k ← strlen s
    return (l + k, d)
  else
    let (k, r) ← strlcpy (d.drop l) s (n - l)
    return (l + k, d.take l ++ r)

/-- `memcpy(dest, src, n)` between distinct objects (its byte-exactness is C01). -/
def copyN : List α → List α → Nat → Res (List α)
  | d, _, 0 => .ok d
  | _ :: d, c :: s, n + 1 => do
      let r ← copyN d s n
      return c :: r
  | _, _, _ + 1 => .ub

/-- posix_string.cpp:46-50 `stpcpy`. Returns `(dest + n, destination)`. -/
def stpcpy (d s : List α) : Res (Nat × List α) := do
  let n ← strlen s
  let r ← copyN d s (n + 1)
  return (n, r)

/-- strings.cpp:53-66 `mlibc::stpncpy`. Returns `(dest + n - nulls, destination)`. -/
def stpncpy (d s : List α) (n : Nat) : Res (Nat × List α) := do
  let srcLen ← strlen s
  let nulls := if n ≥ srcLen then n - srcLen else 0
  let copied := if n ≥ srcLen then srcLen else n
  let d ← copyN d s copied
  let r ← fill 0 (d.drop srcLen) nulls
  return (n - nulls, d.take srcLen ++ r)

/-- posix_string.cpp:137-153 `memccpy`. Returns `(offset or NULL, destination)`. -/
def memccpy : List α → List α → α → Nat → Res (Option Nat × List α)
  | d, _, _, 0 => .ok (none, d)
  | _ :: d, b :: s, c, n + 1 =>
      if b = c then .ok (some 1, b :: d) else do
        let (r, d') ← memccpy d s c n
        return (r.map (· + 1), b :: d')
  | _, _, _, _ + 1 => .ub

/-- posix_string.cpp:18-30 `strdup`, when the allocation succeeds; `fresh` is the uninitialised block
returned by `malloc(num_bytes + 1)`, of exactly that size. -/
def strdup (fresh : Nat → List α) (s : List α) : Res (List α) := do
  let n ← strlen s
  let d ← copyN (fresh (n + 1)) s n
  put d n 0

/-- posix_string.cpp:32-44 `strndup`, when the allocation succeeds. -/
def strndup (fresh : Nat → List α) (s : List α) (maxSize : Nat) : Res (List α) := do
  let n ← strnlen s maxSize
  let d ← copyN (fresh (n + 1)) s n
  put d n 0

end Mlibc.Str
