import Verif.Memory
/-
Model of qsort and bsearch, options/ansi/generic/stdlib.cpp:316-399.

A comparison function is arbitrary code: it gets the bytes of the two elements and an arbitrary private state,
and returns an `int` and a new state. Simplification: it does not write to the array itself (C forbids this).
-/
namespace Mlibc.Sort
open Mlibc

/-- `int (*compare)(const void *, const void *)` with private state `σ`. -/
abbrev Cmp (σ : Type) := σ → List UInt8 → List UInt8 → Int × σ

/-- stdlib.cpp:341-345 `compare_idx`. The comparator may read `size` bytes behind each pointer. -/
def compareIdx {σ : Type} (cmp : Cmp σ) (m : Mem) (s : σ) (base size i j : Nat) : Res (Int × σ) := do
  let a ← m.loadN (base + i * size) size
  let b ← m.loadN (base + j * size) size
  return cmp s a b

/-- stdlib.cpp:350-352, the loop `for (k = 0; k < size; ++k) std::swap(pi[k], pj[k])`;
`std::swap(x, y)` is `t = x; x = y; y = t`. The last argument is the number of bytes left. -/
def swapLoop (m : Mem) (pi pj : Nat) : Nat → Res Mem
  | 0 => .ok m
  | k + 1 => do
    let t ← m.load pi
    let u ← m.load pj
    let m ← m.store pi u
    let m ← m.store pj t
    swapLoop m (pi + 1) (pj + 1) k

/-- stdlib.cpp:347-353 `swap_idx`. -/
def swapIdx (m : Mem) (base size i j : Nat) : Res Mem :=
  swapLoop m (base + i * size) (base + j * size) size

/-- stdlib.cpp:361-366, the loop of `partition`; the last argument is `pivot - j`. Returns memory, comparator
state and `i`. -/
def partLoop {σ : Type} (cmp : Cmp σ) (base size pivot : Nat) (m : Mem) (s : σ) (i j : Nat) :
    Nat → Res (Mem × σ × Nat)
  | 0 => .ok (m, s, i)
  | n + 1 => do
    let (c, s) ← compareIdx cmp m s base size j pivot
    if c ≤ 0 then
      let m ← swapIdx m base size i j
      partLoop cmp base size pivot m s (i + 1) (j + 1) n
    else
      partLoop cmp base size pivot m s i (j + 1) n

/-- stdlib.cpp:356-369 `partition`. -/
def partition {σ : Type} (cmp : Cmp σ) (base size : Nat) (m : Mem) (s : σ) (b e : Nat) :
    Res (Mem × σ × Nat) := do
  ensure (b < e)
  let pivot := e - 1
  let (m, s, i) ← partLoop cmp base size pivot m s b b (pivot - b)
  let m ← swapIdx m base size i pivot
  return (m, s, i)

/-- stdlib.cpp:374-381 `quick_sort`. The first argument bounds the recursion depth; exceeding it counts as `ub`. -/
def quickSort {σ : Type} (cmp : Cmp σ) (base size : Nat) : Nat → Mem → σ → Nat → Nat → Res (Mem × σ)
  | 0, _, _, _, _ => .ub
  | fuel + 1, m, s, b, e => do
    ensure (b ≤ e)
    if e - b ≤ 1 then return (m, s)
    let (m, s, p) ← partition cmp base size m s b e
    let (m, s) ← quickSort cmp base size fuel m s b p
    quickSort cmp base size fuel m s (p + 1) e

/-- stdlib.cpp:386-391 `qsort` (and 393-399 `qsort_r`, whose extra argument is part of the comparator here). -/
def qsort {σ : Type} (cmp : Cmp σ) (m : Mem) (s : σ) (base count size : Nat) : Res (Mem × σ) :=
  quickSort cmp base size (count + 1) m s 0 count

/-- stdlib.cpp:316-337 `bsearch`, the loop. The result is the index of the returned element, `none` for NULL.
The array is the list of its elements; an access outside is `ub`. The first argument bounds the number of
iterations; exceeding it counts as `ub`. -/
def bsearchLoop {ε σ : Type} (cmp : σ → ε → Int × σ) (xs : List ε) : Nat → σ → Nat → Nat → Res (Option Nat × σ)
  | 0, _, _, _ => .ub
  | fuel + 1, s, i, j =>
    if i < j then
      let k := (j - i) / 2
      match xs[i + k]? with
      | none => .ub
      | some e =>
        let (res, s) := cmp s e
        if res < 0 then bsearchLoop cmp xs fuel s i (i + k)
        else if res > 0 then bsearchLoop cmp xs fuel s (i + k + 1) j
        else .ok (some (i + k), s)
    else do
      ensure (i = j)
      return (none, s)

/-- stdlib.cpp:316-337 `bsearch`; `cmp` is `compare(key, ·)`. -/
def bsearch {ε σ : Type} (cmp : σ → ε → Int × σ) (xs : List ε) (s : σ) (count : Nat) : Res (Option Nat × σ) :=
  bsearchLoop cmp xs (count + 1) s 0 count

end Mlibc.Sort
