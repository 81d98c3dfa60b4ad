import Verif.MemFns.Props

/-
The debug allocator (options/internal/generic/allocator.cpp L87-253, with `neverReleaseVa` and `logAllocations` false).
Memory is a map from addresses to bytes; what the kernel has mapped for the allocator is kept as a list of ranges, guard
pages included. Where the kernel places a mapping is a parameter, restricted only to page-aligned ranges that are free.
`size_t` has 64 bits; addresses are naturals. Property C59.
-/
namespace Mlibc.DebugAlloc
open Mlibc Mem

/-- `2^64` -/
local notation "W" => (18446744073709551616 : Nat)

/-- `x & ~size_t{k - 1}` for `k` a power of two. -/
def alignDown (x k : Nat) : Nat := x - x % k

/-- `pg_size` L133 -/
def pgSize (size : Nat) : Nat := alignDown ((size + 4095) % W) 4096

/-- `offset` L134 -/
def offset (size : Nat) : Nat := alignDown ((pgSize size + W - size) % W) 16

/-- `pg_size + 2 * page_size` L140 -/
def mapLen (pg : Nat) : Nat := (pg + 8192) % W

/-- `pg_size - offset - size` L162 -/
def tail (size : Nat) : Nat := (pgSize size + 2 * W - offset size - size) % W

/-- The allocator's mappings (base, length) and memory. -/
structure H where
  mem : Mem
  maps : List (Nat × Nat)

/-- The magic number as bytes. L94-97 -/
def magic : List UInt8 :=
  MemFns.leBytes 8 0x6d4bbb9f3446e83f ++ MemFns.leBytes 8 0x25e213a7a7f9f954 ++
  MemFns.leBytes 8 0x1a3c667586538bef ++ MemFns.leBytes 8 0x994f34ff71c090bc

/-- The bytes of `AllocatorMeta`. L88-92, L152 -/
def metaBytes (size pg : Nat) : List UInt8 := MemFns.leBytes 8 size ++ MemFns.leBytes 8 pg ++ magic

/-- `sysdep<VmMap>` twice: the range becomes readable and writable (zero-filled) except for its last page. L140-145 -/
def vmMap (h : H) (base len : Nat) : H :=
  ⟨fun a => if base ≤ a ∧ a < base + (len - 4096) then some 0 else h.mem a, (base, len) :: h.maps⟩

/-- `sysdep<VmUnmap>` L211 -/
def vmUnmap (h : H) (base len : Nat) : H :=
  ⟨fun a => if base ≤ a ∧ a < base + len then none else h.mem a, h.maps.filter (· ≠ (base, len))⟩

/-- Filling a new mapping at `base`: metadata page, space before the block, block, space after it. L147-160 -/
def fill (h : H) (base page off size tl : Nat) (md : List UInt8) : Res (Nat × H) := do
  let (_, m) ← MemFns.memset h.mem base 68 page
  let m ← m.storeN base md
  let (_, m) ← MemFns.memset m (base + page) 65 off
  let (_, m) ← MemFns.memset m (base + page + off) 66 size
  let (_, m) ← MemFns.memset m (base + page + off + size) 67 tl
  return (base + page + off, ⟨m, h.maps⟩)

/-- `allocate(size)`; the kernel places the mapping at `base`, `none` is a failing system call. L132-165 -/
def allocate (h : H) (base : Option Nat) (size : Nat) : Res (Nat × H) :=
  match base with
  | none => .panic
  | some base =>
    fill (vmMap h base (mapLen (pgSize size))) base 4096 (offset size) size (tail size) (metaBytes size (pgSize size))

/-- The number with these bytes, least significant first. -/
def fromLe : List UInt8 → Nat
  | [] => 0
  | b :: bs => b.toNat + 256 * fromLe bs

/-- Reading the metadata of a block: address, size and page size; a wrong magic number is a panic. L181-185 -/
def readMeta (m : Mem) (ptr : Nat) : Res (Nat × Nat × Nat) :=
  if alignDown ptr 4096 < 4096 then .ub
  else do
    let a := alignDown ptr 4096 - 4096
    let size ← m.loadN a 8
    let pg ← m.loadN (a + 8) 8
    let mg ← m.loadN (a + 16) 32
    if mg = magic then return (a, fromLe size, fromLe pg) else .panic

/-- `deallocate`, for a pointer that is not null. L190-214 -/
def deallocate (h : H) (ptr size : Nat) : Res H :=
  (readMeta h.mem ptr).bind fun r => if size ≠ r.2.1 then .panic else .ok (vmUnmap h r.1 (mapLen r.2.2))

/-- `free`, for a pointer that is not null. L174-188 -/
def free (h : H) (ptr : Nat) : Res H := (readMeta h.mem ptr).bind fun r => deallocate h ptr r.2.1

/-- `reallocate`; `none` is the null pointer. L216-240 -/
def reallocate (h : H) (base : Option Nat) (ptr : Option Nat) (size : Nat) : Res (Option Nat × H) :=
  if size = 0 then
    match ptr with
    | none => .ok (none, h)
    | some p => (free h p).bind fun h => .ok (none, h)
  else (allocate h base size).bind fun (q, h) =>
    match ptr with
    | none => .ok (some q, h)
    | some p =>
      (readMeta h.mem p).bind fun r =>
        (MemFns.memcpy h.mem q p (min r.2.1 size)).bind fun m =>
          (deallocate ⟨m.2, h.maps⟩ p r.2.1).bind fun h => .ok (some q, h)

/-- `get_size` L242-253 -/
def getSize (h : H) (ptr : Nat) : Res Nat := (readMeta h.mem ptr).bind fun r => .ok r.2.1

/-- `allocate(size, alignment)` L166-171 -/
def allocateAligned (h : H) (base : Option Nat) (size alignment : Nat) : Res (Nat × H) :=
  (allocate h base (if alignment > size then alignment else size)).bind fun r =>
    if r.1 % alignment = 0 then .ok r else .panic

/-! ## Specification -/

/-- A heap: the live blocks with what they are known to contain; `none` is a byte nobody wrote. -/
abbrev Heap := List (Nat × List (Option UInt8))

/-- What a program does with the allocator and its blocks. -/
inductive Op where
  | malloc (size : Nat)
  | free (p : Nat)
  | realloc (p : Option Nat) (size : Nat)
  | size (p : Nat)
  | write (p i : Nat) (b : UInt8)
  | read (p i : Nat)
  deriving DecidableEq, Repr

/-- Results. -/
inductive Ret where
  | unit | ptr (p : Option Nat) | size (n : Nat) | byte (b : UInt8)
  deriving DecidableEq, Repr

/-- A block of `n` bytes may be given out at `p`: aligned, and without a byte in common with a live block. -/
def Room (S : Heap) (p n : Nat) : Prop :=
  p % 16 = 0 ∧ ∀ q c, (q, c) ∈ S → q ≠ p ∧ (p + n ≤ q ∨ q + c.length ≤ p)

/-- The results an operation may have. -/
def Allowed (S : Heap) : Op → Ret → Prop
  | .malloc n, r => ∃ p, r = .ptr (some p) ∧ Room S p n
  | .free _, r => r = .unit
  | .realloc _ n, r => if n = 0 then r = .ptr none else ∃ q, r = .ptr (some q) ∧ Room S q n
  | .size p, r => ∃ c, (p, c) ∈ S ∧ r = .size c.length
  | .write _ _ _, r => r = .unit
  | .read p i, r => ∃ b, r = .byte b ∧ ∀ c v, (p, c) ∈ S → c[i]? = some (some v) → b = v

/-- What a block contains. -/
def contents (S : Heap) (p : Nat) : List (Option UInt8) := ((S.find? (·.1 = p)).map (·.2)).getD []

/-- The heap after an operation with its result. -/
def next (S : Heap) : Op × Ret → Heap
  | (.malloc n, .ptr (some p)) => (p, List.replicate n none) :: S
  | (.free p, _) => S.filter (·.1 ≠ p)
  | (.realloc (some p) _, .ptr none) => S.filter (·.1 ≠ p)
  | (.realloc none n, .ptr (some q)) => (q, List.replicate n none) :: S
  | (.realloc (some p) n, .ptr (some q)) =>
    (q, (contents S p).take n ++ List.replicate (n - (contents S p).length) none) :: S.filter (·.1 ≠ p)
  | (.write p i b, _) => S.map fun x => if x.1 = p then (x.1, x.2.set i (some b)) else x
  | _ => S

/-- The heap after a history that began with no blocks. -/
def replay (es : List (Op × Ret)) : Heap := es.foldl next []

/-- The program keeps to its blocks, and requests leave room for the bookkeeping below 2^64. -/
def Legal (S : Heap) : Op → Prop
  | .malloc n => n + 16384 ≤ W
  | .free p | .size p => ∃ c, (p, c) ∈ S
  | .realloc none n => n + 16384 ≤ W
  | .realloc (some p) n => n + 16384 ≤ W ∧ ∃ c, (p, c) ∈ S
  | .write p i _ | .read p i => ∃ c, (p, c) ∈ S ∧ i < c.length

/-! ## Histories -/

/-- The implementation of an operation; `base` is the kernel's choice for a new mapping. -/
def exec (h : H) (base : Option Nat) : Op → Res (Ret × H)
  | .malloc n => (allocate h base n).bind fun r => .ok (.ptr (some r.1), r.2)
  | .free p => (free h p).bind fun h => .ok (.unit, h)
  | .realloc p n => (reallocate h base p n).bind fun r => .ok (.ptr r.1, r.2)
  | .size p => (getSize h p).bind fun n => .ok (.size n, h)
  | .write p i b => (h.mem.store (p + i) b).bind fun m => .ok (.unit, ⟨m, h.maps⟩)
  | .read p i => (h.mem.load (p + i)).bind fun b => .ok (.byte b, h)

/-- What the kernel promises about a new mapping of at least `len` bytes: page-aligned and unused. -/
def Free (h : H) (base len : Nat) : Prop :=
  base % 4096 = 0 ∧ (∀ a, base ≤ a → a < base + len → h.mem a = none) ∧
    ∀ r ∈ h.maps, base + len ≤ r.1 ∨ r.1 + r.2 ≤ base

/-- The mapping the kernel chooses is free, for an operation that maps memory. -/
def KernelOk (h : H) (base : Nat) : Op → Prop
  | .malloc n | .realloc _ n => Free h base (pgSize n + 8192)
  | _ => True

/-- Histories of a program that keeps to its blocks, from a state without allocations (other memory is arbitrary). -/
inductive Hist : List (Op × Ret) → H → Prop where
  | nil {m} : Hist [] ⟨m, []⟩
  | snoc {es h op base r h'} : Hist es h → Legal (replay es) op → KernelOk h base op →
      exec h (some base) op = .ok (r, h') → Hist (es ++ [(op, r)]) h'

/-! ## Proof -/

theorem pgSize_eq {n : Nat} (h : n + 16384 ≤ W) : pgSize n % 4096 = 0 ∧ n ≤ pgSize n ∧ pgSize n < n + 4096 := by
  unfold pgSize alignDown
  have e : (n + 4095) % W = n + 4095 := Nat.mod_eq_of_lt (by omega)
  rw [e]
  omega

theorem offset_eq {n : Nat} (h : n + 16384 ≤ W) :
    offset n % 16 = 0 ∧ offset n + n ≤ pgSize n ∧ pgSize n < offset n + n + 16 ∧ offset n < 4096 := by
  obtain ⟨h1, h2, h3⟩ := pgSize_eq h
  unfold offset alignDown
  have e : (pgSize n + W - n) % W = pgSize n - n := by
    rw [show pgSize n + W - n = (pgSize n - n) + W by omega, Nat.add_mod_right]
    exact Nat.mod_eq_of_lt (by omega)
  rw [e]
  omega

theorem mapLen_eq {n : Nat} (h : n + 16384 ≤ W) : mapLen (pgSize n) = pgSize n + 8192 := by
  obtain ⟨h1, h2, h3⟩ := pgSize_eq h
  exact Nat.mod_eq_of_lt (by omega)

theorem tail_eq {n : Nat} (h : n + 16384 ≤ W) : tail n = pgSize n - offset n - n := by
  obtain ⟨h1, h2, h3⟩ := pgSize_eq h
  obtain ⟨o1, o2, o3, o4⟩ := offset_eq h
  unfold tail
  generalize pgSize n = a at *
  generalize offset n = b at *
  omega

theorem bind_ok' {α β : Type} (x : α) (f : α → Res β) : (Res.ok x).bind f = f x := rfl

theorem length_leBytes (k v : Nat) : (MemFns.leBytes k v).length = k := by
  induction k generalizing v with
  | zero => rfl
  | succ k ih => simp [MemFns.leBytes, ih]

theorem fromLe_leBytes (k v : Nat) : fromLe (MemFns.leBytes k v) = v % 256 ^ k := by
  induction k generalizing v with
  | zero => simp [MemFns.leBytes, fromLe, Nat.mod_one]
  | succ k ih =>
    rw [MemFns.leBytes, fromLe, ih, UInt8.toNat_ofNat', Nat.shiftRight_eq_div_pow]
    rw [show 256 ^ (k + 1) = 256 * 256 ^ k by rw [Nat.pow_succ, Nat.mul_comm], Nat.mod_mul]

theorem length_magic : magic.length = 32 := by decide +kernel

theorem length_metaBytes (s p : Nat) : (metaBytes s p).length = 48 := by
  simp [metaBytes, length_leBytes, length_magic]

attribute [local irreducible] metaBytes magic

/-- What `fill` does. -/
theorem fill_ok (h : H) (base page off n tl : Nat) (md : List UInt8) (hmd : md.length ≤ page)
    (v0 : ∀ a, base ≤ a → a < base + page + off + n + tl → (h.mem a).isSome) : ∃ m,
    fill h base page off n tl md = .ok (base + page + off, ⟨m, h.maps⟩) ∧
    (∀ a, (a < base ∨ base + page + off + n + tl ≤ a) → m a = h.mem a) ∧
    (∀ i < md.length, m (base + i) = md[i]?) ∧
    (∀ i < n, m (base + page + off + i) = some 66) := by
  obtain ⟨m1, e1, c1⟩ := MemFns.memset_exact h.mem base page 68 (fun i hi => v0 _ (by omega) (by omega))
  have v1 : ∀ a, base ≤ a → a < base + page + off + n + tl → (m1 a).isSome := by
    intro a h1 h2; rw [c1]; split
    · rfl
    · exact v0 a h1 h2
  have e2 := storeN_ok (m := m1) (a := base) (bs := md) (fun i hi => v1 _ (by omega) (by omega))
  have c2 : ∀ a, (m1.patch base md) a = if base ≤ a ∧ a < base + md.length then md[a - base]? else m1 a := by
    intro a; simp only [Mem.patch]
  generalize m1.patch base md = m2 at *
  have v2 : ∀ a, base ≤ a → a < base + page + off + n + tl → (m2 a).isSome := by
    intro a h1 h2; rw [c2]; split
    · rename_i hh
      rw [List.getElem?_eq_getElem (by omega)]; rfl
    · exact v1 a h1 h2
  obtain ⟨m3, e3, c3⟩ := MemFns.memset_exact m2 (base + page) off 65 (fun i hi => v2 _ (by omega) (by omega))
  have v3 : ∀ a, base ≤ a → a < base + page + off + n + tl → (m3 a).isSome := by
    intro a h1 h2; rw [c3]; split
    · rfl
    · exact v2 a h1 h2
  obtain ⟨m4, e4, c4⟩ := MemFns.memset_exact m3 (base + page + off) n 66 (fun i hi => v3 _ (by omega) (by omega))
  have v4 : ∀ a, base ≤ a → a < base + page + off + n + tl → (m4 a).isSome := by
    intro a h1 h2; rw [c4]; split
    · rfl
    · exact v3 a h1 h2
  obtain ⟨m5, e5, c5⟩ := MemFns.memset_exact m4 (base + page + off + n) tl 67 (fun i hi => v4 _ (by omega) (by omega))
  refine ⟨m5, ?_, ?_, ?_, ?_⟩
  · simp only [fill, e1, e2, e3, e4, e5, Res.ok_bind, Res.pure_eq]
  · intro a ha
    rw [c5, if_neg (by omega), c4, if_neg (by omega), c3, if_neg (by omega), c2, if_neg (by omega), c1,
      if_neg (by omega)]
  · intro i hi
    rw [c5, if_neg (by omega), c4, if_neg (by omega), c3, if_neg (by omega), c2, if_pos (by omega),
      Nat.add_sub_cancel_left]
  · intro i hi
    rw [c5, if_neg (by omega), c4, if_pos (by omega)]
    rfl

/-- What `allocate` does. -/
theorem allocate_ok (h : H) (base n : Nat) (hn : n + 16384 ≤ W) : ∃ m,
    allocate h (some base) n = .ok (base + 4096 + offset n, ⟨m, (base, pgSize n + 8192) :: h.maps⟩) ∧
    (∀ a, (a < base ∨ base + (pgSize n + 4096) ≤ a) → m a = h.mem a) ∧
    (∀ i < 48, m (base + i) = (metaBytes n (pgSize n))[i]?) ∧
    (∀ i < n, m (base + 4096 + offset n + i) = some 66) := by
  obtain ⟨p1, p2, p3⟩ := pgSize_eq hn
  obtain ⟨o1, o2, o3, o4⟩ := offset_eq hn
  have hl := mapLen_eq hn
  have hl2 := tail_eq hn
  have hlen := length_metaBytes n (pgSize n)
  obtain ⟨m, e, h1, h2, h3⟩ := fill_ok (vmMap h base (pgSize n + 8192)) base 4096 (offset n) n
    (pgSize n - offset n - n) (metaBytes n (pgSize n)) (by omega) (by
      intro a h1 h2
      simp only [vmMap]
      rw [if_pos (by omega)]; rfl)
  refine ⟨m, ?_, ?_, ?_, h3⟩
  · unfold allocate
    rw [hl, hl2]
    exact e
  · intro a ha
    rw [h1 a (by omega)]
    simp only [vmMap]
    rw [if_neg (by omega)]
  · intro i hi
    exact h2 i (by omega)

/-- A live block as the implementation has it. -/
structure Blk where
  base : Nat
  bytes : List (Option UInt8)

/-- The pointer the program has. -/
def Blk.ptr (b : Blk) : Nat := b.base + 4096 + offset b.bytes.length
/-- The mapping it lies in. -/
def Blk.region (b : Blk) : Nat × Nat := (b.base, pgSize b.bytes.length + 8192)
/-- The block as the specification has it. -/
def Blk.abs (b : Blk) : Nat × List (Option UInt8) := (b.ptr, b.bytes)

/-- What memory has for a live block. -/
structure BlkOk (m : Mem) (b : Blk) : Prop where
  page : b.base % 4096 = 0
  small : b.bytes.length + 16384 ≤ W
  hdr : ∀ i < 48, m (b.base + i) = (metaBytes b.bytes.length (pgSize b.bytes.length))[i]?
  body : ∀ i < b.bytes.length, ∃ v, m (b.ptr + i) = some v ∧ ∀ w, b.bytes[i]? = some (some w) → v = w
  guard : ∀ a, b.base + (pgSize b.bytes.length + 4096) ≤ a → a < b.base + (pgSize b.bytes.length + 8192) → m a = none

/-- Two ranges without a common address. -/
def Apart (r s : Nat × Nat) : Prop := r.1 + r.2 ≤ s.1 ∨ s.1 + s.2 ≤ r.1

/-- The implementation's state represents a heap. -/
structure Rel (h : H) (S : Heap) (bs : List Blk) : Prop where
  heap : S = bs.map Blk.abs
  maps : h.maps = bs.map Blk.region
  ok : ∀ b ∈ bs, BlkOk h.mem b
  apart : bs.Pairwise (fun b c => Apart b.region c.region)

theorem BlkOk.congr {m m' : Mem} {b : Blk} (h : BlkOk m b)
    (hm : ∀ a, b.base ≤ a → a < b.base + (pgSize b.bytes.length + 8192) → m' a = m a) : BlkOk m' b := by
  obtain ⟨p1, p2, p3⟩ := pgSize_eq h.small
  obtain ⟨o1, o2, o3, o4⟩ := offset_eq h.small
  refine ⟨h.page, h.small, ?_, ?_, ?_⟩
  · intro i hi; rw [hm (b.base + i) (by omega) (by omega)]; exact h.hdr i hi
  · intro i hi
    rw [hm (b.ptr + i) (by simp only [Blk.ptr]; omega) (by simp only [Blk.ptr]; omega)]; exact h.body i hi
  · intro a h1 h2; rw [hm a (by omega) (by omega)]; exact h.guard a h1 h2

theorem loadN_eq {m : Mem} {a : Nat} {bs : List UInt8} (h : ∀ i < bs.length, m (a + i) = bs[i]?) :
    m.loadN a bs.length = .ok bs := by
  induction bs generalizing a with
  | nil => rfl
  | cons b bs ih =>
    have h0 := h 0 (by simp)
    rw [List.length_cons, loadN]
    simp only [Nat.add_zero, List.getElem?_cons_zero] at h0
    have := ih (a := a + 1) (fun i hi => by
      have := h (i + 1) (by simpa using hi)
      rw [List.getElem?_cons_succ] at this
      rw [← this]; congr 1; omega)
    simp [load, h0, this]

theorem readMeta_ok {m : Mem} {b : Blk} (h : BlkOk m b) :
    readMeta m b.ptr = .ok (b.base, b.bytes.length, pgSize b.bytes.length) := by
  obtain ⟨p1, p2, p3⟩ := pgSize_eq h.small
  obtain ⟨o1, o2, o3, o4⟩ := offset_eq h.small
  have hp := h.page
  have hs := h.small
  have ha : alignDown b.ptr 4096 = b.base + 4096 := by
    unfold alignDown Blk.ptr; omega
  unfold readMeta
  rw [ha, if_neg (by omega), Nat.add_sub_cancel]
  clear ha
  have h8 := length_leBytes 8
  have hm := length_magic
  have l1 : m.loadN b.base 8 = .ok (MemFns.leBytes 8 b.bytes.length) := by
    have := loadN_eq (m := m) (a := b.base) (bs := MemFns.leBytes 8 b.bytes.length) (fun i hi => by
      rw [h8] at hi
      rw [h.hdr i (by omega), metaBytes, List.append_assoc, List.getElem?_append_left (by rw [h8]; omega)])
    rwa [h8] at this
  have l2 : m.loadN (b.base + 8) 8 = .ok (MemFns.leBytes 8 (pgSize b.bytes.length)) := by
    have := loadN_eq (m := m) (a := b.base + 8) (bs := MemFns.leBytes 8 (pgSize b.bytes.length)) (fun i hi => by
      rw [h8] at hi
      rw [Nat.add_assoc, h.hdr (8 + i) (by omega), metaBytes, List.append_assoc,
        List.getElem?_append_right (by rw [h8]; omega), List.getElem?_append_left (by rw [h8, h8]; omega), h8, Nat.add_sub_cancel_left])
    rwa [h8] at this
  have l3 : m.loadN (b.base + 16) 32 = .ok magic := by
    have := loadN_eq (m := m) (a := b.base + 16) (bs := magic) (fun i hi => by
      rw [hm] at hi
      rw [Nat.add_assoc, h.hdr (16 + i) (by omega), metaBytes,
        List.getElem?_append_right (by rw [List.length_append, h8, h8]; omega), List.length_append, h8, h8, Nat.add_sub_cancel_left])
    rwa [hm] at this
  simp only [l1, l2, l3, Res.ok_bind, if_true, Res.pure_eq]
  rw [fromLe_leBytes, fromLe_leBytes, Nat.mod_eq_of_lt (a := b.bytes.length) (by omega), Nat.mod_eq_of_lt (by omega)]

theorem Rel.split {h : H} {S : Heap} {bs : List Blk} (hr : Rel h S bs) {p : Nat} {c : List (Option UInt8)} (hp : (p, c) ∈ S) :
    ∃ b₁ b b₂, bs = b₁ ++ b :: b₂ ∧ b.abs = (p, c) := by
  rw [hr.heap] at hp
  obtain ⟨b, hb, e⟩ := List.mem_map.1 hp
  obtain ⟨b₁, b₂, rfl⟩ := List.append_of_mem hb
  exact ⟨b₁, b, b₂, rfl, e⟩

/-- Different live blocks are apart. -/
theorem Rel.apart' {h : H} {S : Heap} {b₁ b₂ : List Blk} {b : Blk} (hr : Rel h S (b₁ ++ b :: b₂)) {c : Blk}
    (hc : c ∈ b₁ ++ b₂) : Apart c.region b.region := by
  have := hr.apart
  rw [List.pairwise_append, List.pairwise_cons] at this
  obtain ⟨-, ⟨h2, -⟩, h3⟩ := this
  rcases List.mem_append.1 hc with hc | hc
  · exact h3 c hc b (by simp)
  · exact (h2 c hc).symm

/-- Unmapping a block. -/
theorem unmap_rel {h : H} {S : Heap} {b₁ b₂ : List Blk} {b : Blk} (hr : Rel h S (b₁ ++ b :: b₂)) :
    Rel (vmUnmap h b.base (pgSize b.bytes.length + 8192)) ((b₁ ++ b₂).map Blk.abs) (b₁ ++ b₂) := by
  have hap : ∀ c ∈ b₁ ++ b₂, Apart c.region b.region := fun c hc => hr.apart' hc
  have hpos : ∀ c : Blk, 0 < c.region.2 := fun c => by simp [Blk.region]
  refine ⟨rfl, ?_, ?_, ?_⟩
  · simp only [vmUnmap]
    rw [hr.maps]
    have hne : ∀ l : List Blk, (∀ c ∈ l, c ∈ b₁ ++ b₂) →
        (l.map Blk.region).filter (· ≠ (b.base, pgSize b.bytes.length + 8192)) = l.map Blk.region := by
      intro l hl
      rw [List.filter_eq_self]
      intro r hr'
      obtain ⟨c, hc, rfl⟩ := List.mem_map.1 hr'
      have := hap c (hl c hc)
      have := hpos c
      simp only [decide_eq_true_eq, ne_eq]
      intro e
      unfold Apart at *
      simp only [Blk.region] at *
      rw [Prod.mk.injEq] at e
      omega
    rw [List.map_append, List.map_cons, List.filter_append, List.filter_cons]
    rw [if_neg (by simp [Blk.region]), hne b₁ (fun c hc => by simp [hc]), hne b₂ (fun c hc => by simp [hc]),
      List.map_append]
  · intro c hc
    have hco : BlkOk h.mem c := hr.ok c (by
      rcases List.mem_append.1 hc with hc | hc <;> simp [hc])
    have := hap c hc
    unfold Apart at this
    simp only [Blk.region] at this
    apply hco.congr
    intro a h1 h2
    simp only [vmUnmap]
    rw [if_neg (by omega)]
  · have := hr.apart
    rw [List.pairwise_append, List.pairwise_cons] at this
    rw [List.pairwise_append]
    exact ⟨this.1, this.2.1.2, fun x hx y hy => this.2.2 x hx y (by simp [hy])⟩

theorem deallocate_ok {h : H} {S : Heap} {b₁ b₂ : List Blk} {b : Blk} (hr : Rel h S (b₁ ++ b :: b₂)) :
    deallocate h b.ptr b.bytes.length = .ok (vmUnmap h b.base (pgSize b.bytes.length + 8192)) := by
  have hb := hr.ok b (by simp)
  obtain ⟨p1, p2, p3⟩ := pgSize_eq hb.small
  have := hb.small
  unfold deallocate
  rw [readMeta_ok hb, ← mapLen_eq hb.small, bind_ok']
  exact if_neg (fun h => h rfl)

theorem free_ok {h : H} {S : Heap} {b₁ b₂ : List Blk} {b : Blk} (hr : Rel h S (b₁ ++ b :: b₂)) :
    free h b.ptr = .ok (vmUnmap h b.base (pgSize b.bytes.length + 8192)) := by
  unfold free
  rw [readMeta_ok (hr.ok b (by simp)), bind_ok']
  exact deallocate_ok hr

/-- Allocating a block. -/
theorem allocate_rel {h : H} {S : Heap} {bs : List Blk} (hr : Rel h S bs) (base n : Nat) (hn : n + 16384 ≤ W)
    (hf : Free h base (pgSize n + 8192)) : ∃ m, allocate h (some base) n = .ok (base + 4096 + offset n, ⟨m,
      (base, pgSize n + 8192) :: h.maps⟩) ∧ Room S (base + 4096 + offset n) n ∧
      Rel ⟨m, (base, pgSize n + 8192) :: h.maps⟩ ((base + 4096 + offset n, List.replicate n none) :: S)
        (⟨base, List.replicate n none⟩ :: bs) := by
  obtain ⟨p1, p2, p3⟩ := pgSize_eq hn
  obtain ⟨o1, o2, o3, o4⟩ := offset_eq hn
  obtain ⟨m, h1, h2, h3, h4⟩ := allocate_ok h base n hn
  obtain ⟨f1, f2, f3⟩ := hf
  have hapart : ∀ c ∈ bs, Apart (base, pgSize n + 8192) c.region := by
    intro c hc
    exact f3 c.region (by rw [hr.maps]; exact List.mem_map.2 ⟨c, hc, rfl⟩)
  refine ⟨m, h1, ⟨by omega, ?_⟩, ?_, ?_, ?_, ?_⟩
  · intro q c hq
    rw [hr.heap] at hq
    obtain ⟨b, hb, e⟩ := List.mem_map.1 hq
    simp only [Blk.abs, Prod.mk.injEq] at e
    obtain ⟨rfl, rfl⟩ := e
    have hbo := hr.ok b hb
    obtain ⟨q1, q2, q3⟩ := pgSize_eq hbo.small
    obtain ⟨r1, r2, r3, r4⟩ := offset_eq hbo.small
    have := hapart b hb
    unfold Apart at this
    simp only [Blk.region, Blk.ptr] at *
    omega
  · rw [hr.heap]
    simp [Blk.abs, Blk.ptr]
  · simp [hr.maps, Blk.region]
  · intro b hb
    rcases List.mem_cons.1 hb with rfl | hb
    · refine ⟨f1, by simpa using hn, ?_, ?_, ?_⟩
      · intro i hi; simpa using h3 i hi
      · intro i hi
        simp only [Blk.ptr, List.length_replicate] at hi ⊢
        exact ⟨66, h4 i hi, by simp [hi]⟩
      · intro a ha hb
        simp only [List.length_replicate] at ha hb
        have e : m a = h.mem a := h2 a (Or.inr (by omega))
        exact e.trans (f2 a (by omega) (by omega))
    · have := hapart b hb
      unfold Apart at this
      simp only [Blk.region] at this
      apply (hr.ok b hb).congr
      intro a ha hb
      exact h2 a (by omega)
  · rw [List.pairwise_cons]
    refine ⟨fun c hc => ?_, hr.apart⟩
    have := hapart c hc
    simpa [Blk.region] using this

/-- Changing a byte of a block. -/
theorem write_rel {h : H} {S : Heap} {b₁ b₂ : List Blk} {b : Blk} (hr : Rel h S (b₁ ++ b :: b₂)) (m : Mem)
    (bytes : List (Option UInt8)) (hl : bytes.length = b.bytes.length)
    (hm : ∀ a, (a < b.ptr ∨ b.ptr + bytes.length ≤ a) → m a = h.mem a)
    (hb : ∀ i < bytes.length, ∃ v, m (b.ptr + i) = some v ∧ ∀ w, bytes[i]? = some (some w) → v = w) :
    Rel ⟨m, h.maps⟩ (b₁.map Blk.abs ++ (b.ptr, bytes) :: b₂.map Blk.abs) (b₁ ++ ⟨b.base, bytes⟩ :: b₂) := by
  have hbo := hr.ok b (by simp)
  obtain ⟨p1, p2, p3⟩ := pgSize_eq hbo.small
  obtain ⟨o1, o2, o3, o4⟩ := offset_eq hbo.small
  have hreg : Blk.region ⟨b.base, bytes⟩ = b.region := by simp [Blk.region, hl]
  have hptr : Blk.ptr ⟨b.base, bytes⟩ = b.ptr := by simp [Blk.ptr, hl]
  refine ⟨?_, ?_, ?_, ?_⟩
  · simp [Blk.abs, hptr]
  · simp only [List.map_append, List.map_cons, hreg]
    rw [hr.maps]; simp
  · intro c hc
    rcases List.mem_append.1 hc with hc' | hc'
    · have hap := hr.apart' (c := c) (by simp [hc'])
      unfold Apart at hap
      simp only [Blk.region] at hap
      apply (hr.ok c (by simp [hc'])).congr
      intro a h1 h2
      exact hm a (by simp only [Blk.ptr]; omega)
    · rcases List.mem_cons.1 hc' with rfl | hc'
      · refine ⟨hbo.page, by simp only [hl]; exact hbo.small, ?_, ?_, ?_⟩
        · intro i hi
          simp only [hl]
          have e : m (b.base + i) = h.mem (b.base + i) := hm (b.base + i) (Or.inl (by simp only [Blk.ptr]; omega))
          exact e.trans (hbo.hdr i hi)
        · intro i hi
          rw [hptr]
          exact hb i hi
        · intro a h1 h2
          simp only [hl] at h1 h2
          have e : m a = h.mem a := hm a (Or.inr (by simp only [Blk.ptr, hl]; omega))
          exact e.trans (hbo.guard a h1 h2)
      · have hap := hr.apart' (c := c) (by simp [hc'])
        unfold Apart at hap
        simp only [Blk.region] at hap
        apply (hr.ok c (by simp [hc'])).congr
        intro a h1 h2
        exact hm a (by simp only [Blk.ptr]; omega)
  · have := hr.apart
    rw [List.pairwise_append, List.pairwise_cons] at this ⊢
    refine ⟨this.1, ⟨?_, this.2.1.2⟩, ?_⟩
    · intro x hx; rw [hreg]; exact this.2.1.1 x hx
    · intro x hx y hy
      rcases List.mem_cons.1 hy with rfl | hy
      · rw [hreg]; exact this.2.2 x hx b (by simp)
      · exact this.2.2 x hx y (by simp [hy])


theorem Rel.ptr_ne {h : H} {S : Heap} {b₁ b₂ : List Blk} {b : Blk} (hr : Rel h S (b₁ ++ b :: b₂)) {c : Blk}
    (hc : c ∈ b₁ ++ b₂) : c.ptr ≠ b.ptr := by
  have hap := hr.apart' hc
  have hb := hr.ok b (by simp)
  have hc' := hr.ok c (by rcases List.mem_append.1 hc with hc | hc <;> simp [hc])
  obtain ⟨p1, p2, p3⟩ := pgSize_eq hb.small
  obtain ⟨o1, o2, o3, o4⟩ := offset_eq hb.small
  obtain ⟨q1, q2, q3⟩ := pgSize_eq hc'.small
  obtain ⟨r1, r2, r3, r4⟩ := offset_eq hc'.small
  unfold Apart at hap
  simp only [Blk.region, Blk.ptr] at *
  omega

section Lists
variable {β : Type} (f : β → Nat × List (Option UInt8)) (b : β) (b₁ b₂ : List β)

theorem list_filter (hne : ∀ c ∈ b₁ ++ b₂, (f c).1 ≠ (f b).1) :
    ((b₁ ++ b :: b₂).map f).filter (·.1 ≠ (f b).1) = (b₁ ++ b₂).map f := by
  have hn : ∀ l : List β, (∀ c ∈ l, c ∈ b₁ ++ b₂) → (l.map f).filter (·.1 ≠ (f b).1) = l.map f := by
    intro l hl
    rw [List.filter_eq_self]
    intro r hr'
    obtain ⟨c, hc, rfl⟩ := List.mem_map.1 hr'
    exact decide_eq_true (hne c (hl c hc))
  rw [List.map_append, List.map_cons, List.filter_append, List.filter_cons, if_neg (by simp),
    hn b₁ (fun c hc => by simp [hc]), hn b₂ (fun c hc => by simp [hc]), List.map_append]

theorem list_contents (hne : ∀ c ∈ b₁ ++ b₂, (f c).1 ≠ (f b).1) :
    contents ((b₁ ++ b :: b₂).map f) (f b).1 = (f b).2 := by
  unfold contents
  rw [List.map_append, List.map_cons, List.find?_append, List.find?_cons_of_pos (by simp), List.find?_eq_none.2]
  · rfl
  · intro x hx
    obtain ⟨c, hc, rfl⟩ := List.mem_map.1 hx
    simpa using hne c (by simp [hc])

theorem list_write (hne : ∀ c ∈ b₁ ++ b₂, (f c).1 ≠ (f b).1) (i : Nat) (v : UInt8) :
    (((b₁ ++ b :: b₂).map f).map fun x => if x.1 = (f b).1 then (x.1, x.2.set i (some v)) else x) =
      b₁.map f ++ ((f b).1, (f b).2.set i (some v)) :: b₂.map f := by
  have hn : ∀ l : List β, (∀ c ∈ l, c ∈ b₁ ++ b₂) →
      ((l.map f).map fun x => if x.1 = (f b).1 then (x.1, x.2.set i (some v)) else x) = l.map f := by
    intro l hl
    rw [List.map_map]
    apply List.map_congr_left
    intro c hc
    simp [hne c (hl c hc)]
  rw [List.map_append, List.map_append, List.map_cons, List.map_cons, hn b₁ (fun c hc => by simp [hc]),
    hn b₂ (fun c hc => by simp [hc]), if_pos rfl]

end Lists

theorem Rel.filter_eq {h : H} {S : Heap} {b₁ b₂ : List Blk} {b : Blk} (hr : Rel h S (b₁ ++ b :: b₂)) :
    S.filter (·.1 ≠ b.ptr) = (b₁ ++ b₂).map Blk.abs := by
  rw [hr.heap]
  exact list_filter Blk.abs b b₁ b₂ fun c hc => hr.ptr_ne hc

theorem Rel.contents_eq {h : H} {S : Heap} {b₁ b₂ : List Blk} {b : Blk} (hr : Rel h S (b₁ ++ b :: b₂)) :
    contents S b.ptr = b.bytes := by
  rw [hr.heap]
  exact list_contents Blk.abs b b₁ b₂ fun c hc => hr.ptr_ne hc

theorem Rel.write_eq {h : H} {S : Heap} {b₁ b₂ : List Blk} {b : Blk} (hr : Rel h S (b₁ ++ b :: b₂)) (i : Nat) (v : UInt8) :
    (S.map fun x => if x.1 = b.ptr then (x.1, x.2.set i (some v)) else x) =
      b₁.map Blk.abs ++ (b.ptr, b.bytes.set i (some v)) :: b₂.map Blk.abs := by
  rw [hr.heap]
  exact list_write Blk.abs b b₁ b₂ (fun c hc => hr.ptr_ne hc) i v

/-- The cells of a block are determined by its pointer. -/
theorem Rel.unique {h : H} {S : Heap} {b₁ b₂ : List Blk} {b : Blk} (hr : Rel h S (b₁ ++ b :: b₂)) {c : List (Option UInt8)}
    (hc : (b.ptr, c) ∈ S) : c = b.bytes := by
  rw [hr.heap] at hc
  obtain ⟨d, hd, e⟩ := List.mem_map.1 hc
  simp only [Blk.abs, Prod.mk.injEq] at e
  rcases List.mem_append.1 hd with hd | hd
  · exact absurd e.1 (hr.ptr_ne (by simp [hd]))
  · rcases List.mem_cons.1 hd with rfl | hd
    · exact e.2.symm
    · exact absurd e.1 (hr.ptr_ne (by simp [hd]))

theorem step_ok {h : H} {S : Heap} {bs : List Blk} (hr : Rel h S bs) (op : Op) (hl : Legal S op) (base : Nat)
    (hk : KernelOk h base op) : ∃ r h' bs', exec h (some base) op = .ok (r, h') ∧ Allowed S op r ∧
      Rel h' (next S (op, r)) bs' := by
  cases op with
  | malloc n =>
    obtain ⟨m, h1, h2, h3⟩ := allocate_rel hr base n hl hk
    exact ⟨_, _, _, by simp only [exec]; rw [h1, bind_ok'], ⟨_, rfl, h2⟩, h3⟩
  | free p =>
    obtain ⟨c, hc⟩ := hl
    obtain ⟨b₁, b, b₂, rfl, e⟩ := hr.split hc
    simp only [Blk.abs, Prod.mk.injEq] at e
    obtain ⟨rfl, rfl⟩ := e
    refine ⟨.unit, _, b₁ ++ b₂, by simp only [exec]; rw [free_ok hr, bind_ok'], rfl, ?_⟩
    simp only [next]
    rw [hr.filter_eq]
    exact unmap_rel hr
  | realloc p n =>
    cases p with
    | none =>
      by_cases hn : n = 0
      · subst hn
        exact ⟨.ptr none, h, bs, by simp only [exec, reallocate, if_true]; rw [bind_ok'], by simp [Allowed], hr⟩
      · obtain ⟨m, h1, h2, h3⟩ := allocate_rel hr base n hl hk
        refine ⟨_, _, _, by simp only [exec, reallocate, if_neg hn]; rw [h1, bind_ok', bind_ok'], ?_, h3⟩
        simp only [Allowed, if_neg hn]
        exact ⟨_, rfl, h2⟩
    | some p =>
      obtain ⟨hn16, c, hc⟩ := hl
      obtain ⟨b₁, b, b₂, rfl, e⟩ := hr.split hc
      simp only [Blk.abs, Prod.mk.injEq] at e
      obtain ⟨rfl, rfl⟩ := e
      by_cases hn : n = 0
      · subst hn
        refine ⟨.ptr none, _, b₁ ++ b₂, by simp only [exec, reallocate, if_true]; rw [free_ok hr, bind_ok', bind_ok'],
          by simp [Allowed], ?_⟩
        simp only [next]
        rw [hr.filter_eq]
        exact unmap_rel hr
      · obtain ⟨m, h1, h2, h3⟩ := allocate_rel hr base n hn16 hk
        -- the new block and the old one
        have hbo : BlkOk m b := h3.ok b (by simp)
        have hnew := h3.ok ⟨base, List.replicate n none⟩ (by simp)
        have hap : Apart (base, pgSize n + 8192) b.region := by
          have := (List.pairwise_cons.1 h3.apart).1 b (by simp)
          simpa [Blk.region] using this
        obtain ⟨p1, p2, p3⟩ := pgSize_eq hn16
        obtain ⟨o1, o2, o3, o4⟩ := offset_eq hn16
        obtain ⟨q1, q2, q3⟩ := pgSize_eq hbo.small
        obtain ⟨r1, r2, r3, r4⟩ := offset_eq hbo.small
        unfold Apart at hap
        simp only [Blk.region] at hap
        have hbase : ∀ i < n, (m (base + 4096 + offset n + i)).isSome := by
          intro i hi
          obtain ⟨v, hv, -⟩ := hnew.body i (by simpa using hi)
          simp only [Blk.ptr, List.length_replicate] at hv
          rw [hv]; rfl
        obtain ⟨m', e2, c2⟩ := MemFns.memcpy_exact m (base + 4096 + offset n) b.ptr (min b.bytes.length n)
          (fun i hi => by
            obtain ⟨v, hv, -⟩ := hbo.body i (by omega)
            rw [hv]; rfl)
          (fun i hi => hbase i (by omega))
          (by unfold MemFns.Disjoint; simp only [Blk.ptr]; omega)
        let c' : List (Option UInt8) := b.bytes.take n ++ List.replicate (n - b.bytes.length) none
        have hc'l : c'.length = n := by simp [c']; omega
        have hrel := write_rel (b₁ := []) (b₂ := b₁ ++ b :: b₂) (b := ⟨base, List.replicate n none⟩) (by simpa using h3) m' c'
          (by simp [hc'l]) (by
            intro a ha
            simp only [Blk.ptr, List.length_replicate, hc'l] at ha
            have : m' a = m a := by rw [c2, if_neg (by omega)]
            exact this) (by
            intro i hi
            rw [hc'l] at hi
            simp only [Blk.ptr, List.length_replicate]
            rw [c2]
            by_cases hlt : i < min b.bytes.length n
            · obtain ⟨v, hv, hv'⟩ := hbo.body i (by omega)
              rw [if_pos (by omega), show base + 4096 + offset n + i - (base + 4096 + offset n) = i by omega]
              refine ⟨v, hv, fun w hw => hv' w ?_⟩
              rw [← hw]
              show _ = (b.bytes.take n ++ List.replicate (n - b.bytes.length) none)[i]?
              rw [List.getElem?_append_left (by simp; omega), List.getElem?_take, if_pos (by omega)]
            · rw [if_neg (by omega)]
              obtain ⟨v, hv⟩ := Option.isSome_iff_exists.1 (hbase i hi)
              refine ⟨v, hv, fun w hw => ?_⟩
              have hw' : (b.bytes.take n ++ List.replicate (n - b.bytes.length) none)[i]? = some (some w) := hw
              rw [List.getElem?_append_right (by simp; omega), List.getElem?_replicate] at hw'
              split at hw' <;> simp at hw')
        have hrel' : Rel ⟨m', (base, pgSize n + 8192) :: h.maps⟩
            ((Blk.ptr ⟨base, List.replicate n none⟩, c') :: (b₁ ++ b :: b₂).map Blk.abs)
            ((⟨base, c'⟩ :: b₁) ++ b :: b₂) := hrel
        have hd := deallocate_ok hrel'
        refine ⟨.ptr (some (base + 4096 + offset n)), vmUnmap ⟨m', (base, pgSize n + 8192) :: h.maps⟩ b.base
          (pgSize b.bytes.length + 8192), (⟨base, c'⟩ :: b₁) ++ b₂, ?_, ?_, ?_⟩
        · simp only [exec, reallocate, if_neg hn]
          rw [h1, bind_ok']
          simp only
          rw [readMeta_ok hbo, bind_ok']
          simp only
          rw [e2, bind_ok']
          simp only
          rw [hd, bind_ok', bind_ok']
        · simp only [Allowed, if_neg hn]
          exact ⟨_, rfl, h2⟩
        · simp only [next]
          rw [hr.filter_eq, hr.contents_eq]
          have := unmap_rel hrel'
          have hptr : Blk.abs ⟨base, c'⟩ = (base + 4096 + offset n, c') := by simp [Blk.abs, Blk.ptr, hc'l]
          rw [List.cons_append, List.map_cons, hptr] at this
          exact this
  | size p =>
    obtain ⟨c, hc⟩ := hl
    obtain ⟨b₁, b, b₂, rfl, e⟩ := hr.split hc
    simp only [Blk.abs, Prod.mk.injEq] at e
    obtain ⟨rfl, rfl⟩ := e
    refine ⟨.size b.bytes.length, h, _, ?_, ⟨_, hc, rfl⟩, hr⟩
    simp only [exec, getSize]
    rw [readMeta_ok (hr.ok b (by simp)), bind_ok', bind_ok']
  | write p i v =>
    obtain ⟨c, hc, hi⟩ := hl
    obtain ⟨b₁, b, b₂, rfl, e⟩ := hr.split hc
    simp only [Blk.abs, Prod.mk.injEq] at e
    obtain ⟨rfl, rfl⟩ := e
    have hbo := hr.ok b (by simp)
    have hsome : (h.mem (b.ptr + i)).isSome := by
      obtain ⟨v, hv, -⟩ := hbo.body i hi
      rw [hv]; rfl
    have hrel := write_rel hr (h.mem.patch (b.ptr + i) [v]) (b.bytes.set i (some v)) (by simp) (by
      intro a ha
      rw [List.length_set] at ha
      simp only [Mem.patch, List.length_singleton]
      rw [if_neg (by omega)]) (by
      intro j hj
      rw [List.length_set] at hj
      simp only [Mem.patch, List.length_singleton]
      by_cases hij : j = i
      · subst hij
        rw [if_pos (by omega)]
        refine ⟨v, by simp, fun w hw => ?_⟩
        rw [List.getElem?_set_self hj] at hw
        simpa using hw
      · obtain ⟨u, hu, hu'⟩ := hbo.body j hj
        rw [if_neg (by omega)]
        refine ⟨u, hu, fun w hw => hu' w ?_⟩
        rwa [List.getElem?_set_ne (fun e => hij e.symm)] at hw)
    refine ⟨.unit, _, b₁ ++ ⟨b.base, b.bytes.set i (some v)⟩ :: b₂, by simp only [exec]; rw [store_ok hsome, bind_ok'],
      rfl, ?_⟩
    simp only [next]
    rw [hr.write_eq]
    exact hrel
  | read p i =>
    obtain ⟨c, hc, hi⟩ := hl
    obtain ⟨b₁, b, b₂, rfl, e⟩ := hr.split hc
    simp only [Blk.abs, Prod.mk.injEq] at e
    obtain ⟨rfl, rfl⟩ := e
    have hbo := hr.ok b (by simp)
    obtain ⟨v, hv, hv'⟩ := hbo.body i hi
    refine ⟨.byte v, h, _, ?_, ⟨v, rfl, ?_⟩, hr⟩
    · simp only [exec, load, hv]; rw [bind_ok']
    · intro c w hcm hw
      rw [hr.unique hcm] at hw
      exact hv' w hw

theorem hist_rel {es : List (Op × Ret)} {h : H} (hh : Hist es h) : ∃ bs, Rel h (replay es) bs := by
  induction hh with
  | nil => exact ⟨[], rfl, rfl, by simp, List.Pairwise.nil⟩
  | snoc _ hl hk he ih =>
    obtain ⟨bs, hr⟩ := ih
    obtain ⟨r', h'', bs', e, -, hr'⟩ := step_ok hr _ hl _ hk
    rw [e] at he
    cases he
    refine ⟨bs', ?_⟩
    rw [replay, List.foldl_append]
    exact hr'

/-! ## Theorems -/

/-- C59, for requests below 2^64 - 16384. After every history of a program that keeps to its blocks, wherever the
kernel places mappings, the next operation succeeds with a permitted result: new blocks are 16-byte aligned and have
no byte in common with a live block, reads return the byte last written (also through `realloc`, which keeps the
common prefix), and the reported size is the size requested. -/
theorem debug_heap_partial {es : List (Op × Ret)} {h : H} (hh : Hist es h) (op : Op) (hl : Legal (replay es) op) (base : Nat)
    (hk : KernelOk h base op) : ∃ r h', exec h (some base) op = .ok (r, h') ∧ Allowed (replay es) op r := by
  obtain ⟨bs, hr⟩ := hist_rel hh
  obtain ⟨r, h', _, e, a, -⟩ := step_ok hr op hl base hk
  exact ⟨r, h', e, a⟩

/-- Live blocks are aligned and accessible, and an access beginning less than 16 bytes behind the end of a block, and
anything in the page behind it, faults. -/
theorem overrun_faults {es : List (Op × Ret)} {h : H} (hh : Hist es h) {p : Nat} {c : List (Option UInt8)}
    (hp : (p, c) ∈ replay es) : p % 16 = 0 ∧ (∀ i < c.length, (h.mem (p + i)).isSome) ∧
      ∃ e, p + c.length ≤ e ∧ e < p + c.length + 16 ∧ ∀ a, e ≤ a → a < e + 4096 → h.mem a = none := by
  obtain ⟨bs, hr⟩ := hist_rel hh
  obtain ⟨b₁, b, b₂, rfl, e⟩ := hr.split hp
  simp only [Blk.abs, Prod.mk.injEq] at e
  obtain ⟨rfl, rfl⟩ := e
  have hbo := hr.ok b (by simp)
  obtain ⟨p1, p2, p3⟩ := pgSize_eq hbo.small
  obtain ⟨o1, o2, o3, o4⟩ := offset_eq hbo.small
  have hpg := hbo.page
  refine ⟨by simp only [Blk.ptr]; omega, ?_, b.base + (pgSize b.bytes.length + 4096), ?_, ?_, ?_⟩
  · intro i hi
    obtain ⟨v, hv, -⟩ := hbo.body i hi
    rw [hv]; rfl
  · simp only [Blk.ptr]; omega
  · simp only [Blk.ptr]; omega
  · intro a h1 h2
    exact hbo.guard a h1 (by
      have : b.base + (pgSize b.bytes.length + 8192) = b.base + (pgSize b.bytes.length + 4096) + 4096 := by
        rw [Nat.add_assoc, Nat.add_assoc]
      rw [this]; exact h2)

/-- Live blocks have no byte in common. -/
theorem blocks_disjoint {es : List (Op × Ret)} {h : H} (hh : Hist es h) :
    (replay es).Pairwise fun x y => x.1 ≠ y.1 ∧ (x.1 + x.2.length ≤ y.1 ∨ y.1 + y.2.length ≤ x.1) := by
  obtain ⟨bs, hr⟩ := hist_rel hh
  rw [hr.heap, List.pairwise_map]
  refine hr.apart.imp_of_mem ?_
  intro b c hb hc hap
  have hbo := hr.ok b hb
  have hco := hr.ok c hc
  obtain ⟨p1, p2, p3⟩ := pgSize_eq hbo.small
  obtain ⟨o1, o2, o3, o4⟩ := offset_eq hbo.small
  obtain ⟨q1, q2, q3⟩ := pgSize_eq hco.small
  obtain ⟨r1, r2, r3, r4⟩ := offset_eq hco.small
  unfold Apart at hap
  simp only [Blk.region, Blk.abs, Blk.ptr] at *
  omega

theorem pow_cases (j : Nat) (hj : j ≤ 12) : 4096 % 2 ^ j = 0 ∧ (2 ^ j % 16 = 0 ∨ 16 % 2 ^ j = 0) := by
  have : j = 0 ∨ j = 1 ∨ j = 2 ∨ j = 3 ∨ j = 4 ∨ j = 5 ∨ j = 6 ∨ j = 7 ∨ j = 8 ∨ j = 9 ∨ j = 10 ∨ j = 11 ∨ j = 12 := by omega
  rcases this with rfl | rfl | rfl | rfl | rfl | rfl | rfl | rfl | rfl | rfl | rfl | rfl | rfl <;> decide

/-- An aligned request whose size is a multiple of the alignment, a power of two up to the page size, succeeds with
that alignment. -/
theorem aligned_partial (h : H) (base n k j : Nat) (hj : j ≤ 12) (hkj : k = 2 ^ j) (h0 : 0 < n) (hm : n % k = 0) (hb : base % 4096 = 0)
    (hn : n + 16384 ≤ W) : ∃ p h', allocateAligned h (some base) n k = .ok (p, h') ∧ p % k = 0 := by
  obtain ⟨p1, p2, p3⟩ := pgSize_eq hn
  have hkn : ¬ k > n := by
    have := Nat.le_of_dvd h0 (Nat.dvd_of_mod_eq_zero hm)
    omega
  have hk4 : k ∣ 4096 := by subst hkj; exact Nat.dvd_of_mod_eq_zero (pow_cases j hj).1
  obtain ⟨m, e, -⟩ := allocate_ok h base n hn
  have hal : (base + 4096 + offset n) % k = 0 := by
    have key : k % 16 = 0 ∨ 16 % k = 0 := by subst hkj; exact (pow_cases j hj).2
    have ob := offset_eq hn
    have hbd : k ∣ base := Nat.dvd_trans hk4 (Nat.dvd_of_mod_eq_zero hb)
    have hod : k ∣ offset n := by
      rcases key with h | h
      · have e : offset n = pgSize n - n := by
          have h1 : 16 ∣ n := Nat.dvd_trans (Nat.dvd_of_mod_eq_zero h) (Nat.dvd_of_mod_eq_zero hm)
          omega
        rw [e]
        exact Nat.dvd_sub (Nat.dvd_trans hk4 (Nat.dvd_of_mod_eq_zero p1)) (Nat.dvd_of_mod_eq_zero hm)
      · exact Nat.dvd_trans (Nat.dvd_of_mod_eq_zero h) (Nat.dvd_of_mod_eq_zero ob.1)
    exact Nat.mod_eq_zero_of_dvd (Nat.dvd_add (Nat.dvd_add hbd hk4) hod)
  refine ⟨base + 4096 + offset n, ⟨m, (base, pgSize n + 8192) :: h.maps⟩, ?_, hal⟩
  unfold allocateAligned
  rw [if_neg hkn, e, bind_ok']
  simp only
  rw [if_pos hal]

/-- An aligned request whose size is not a multiple of the alignment can panic: `aligned_alloc`-style requests for 100
bytes at alignment 64. -/
theorem aligned_violated (h : H) (base : Nat) (hb : base % 4096 = 0) : allocateAligned h (some base) 100 64 = .panic := by
  obtain ⟨m, e, -⟩ := allocate_ok h base 100 (by omega)
  unfold allocateAligned
  rw [if_neg (by omega), e, bind_ok']
  have ho : offset 100 = 3984 := by decide +kernel
  rw [ho]
  exact if_neg (by omega)

theorem setLoop_ub {m : Mem} {a n : Nat} {b : UInt8} {bs : List UInt8} (hm : m a = none) (hn : 64 ≤ n) :
    MemFns.setLoop m a (b :: bs) n = .ub := by
  rw [MemFns.setLoop, if_pos hn]
  simp only [List.replicate, MemFns.storeWords, storeN, store, hm, Res.ub_bind]

theorem leBytes_cons (k v : Nat) : ∃ b bs, MemFns.leBytes (k + 1) v = b :: bs := ⟨_, _, rfl⟩

theorem memset_ub {m : Mem} {a n : Nat} {c : Int} (hm : m a = none) (ha : a % 8 = 0) (hn : 64 ≤ n) :
    MemFns.memset m a c n = .ub := by
  have h1 : MemFns.setHead m a (UInt8.ofInt c) n = .ok (m, a, n) := by
    cases n with
    | zero => rfl
    | succ k =>
      rw [MemFns.setHead, if_neg]
      rw [show 7 = 2 ^ 3 - 1 from rfl, Nat.and_two_pow_sub_one_eq_mod]
      omega
  obtain ⟨b, bs, hw⟩ := leBytes_cons 7 (MemFns.pattern64 (UInt8.ofInt c)).toNat
  have h2 := setLoop_ub (b := b) (bs := bs) hm hn
  unfold MemFns.memset
  simp only [hw, h1, h2, Res.ok_bind, Res.ub_bind]

theorem memset_zero (m : Mem) (a : Nat) (c : Int) : MemFns.memset m a c 0 = .ok (a, m) := by
  obtain ⟨m', e, hm⟩ := MemFns.memset_exact m a 0 c (fun i hi => by omega)
  rw [e]
  have : m' = m := by
    funext x
    rw [hm, if_neg (by omega)]
  rw [this]

/-- Filling a block that begins in an inaccessible page. -/
theorem fill_ub (h : H) (base page n tl : Nat) (md : List UInt8) (hmd : md.length ≤ page)
    (v0 : ∀ a, base ≤ a → a < base + page → (h.mem a).isSome) (hg : h.mem (base + page) = none)
    (h8 : (base + page) % 8 = 0) (hn : 64 ≤ n) : fill h base page 0 n tl md = .ub := by
  obtain ⟨m1, e1, c1⟩ := MemFns.memset_exact h.mem base page 68 (fun i hi => v0 _ (by omega) (by omega))
  have v1 : ∀ a, base ≤ a → a < base + page → (m1 a).isSome := by
    intro a h1 h2; rw [c1]; split
    · rfl
    · exact v0 a h1 h2
  have e2 := storeN_ok (m := m1) (a := base) (bs := md) (fun i hi => v1 _ (by omega) (by omega))
  have c2 : (m1.patch base md) (base + page) = none := by
    simp only [Mem.patch]
    rw [if_neg (by omega), c1, if_neg (by omega), hg]
  have e3 := memset_zero (m1.patch base md) (base + page) 65
  have e4 := memset_ub (c := 66) c2 h8 hn
  simp only [fill, e1, e2, e3, Nat.add_zero, e4, Res.ok_bind, Res.ub_bind]

/-- A request within 16 bytes of 2^64 does not fail: its page count wraps around to zero, and filling the block runs into
the guard page. -/
theorem huge_violated (h : H) (base n : Nat) (h1 : W < n + 16) (h2 : n < W) (hf : Free h base 8192) :
    allocate h (some base) n = .ub := by
  obtain ⟨f1, f2, f3⟩ := hf
  have hpg : pgSize n = 0 := by unfold pgSize alignDown; omega
  have hof : offset n = 0 := by unfold offset alignDown; rw [hpg]; omega
  have hml : mapLen 0 = 8192 := by decide +kernel
  unfold allocate
  rw [hpg, hof, hml]
  apply fill_ub
  · rw [length_metaBytes]; omega
  · intro a h1 h2
    simp only [vmMap]
    rw [if_pos (by omega)]; rfl
  · simp only [vmMap]
    rw [if_neg (by omega)]
    exact f2 (base + 4096) (by omega) (by omega)
  · omega
  · omega

example : Free ⟨fun _ => none, []⟩ 65536 8192 := ⟨by decide, fun _ _ _ => rfl, by simp⟩

/-- A history as the theorems assume it: a program allocates 10 bytes and grows the block to 5000. -/
example : ∃ es h p, Hist es h ∧ es.map (·.1) = [.malloc 10, .realloc (some p) 5000] ∧ replay es ≠ [] := by
  have hp : pgSize 10 = 4096 := by decide +kernel
  have hp' : pgSize 5000 = 8192 := by decide +kernel
  have k0 : KernelOk ⟨fun _ => none, []⟩ 4096 (.malloc 10) := ⟨by decide, fun _ _ _ => rfl, by simp⟩
  obtain ⟨m, e, h1, -⟩ := allocate_ok ⟨fun _ => none, []⟩ 4096 10 (by omega)
  rw [hp] at e h1
  have e' : exec ⟨fun _ => none, []⟩ (some 4096) (.malloc 10) =
      .ok (.ptr (some (4096 + 4096 + offset 10)), ⟨m, [(4096, 4096 + 8192)]⟩) := by
    simp only [exec]; rw [e, bind_ok']
  have H1 := Hist.snoc (Hist.nil (m := fun _ => none)) (by show 10 + 16384 ≤ W; omega) k0 e'
  generalize 4096 + 4096 + offset 10 = p at *
  have hr : replay ([] ++ [(Op.malloc 10, Ret.ptr (some p))]) = [(p, List.replicate 10 none)] := rfl
  have hl : Legal (replay ([] ++ [(Op.malloc 10, Ret.ptr (some p))])) (.realloc (some p) 5000) := by
    rw [hr]
    exact ⟨by omega, _, List.mem_singleton.2 rfl⟩
  have hk : KernelOk ⟨m, [(4096, 4096 + 8192)]⟩ 65536 (.realloc (some p) 5000) := by
    refine ⟨by decide, ?_, ?_⟩
    · intro a ha _
      exact h1 a (Or.inr (by omega))
    · intro r hr
      rw [List.mem_singleton] at hr
      subst hr
      exact Or.inr (by omega)
  obtain ⟨r, h', e2, ha⟩ := debug_heap_partial H1 _ hl _ hk
  have H2 := Hist.snoc H1 hl hk e2
  simp only [Allowed] at ha
  rw [if_neg (by omega)] at ha
  obtain ⟨q, rfl, -⟩ := ha
  refine ⟨_, _, p, H2, rfl, ?_⟩
  rw [replay, List.foldl_append]
  simp [next]

end Mlibc.DebugAlloc
