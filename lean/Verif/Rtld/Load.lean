import Verif.Base

/-
C95: how the dynamic linker brings a shared object into memory.

Code: options/rtld/generic/linker.cpp `_fetchFromFile` L588-771 and its helpers, for ELF64 files of little endian machines with pages of 4096 bytes. The file
is the list of its bytes, and reading from it does not fail. Memory is given by address: nothing mapped, or a protection and a byte, or a protection and no
byte (a page of a file mapping that begins behind the end of the file: any access faults). Addresses do not wrap around. A mapping at a fixed address with
valid arguments does not fail. What is not modelled: the read-ahead hint, the log messages and the allocator.
-/
namespace Mlibc.Load

/-- The protection of a page: PROT_READ, PROT_WRITE, PROT_EXEC, as in L693-699. -/
structure Prot where
  r : Bool
  w : Bool
  x : Bool
  deriving DecidableEq, Repr

/-- A mapped byte; none: an access faults. Not in the code. -/
structure Cell where
  prot : Prot
  byte : Option Nat
  deriving DecidableEq

abbrev Mem := Nat → Option Cell

/-- `LinkerError`. linker.hpp L29-37 -/
inductive Err where
  | fileTooShort | notElf | wrongElfType | outOfMemory | invalidProgramHeader
  deriving DecidableEq, Repr

/-- Elf64_Phdr, without the physical address. elf.h L426-435 -/
structure Phdr where
  type : Nat
  flags : Nat
  offset : Nat
  vaddr : Nat
  filesz : Nat
  memsz : Nat
  align : Nat
  deriving DecidableEq, Repr

/-- A little endian number of `n` bytes at an offset: a field of a structure that was read from the file, L596, L634. -/
def rd (f : List Nat) (off : Nat) : Nat → Nat
  | 0 => 0
  | n + 1 => f.getD off 0 + 256 * rd f (off + 1) n

/-- The fields of Elf64_Phdr in the buffer. A header that is not all in the buffer is read from behind it. L634, L676 -/
def phdrAt (buf : List Nat) (at' : Nat) : Res Phdr :=
  if at' + 56 ≤ buf.length then
    .ok ⟨rd buf at' 4, rd buf (at' + 4) 4, rd buf (at' + 8) 8, rd buf (at' + 16) 8, rd buf (at' + 32) 8, rd buf (at' + 40) 8, rd buf (at' + 48) 8⟩
  else .ub

/-- The program headers, entry by entry. L633-634 -/
def phdrsFrom (buf : List Nat) (entsize : Nat) : Nat → Nat → Res (List Phdr)
  | 0, _ => .ok []
  | n + 1, i => (phdrAt buf (i * entsize)).bind fun p => (phdrsFrom buf entsize n (i + 1)).bind fun r => .ok (p :: r)

/-- The checks on the file header, and the program headers. `machine`: ELF_MACHINE; the class is ELFCLASS64. L595-627 -/
def headers (machine : Nat) (f : List Nat) : Res (Except Err (List Phdr)) :=
  if f.length < 64 then .ok (.error .fileTooShort)
  else if f.getD 0 0 ≠ 0x7F ∨ f.getD 1 0 ≠ 69 ∨ f.getD 2 0 ≠ 76 ∨ f.getD 3 0 ≠ 70 then .ok (.error .notElf)
  else if (rd f 16 2 ≠ 2 ∧ rd f 16 2 ≠ 3) ∨ rd f 18 2 ≠ machine ∨ f.getD 4 0 ≠ 2 then .ok (.error .wrongElfType)
  else
    let phoff := rd f 32 8
    let phentsize := rd f 54 2
    let phnum := rd f 56 2
    if phoff ≥ 2 ^ 63 then .ok (.error .invalidProgramHeader)
    else if 0 < phnum * phentsize ∧ f.length < phoff + phnum * phentsize then .ok (.error .invalidProgramHeader)
    else (phdrsFrom ((f.drop phoff).take (phnum * phentsize)) phentsize phnum 0).bind fun ps => .ok (.ok ps)

/-- `(x + a - 1) & ~(a - 1)` for powers of two. L646, L666, L689-690 -/
def alignUp (x a : Nat) : Nat := (x + a - 1) / a * a

/-- L629-646: the end of the address range of the object. -/
def highest (ps : List Phdr) : Nat :=
  alignUp (ps.foldl (fun h p => if p.type ≠ 1 then h else if p.vaddr + p.memsz > h then p.vaddr + p.memsz else h) 0) 4096

/-! ### System calls -/

/-- A new mapping of `n` bytes replaces what was there (MAP_FIXED). -/
def setRange (m : Mem) (a n : Nat) (f : Nat → Cell) : Mem := fun x => if a ≤ x ∧ x < a + n then some (f (x - a)) else m x

/-- A byte of a file mapping: the last page is filled with zeros, later pages have none. mmap(2) -/
def fileByte (f : List Nat) (i : Nat) : Option Nat := if i < alignUp f.length 4096 then some (f.getD i 0) else none

/-- `VmMap` of a file, at a fixed address. No pages: EINVAL, and `__ensure` fails. sysdeps/linux L143-157, linker.cpp L706-710 -/
def mapFile (m : Mem) (a n : Nat) (pr : Prot) (f : List Nat) (off : Nat) : Res Mem :=
  if n = 0 then .panic else .ok (setRange m a n fun i => ⟨pr, fileByte f (off + i)⟩)

/-- `VmMap` of zeros, at a fixed address. L711-715, L731-735 -/
def mapZero (m : Mem) (a n : Nat) (pr : Prot) : Res Mem :=
  if n = 0 then .panic else .ok (setRange m a n fun _ => ⟨pr, some 0⟩)

/-- Can `x` be written? -/
def writable (m : Mem) (x : Nat) : Bool :=
  match m x with
  | some c => c.prot.w && c.byte.isSome
  | none => false

/-- Stores of `n` bytes by the linker itself; a fault if one cannot be written. -/
def store (m : Mem) (a n : Nat) (f : Nat → Nat) : Res Mem :=
  if (List.range n).all (fun i => writable m (a + i)) then
    .ok fun x => if a ≤ x ∧ x < a + n then (m x).map (fun c => { c with byte := some (f (x - a)) }) else m x
  else .ub

/-- `VmProtect`; ENOMEM if a page is not mapped, and `__ensure` fails. L741-747 -/
def protect (m : Mem) (a n : Nat) (pr : Prot) : Res Mem :=
  if (List.range n).all (fun i => (m (a + i)).isSome) then
    .ok fun x => if a ≤ x ∧ x < a + n then (m x).map (fun c => { c with prot := pr }) else m x
  else .panic

/-! ### The loader -/

/-- PF_R is 4, PF_W 2, PF_X 1. L693-699 -/
def protOf (flags : Nat) : Prot := ⟨flags / 4 % 2 = 1, flags / 2 % 2 = 1, flags % 2 = 1⟩

/-- L691 -/
def rw : Prot := ⟨true, true, false⟩

/-- One PT_LOAD segment. `mapped`: MLIBC_MAP_DSO_SEGMENTS. L678-747 -/
def loadSegment (mapped : Bool) (f : List Nat) (base : Nat) (p : Phdr) (m : Mem) : Res Mem :=
  let misalign := p.vaddr % 4096
  if p.memsz = 0 then .ok m
  else if p.memsz < p.filesz then .panic
  else if misalign ≠ p.offset % 4096 then .panic
  else
    let a := base + p.vaddr - misalign
    let backed := alignUp (p.filesz + misalign) 4096
    let total := alignUp (p.memsz + misalign) 4096
    let prot := protOf p.flags
    if mapped then
      let initial := if p.memsz = p.filesz then prot else rw
      (mapFile m a backed initial f (p.offset - misalign)).bind fun m =>
      (if total > backed then mapZero m (a + backed) (total - backed) initial else .ok m).bind fun m =>
      (store m (a + misalign + p.filesz) (p.memsz - p.filesz) (fun _ => 0)).bind fun m =>
      if initial ≠ prot then protect m a total prot else .ok m
    else
      (mapZero m a total rw).bind fun m =>
      (if f.length < p.offset + p.filesz ∧ 0 < p.filesz then .panic else store m (a + misalign) p.filesz (fun i => f.getD (p.offset + i) 0)).bind fun m =>
      if rw ≠ prot then protect m a total prot else .ok m

/-- What the linker notes about an object (the fields of SharedObject that are set in L663-665 and L748-754). -/
structure Obj where
  base : Nat
  tls : Option (Nat × Nat × Nat × Nat) := none   -- address, image size, size, alignment
  dynamic : Option Nat := none
  deriving DecidableEq

/-- PT_INTERP, PT_PHDR, PT_NOTE, PT_RISCV_ATTRIBUTES, PT_GNU_EH_FRAME, PT_GNU_RELRO, PT_GNU_STACK, PT_GNU_PROPERTY. L755-762 -/
def ignored : List Nat := [3, 6, 4, 0x70000003, 0x6474e550, 0x6474e552, 0x6474e551, 0x6474e553]

/-- The loop over the program headers. L673-768 -/
def loadAll (mapped : Bool) (f : List Nat) : List Phdr → Obj → Mem → Res (Obj × Mem)
  | [], o, m => .ok (o, m)
  | p :: ps, o, m =>
    if p.type = 1 then (loadSegment mapped f o.base p m).bind fun m => loadAll mapped f ps o m
    else if p.type = 7 then loadAll mapped f ps { o with tls := some (o.base + p.vaddr, p.filesz, p.memsz, p.align) } m
    else if p.type = 2 then loadAll mapped f ps { o with dynamic := some (o.base + p.vaddr) } m
    else if ignored.contains p.type then loadAll mapped f ps o m
    else .panic

/-- The process: its memory, and `libraryBase`. L27-29 -/
structure World where
  mem : Mem
  libraryBase : Nat := 0x41000000

/-- How mlibc was configured for the system. L648, L701 -/
structure Config where
  machine : Nat
  mapped : Bool      -- MLIBC_MAP_DSO_SEGMENTS
  allocate : Bool    -- MLIBC_MMAP_ALLOCATE_DSO

/-- `_fetchFromFile`. `reserve`: where the system finds that many bytes of address space, if it does. L588-771 -/
def fetch (cfg : Config) (reserve : Nat → Option Nat) (f : List Nat) (w : World) : Res (Except Err Obj × World) :=
  (headers cfg.machine f).bind fun
    | .error e => .ok (.error e, w)
    | .ok ps =>
      let high := highest ps
      if cfg.allocate then
        match (if high = 0 then none else reserve high) with
        | none => .ok (.error .outOfMemory, w)
        | some base =>
          (loadAll cfg.mapped f ps { base := base } (setRange w.mem base high fun _ => ⟨⟨false, false, false⟩, some 0⟩)).bind fun r =>
            .ok (.ok r.1, { w with mem := r.2 })
      else
        (loadAll cfg.mapped f ps { base := w.libraryBase } w.mem).bind fun r =>
          .ok (.ok r.1, { mem := r.2, libraryBase := w.libraryBase + alignUp high 0x200000 })

/-! ### Specification -/

/-- The memory image of a segment at `base`: the bytes of the file, then zeros, with the protection of the flags. -/
def Image (m : Mem) (f : List Nat) (base : Nat) (p : Phdr) : Prop :=
  ∀ i, i < p.memsz → m (base + p.vaddr + i) =
    some ⟨⟨p.flags.testBit 2, p.flags.testBit 1, p.flags.testBit 0⟩, some (if i < p.filesz then f.getD (p.offset + i) 0 else 0)⟩

/-- The pages of a segment: where an address of it lies. -/
def PageOf (p : Phdr) (x : Nat) : Prop := ∃ y, p.vaddr ≤ y ∧ y < p.vaddr + p.memsz ∧ y / 4096 = x / 4096

/-- A segment as the ELF standard asks for it, and that the file contains. -/
structure Fit (f : List Nat) (p : Phdr) : Prop where
  sizes : p.filesz ≤ p.memsz
  congruent : p.offset % 4096 = p.vaddr % 4096
  inFile : p.offset + p.filesz ≤ f.length

/-- Headers that the loader knows; the segments fit, and have no page in common. -/
structure WellFormed (f : List Nat) (ps : List Phdr) : Prop where
  fit : ∀ p ∈ ps, p.type = 1 → 0 < p.memsz → Fit f p
  known : ∀ p ∈ ps, p.type = 1 ∨ p.type = 7 ∨ p.type = 2 ∨ p.type ∈ [3, 4, 6, 0x70000003, 0x6474e550, 0x6474e551, 0x6474e552, 0x6474e553]
  apart : ps.Pairwise fun p q => p.type = 1 → q.type = 1 → 0 < p.memsz → 0 < q.memsz → ∀ x, ¬ (PageOf p x ∧ PageOf q x)

/-- What the linker notes about the object: where it is, and where its TLS image and its dynamic section are (of several headers of a kind, the last). -/
def Noted (base : Nat) (ps : List Phdr) (o : Obj) : Prop :=
  o.base = base ∧
  o.tls = ((ps.filter (fun p => p.type == 7)).getLast?).map (fun p => (base + p.vaddr, p.filesz, p.memsz, p.align)) ∧
  o.dynamic = ((ps.filter (fun p => p.type == 2)).getLast?).map (fun p => base + p.vaddr)

/-- The size of the address range of an object: the least number of whole pages with all its segments. -/
def Span (ps : List Phdr) (n : Nat) : Prop :=
  n % 4096 = 0 ∧ (∀ p ∈ ps, p.type = 1 → p.vaddr + p.memsz ≤ n) ∧ (n = 0 ∨ ∃ p ∈ ps, p.type = 1 ∧ n < p.vaddr + p.memsz + 4096)

/-! ### Proofs -/

theorem alignUp_spec (x : Nat) : alignUp x 4096 % 4096 = 0 ∧ x ≤ alignUp x 4096 ∧ alignUp x 4096 < x + 4096 := by
  unfold alignUp; omega

theorem bind_eq {α β : Type} {r : Res α} {a : α} {f : α → Res β} (h : r = .ok a) : r.bind f = f a := by subst h; rfl

theorem protOf_bits (n : Nat) : protOf n = ⟨n.testBit 2, n.testBit 1, n.testBit 0⟩ := by
  have h : ∀ k, n.testBit k = decide (n / 2 ^ k % 2 = 1) := fun k => by rw [Nat.testBit_eq_decide_div_mod_eq]
  rw [h, h, h]
  simp [protOf]

theorem alignUp_mono {x y : Nat} (h : x ≤ y) : alignUp x 4096 ≤ alignUp y 4096 := by
  unfold alignUp; omega

theorem page_range {base lo total x : Nat} {p : Phdr} (h0 : 0 < p.memsz) (hlo : lo = base + p.vaddr - p.vaddr % 4096)
    (ht : total = alignUp (p.memsz + p.vaddr % 4096) 4096) (h1 : lo ≤ x) (h2 : x < lo + total) : base ≤ x ∧ PageOf p (x - base) := by
  subst hlo ht
  unfold alignUp at h2
  refine ⟨by omega, ?_⟩
  by_cases h : p.vaddr / 4096 = (x - base) / 4096
  · exact ⟨p.vaddr, by omega, by omega, h⟩
  · exact ⟨(x - base) / 4096 * 4096, by omega, by omega, by omega⟩

theorem store_ok {m : Mem} {a n : Nat} {f : Nat → Nat} (h : ∀ i, i < n → writable m (a + i) = true) :
    store m a n f = .ok fun x => if a ≤ x ∧ x < a + n then (m x).map (fun c => { c with byte := some (f (x - a)) }) else m x := by
  unfold store
  rw [if_pos]
  rw [List.all_eq_true]
  intro i hi
  exact h i (List.mem_range.mp hi)

theorem protect_ok {m : Mem} {a n : Nat} {pr : Prot} (h : ∀ i, i < n → (m (a + i)).isSome = true) :
    protect m a n pr = .ok fun x => if a ≤ x ∧ x < a + n then (m x).map (fun c => { c with prot := pr }) else m x := by
  unfold protect
  rw [if_pos]
  rw [List.all_eq_true]
  intro i hi
  exact h i (List.mem_range.mp hi)

/-- The last step: the protection of the whole segment. -/
theorem finish_ok {m m0 : Mem} {a n : Nat} {initial pr : Prot} {g : Nat → Option Nat}
    (h : ∀ x, m x = if a ≤ x ∧ x < a + n then some ⟨initial, g x⟩ else m0 x) :
    ∃ m', (if initial ≠ pr then protect m a n pr else .ok m) = .ok m' ∧ ∀ x, m' x = if a ≤ x ∧ x < a + n then some ⟨pr, g x⟩ else m0 x := by
  by_cases hp : initial = pr
  · subst hp
    exact ⟨m, by simp, h⟩
  · rw [if_pos hp, protect_ok (by intro i hi; rw [h, if_pos ⟨by omega, by omega⟩]; rfl)]
    refine ⟨_, rfl, fun x => ?_⟩
    by_cases hx : a ≤ x ∧ x < a + n
    · simp only [if_pos hx, h x, Option.map_some]
    · simp only [if_neg hx, h x]

theorem segment_ok (mapped : Bool) (f : List Nat) (base : Nat) (p : Phdr) (m : Mem) (h0 : 0 < p.memsz) (hf : Fit f p)
    (hmap : mapped = true → 0 < p.filesz + p.vaddr % 4096) :
    ∃ m', loadSegment mapped f base p m = .ok m' ∧ Image m' f base p ∧ ∀ x, ¬ (base ≤ x ∧ PageOf p (x - base)) → m' x = m x := by
  obtain ⟨hs, hc, hin⟩ := hf
  unfold loadSegment
  simp only [if_neg (show ¬ p.memsz = 0 by omega), if_neg (show ¬ p.memsz < p.filesz by omega), if_neg (show ¬ p.vaddr % 4096 ≠ p.offset % 4096 by omega)]
  generalize ha : base + p.vaddr - p.vaddr % 4096 = a
  generalize hbk : alignUp (p.filesz + p.vaddr % 4096) 4096 = backed
  generalize htt : alignUp (p.memsz + p.vaddr % 4096) 4096 = total
  have b1 := alignUp_spec (p.filesz + p.vaddr % 4096)
  have b2 := alignUp_spec (p.memsz + p.vaddr % 4096)
  have b3 := alignUp_mono (show p.filesz + p.vaddr % 4096 ≤ p.memsz + p.vaddr % 4096 by omega)
  have b4 := alignUp_spec f.length
  rw [hbk] at b1 b3
  rw [htt] at b2 b3
  have hout : ∀ x, ¬ (base ≤ x ∧ PageOf p (x - base)) → ¬ (a ≤ x ∧ x < a + total) := fun x h hx => h (page_range h0 ha.symm htt.symm hx.1 hx.2)
  -- the goal in terms of the bytes of the whole mapping
  have key : ∀ m' : Mem, ∀ g : Nat → Option Nat, (∀ x, m' x = if a ≤ x ∧ x < a + total then some ⟨protOf p.flags, g x⟩ else m x) →
      (∀ i, i < p.memsz → g (base + p.vaddr + i) = some (if i < p.filesz then f.getD (p.offset + i) 0 else 0)) →
      Image m' f base p ∧ ∀ x, ¬ (base ≤ x ∧ PageOf p (x - base)) → m' x = m x := by
    intro m' g h1 h2
    constructor
    · intro i hi
      rw [h1, if_pos ⟨by omega, by omega⟩, h2 i hi, protOf_bits]
    · intro x hx
      rw [h1, if_neg (hout x hx)]
  have hfb : ∀ k, k < backed → p.offset - p.vaddr % 4096 + k < alignUp f.length 4096 ∨ p.filesz + p.vaddr % 4096 = 0 := by
    intro k hk
    subst hbk
    unfold alignUp at hk ⊢
    omega
  cases mapped with
  | true =>
    simp only [if_true]
    have hpos := hmap rfl
    generalize hini : (if p.memsz = p.filesz then protOf p.flags else rw) = initial
    have e1 : mapFile m a backed initial f (p.offset - p.vaddr % 4096) = .ok (setRange m a backed fun i => ⟨initial, fileByte f (p.offset - p.vaddr % 4096 + i)⟩) := by
      unfold mapFile
      rw [if_neg (by omega)]
    rw [bind_eq e1]
    have e2 : ∃ m2, (if total > backed then mapZero (setRange m a backed fun i => ⟨initial, fileByte f (p.offset - p.vaddr % 4096 + i)⟩) (a + backed) (total - backed) initial
        else .ok (setRange m a backed fun i => ⟨initial, fileByte f (p.offset - p.vaddr % 4096 + i)⟩)) = .ok m2 ∧
        ∀ x, m2 x = if a ≤ x ∧ x < a + total then some ⟨initial, if x < a + backed then fileByte f (p.offset - p.vaddr % 4096 + (x - a)) else some 0⟩ else m x := by
      by_cases ht : total > backed
      · rw [if_pos ht]
        unfold mapZero
        rw [if_neg (by omega)]
        refine ⟨_, rfl, fun x => ?_⟩
        unfold setRange
        by_cases x1 : a + backed ≤ x ∧ x < a + backed + (total - backed)
        · rw [if_pos x1, if_pos ⟨by omega, by omega⟩, if_neg (by omega)]
        · rw [if_neg x1]
          by_cases x2 : a ≤ x ∧ x < a + backed
          · rw [if_pos x2, if_pos ⟨by omega, by omega⟩, if_pos (by omega)]
          · rw [if_neg x2, if_neg (by omega)]
      · rw [if_neg ht]
        refine ⟨_, rfl, fun x => ?_⟩
        unfold setRange
        by_cases x2 : a ≤ x ∧ x < a + backed
        · rw [if_pos x2, if_pos ⟨by omega, by omega⟩, if_pos (by omega)]
        · rw [if_neg x2, if_neg (by omega)]
    obtain ⟨m2, e2, hm2⟩ := e2
    rw [bind_eq e2]
    have e3 := store_ok (m := m2) (a := a + p.vaddr % 4096 + p.filesz) (n := p.memsz - p.filesz) (f := fun _ => 0) (by
      intro i hi
      unfold writable
      rw [hm2, if_pos ⟨by omega, by omega⟩]
      have : initial = rw := by rw [← hini, if_neg (by omega)]
      subst this
      simp only [rw, Bool.true_and]
      split
      · next hx =>
        unfold fileByte
        rw [if_pos]
        · rfl
        · rcases hfb (a + p.vaddr % 4096 + p.filesz + i - a) (by omega) with h | h
          · exact h
          · omega
      · rfl)
    rw [bind_eq e3]
    obtain ⟨m', e4, hm'⟩ := finish_ok (m0 := m) (a := a) (n := total) (initial := initial) (pr := protOf p.flags)
      (g := fun x => if a + p.vaddr % 4096 + p.filesz ≤ x ∧ x < a + p.vaddr % 4096 + p.filesz + (p.memsz - p.filesz) then some 0
        else if x < a + backed then fileByte f (p.offset - p.vaddr % 4096 + (x - a)) else some 0)
      (m := fun x => if a + p.vaddr % 4096 + p.filesz ≤ x ∧ x < a + p.vaddr % 4096 + p.filesz + (p.memsz - p.filesz) then
        (m2 x).map (fun c => { c with byte := some 0 }) else m2 x) (by
        intro x
        by_cases hx : a + p.vaddr % 4096 + p.filesz ≤ x ∧ x < a + p.vaddr % 4096 + p.filesz + (p.memsz - p.filesz)
        · simp only [if_pos hx]
          have hx2 : a ≤ x ∧ x < a + total := ⟨by omega, by omega⟩
          rw [hm2, if_pos hx2, if_pos hx2]
          rfl
        · simp only [if_neg hx]
          rw [hm2])
    refine ⟨m', e4, key m' _ hm' ?_⟩
    intro i hi
    by_cases hif : i < p.filesz
    · rw [if_neg (by omega), if_pos (by omega), if_pos hif]
      have hidx : p.offset - p.vaddr % 4096 + (base + p.vaddr + i - a) = p.offset + i := by omega
      rw [hidx]
      unfold fileByte
      rw [if_pos (by omega)]
    · rw [if_pos (by omega), if_neg hif]
  | false =>
    simp only [Bool.false_eq_true, if_false]
    have e1 : mapZero m a total rw = .ok (setRange m a total fun _ => ⟨rw, some 0⟩) := by
      unfold mapZero
      rw [if_neg (by omega)]
    rw [bind_eq e1, if_neg (by omega)]
    have e2 := store_ok (m := setRange m a total fun _ => ⟨rw, some 0⟩) (a := a + p.vaddr % 4096) (n := p.filesz) (f := fun i => f.getD (p.offset + i) 0) (by
      intro i hi
      unfold writable setRange
      rw [if_pos ⟨by omega, by omega⟩]
      rfl)
    rw [bind_eq e2]
    obtain ⟨m', e4, hm'⟩ := finish_ok (m0 := m) (a := a) (n := total) (initial := rw) (pr := protOf p.flags)
      (g := fun x => if a + p.vaddr % 4096 ≤ x ∧ x < a + p.vaddr % 4096 + p.filesz then some (f.getD (p.offset + (x - (a + p.vaddr % 4096))) 0) else some 0)
      (m := fun x => if a + p.vaddr % 4096 ≤ x ∧ x < a + p.vaddr % 4096 + p.filesz then
        (setRange m a total (fun _ => ⟨rw, some 0⟩) x).map (fun c => { c with byte := some (f.getD (p.offset + (x - (a + p.vaddr % 4096))) 0) })
        else setRange m a total (fun _ => ⟨rw, some 0⟩) x) (by
        intro x
        unfold setRange
        by_cases hx : a + p.vaddr % 4096 ≤ x ∧ x < a + p.vaddr % 4096 + p.filesz
        · simp only [if_pos hx]
          rw [if_pos ⟨by omega, by omega⟩, if_pos ⟨by omega, by omega⟩]
          rfl
        · simp only [if_neg hx])
    refine ⟨m', e4, key m' _ hm' ?_⟩
    intro i hi
    by_cases hif : i < p.filesz
    · rw [if_pos (by omega), if_pos hif]
      congr 3
      omega
    · rw [if_neg (by omega), if_neg hif]

theorem loadAll_ok (mapped : Bool) (f : List Nat) (ps : List Phdr) (hw : WellFormed f ps)
    (hmap : mapped = true → ∀ p ∈ ps, p.type = 1 → 0 < p.memsz → 0 < p.filesz + p.vaddr % 4096) (o : Obj) (m : Mem) :
    ∃ o' m', loadAll mapped f ps o m = .ok (o', m') ∧ (∀ p ∈ ps, p.type = 1 → Image m' f o.base p) ∧
      (∀ x, (∀ p ∈ ps, p.type = 1 → 0 < p.memsz → ¬ (o.base ≤ x ∧ PageOf p (x - o.base))) → m' x = m x) ∧
      o'.base = o.base ∧
      (o'.tls = match (ps.filter (fun p => p.type == 7)).getLast? with | some p => some (o.base + p.vaddr, p.filesz, p.memsz, p.align) | none => o.tls) ∧
      (o'.dynamic = match (ps.filter (fun p => p.type == 2)).getLast? with | some p => some (o.base + p.vaddr) | none => o.dynamic) := by
  induction ps generalizing o m with
  | nil => exact ⟨o, m, rfl, (fun p hp => absurd hp (by simp)), fun x _ => rfl, rfl, rfl, rfl⟩
  | cons p ps ih =>
    have hw' : WellFormed f ps := ⟨fun q hq => hw.fit q (List.mem_cons_of_mem _ hq), fun q hq => hw.known q (List.mem_cons_of_mem _ hq), (List.pairwise_cons.mp hw.apart).2⟩
    have hmap' : mapped = true → ∀ q ∈ ps, q.type = 1 → 0 < q.memsz → 0 < q.filesz + q.vaddr % 4096 := fun h q hq => hmap h q (List.mem_cons_of_mem _ hq)
    rw [loadAll]
    by_cases h1 : p.type = 1
    · rw [if_pos h1]
      by_cases h0 : 0 < p.memsz
      · obtain ⟨m1, e1, i1, k1⟩ := segment_ok mapped f o.base p m h0 (hw.fit p (by simp) h1 h0) (fun h => hmap h p (by simp) h1 h0)
        obtain ⟨o', m', e2, i2, k2, r1, r2, r3⟩ := ih hw' hmap' o m1
        rw [bind_eq e1]
        refine ⟨o', m', e2, ?_, ?_, r1, ?_, ?_⟩
        · intro q hq hq1
          rcases List.mem_cons.mp hq with rfl | hq'
          · intro i hi
            rw [k2]
            · exact i1 i hi
            · rintro q' hq' hq1' hq0' ⟨_, hpage⟩
              refine (List.pairwise_cons.mp hw.apart).1 q' hq' h1 hq1' h0 hq0' _ ⟨?_, hpage⟩
              exact ⟨q.vaddr + i, by omega, by omega, by congr 1; omega⟩
          · exact i2 q hq' hq1
        · intro x hx
          rw [k2 x (fun q hq => hx q (List.mem_cons_of_mem _ hq)), k1 x (hx p (by simp) h1 h0)]
        · rw [r2]; simp [h1]
        · rw [r3]; simp [h1]
      · have e1 : loadSegment mapped f o.base p m = .ok m := by
          unfold loadSegment
          rw [if_pos (by omega)]
        obtain ⟨o', m', e2, i2, k2, r1, r2, r3⟩ := ih hw' hmap' o m
        rw [bind_eq e1]
        refine ⟨o', m', e2, ?_, ?_, r1, ?_, ?_⟩
        · intro q hq hq1
          rcases List.mem_cons.mp hq with rfl | hq'
          · intro i hi; omega
          · exact i2 q hq' hq1
        · intro x hx
          exact k2 x (fun q hq => hx q (List.mem_cons_of_mem _ hq))
        · rw [r2]; simp [h1]
        · rw [r3]; simp [h1]
    · have hrest : ∀ (o1 : Obj), o1.base = o.base → ∀ o' m', loadAll mapped f ps o1 m = .ok (o', m') →
          (∀ q ∈ ps, q.type = 1 → Image m' f o1.base q) →
          (∀ x, (∀ q ∈ ps, q.type = 1 → 0 < q.memsz → ¬ (o1.base ≤ x ∧ PageOf q (x - o1.base))) → m' x = m x) →
          (∀ q ∈ p :: ps, q.type = 1 → Image m' f o.base q) ∧
          (∀ x, (∀ q ∈ p :: ps, q.type = 1 → 0 < q.memsz → ¬ (o.base ≤ x ∧ PageOf q (x - o.base))) → m' x = m x) := by
        intro o1 hb o' m' _ hi hk
        rw [hb] at hi hk
        constructor
        · intro q hq hq1
          rcases List.mem_cons.mp hq with rfl | hq'
          · exact absurd hq1 h1
          · exact hi q hq' hq1
        · intro x hx
          exact hk x (fun q hq => hx q (List.mem_cons_of_mem _ hq))
      rw [if_neg h1]
      by_cases h7 : p.type = 7
      · rw [if_pos h7]
        obtain ⟨o', m', e2, i2, k2, r1, r2, r3⟩ := ih hw' hmap' { o with tls := some (o.base + p.vaddr, p.filesz, p.memsz, p.align) } m
        obtain ⟨s1, s2⟩ := hrest { o with tls := some (o.base + p.vaddr, p.filesz, p.memsz, p.align) } rfl o' m' e2 i2 k2
        refine ⟨o', m', e2, s1, s2, r1, ?_, ?_⟩
        · rw [r2]
          rw [List.filter_cons_of_pos (by simp [h7]), List.getLast?_cons]
          cases (List.filter (fun p => p.type == 7) ps).getLast? <;> rfl
        · rw [r3]; simp [h7]
      · rw [if_neg h7]
        by_cases h2 : p.type = 2
        · rw [if_pos h2]
          obtain ⟨o', m', e2, i2, k2, r1, r2, r3⟩ := ih hw' hmap' { o with dynamic := some (o.base + p.vaddr) } m
          obtain ⟨s1, s2⟩ := hrest { o with dynamic := some (o.base + p.vaddr) } rfl o' m' e2 i2 k2
          refine ⟨o', m', e2, s1, s2, r1, ?_, ?_⟩
          · rw [r2]; simp [h2]
          · rw [r3]
            rw [List.filter_cons_of_pos (by simp [h2]), List.getLast?_cons]
            cases (List.filter (fun p => p.type == 2) ps).getLast? <;> rfl
        · rw [if_neg h2, if_pos]
          · obtain ⟨o', m', e2, i2, k2, r1, r2, r3⟩ := ih hw' hmap' o m
            obtain ⟨s1, s2⟩ := hrest o rfl o' m' e2 i2 k2
            refine ⟨o', m', e2, s1, s2, r1, ?_, ?_⟩
            · rw [r2]; simp [h7]
            · rw [r3]; simp [h2]
          · have := hw.known p (by simp)
            simp only [h1, h7, h2, false_or] at this
            simp only [ignored, List.contains_iff_mem]
            simp only [List.mem_cons, List.not_mem_nil, or_false] at this ⊢
            omega

theorem highest_span (ps : List Phdr) : Span ps (highest ps) := by
  have key : ∀ (ps : List Phdr) (h : Nat), let r := ps.foldl (fun h p => if p.type ≠ 1 then h else if p.vaddr + p.memsz > h then p.vaddr + p.memsz else h) h
      h ≤ r ∧ (∀ p ∈ ps, p.type = 1 → p.vaddr + p.memsz ≤ r) ∧ (r = h ∨ ∃ p ∈ ps, p.type = 1 ∧ r = p.vaddr + p.memsz) := by
    intro ps
    induction ps with
    | nil => intro h; exact ⟨Nat.le_refl _, (fun p hp => absurd hp (by simp)), .inl rfl⟩
    | cons p ps ih =>
      intro h
      simp only [List.foldl_cons]
      generalize hh : (if p.type ≠ 1 then h else if p.vaddr + p.memsz > h then p.vaddr + p.memsz else h) = h1
      obtain ⟨a1, a2, a3⟩ := ih h1
      have hle : h ≤ h1 ∧ (p.type = 1 → p.vaddr + p.memsz ≤ h1) ∧ (h1 = h ∨ p.type = 1 ∧ h1 = p.vaddr + p.memsz) := by
        subst hh
        by_cases ht : p.type = 1
        · simp only [ht, ne_eq, not_true_eq_false, if_false]
          split <;> refine ⟨by omega, fun _ => by omega, ?_⟩
          · exact .inr ⟨trivial, rfl⟩
          · exact .inl rfl
        · simp [ht]
      refine ⟨by omega, ?_, ?_⟩
      · intro q hq hq1
        rcases List.mem_cons.mp hq with rfl | hq'
        · have := hle.2.1 hq1; omega
        · exact a2 q hq' hq1
      · rcases a3 with h3 | ⟨q, hq, hq1, h3⟩
        · rcases hle.2.2 with h4 | ⟨h4, h5⟩
          · left; omega
          · right; exact ⟨p, by simp, h4, by omega⟩
        · right; exact ⟨q, List.mem_cons_of_mem _ hq, hq1, h3⟩
  obtain ⟨_, h2, h3⟩ := key ps 0
  unfold highest
  generalize List.foldl _ 0 ps = r at *
  have hs := alignUp_spec r
  refine ⟨hs.1, fun p hp h => by have := h2 p hp h; omega, ?_⟩
  rcases h3 with h | ⟨p, hp, hp1, h⟩
  · left
    subst h
    rfl
  · right
    exact ⟨p, hp, hp1, by omega⟩

theorem page_in_span {ps : List Phdr} {n : Nat} (h : Span ps n) {p : Phdr} (hp : p ∈ ps) (h1 : p.type = 1) {x : Nat} (hx : PageOf p x) : x < n := by
  obtain ⟨y, _, hy2, hy3⟩ := hx
  have := h.2.1 p hp h1
  have := h.1
  omega

/-- Where an object goes: what the system found, or after the last one. -/
def baseOf (cfg : Config) (reserve : Nat → Option Nat) (ps : List Phdr) (w : World) : Option Nat :=
  if cfg.allocate then reserve (highest ps) else some w.libraryBase

/-- **Loading**: after a successful load, all the bytes of all segments are those of the file, followed by zeros, with the protection of the segment's flags;
nothing outside of the pages of the object has changed, and (with reserved address space) what is between the segments cannot be accessed.
Missing, because the code violates it: segments without bytes in the file that begin on a page boundary (`bss_violated`), and headers of other types. -/
theorem fetch_partial (cfg : Config) (reserve : Nat → Option Nat) (f : List Nat) (w : World) (ps : List Phdr) (hh : headers cfg.machine f = .ok (.ok ps))
    (hw : WellFormed f ps) (hmap : cfg.mapped = true → ∀ p ∈ ps, p.type = 1 → 0 < p.memsz → 0 < p.filesz + p.vaddr % 4096)
    (base : Nat) (hbase : baseOf cfg reserve ps w = some base) (hne : 0 < highest ps) :
    ∃ o w', fetch cfg reserve f w = .ok (.ok o, w') ∧ Noted base ps o ∧ (∀ p ∈ ps, p.type = 1 → Image w'.mem f base p) ∧
      (∀ n, Span ps n → ∀ x, x < base ∨ base + n ≤ x → w'.mem x = w.mem x) ∧
      (cfg.allocate = true → ∀ x, base ≤ x → (∀ n, Span ps n → x < base + n) → (∀ p ∈ ps, p.type = 1 → ¬ PageOf p (x - base)) →
        w'.mem x = some ⟨⟨false, false, false⟩, some 0⟩) ∧
      (cfg.allocate = false → base + highest ps ≤ w'.libraryBase) := by
  have uniq : ∀ n, Span ps n → highest ps ≤ n := by
    intro n hn
    rcases (highest_span ps).2.2 with h | ⟨p, hp, hp1, h⟩
    · omega
    · have := hn.2.1 p hp hp1
      have := hn.1
      have := (highest_span ps).1
      omega
  have outside : ∀ x, x < base ∨ base + highest ps ≤ x → ∀ p ∈ ps, p.type = 1 → 0 < p.memsz → ¬ (base ≤ x ∧ PageOf p (x - base)) := by
    rintro x hx p hp hp1 _ ⟨hb, hpage⟩
    have := page_in_span (highest_span ps) hp hp1 hpage
    omega
  unfold fetch
  rw [bind_eq hh]
  dsimp only
  unfold baseOf at hbase
  by_cases ha : cfg.allocate = true
  · rw [if_pos ha] at hbase
    rw [if_pos ha, if_neg (by omega), hbase]
    obtain ⟨o', m', e1, i1, k1, r1, r2, r3⟩ := loadAll_ok cfg.mapped f ps hw hmap { base := base } (setRange w.mem base (highest ps) fun _ => ⟨⟨false, false, false⟩, some 0⟩)
    dsimp only
    rw [bind_eq e1]
    refine ⟨o', _, rfl, ⟨r1, ?_, ?_⟩, i1, ?_, ?_, ?_⟩
    · rw [r2]; cases (List.filter (fun p => p.type == 7) ps).getLast? <;> rfl
    · rw [r3]; cases (List.filter (fun p => p.type == 2) ps).getLast? <;> rfl
    · intro n hn x hx
      have := uniq n hn
      dsimp only
      rw [k1 x (outside x (by omega)), setRange, if_neg (by omega)]
    · intro _ x hx1 hx2 hx3
      dsimp only
      rw [k1 x (fun p hp hp1 _ h => hx3 p hp hp1 h.2), setRange, if_pos ⟨hx1, hx2 _ (highest_span ps)⟩]
    · intro h; rw [ha] at h; cases h
  · rw [if_neg ha] at hbase
    rw [if_neg ha]
    cases hbase
    obtain ⟨o', m', e1, i1, k1, r1, r2, r3⟩ := loadAll_ok cfg.mapped f ps hw hmap { base := w.libraryBase } w.mem
    rw [bind_eq e1]
    refine ⟨o', _, rfl, ⟨r1, ?_, ?_⟩, i1, ?_, fun h => absurd h ha, ?_⟩
    · rw [r2]; cases (List.filter (fun p => p.type == 7) ps).getLast? <;> rfl
    · rw [r3]; cases (List.filter (fun p => p.type == 2) ps).getLast? <;> rfl
    · intro n hn x hx
      have := uniq n hn
      exact k1 x (outside x (by omega))
    · intro _
      dsimp only
      unfold alignUp
      omega

theorem headers_elf (machine : Nat) (f : List Nat) (ps : List Phdr) (hh : headers machine f = .ok (.ok ps)) :
    64 ≤ f.length ∧ (f.getD 0 0 = 0x7F ∧ f.getD 1 0 = 69 ∧ f.getD 2 0 = 76 ∧ f.getD 3 0 = 70) ∧ f.getD 4 0 = 2 ∧ rd f 18 2 = machine := by
  unfold headers at hh
  by_cases h1 : f.length < 64
  · rw [if_pos h1] at hh; cases hh
  · rw [if_neg h1] at hh
    by_cases h2 : f.getD 0 0 ≠ 0x7F ∨ f.getD 1 0 ≠ 69 ∨ f.getD 2 0 ≠ 76 ∨ f.getD 3 0 ≠ 70
    · rw [if_pos h2] at hh; cases hh
    · rw [if_neg h2] at hh
      by_cases h3 : (rd f 16 2 ≠ 2 ∧ rd f 16 2 ≠ 3) ∨ rd f 18 2 ≠ machine ∨ f.getD 4 0 ≠ 2
      · rw [if_pos h3] at hh; cases hh
      · clear hh
        omega

theorem take4 (f : List Nat) (h : 64 ≤ f.length) : f.take 4 = [f.getD 0 0, f.getD 1 0, f.getD 2 0, f.getD 3 0] := by
  match f, h with
  | _ :: _ :: _ :: _ :: _, _ => rfl
  | [], h => simp at h
  | [_], h => simp at h
  | [_, _], h => simp at h
  | [_, _, _], h => simp at h

/-- **Rejection**: only ELF64 files of this machine are loaded, and a load that fails with an error changes nothing. -/
theorem fetch_rejects (cfg : Config) (reserve : Nat → Option Nat) (f : List Nat) (w w' : World) (r : Except Err Obj) (h : fetch cfg reserve f w = .ok (r, w')) :
    (∀ e, r = .error e → w'.mem = w.mem ∧ w'.libraryBase = w.libraryBase) ∧
    (∀ o, r = .ok o → 64 ≤ f.length ∧ f.take 4 = [0x7F, 'E'.toNat, 'L'.toNat, 'F'.toNat] ∧ f.getD 4 0 = 2 ∧
      f.getD 18 0 + 256 * f.getD 19 0 = cfg.machine) := by
  unfold fetch at h
  cases hh : headers cfg.machine f with
  | ub => rw [hh] at h; cases h
  | panic => rw [hh] at h; cases h
  | ok q =>
    rw [hh] at h
    cases q with
    | error e =>
      cases h
      exact ⟨fun _ _ => ⟨rfl, rfl⟩, fun o ho => by cases ho⟩
    | ok ps =>
      have hk : 64 ≤ f.length ∧ f.take 4 = [0x7F, 'E'.toNat, 'L'.toNat, 'F'.toNat] ∧ f.getD 4 0 = 2 ∧ f.getD 18 0 + 256 * f.getD 19 0 = cfg.machine := by
        obtain ⟨h1, ⟨a, b, c, d⟩, h3, h4⟩ := headers_elf _ _ _ hh
        refine ⟨h1, by rw [take4 f h1, a, b, c, d]; rfl, h3, ?_⟩
        rw [← h4]
        simp [rd]
      refine ⟨fun e he => ?_, fun o _ => hk⟩
      subst he
      simp only [Res.bind] at h
      split at h
      · split at h
        · cases h; exact ⟨rfl, rfl⟩
        · split at h <;> cases h
      · split at h <;> cases h

/-- Specification: the number stored in `n` bytes at `off`, least significant first. -/
def leField (f : List Nat) (off n : Nat) : Nat := ((List.range n).map fun i => f.getD (off + i) 0 * 256 ^ i).sum

theorem rd_leField (f : List Nat) : ∀ n off, rd f off n = leField f off n := by
  intro n
  induction n with
  | zero => intro off; rfl
  | succ n ih =>
    intro off
    rw [rd, ih, leField, leField, List.range_succ_eq_map]
    simp only [List.map_cons, List.map_map, List.sum_cons, Nat.add_zero, Nat.pow_zero, Nat.mul_one]
    congr 1
    have : ∀ l : List Nat, 256 * (l.map fun i => f.getD (off + 1 + i) 0 * 256 ^ i).sum =
        (l.map ((fun i => f.getD (off + i) 0 * 256 ^ i) ∘ Nat.succ)).sum := by
      intro l
      induction l with
      | nil => rfl
      | cons a l ih =>
        simp only [List.map_cons, List.sum_cons, Nat.mul_add, ih, Function.comp]
        congr 1
        rw [Nat.pow_succ, show off + 1 + a = off + a.succ by omega, Nat.mul_comm (256 ^ a) 256, Nat.mul_left_comm]
    exact this _

theorem rd_sub (f : List Nat) (a l : Nat) : ∀ n off, off + n ≤ l → rd ((f.drop a).take l) off n = rd f (a + off) n := by
  intro n
  induction n with
  | zero => intro off _; rfl
  | succ n ih =>
    intro off h
    rw [rd, rd, ih (off + 1) (by omega)]
    congr 1
    simp only [List.getD_eq_getElem?_getD, List.getElem?_take, List.getElem?_drop]
    rw [if_pos (by omega)]

theorem phdrsFrom_get {buf : List Nat} {es : Nat} : ∀ {n i : Nat} {ps : List Phdr}, phdrsFrom buf es n i = .ok ps →
    ps.length = n ∧ ∀ k, (hk : k < ps.length) → phdrAt buf ((i + k) * es) = .ok ps[k] := by
  intro n
  induction n with
  | zero => intro i ps h; cases h; exact ⟨rfl, fun k hk => by simp at hk⟩
  | succ n ih =>
    intro i ps h
    rw [phdrsFrom] at h
    cases h1 : phdrAt buf (i * es) with
    | ub => rw [h1] at h; cases h
    | panic => rw [h1] at h; cases h
    | ok p =>
      rw [h1] at h
      simp only [Res.bind] at h
      cases h2 : phdrsFrom buf es n (i + 1) with
      | ub => rw [h2] at h; cases h
      | panic => rw [h2] at h; cases h
      | ok r =>
        rw [h2] at h
        cases h
        obtain ⟨e1, e2⟩ := ih h2
        refine ⟨by simp [e1], fun k hk => ?_⟩
        cases k with
        | zero => simpa using h1
        | succ k =>
          have := e2 k (by simpa using hk)
          rw [show i + (k + 1) = i + 1 + k by omega]
          simpa using this

/-- **The program headers are the ones in the file**: as many as e_phnum says, each with the fields that stand at its place, e_phoff and e_phentsize into the file,
and none of them beyond the end of the file. -/
theorem headers_fields (machine : Nat) (f : List Nat) (ps : List Phdr) (hh : headers machine f = .ok (.ok ps)) :
    ps.length = leField f 56 2 ∧ ∀ k, (hk : k < ps.length) →
      leField f 32 8 + k * leField f 54 2 + 56 ≤ f.length ∧
      ps[k] = { type := leField f (leField f 32 8 + k * leField f 54 2) 4, flags := leField f (leField f 32 8 + k * leField f 54 2 + 4) 4,
                offset := leField f (leField f 32 8 + k * leField f 54 2 + 8) 8, vaddr := leField f (leField f 32 8 + k * leField f 54 2 + 16) 8,
                filesz := leField f (leField f 32 8 + k * leField f 54 2 + 32) 8, memsz := leField f (leField f 32 8 + k * leField f 54 2 + 40) 8,
                align := leField f (leField f 32 8 + k * leField f 54 2 + 48) 8 } := by
  unfold headers at hh
  by_cases h1 : f.length < 64
  · rw [if_pos h1] at hh; cases hh
  rw [if_neg h1] at hh
  by_cases h2 : f.getD 0 0 ≠ 0x7F ∨ f.getD 1 0 ≠ 69 ∨ f.getD 2 0 ≠ 76 ∨ f.getD 3 0 ≠ 70
  · rw [if_pos h2] at hh; cases hh
  rw [if_neg h2] at hh
  by_cases h3 : (rd f 16 2 ≠ 2 ∧ rd f 16 2 ≠ 3) ∨ rd f 18 2 ≠ machine ∨ f.getD 4 0 ≠ 2
  · rw [if_pos h3] at hh; cases hh
  rw [if_neg h3] at hh
  simp only at hh
  by_cases h4 : rd f 32 8 ≥ 2 ^ 63
  · rw [if_pos h4] at hh; cases hh
  rw [if_neg h4] at hh
  by_cases h5 : 0 < rd f 56 2 * rd f 54 2 ∧ f.length < rd f 32 8 + rd f 56 2 * rd f 54 2
  · rw [if_pos h5] at hh; cases hh
  rw [if_neg h5] at hh
  cases h6 : phdrsFrom ((f.drop (rd f 32 8)).take (rd f 56 2 * rd f 54 2)) (rd f 54 2) (rd f 56 2) 0 with
  | ub => rw [h6] at hh; cases hh
  | panic => rw [h6] at hh; cases hh
  | ok r =>
    rw [h6] at hh
    cases hh
    obtain ⟨e1, e2⟩ := phdrsFrom_get h6
    simp only [← rd_leField]
    refine ⟨e1, fun k hk => ?_⟩
    have h7 := e2 k hk
    rw [Nat.zero_add, phdrAt] at h7
    split at h7
    case isFalse => cases h7
    case isTrue h8 =>
      have h9 : k * rd f 54 2 + 56 ≤ rd f 56 2 * rd f 54 2 := by
        have : ((f.drop (rd f 32 8)).take (rd f 56 2 * rd f 54 2)).length ≤ rd f 56 2 * rd f 54 2 := List.length_take_le _ _
        omega
      refine ⟨by omega, ?_⟩
      injection h7 with h7
      rw [← h7]
      rw [rd_sub _ _ _ _ _ (by omega), rd_sub _ _ _ _ _ (by omega), rd_sub _ _ _ _ _ (by omega), rd_sub _ _ _ _ _ (by omega), rd_sub _ _ _ _ _ (by omega),
        rd_sub _ _ _ _ _ (by omega), rd_sub _ _ _ _ _ (by omega)]
      simp only [Nat.add_assoc]

/-- **Truncated files**: a file that ends before its header does, or before its last program header, is refused with an error. -/
theorem fetch_truncated (cfg : Config) (reserve : Nat → Option Nat) (f : List Nat) (w : World)
    (h : f.length < 64 ∨ (0 < leField f 56 2 * leField f 54 2 ∧ f.length < leField f 32 8 + leField f 56 2 * leField f 54 2)) :
    ∃ e, fetch cfg reserve f w = .ok (.error e, w) := by
  have : ∃ e, headers cfg.machine f = .ok (.error e) := by
    unfold headers
    by_cases h1 : f.length < 64
    · exact ⟨_, if_pos h1⟩
    rw [if_neg h1]
    have h := h.resolve_left h1
    simp only [← rd_leField] at h
    by_cases h2 : f.getD 0 0 ≠ 0x7F ∨ f.getD 1 0 ≠ 69 ∨ f.getD 2 0 ≠ 76 ∨ f.getD 3 0 ≠ 70
    · exact ⟨_, if_pos h2⟩
    rw [if_neg h2]
    by_cases h3 : (rd f 16 2 ≠ 2 ∧ rd f 16 2 ≠ 3) ∨ rd f 18 2 ≠ cfg.machine ∨ f.getD 4 0 ≠ 2
    · exact ⟨_, if_pos h3⟩
    rw [if_neg h3]
    by_cases h4 : rd f 32 8 ≥ 2 ^ 63
    · exact ⟨_, if_pos h4⟩
    simp only
    rw [if_neg h4]
    exact ⟨_, if_pos h⟩
  obtain ⟨e, he⟩ := this
  exact ⟨e, by unfold fetch; rw [he]; rfl⟩

/-! ### A sequence of loads -/

/-- One load by one of the callers, in a world where the system only hands out address space that is not in use. -/
inductive Loads (cfg : Config) : World → List (Nat × List Nat × List Phdr) → Prop where
  | start (w : World) (h : ∀ x, 0x41000000 ≤ x → w.mem x = none) (hb : w.libraryBase = 0x41000000) : Loads cfg w []
  | fail {w : World} {l : List (Nat × List Nat × List Phdr)} (hl : Loads cfg w l) (reserve : Nat → Option Nat) (f : List Nat) (e : Err) (w' : World)
      (h : fetch cfg reserve f w = .ok (.error e, w')) : Loads cfg w' l
  | load {w : World} {l : List (Nat × List Nat × List Phdr)} (hl : Loads cfg w l) (reserve : Nat → Option Nat) (f : List Nat) (ps : List Phdr) (o : Obj) (w' : World)
      (hh : headers cfg.machine f = .ok (.ok ps)) (hw : WellFormed f ps)
      (hmap : cfg.mapped = true → ∀ p ∈ ps, p.type = 1 → 0 < p.memsz → 0 < p.filesz + p.vaddr % 4096) (hne : 0 < highest ps)
      (hfree : ∀ n b, reserve n = some b → ∀ x, b ≤ x → x < b + n → w.mem x = none)
      (h : fetch cfg reserve f w = .ok (.ok o, w')) : Loads cfg w' ((o.base, f, ps) :: l)

/-- **Objects do not disturb each other**: whatever is loaded later, every segment of every object keeps its image, until the program itself writes there. -/
theorem loads_partial (cfg : Config) (w : World) (l : List (Nat × List Nat × List Phdr)) (h : Loads cfg w l) :
    ∀ q ∈ l, ∀ p ∈ q.2.2, p.type = 1 → Image w.mem q.2.1 q.1 p := by
  have inv : (∀ q ∈ l, ∀ p ∈ q.2.2, p.type = 1 → Image w.mem q.2.1 q.1 p) ∧
      (cfg.allocate = false → ∀ q ∈ l, q.1 + highest q.2.2 ≤ w.libraryBase) := by
    induction h with
    | start w h hb => exact ⟨fun q hq => absurd hq (by simp), fun _ q hq => absurd hq (by simp)⟩
    | fail hl reserve f e w' h ih =>
      have := (fetch_rejects cfg reserve f _ w' _ h).1 e rfl
      rw [this.1, this.2]
      exact ih
    | @load w l hl reserve f ps o w' hh hw hmap hne hfree h ih =>
      obtain ⟨i1, i2⟩ := ih
      have hb : ∃ base, baseOf cfg reserve ps w = some base := by
        unfold baseOf
        by_cases ha : cfg.allocate = true
        · rw [if_pos ha]
          cases hr : reserve (highest ps) with
          | some b => exact ⟨b, rfl⟩
          | none =>
            unfold fetch at h
            rw [bind_eq hh] at h
            simp only [if_pos ha, if_neg (show ¬ highest ps = 0 by omega), hr] at h
            cases h
        · rw [if_neg ha]; exact ⟨_, rfl⟩
      obtain ⟨base, hbase⟩ := hb
      obtain ⟨o1, w1, e1, n1, im1, out1, _, lb1⟩ := fetch_partial cfg reserve f w ps hh hw hmap base hbase hne
      rw [h] at e1
      cases e1
      have hob : o.base = base := n1.1
      -- an address that an earlier object uses is not in the new range
      have keep : ∀ q ∈ l, ∀ p ∈ q.2.2, p.type = 1 → Image w'.mem q.2.1 q.1 p := by
        intro q hq p hp hp1 i hi
        have hold := i1 q hq p hp hp1 i hi
        rw [out1 _ (highest_span ps)]
        · exact hold
        · by_cases ha : cfg.allocate = true
          · unfold baseOf at hbase
            rw [if_pos ha] at hbase
            rcases Nat.lt_or_ge (q.1 + p.vaddr + i) base with h1 | h1
            · exact .inl h1
            · rcases Nat.lt_or_ge (q.1 + p.vaddr + i) (base + highest ps) with h2 | h2
              · rw [hfree _ _ hbase _ h1 h2] at hold
                cases hold
              · exact .inr h2
          · left
            unfold baseOf at hbase
            rw [if_neg ha] at hbase
            cases hbase
            have := i2 (by simpa using ha) q hq
            have := (highest_span q.2.2).2.1 p hp hp1
            omega
      constructor
      · intro q hq
        rcases List.mem_cons.mp hq with rfl | hq'
        · intro p hp hp1
          have := im1 p hp hp1
          rw [← hob] at this
          exact this
        · exact keep q hq'
      · intro ha q hq
        have hlb := lb1 ha
        rcases List.mem_cons.mp hq with rfl | hq'
        · simpa [hob] using hlb
        · have h1 := i2 ha q hq'
          unfold baseOf at hbase
          rw [if_neg (by simp [ha])] at hbase
          cases hbase
          omega
  exact inv.1

/-! ### What does not work -/

/-- A segment with no bytes in the file that begins on a page boundary (only zero-initialised data) cannot be mapped: the file mapping of length 0 fails, and
the program is stopped. -/
theorem bss_violated (f : List Nat) (base : Nat) (p : Phdr) (m : Mem) (h0 : 0 < p.memsz) (hf : p.filesz = 0) (ha : p.vaddr % 4096 = 0) (hc : p.offset % 4096 = 0) :
    loadSegment true f base p m = .panic := by
  unfold loadSegment
  simp only [if_neg (show ¬ p.memsz = 0 by omega), if_neg (show ¬ p.memsz < p.filesz by omega), if_neg (show ¬ p.vaddr % 4096 ≠ p.offset % 4096 by omega)]
  rw [hf, ha]
  rfl

/-- A header of type PT_NULL, which the ELF standard says is to be ignored, stops the program; so does any type the linker does not know. -/
theorem null_violated (mapped : Bool) (f : List Nat) (p : Phdr) (ps : List Phdr) (o : Obj) (m : Mem) (h : p.type = 0) : loadAll mapped f (p :: ps) o m = .panic := by
  rw [loadAll, if_neg (by omega), if_neg (by omega), if_neg (by omega), if_neg]
  rw [h]
  decide

deriving instance DecidableEq for Except

/-! An object with two segments: 259 bytes of the file, read and executed; then 3 bytes of the file and 4997 zeros, read and written. -/

def le : Nat → Nat → List Nat
  | 0, _ => []
  | n + 1, v => v % 256 :: le n (v / 256)

def phdrBytes (p : Phdr) : List Nat :=
  le 4 p.type ++ le 4 p.flags ++ le 8 p.offset ++ le 8 p.vaddr ++ le 8 p.vaddr ++ le 8 p.filesz ++ le 8 p.memsz ++ le 8 p.align

def text : Phdr := ⟨1, 5, 0, 0, 259, 259, 4096⟩
def data : Phdr := ⟨1, 6, 256, 4352, 3, 5000, 4096⟩
def dyn : Phdr := ⟨2, 6, 256, 4352, 3, 3, 8⟩

def header (phentsize phnum : Nat) : List Nat :=
  [0x7F, 69, 76, 70, 2, 1, 1, 0, 0, 0, 0, 0, 0, 0, 0, 0] ++ le 2 3 ++ le 2 62 ++ le 4 1 ++ le 8 0 ++ le 8 64 ++ le 8 0 ++ le 4 0 ++ le 2 64 ++ le 2 phentsize ++ le 2 phnum ++ le 6 0

def file : List Nat := header 56 3 ++ phdrBytes text ++ phdrBytes data ++ phdrBytes dyn ++ List.replicate 24 0 ++ [7, 8, 9]

example : file.length = 259 := by decide +kernel

theorem file_headers : headers 62 file = .ok (.ok [text, data, dyn]) := by decide +kernel

example : (file.take 100).length < 64 ∨ (0 < leField (file.take 100) 56 2 * leField (file.take 100) 54 2 ∧
    (file.take 100).length < leField (file.take 100) 32 8 + leField (file.take 100) 56 2 * leField (file.take 100) 54 2) := by decide +kernel

theorem file_fits : WellFormed file [text, data, dyn] := by
  have hl : file.length = 259 := by decide +kernel
  refine ⟨?_, ?_, ?_⟩
  · intro p hp h1 _
    simp only [List.mem_cons, List.not_mem_nil, or_false] at hp
    rcases hp with rfl | rfl | rfl
    · exact ⟨by decide, by decide, by rw [hl]; decide⟩
    · exact ⟨by decide, by decide, by rw [hl]; decide⟩
    · cases h1
  · intro p hp
    simp only [List.mem_cons, List.not_mem_nil, or_false] at hp
    rcases hp with rfl | rfl | rfl <;> simp [text, data, dyn]
  · simp only [List.pairwise_cons, List.mem_cons, List.not_mem_nil, or_false, List.Pairwise.nil, and_true]
    refine ⟨?_, ?_, fun _ h => h.elim⟩
    · rintro q (rfl | rfl)
      · rintro - - - - x ⟨⟨y, _, h2, h3⟩, ⟨z, h4, _, h6⟩⟩
        simp only [text, data] at h2 h4
        omega
      · intro _ h; cases h
    · rintro q rfl _ h; cases h

example : highest [text, data, dyn] = 12288 := by decide +kernel

/-- Such a load is possible, in both modes, and can be followed by another. -/
example (mapped allocate : Bool) : ∃ w a b, Loads ⟨62, mapped, allocate⟩ w [(a, file, [text, data, dyn]), (b, file, [text, data, dyn])] := by
  have hm : mapped = true → ∀ p ∈ [text, data, dyn], p.type = 1 → 0 < p.memsz → 0 < p.filesz + p.vaddr % 4096 := by
    intro _ p hp _ _
    simp only [List.mem_cons, List.not_mem_nil, or_false] at hp
    rcases hp with rfl | rfl | rfl <;> decide
  have h0 : 0 < highest [text, data, dyn] := by decide +kernel
  have hs : ∀ n, Span [text, data, dyn] n → n = 12288 := by
    intro n ⟨h1, h2, h3⟩
    have h4 := h2 data (by simp) rfl
    rcases h3 with h3 | ⟨p, hp, hp1, h3⟩
    · simp only [data] at h4; omega
    · simp only [List.mem_cons, List.not_mem_nil, or_false] at hp
      rcases hp with rfl | rfl | rfl <;> simp only [text, data, dyn] at h3 h4 <;> omega
  have l0 : Loads ⟨62, mapped, allocate⟩ { mem := fun _ => none } [] := .start _ (fun _ _ => rfl) rfl
  obtain ⟨b1, hb1⟩ : ∃ b, baseOf ⟨62, mapped, allocate⟩ (fun _ => some 0x50000000) [text, data, dyn] { mem := fun _ => none } = some b := by
    cases allocate <;> exact ⟨_, rfl⟩
  obtain ⟨o1, w1, e1, n1, i1, k1, _, _⟩ := fetch_partial ⟨62, mapped, allocate⟩ (fun _ => some 0x50000000) file _ _ file_headers file_fits hm b1 hb1 h0
  have l1 := l0.load (fun _ => some 0x50000000) file _ o1 w1 file_headers file_fits hm h0 (fun _ _ _ _ _ _ => rfl) e1
  obtain ⟨b2, hb2⟩ : ∃ b, baseOf ⟨62, mapped, allocate⟩ (fun n => if n = 12288 then some 0x60000000 else none) [text, data, dyn] w1 = some b := by
    cases allocate
    · exact ⟨_, rfl⟩
    · refine ⟨0x60000000, ?_⟩
      have h : highest [text, data, dyn] = 12288 := by decide +kernel
      simp only [baseOf, if_true, h]
  obtain ⟨o2, w2, e2, _⟩ := fetch_partial ⟨62, mapped, allocate⟩ (fun n => if n = 12288 then some 0x60000000 else none) file w1 _ file_headers file_fits hm b2 hb2 h0
  have l2 := l1.load _ file _ o2 w2 file_headers file_fits hm h0 (by
    intro n b hr x hx1 hx2
    by_cases hn : n = 12288
    · rw [if_pos hn] at hr
      cases hr
      subst hn
      rw [k1 12288 (by have := highest_span [text, data, dyn]; have e := hs _ this; rw [e] at this; exact this)]
      right
      have hb : b1 ≤ 0x50000000 := by
        cases allocate
        · cases hb1; exact (by decide : 0x41000000 ≤ 0x50000000)
        · cases hb1; exact Nat.le_refl _
      omega
    · rw [if_neg hn] at hr; cases hr) e2
  exact ⟨w2, o2.base, o1.base, l2⟩

/-- A file with program headers of less than 56 bytes is not rejected; the linker reads behind its buffer. A segment larger in the file than in memory stops the
program instead of being reported by dlopen. -/
theorem malformed_violated : headers 62 (header 1 1 ++ [1]) = .ub ∧
    ∀ m, loadSegment true [] 0 ⟨1, 5, 0, 0, 2, 1, 4096⟩ m = .panic := by
  refine ⟨by decide +kernel, fun m => rfl⟩

end Mlibc.Load
