import Verif.Base
/-
C106: what relocations put into memory, and where thread-local variables are found.

Models options/rtld/generic/linker.cpp (`_processRelocations`, `_processStaticRelocations` with DT_RELR,
`_processLazyRelocations`, `processLateRelocation`, `allocateTcb`'s table of TLS blocks, `accessDtvIndex`),
linker.hpp (`Relocation`), main.cpp (`lazyRelocate`, `__dlapi_get_tls`) and x86_64/runtime.S (the TLSDESC
resolvers), for x86_64.

Memory is a function from addresses to bytes; addresses and words are numbers, arithmetic is modulo 2^64.
Simplifications: a word at the very top of the address space does not wrap around; symbol lookup (C64) is a
parameter of the object, and so is what the resolver of an indirect function returns; the address the
allocator returns for a dynamic TLS descriptor is part of the record.
-/
set_option linter.unusedSimpArgs false
set_option linter.unusedVariables false
namespace Mlibc.Reloc
open Mlibc

/-! ### Memory -/

/-- Byte-addressed memory. -/
abbrev Mem := Nat → Nat

/-- The little-endian 64-bit word at `a`. linker.hpp L294-304 (`*ptr`). -/
def load (m : Mem) (a : Nat) : Nat :=
  m a % 256 + 256 * (m (a + 1) % 256) + 65536 * (m (a + 2) % 256) + 16777216 * (m (a + 3) % 256) +
  4294967296 * (m (a + 4) % 256) + 1099511627776 * (m (a + 5) % 256) + 281474976710656 * (m (a + 6) % 256) +
  72057594037927936 * (m (a + 7) % 256)

/-- Storing a 64-bit word. linker.hpp L319-322 `relocate`. -/
def store (m : Mem) (a v : Nat) : Mem := fun x =>
  if a ≤ x ∧ x < a + 8 then v / 256 ^ (x - a) % 256 else m x

/-- Copying `n` bytes from `s` to `d`. linker.cpp L1283 (memcpy). -/
def copy (m : Mem) (d s n : Nat) : Mem := fun x => if d ≤ x ∧ x < d + n then m (s + (x - d)) else m x

theorem load_store (m : Mem) (a v : Nat) : load (store m a v) a = v % 2 ^ 64 := by
  unfold load store
  have e1 : a ≤ a ∧ a < a + 8 := by omega
  have e2 : a ≤ a + 1 ∧ a + 1 < a + 8 := by omega
  have e3 : a ≤ a + 2 ∧ a + 2 < a + 8 := by omega
  have e4 : a ≤ a + 3 ∧ a + 3 < a + 8 := by omega
  have e5 : a ≤ a + 4 ∧ a + 4 < a + 8 := by omega
  have e6 : a ≤ a + 5 ∧ a + 5 < a + 8 := by omega
  have e7 : a ≤ a + 6 ∧ a + 6 < a + 8 := by omega
  have e8 : a ≤ a + 7 ∧ a + 7 < a + 8 := by omega
  rw [if_pos e1, if_pos e2, if_pos e3, if_pos e4, if_pos e5, if_pos e6, if_pos e7, if_pos e8]
  simp only [Nat.sub_self, Nat.add_sub_cancel_left, Nat.reducePow, Nat.div_one]
  omega

theorem load_congr {m m' : Mem} {a : Nat} (h : ∀ x, a ≤ x → x < a + 8 → m' x = m x) : load m' a = load m a := by
  unfold load
  rw [h a (by omega) (by omega), h (a + 1) (by omega) (by omega), h (a + 2) (by omega) (by omega),
    h (a + 3) (by omega) (by omega), h (a + 4) (by omega) (by omega), h (a + 5) (by omega) (by omega),
    h (a + 6) (by omega) (by omega), h (a + 7) (by omega) (by omega)]

theorem load_lt (m : Mem) (a : Nat) : load m a < 2 ^ 64 := by unfold load; omega

/-! ### Model: objects and records -/

/-- linker.hpp `TlsModel`, L103-107. -/
inductive TlsModel | null | initial | dynamic
  deriving DecidableEq, Repr

/-- What relocation needs to know of an object: load address, index and placement of its TLS segment.
linker.hpp L160-255 `SharedObject` (`tlsOffset` is negative on x86_64; here modulo 2^64). -/
structure Module where
  base : Nat
  tlsIndex : Nat := 0
  tlsModel : TlsModel := .null
  tlsOffset : Nat := 0
  deriving DecidableEq, Repr

/-- A definition found by symbol lookup. linker.hpp `ObjectSymbol`. -/
structure Def where
  obj : Module
  value : Nat
  size : Nat := 0
  ifunc : Bool := false
  deriving DecidableEq, Repr

/-- Types of relocation records. x86_64/elf.hpp L32-43. -/
inductive Kind
  | none | jumpSlot | globDat | absolute | relative | dtpmod | dtpoff | tpoff | tlsdesc | irelative | copy | other
  deriving DecidableEq, Repr

/-- A relocation record. `addend = none` is a record without addend field (DT_REL). linker.hpp L266-338. -/
structure Rel where
  offset : Nat
  kind : Kind
  sym : Nat := 0
  addend : Option Nat := some 0
  heap : Nat := 0
  deriving DecidableEq, Repr

/-- An object with its dynamic relocations. `own`, `scope` and `others` are the results of looking the symbol
with an index up in the object itself, in the global and local scope, and there without the main program. -/
structure Obj where
  m : Module
  symbolic : Bool := false
  own : Nat → Option Def := fun _ => Option.none
  scope : Nat → Option Def := fun _ => Option.none
  others : Nat → Option Def := fun _ => Option.none
  weak : Nat → Bool := fun _ => false
  isMain : Bool := false

/-- linker.hpp L315-317 `destination`. -/
def dest (o : Obj) (r : Rel) : Nat := (o.m.base + r.offset) % 2 ^ 64

/-- linker.hpp L291-302 `addend_rel`. -/
def addendRel (o : Obj) (r : Rel) (m : Mem) : Nat :=
  match r.addend with
  | some a => a
  | Option.none => load m (dest o r)

/-- linker.hpp L304-313 `addend_norel`. -/
def addendNorel (r : Rel) : Nat :=
  match r.addend with
  | some a => a
  | Option.none => 0

/-- linker.cpp L1546-1555 `ObjectSymbol::virtualAddress`; `call` gives the results of ifunc resolvers
(`handleIfunc`, L111-131). -/
def virtualAddress (call : Nat → Nat) (d : Def) : Nat :=
  if d.ifunc then call ((d.obj.base + d.value) % 2 ^ 64) else (d.obj.base + d.value) % 2 ^ 64

/-- `p ? p->virtualAddress() : 0`, L2154, 2162, 2169. -/
def symAddr (call : Nat → Nat) (p : Option Def) : Nat :=
  match p with
  | some d => virtualAddress call d
  | Option.none => 0

/-- The TLSDESC case, L2229-2271: descriptor words. `statRes` and `dynRes` are the addresses of the two
resolver functions. -/
def tlsdesc (statRes dynRes : Nat) (d heap value addend : Nat) (target : Option Module) (m : Mem) : Mem :=
  match target with
  | Option.none => store (store m d statRes) (d + 8) 0
  | some t =>
    if t.tlsModel = .initial then
      store (store m d statRes) (d + 8) ((value + t.tlsOffset + addend) % 2 ^ 64)
    else
      store (store (store (store m heap t.tlsIndex) (heap + 8) ((value + addend) % 2 ^ 64)) d dynRes) (d + 8) heap

/-- The environment: ifunc resolvers and the addresses of the TLSDESC resolvers. -/
structure Env where
  call : Nat → Nat
  statRes : Nat
  dynRes : Nat

/-- The lookup in linker.cpp L2126-2147: the object itself under DT_SYMBOLIC, then the scopes. -/
def lookup (o : Obj) (i : Nat) : Option Def :=
  if i ≠ 0 then
    match (if o.symbolic then o.own i else Option.none) with
    | some d => some d
    | Option.none => o.scope i
  else Option.none

/-- The switch of linker.cpp L2148-2276 for a resolved symbol `p`. -/
def apply (E : Env) (o : Obj) (m : Mem) (r : Rel) (p : Option Def) : Res Mem :=
  match r.kind with
  | .none => .ok m
  | .jumpSlot =>
    if addendNorel r ≠ 0 then .panic else .ok (store m (dest o r) (symAddr E.call p))
  | .globDat =>
    if r.sym = 0 then .panic else .ok (store m (dest o r) ((symAddr E.call p + addendNorel r) % 2 ^ 64))
  | .absolute =>
    if r.sym = 0 then .panic else .ok (store m (dest o r) ((symAddr E.call p + addendRel o r m) % 2 ^ 64))
  | .relative =>
    if r.sym ≠ 0 then .panic else .ok (store m (dest o r) ((o.m.base + addendRel o r m) % 2 ^ 64))
  | .dtpmod =>
    if addendRel o r m ≠ 0 then .panic
    else if r.sym ≠ 0 then
      match p with
      | Option.none => .panic
      | some d => if d.obj.tlsIndex = 0 then .panic else .ok (store m (dest o r) d.obj.tlsIndex)
    else if o.m.tlsIndex = 0 then .panic
    else .ok (store m (dest o r) o.m.tlsIndex)
  | .dtpoff =>
    if r.sym = 0 then .panic
    else match p with
      | Option.none => .panic
      | some d => .ok (store m (dest o r) ((d.value + addendRel o r m) % 2 ^ 64))
  | .tpoff =>
    if r.sym ≠ 0 then
      match p with
      | Option.none => .panic
      | some d =>
        if d.obj.tlsModel ≠ .initial then .panic
        else .ok (store m (dest o r) ((addendRel o r m + d.value + d.obj.tlsOffset) % 2 ^ 64))
    else if o.m.tlsModel ≠ .initial then .panic
    else .ok (store m (dest o r) ((addendRel o r m + o.m.tlsOffset) % 2 ^ 64))
  | .tlsdesc =>
    if r.sym ≠ 0 then
      match o.scope r.sym with
      | Option.none =>
        if o.weak r.sym then .ok (tlsdesc E.statRes E.dynRes (dest o r) r.heap 0 (addendNorel r) Option.none m)
        else .panic
      | some d => .ok (tlsdesc E.statRes E.dynRes (dest o r) r.heap d.value (addendNorel r) (some d.obj) m)
    else .ok (tlsdesc E.statRes E.dynRes (dest o r) r.heap 0 (addendNorel r) (some o.m) m)
  | .copy | .irelative | .other => .panic

/-- linker.cpp L2120-2277 `Loader::_processRelocations`. -/
def process (E : Env) (o : Obj) (m : Mem) (r : Rel) : Res Mem :=
  if r.kind = .copy ∨ r.kind = .irelative then .ok m
  else if r.sym ≠ 0 ∧ lookup o r.sym = Option.none ∧ o.weak r.sym = false then .panic
  else apply E o m r (lookup o r.sym)

/-- The loop over the table, linker.cpp L2323-2342. -/
def processAll (E : Env) (o : Obj) (m : Mem) : List Rel → Res Mem
  | [] => .ok m
  | r :: rs => do
    let m ← process E o m r
    processAll E o m rs

/-- `*addr += object->baseAddress`, linker.cpp L2352 and L2362. -/
def bump (base : Nat) (m : Mem) (a : Nat) : Mem := store m a ((load m a + base) % 2 ^ 64)

/-- The loop over the bits of a bitmap entry, linker.cpp L2360-2365. -/
def bitmap (base : Nat) (e a : Nat) (m : Mem) : Mem :=
  if e = 0 then m
  else bitmap base (e / 2) (a + 8) (if e % 2 = 1 then bump base m a else m)
termination_by e
decreasing_by omega

/-- DT_RELR, linker.cpp L2343-2371. `addr = none` is the null pointer the loop starts with. -/
def relr (base : Nat) : List Nat → Option Nat → Mem → Res Mem
  | [], _, m => .ok m
  | e :: es, addr, m =>
    if e % 2 = 0 then
      let a := (base + e) % 2 ^ 64
      if a = 0 then .panic else relr base es (some (a + 8)) (bump base m a)
    else
      match addr with
      | Option.none => .ub
      | some a => relr base es (some (a + 63 * 8)) (bitmap base (e / 2) a m)

/-- One record of the PLT table, linker.cpp L2373-2488 `_processLazyRelocations` (the words [1] and [2] of the
global offset table are left out). -/
def processPlt (E : Env) (eager : Bool) (o : Obj) (m : Mem) (r : Rel) : Res Mem :=
  match r.kind with
  | .jumpSlot =>
    if eager then
      match o.scope r.sym with
      | some d => .ok (store m (dest o r) (virtualAddress E.call d))
      | Option.none => if o.weak r.sym then .ok (store m (dest o r) 0) else .panic
    else .ok (store m (dest o r) ((load m (dest o r) + o.m.base) % 2 ^ 64))
  | .irelative => .ok (store m (dest o r) (E.call ((o.m.base + addendNorel r) % 2 ^ 64)))
  | .tlsdesc =>
    if r.sym ≠ 0 then
      match o.scope r.sym with
      | Option.none =>
        if o.weak r.sym then .ok (tlsdesc E.statRes E.dynRes (dest o r) r.heap 0 (addendNorel r) Option.none m)
        else .panic
      | some d => .ok (tlsdesc E.statRes E.dynRes (dest o r) r.heap d.value (addendNorel r) (some d.obj) m)
    else .ok (tlsdesc E.statRes E.dynRes (dest o r) r.heap 0 (addendNorel r) (some o.m) m)
  | _ => .panic

/-- main.cpp L209-229 `lazyRelocate`: the first call through a lazily bound slot; the memory and the address
that is called. -/
def lazyRelocate (E : Env) (o : Obj) (m : Mem) (r : Rel) : Res (Mem × Nat) :=
  if r.kind ≠ .jumpSlot then .panic
  else match o.scope r.sym with
    | Option.none => .panic
    | some d => .ok (store m (dest o r) (virtualAddress E.call d), virtualAddress E.call d)

/-- linker.cpp L1271-1293 `processLateRelocation`. -/
def processLate (E : Env) (o : Obj) (m : Mem) (r : Rel) : Res Mem :=
  match r.kind with
  | .copy =>
    match (if r.sym ≠ 0 then o.others r.sym else Option.none) with
    | Option.none => .panic
    | some d => .ok (copy m (dest o r) (virtualAddress E.call d) d.size)
  | .irelative => .ok (store m (dest o r) (E.call ((o.m.base + addendRel o r m) % 2 ^ 64)))
  | _ => .ok m

/-- The loops of linker.cpp L1327-1341. -/
def lateAll (E : Env) (o : Obj) (m : Mem) : List Rel → Res Mem
  | [] => .ok m
  | r :: rs => do
    let m ← processLate E o m r
    lateAll E o m rs

/-- An object with its tables. -/
structure Loaded where
  o : Obj
  rels : List Rel

/-- The two passes of linker.cpp L1831-1862 `linkObjects`: ordinary relocations of all objects, then the late
ones of the main program. -/
def staticPass (E : Env) : List Loaded → Mem → Res Mem
  | [], m => .ok m
  | L :: Ls, m => do
    let m ← processAll E L.o m L.rels
    staticPass E Ls m

/-- L1850-1862. -/
def latePass (E : Env) : List Loaded → Mem → Res Mem
  | [], m => .ok m
  | L :: Ls, m => do
    let m ← if L.o.isMain then lateAll E L.o m L.rels else .ok m
    latePass E Ls m

/-- linker.cpp L1831-1862. -/
def link (E : Env) (Ls : List Loaded) (m : Mem) : Res Mem := do
  let m ← staticPass E Ls m
  latePass E Ls m

/-! ### Model: access to thread-local variables -/

/-- linker.cpp L1482-1498 `allocateTcb`: the table of TLS blocks of a thread with thread pointer `tp`;
`mods[i]` is the object with TLS index `i` (`none` at index 0), `buf i` the block allocated for a dynamic one. -/
def allocDtv (tp : Nat) (buf : Nat → Nat) (mods : List (Option Module)) : List Nat :=
  mods.mapIdx fun i x =>
    match x with
    | Option.none => 0
    | some t =>
      match t.tlsModel with
      | .initial => (tp + t.tlsOffset) % 2 ^ 64
      | .dynamic => buf i
      | .null => 0

/-- linker.cpp L1505-1515 `accessDtvIndex` and main.cpp L703-705 `__dlapi_get_tls` (`__tls_get_addr`), for the
two words of the descriptor at `a`. TLS_DTV_OFFSET is 0 on x86_64. -/
def tlsGetAddr (dtv : List Nat) (m : Mem) (a : Nat) : Res Nat :=
  let index := load m a
  if index = 0 then .panic
  else match dtv[index]? with
    | Option.none => .panic
    | some p => if p = 0 then .panic else .ok ((p + load m (a + 8)) % 2 ^ 64)

/-- x86_64/runtime.S L4-27: calling the TLS descriptor at `a` gives an offset from the thread pointer. -/
def tlsdescCall (E : Env) (tp : Nat) (dtv : List Nat) (m : Mem) (a : Nat) : Res Nat :=
  if load m a = E.statRes then .ok (load m (a + 8))
  else if load m a = E.dynRes then
    let data := load m (a + 8)
    match dtv[load m data]? with
    | Option.none => .ub
    | some p => .ok ((p + load m (data + 8) + (2 ^ 64 - tp % 2 ^ 64)) % 2 ^ 64)
  else .ub

/-! ### Specification -/

/-- The definition a reference by symbol `i` of `o` is bound to: with DT_SYMBOLIC the object's own one if it
has one, otherwise the first in scope. -/
inductive Binds (o : Obj) (i : Nat) : Option Def → Prop
  | own (d : Def) : o.symbolic = true → o.own i = some d → Binds o i (some d)
  | scope : (o.symbolic = false ∨ o.own i = none) → Binds o i (o.scope i)

/-- The address of the definition: for an indirect function what its resolver returns; 0 for an undefined weak
symbol. -/
inductive AddressOf (E : Env) : Option Def → Nat → Prop
  | undefined : AddressOf E none 0
  | plain (d : Def) : d.ifunc = false → AddressOf E (some d) ((d.obj.base + d.value) % 2 ^ 64)
  | indirect (d : Def) : d.ifunc = true → AddressOf E (some d) (E.call ((d.obj.base + d.value) % 2 ^ 64))

/-- The addend of a record without addend field is what is at the destination before. -/
def Addend (o : Obj) (r : Rel) (m : Mem) (A : Nat) : Prop :=
  r.addend = some A ∨ (r.addend = none ∧ A = load m ((o.m.base + r.offset) % 2 ^ 64))

/-- A thread: thread pointer, table of blocks, and where its copy of every object's TLS segment is. -/
structure Thread where
  tp : Nat
  dtv : List Nat
  block : Module → Nat

/-- The thread is set up for the objects `T`: the table leads to the blocks, and the blocks of the initial
objects are at their fixed offset from the thread pointer. -/
structure Thread.Sound (th : Thread) (T : Module → Prop) : Prop where
  index : ∀ t, T t → t.tlsIndex ≠ 0 ∧ t.tlsIndex < 2 ^ 64 ∧ th.dtv[t.tlsIndex]? = some (th.block t)
  nonnull : ∀ t, T t → th.block t ≠ 0
  fixed : ∀ t, T t → t.tlsModel = .initial → th.block t = (th.tp + t.tlsOffset) % 2 ^ 64

/-- What a relocation record demands of the memory `m'` after relocation, when `m` was the memory before
(x86-64 psABI: S, S + A, B + A; the TLS records are stated by what the program computes from them). -/
def Meets (E : Env) (T : Module → Prop) (o : Obj) (r : Rel) (m m' : Mem) : Prop :=
  let P := (o.m.base + r.offset) % 2 ^ 64
  match r.kind with
  | .none => True
  | .jumpSlot | .globDat => r.sym ≠ 0 → ∃ p S, Binds o r.sym p ∧ AddressOf E p S ∧
      load m' P = (S + (if r.kind = .globDat then (match r.addend with | some A => A | none => 0) else 0)) % 2 ^ 64
  | .absolute => ∃ p S A, Binds o r.sym p ∧ AddressOf E p S ∧ Addend o r m A ∧ load m' P = (S + A) % 2 ^ 64
  | .relative => ∃ A, Addend o r m A ∧ load m' P = (o.m.base + A) % 2 ^ 64
  | .dtpmod => ∃ t, (if r.sym = 0 then t = o.m else ∃ d, Binds o r.sym (some d) ∧ t = d.obj) ∧
      load m' P = t.tlsIndex % 2 ^ 64
  | .dtpoff => ∃ d A, Binds o r.sym (some d) ∧ Addend o r m A ∧ load m' P = (d.value + A) % 2 ^ 64
  | .tpoff => ∃ t v A, (if r.sym = 0 then t = o.m ∧ v = 0 else ∃ d, Binds o r.sym (some d) ∧ t = d.obj ∧ v = d.value) ∧
      Addend o r m A ∧
      ∀ th : Thread, th.Sound T → T t → (th.tp + load m' P) % 2 ^ 64 = (th.block t + v + A) % 2 ^ 64
  | .tlsdesc => r.sym ≠ 0 ∧ Binds o r.sym none ∨
      ∃ t v, (if r.sym = 0 then t = o.m ∧ v = 0 else ∃ d, Binds o r.sym (some d) ∧ t = d.obj ∧ v = d.value) ∧
      ∀ th : Thread, th.Sound T → T t → ∃ off, tlsdescCall E th.tp th.dtv m' P = .ok off ∧
        (th.tp + off) % 2 ^ 64 = (th.block t + v + (match r.addend with | some A => A | none => 0)) % 2 ^ 64
  | .irelative => ∃ A, Addend o r m A ∧ load m' P = E.call ((o.m.base + A) % 2 ^ 64) % 2 ^ 64
  | .copy => ∃ d S, o.others r.sym = some d ∧ AddressOf E (some d) S ∧ ∀ i < d.size, m' (P + i) = m' (S + i)
  | .other => False

/-- The words a DT_RELR table lists, for the position `a` behind the last word described so far (generic
ABI): an even entry is the address of a word; bit `k ≥ 1` of an odd entry stands for the word at
`a + 8 (k - 1)`, and the next entry continues 63 words further. -/
inductive Listed (base : Nat) : List Nat → Nat → Nat → Prop
  | addr {e es a} : e % 2 = 0 → Listed base (e :: es) a (base + e)
  | bit {e es a k} : e % 2 = 1 → 1 ≤ k → e.testBit k = true → Listed base (e :: es) a (a + 8 * (k - 1))
  | afterAddr {e es a x} : e % 2 = 0 → Listed base es (base + e + 8) x → Listed base (e :: es) a x
  | afterBits {e es a x} : e % 2 = 1 → Listed base es (a + 504) x → Listed base (e :: es) a x

/-- The form the generic ABI gives a table: it starts with an address, addresses ascend, nothing passes the
end of the address space. -/
inductive Ascending (base : Nat) : List Nat → Option Nat → Prop
  | nil {a} : Ascending base [] a
  | addr {e es a} : e % 2 = 0 → 0 < base + e → base + e + 8 ≤ 2 ^ 64 → (∀ b, a = some b → b ≤ base + e) →
      Ascending base es (some (base + e + 8)) → Ascending base (e :: es) a
  | bits {e es a} : e % 2 = 1 → e < 2 ^ 64 → Ascending base es (some (a + 504)) → Ascending base (e :: es) (some a)

/-! ### Sequences of updates -/

/-- A step on memory: the bytes it writes (`foot`), the bytes its effect depends on (`dep`), and its effect. -/
structure Upd where
  foot : Nat → Prop
  dep : Nat → Prop
  post : Mem → Mem → Prop

/-- A run of updates: each leaves everything outside its footprint alone and has its effect. -/
inductive Run : List Upd → Mem → Mem → Prop
  | nil {m} : Run [] m m
  | cons {u us m m1 m2} : (∀ x, ¬ u.foot x → m1 x = m x) → u.post m m1 → Run us m1 m2 → Run (u :: us) m m2

/-- The effect depends only on the bytes `dep`. -/
def Upd.Local (u : Upd) : Prop := ∀ m1 m2 n1 n2 : Mem, (∀ x, u.dep x → n1 x = m1 x) →
  (∀ x, u.dep x → n2 x = m2 x) → u.post m1 m2 → u.post n1 n2

/-- Two updates do not touch each other. -/
def Apart (u v : Upd) : Prop := (∀ x, u.dep x → ¬ v.foot x) ∧ (∀ x, v.dep x → ¬ u.foot x)

theorem run_frame {us : List Upd} {m m' : Mem} (h : Run us m m') : ∀ x, (∀ u ∈ us, ¬ u.foot x) → m' x = m x := by
  induction h with
  | nil => intro x _; rfl
  | cons h1 _ _ ih =>
    intro x hx
    rw [ih x (fun u hu => hx u (List.mem_cons_of_mem _ hu)), h1 x (hx _ (List.mem_cons_self ..))]

theorem run_posts {us : List Upd} {m m' : Mem} (h : Run us m m') (hl : ∀ u ∈ us, u.Local)
    (hp : us.Pairwise Apart) : ∀ u ∈ us, u.post m m' := by
  induction h with
  | nil => intro u hu; cases hu
  | @cons u us m m1 m2 h1 h2 h3 ih =>
    rw [List.pairwise_cons] at hp
    intro v hv
    rcases List.mem_cons.1 hv with rfl | hv
    · refine hl v (List.mem_cons_self ..) m m1 m m2 (fun _ _ => rfl) ?_ h2
      intro x hx
      exact run_frame h3 x (fun w hw => (hp.1 w hw).1 x hx)
    · refine hl v (List.mem_cons_of_mem _ hv) m1 m2 m m2 ?_ (fun _ _ => rfl)
        (ih (fun w hw => hl w (List.mem_cons_of_mem _ hw)) hp.2 v hv)
      intro x hx
      exact (h1 x ((hp.1 v hv).2 x hx)).symm

theorem run_append {us vs : List Upd} {m m1 m2 : Mem} (h : Run us m m1) (h' : Run vs m1 m2) :
    Run (us ++ vs) m m2 := by
  induction h with
  | nil => exact h'
  | cons a b _ ih => exact .cons a b (ih h')

/-! ### DT_RELR -/

/-- The words of a bitmap. -/
def bitAddrs (e a : Nat) : List Nat :=
  if e = 0 then [] else (if e % 2 = 1 then [a] else []) ++ bitAddrs (e / 2) (a + 8)
termination_by e
decreasing_by omega

theorem bitmap_foldl (base : Nat) (e : Nat) : ∀ (a : Nat) (m : Mem),
    bitmap base e a m = (bitAddrs e a).foldl (bump base) m := by
  induction e using Nat.strongRecOn with
  | _ e ih =>
    intro a m
    unfold bitmap bitAddrs
    by_cases h : e = 0
    · simp [h]
    · rw [if_neg h, if_neg h, ih (e / 2) (by omega)]
      by_cases h1 : e % 2 = 1 <;> simp [h1]

theorem mem_bitAddrs (e : Nat) : ∀ (a x : Nat), x ∈ bitAddrs e a ↔ ∃ k, e.testBit k = true ∧ x = a + 8 * k := by
  induction e using Nat.strongRecOn with
  | _ e ih =>
    intro a x
    unfold bitAddrs
    by_cases h : e = 0
    · simp [h]
    · rw [if_neg h, List.mem_append, ih (e / 2) (by omega)]
      constructor
      · rintro (hx | ⟨k, hk, rfl⟩)
        · by_cases h1 : e % 2 = 1
          · rw [if_pos h1, List.mem_singleton] at hx
            exact ⟨0, by simp [Nat.testBit_zero, h1], by omega⟩
          · rw [if_neg h1] at hx; cases hx
        · exact ⟨k + 1, by rw [Nat.testBit_succ]; exact hk, by omega⟩
      · rintro ⟨k, hk, rfl⟩
        cases k with
        | zero =>
          rw [Nat.testBit_zero] at hk
          have : e % 2 = 1 := by simpa using hk
          left; rw [if_pos this]; simp
        | succ k => right; exact ⟨k, by rwa [Nat.testBit_succ] at hk, by omega⟩

theorem bitAddrs_sorted (e : Nat) : ∀ (a : Nat), (bitAddrs e a).Pairwise (fun x y => x + 8 ≤ y) := by
  induction e using Nat.strongRecOn with
  | _ e ih =>
    intro a
    unfold bitAddrs
    by_cases h : e = 0
    · simp [h]
    · rw [if_neg h]
      by_cases h1 : e % 2 = 1
      · rw [if_pos h1, List.singleton_append, List.pairwise_cons]
        refine ⟨?_, ih _ (by omega) _⟩
        intro y hy
        obtain ⟨k, _, rfl⟩ := (mem_bitAddrs _ _ _).1 hy
        omega
      · rw [if_neg h1, List.nil_append]; exact ih _ (by omega) _

/-- The words of a table, in order. -/
def relrAddrs (base : Nat) : List Nat → Nat → List Nat
  | [], _ => []
  | e :: es, a =>
    if e % 2 = 0 then (base + e) :: relrAddrs base es (base + e + 8)
    else bitAddrs (e / 2) a ++ relrAddrs base es (a + 504)

theorem mem_relrAddrs (base : Nat) (es : List Nat) : ∀ (a x : Nat), x ∈ relrAddrs base es a ↔ Listed base es a x := by
  induction es with
  | nil =>
    intro a x
    constructor
    · intro h; cases h
    · intro h; cases h
  | cons e es ih =>
    intro a x
    unfold relrAddrs
    by_cases h : e % 2 = 0
    · rw [if_pos h, List.mem_cons, ih]
      constructor
      · rintro (rfl | hx)
        · exact .addr h
        · exact .afterAddr h hx
      · intro hx
        cases hx with
        | addr _ => exact Or.inl rfl
        | bit h' => omega
        | afterAddr _ hx => exact Or.inr hx
        | afterBits h' => omega
    · have h1 : e % 2 = 1 := by omega
      rw [if_neg h, List.mem_append, ih, mem_bitAddrs]
      constructor
      · rintro (⟨k, hk, rfl⟩ | hx)
        · have := Listed.bit (base := base) (es := es) (a := a) (k := k + 1) h1 (by omega) (by rw [Nat.testBit_succ]; exact hk)
          simpa using this
        · exact .afterBits h1 hx
      · intro hx
        cases hx with
        | addr h' => omega
        | @bit _ _ _ k _ hk1 hk =>
          left
          refine ⟨k - 1, ?_, rfl⟩
          obtain ⟨j, rfl⟩ : ∃ j, k = j + 1 := ⟨k - 1, by omega⟩
          rw [Nat.testBit_succ] at hk
          exact hk
        | afterAddr h' => omega
        | afterBits _ hx => exact Or.inr hx

theorem relr_foldl (base : Nat) {es : List Nat} {a : Option Nat} (h : Ascending base es a) : ∀ m,
    relr base es a m = .ok ((relrAddrs base es (a.getD 0)).foldl (bump base) m) := by
  induction h with
  | nil => intro m; rfl
  | @addr e es a h1 h2 h3 h4 _ ih =>
    intro m
    have hm : (base + e) % 2 ^ 64 = base + e := Nat.mod_eq_of_lt (by omega)
    unfold relr relrAddrs
    simp only [hm, h1, if_true]
    rw [if_neg (by omega), ih]
    simp
  | @bits e es a h1 h2 _ ih =>
    intro m
    unfold relr relrAddrs
    have h0 : ¬ e % 2 = 0 := by omega
    simp only [h0, if_false]
    rw [ih, bitmap_foldl]
    simp [List.foldl_append]

theorem relrAddrs_sorted (base : Nat) {es : List Nat} {a : Option Nat} (h : Ascending base es a) :
    (relrAddrs base es (a.getD 0)).Pairwise (fun x y => x + 8 ≤ y) ∧
    ∀ x ∈ relrAddrs base es (a.getD 0), ∀ b, a = some b → b ≤ x := by
  induction h with
  | nil => exact ⟨List.Pairwise.nil, by intro x hx; cases hx⟩
  | @addr e es a h1 h2 h3 h4 _ ih =>
    unfold relrAddrs
    rw [if_pos h1]
    simp only [Option.getD_some] at ih
    refine ⟨?_, ?_⟩
    · rw [List.pairwise_cons]
      exact ⟨fun y hy => ih.2 y hy _ rfl, ih.1⟩
    · intro x hx b hb
      have := h4 b hb
      rcases List.mem_cons.1 hx with rfl | hx
      · exact this
      · have := ih.2 x hx _ rfl; omega
  | @bits e es a h1 h2 _ ih =>
    unfold relrAddrs
    rw [if_neg (by omega)]
    simp only [Option.getD_some] at ih ⊢
    have hb : ∀ x ∈ bitAddrs (e / 2) a, a ≤ x ∧ x + 8 ≤ a + 504 := by
      intro x hx
      obtain ⟨k, hk, rfl⟩ := (mem_bitAddrs _ _ _).1 hx
      refine ⟨by omega, ?_⟩
      have : k < 63 := by
        refine Nat.lt_of_not_le fun hc => ?_
        have : (e / 2).testBit k = false := Nat.testBit_lt_two_pow (by
          have : (2 : Nat) ^ 63 ≤ 2 ^ k := Nat.pow_le_pow_right (by omega) (by omega)
          omega)
        rw [this] at hk; cases hk
      omega
    refine ⟨?_, ?_⟩
    · rw [List.pairwise_append]
      refine ⟨bitAddrs_sorted _ _, ih.1, ?_⟩
      intro x hx y hy
      have := (hb x hx).2
      have := ih.2 y hy _ rfl
      omega
    · intro x hx b hbb
      cases hbb
      rcases List.mem_append.1 hx with hx | hx
      · exact (hb x hx).1
      · have := ih.2 x hx _ rfl; omega

/-- Adding the base to one word. -/
def bumpUpd (base a : Nat) : Upd where
  foot x := a ≤ x ∧ x < a + 8
  dep x := a ≤ x ∧ x < a + 8
  post m m' := load m' a = (load m a + base) % 2 ^ 64

theorem bump_run (base : Nat) (as : List Nat) : ∀ m, Run (as.map (bumpUpd base)) m (as.foldl (bump base) m) := by
  induction as with
  | nil => intro m; exact .nil
  | cons a as ih =>
    intro m
    refine .cons ?_ ?_ (ih (bump base m a))
    · intro x hx
      unfold bump store
      exact if_neg hx
    · show load (bump base m a) a = _
      unfold bump
      rw [load_store, Nat.mod_mod]

/-- **DT_RELR.** For every table in the form of the ABI the base is added to each listed word, exactly once,
and no other byte changes. -/
theorem relr_exact (base : Nat) (es : List Nat) (m : Mem) (h : Ascending base es none) :
    ∃ m', relr base es none m = .ok m' ∧
      (∀ x, Listed base es 0 x → load m' x = (load m x + base) % 2 ^ 64) ∧
      (∀ y, (∀ x, Listed base es 0 x → ¬ (x ≤ y ∧ y < x + 8)) → m' y = m y) := by
  refine ⟨_, relr_foldl base h m, ?_, ?_⟩
  · have hs := (relrAddrs_sorted base h).1
    have := run_posts (bump_run base (relrAddrs base es 0) m) (by
      intro u hu
      obtain ⟨a, _, rfl⟩ := List.mem_map.1 hu
      intro m1 m2 n1 n2 h1 h2 hp
      show load n2 a = (load n1 a + base) % 2 ^ 64
      rw [load_congr (m := m1) (m' := n1) (fun x hx hx' => h1 x ⟨hx, hx'⟩),
        load_congr (m := m2) (m' := n2) (fun x hx hx' => h2 x ⟨hx, hx'⟩)]
      exact hp) (by
      rw [List.pairwise_map]
      refine hs.imp ?_
      intro a b hab
      refine ⟨?_, ?_⟩
      · rintro x ⟨h1, h2⟩ ⟨h3, h4⟩; omega
      · rintro x ⟨h1, h2⟩ ⟨h3, h4⟩; omega)
    intro x hx
    exact this _ (List.mem_map_of_mem ((mem_relrAddrs base es 0 x).2 hx))
  · intro y hy
    refine run_frame (bump_run base (relrAddrs base es 0) m) y ?_
    intro u hu
    obtain ⟨a, ha, rfl⟩ := List.mem_map.1 hu
    exact hy a ((mem_relrAddrs base es 0 a).1 ha)

/-! ### Records -/

/-- The bytes a record may write. -/
def Touch (E : Env) (o : Obj) (r : Rel) (x : Nat) : Prop :=
  let P := (o.m.base + r.offset) % 2 ^ 64
  match r.kind with
  | .none | .other => False
  | .tlsdesc => (P ≤ x ∧ x < P + 16) ∨ (r.heap ≤ x ∧ x < r.heap + 16)
  | .copy => ∃ d, o.others r.sym = some d ∧ P ≤ x ∧ x < P + d.size
  | _ => P ≤ x ∧ x < P + 8

/-- The records handled in the first pass. -/
def Rel.static (r : Rel) : Prop := r.kind ≠ .copy ∧ r.kind ≠ .irelative

instance (r : Rel) : Decidable r.static := by unfold Rel.static; infer_instance

theorem store_other (m : Mem) (a v x : Nat) (h : ¬ (a ≤ x ∧ x < a + 8)) : store m a v x = m x := if_neg h

theorem tlsdesc_frame (E : Env) (P heap v A : Nat) (t : Option Module) (m : Mem) (x : Nat)
    (h : ¬ ((P ≤ x ∧ x < P + 16) ∨ (heap ≤ x ∧ x < heap + 16))) :
    tlsdesc E.statRes E.dynRes P heap v A t m x = m x := by
  unfold tlsdesc
  have h1 : ¬ (P ≤ x ∧ x < P + 8) := fun h' => h (by omega)
  have h2 : ¬ (P + 8 ≤ x ∧ x < P + 8 + 8) := fun h' => h (by omega)
  have h3 : ¬ (heap ≤ x ∧ x < heap + 8) := fun h' => h (by omega)
  have h4 : ¬ (heap + 8 ≤ x ∧ x < heap + 8 + 8) := fun h' => h (by omega)
  cases t with
  | none => simp only; rw [store_other _ _ _ _ h2, store_other _ _ _ _ h1]
  | some t =>
    simp only
    split
    · rw [store_other _ _ _ _ h2, store_other _ _ _ _ h1]
    · rw [store_other _ _ _ _ h2, store_other _ _ _ _ h1, store_other _ _ _ _ h4, store_other _ _ _ _ h3]

/-- The binding `_processRelocations` computes. -/
theorem binds_lookup (o : Obj) (i : Nat) (h : i ≠ 0) : Binds o i (lookup o i) := by
  unfold lookup
  rw [if_pos h]
  cases hs : o.symbolic with
  | false => simp; exact .scope (Or.inl hs)
  | true =>
    simp only [if_true]
    cases ho : o.own i with
    | none => exact .scope (Or.inr ho)
    | some d => exact .own d hs ho

theorem apply_frame (E : Env) (o : Obj) (r : Rel) (m m' : Mem) (p : Option Def) (h : apply E o m r p = .ok m')
    (x : Nat) (hx : ¬ Touch E o r x) : m' x = m x := by
  unfold apply at h
  unfold Touch at hx
  unfold dest at h
  cases hkind : r.kind <;> simp only [hkind] at h hx
  case none => cases h; rfl
  case tlsdesc =>
    split at h
    · split at h
      · split at h
        · cases h; exact tlsdesc_frame _ _ _ _ _ _ _ _ hx
        · cases h
      · cases h; exact tlsdesc_frame _ _ _ _ _ _ _ _ hx
    · cases h; exact tlsdesc_frame _ _ _ _ _ _ _ _ hx
  all_goals (repeat' split at h) <;> first
    | (cases h; exact store_other _ _ _ _ hx)
    | cases h

theorem process_frame (E : Env) (o : Obj) (r : Rel) (m m' : Mem) (h : process E o m r = .ok m') (x : Nat)
    (hx : r.static → ¬ Touch E o r x) : m' x = m x := by
  unfold process at h
  by_cases hk : r.kind = .copy ∨ r.kind = .irelative
  · rw [if_pos hk] at h; cases h; rfl
  · have hx := hx ⟨fun h => hk (Or.inl h), fun h => hk (Or.inr h)⟩
    rw [if_neg hk] at h
    by_cases hu : r.sym ≠ 0 ∧ lookup o r.sym = none ∧ o.weak r.sym = false
    · rw [if_pos hu] at h; cases h
    · rw [if_neg hu] at h
      exact apply_frame E o r m m' _ h x hx

/-- The words of a TLS descriptor after `tlsdesc`. -/
theorem tlsdesc_words (E : Env) (P heap v A : Nat) (t : Module) (m : Mem)
    (hd : P + 16 ≤ heap ∨ heap + 16 ≤ P) :
    (t.tlsModel = .initial → load (tlsdesc E.statRes E.dynRes P heap v A (some t) m) P = E.statRes % 2 ^ 64 ∧
      load (tlsdesc E.statRes E.dynRes P heap v A (some t) m) (P + 8) = (v + t.tlsOffset + A) % 2 ^ 64) ∧
    (t.tlsModel ≠ .initial → load (tlsdesc E.statRes E.dynRes P heap v A (some t) m) P = E.dynRes % 2 ^ 64 ∧
      load (tlsdesc E.statRes E.dynRes P heap v A (some t) m) (P + 8) = heap % 2 ^ 64 ∧
      load (tlsdesc E.statRes E.dynRes P heap v A (some t) m) heap = t.tlsIndex % 2 ^ 64 ∧
      load (tlsdesc E.statRes E.dynRes P heap v A (some t) m) (heap + 8) = (v + A) % 2 ^ 64) := by
  have other : ∀ (m : Mem) (a b v : Nat), (a + 8 ≤ b ∨ b + 8 ≤ a) → load (store m a v) b = load m b := by
    intro m a b v h
    exact load_congr (fun x h1 h2 => store_other _ _ _ _ (by omega))
  unfold tlsdesc
  refine ⟨fun ht => ?_, fun ht => ?_⟩
  · simp only [ht, if_true]
    refine ⟨?_, ?_⟩
    · rw [other _ _ _ _ (by omega), load_store]
    · rw [load_store, Nat.mod_mod]
  · simp only [ht, if_false]
    refine ⟨?_, ?_, ?_, ?_⟩
    · rw [other _ _ _ _ (by omega), load_store]
    · rw [load_store]
    · rw [other _ _ _ _ (by omega), other _ _ _ _ (by omega), other _ _ _ _ (by omega), load_store]
    · rw [other _ _ _ _ (by omega), other _ _ _ _ (by omega), load_store, Nat.mod_mod]

/-- The resolver functions are different functions. -/
structure Env.Ok (E : Env) : Prop where
  stat : E.statRes < 2 ^ 64
  dyn : E.dynRes < 2 ^ 64
  ne : E.statRes ≠ E.dynRes

/-- What the allocator owes for a dynamic TLS descriptor: memory apart from the descriptor. -/
def Rel.HeapOk (o : Obj) (r : Rel) : Prop :=
  r.kind = .tlsdesc → r.heap + 16 ≤ 2 ^ 64 ∧
    ((o.m.base + r.offset) % 2 ^ 64 + 16 ≤ r.heap ∨ r.heap + 16 ≤ (o.m.base + r.offset) % 2 ^ 64)

/-- Calling a descriptor with the words of `tlsdesc` gives the offset of the variable. -/
theorem tlsdesc_meets (E : Env) (hE : E.Ok) (T : Module → Prop) (P heap v A : Nat) (t : Module) (m m' : Mem)
    (hd : P + 16 ≤ heap ∨ heap + 16 ≤ P) (hh : heap + 16 ≤ 2 ^ 64)
    (hm : ∀ x, (P ≤ x ∧ x < P + 16) ∨ (heap ≤ x ∧ x < heap + 16) →
      m' x = tlsdesc E.statRes E.dynRes P heap v A (some t) m x)
    (th : Thread) (hs : th.Sound T) (ht : T t) :
    ∃ off, tlsdescCall E th.tp th.dtv m' P = .ok off ∧
      (th.tp + off) % 2 ^ 64 = (th.block t + v + A) % 2 ^ 64 := by
  obtain ⟨w1, w2⟩ := tlsdesc_words E P heap v A t m hd
  have c0 : load m' P = load (tlsdesc E.statRes E.dynRes P heap v A (some t) m) P :=
    load_congr fun x h1 h2 => hm x (Or.inl (by omega))
  have c1 : load m' (P + 8) = load (tlsdesc E.statRes E.dynRes P heap v A (some t) m) (P + 8) :=
    load_congr fun x h1 h2 => hm x (Or.inl (by omega))
  have c2 : load m' heap = load (tlsdesc E.statRes E.dynRes P heap v A (some t) m) heap :=
    load_congr fun x h1 h2 => hm x (Or.inr (by omega))
  have c3 : load m' (heap + 8) = load (tlsdesc E.statRes E.dynRes P heap v A (some t) m) (heap + 8) :=
    load_congr fun x h1 h2 => hm x (Or.inr (by omega))
  unfold tlsdescCall
  by_cases hi : t.tlsModel = .initial
  · obtain ⟨a1, a2⟩ := w1 hi
    rw [c0, a1, Nat.mod_eq_of_lt hE.stat, if_pos rfl, c1, a2]
    refine ⟨_, rfl, ?_⟩
    rw [hs.fixed t ht hi]
    omega
  · obtain ⟨a1, a2, a3, a4⟩ := w2 hi
    obtain ⟨b1, b2, b3⟩ := hs.index t ht
    rw [c0, a1, Nat.mod_eq_of_lt hE.dyn, if_neg (fun h => hE.ne h.symm), if_pos rfl, c1, a2,
      Nat.mod_eq_of_lt (show heap < 2 ^ 64 by omega)]
    simp only
    rw [c2, a3, Nat.mod_eq_of_lt b2, b3]
    refine ⟨_, rfl, ?_⟩
    rw [c3, a4]
    omega

theorem address_symAddr (E : Env) (p : Option Def) : AddressOf E p (symAddr E.call p) := by
  cases p with
  | none => exact .undefined
  | some d =>
    unfold symAddr virtualAddress
    by_cases h : d.ifunc = true
    · simp only [h, if_true]; exact .indirect d h
    · simp only [h]; exact .plain d (by simpa using h)

theorem addend_addendRel (o : Obj) (r : Rel) (m1 m : Mem)
    (hm : ∀ x, (o.m.base + r.offset) % 2 ^ 64 ≤ x → x < (o.m.base + r.offset) % 2 ^ 64 + 8 → m x = m1 x) :
    Addend o r m (addendRel o r m1) := by
  unfold Addend addendRel dest
  cases r.addend with
  | some a => exact Or.inl rfl
  | none => exact Or.inr ⟨rfl, (load_congr hm).symm⟩

/-- The references DT_SYMBOLIC is not honoured for: TLS descriptors. -/
def Rel.Unsymbolic (o : Obj) (r : Rel) : Prop := r.kind = .tlsdesc → o.symbolic = false ∨ o.own r.sym = none

theorem tp_arith (tp off v A : Nat) :
    (tp + (A + v + off) % 2 ^ 64 % 2 ^ 64) % 2 ^ 64 = ((tp + off) % 2 ^ 64 + v + A) % 2 ^ 64 := by omega

/-- One record, in any memory that agrees with the one it was applied to on the bytes of the record. -/
theorem process_meets (E : Env) (hE : E.Ok) (T : Module → Prop) (o : Obj) (r : Rel) (m1 m1' m m' : Mem)
    (h : process E o m1 r = .ok m1') (hst : r.static) (hh : r.HeapOk o) (hsy : r.Unsymbolic o)
    (hm : ∀ x, Touch E o r x → m x = m1 x) (hm' : ∀ x, Touch E o r x → m' x = m1' x) :
    Meets E T o r m m' := by
  unfold process at h
  rw [if_neg (fun hc => hc.elim hst.1 hst.2)] at h
  by_cases hu : r.sym ≠ 0 ∧ lookup o r.sym = none ∧ o.weak r.sym = false
  · rw [if_pos hu] at h; cases h
  rw [if_neg hu] at h
  have hb := binds_lookup o r.sym
  obtain ⟨p, hp⟩ : ∃ p, lookup o r.sym = p := ⟨_, rfl⟩
  rw [hp] at h hb
  unfold apply at h
  unfold Touch at hm hm'
  unfold Meets
  have hP' : dest o r = (o.m.base + r.offset) % 2 ^ 64 := rfl
  obtain ⟨P, hP⟩ : ∃ P, (o.m.base + r.offset) % 2 ^ 64 = P := ⟨_, rfl⟩
  rw [hP'] at h
  simp only [hP] at hm hm' h ⊢
  cases hkind : r.kind <;> simp only [hkind] at h hm hm' ⊢
  case tlsdesc =>
    obtain ⟨g1, g2⟩ := hh hkind
    rw [hP] at g2
    have hA : addendNorel r = (match r.addend with | some A => A | none => 0) := by
      unfold addendNorel; cases r.addend <;> rfl
    by_cases hs0 : r.sym = 0
    · simp only [hs0, ne_eq, not_true, if_false] at h
      cases h
      right
      refine ⟨o.m, 0, by simp [hs0], ?_⟩
      intro th h1 h2
      rw [← hA]
      exact tlsdesc_meets E hE T P r.heap 0 (addendNorel r) o.m m1 m' g2 g1 hm' th h1 h2
    · simp only [ne_eq, hs0, not_false_eq_true, if_true] at h
      have hsc : Binds o r.sym (o.scope r.sym) := .scope (hsy hkind)
      cases hsco : o.scope r.sym with
      | none => rw [hsco] at hsc; exact Or.inl ⟨hs0, hsc⟩
      | some d =>
        rw [hsco] at hsc h
        simp only at h
        cases h
        right
        refine ⟨d.obj, d.value, by simp only [hs0, if_false]; exact ⟨d, hsc, rfl, rfl⟩, ?_⟩
        intro th h1 h2
        rw [← hA]
        exact tlsdesc_meets E hE T P r.heap d.value (addendNorel r) d.obj m1 m' g2 g1 hm' th h1 h2
  case other => cases h
  case copy => cases h
  case irelative => cases h
  all_goals
    have hadd : Addend o r m (addendRel o r m1) :=
      addend_addendRel o r m1 m (by rw [hP]; intro x h1 h2; exact hm x ⟨h1, h2⟩)
    have hld : ∀ v, m1' = store m1 P v → load m' P = v % 2 ^ 64 := by
      intro v hv
      subst hv
      rw [load_congr (m := store m1 P v) (fun x h1 h2 => hm' x ⟨h1, h2⟩), load_store]
  case jumpSlot =>
    by_cases h0 : addendNorel r = 0
    · simp only [h0, ne_eq, not_true, if_false, Res.ok.injEq] at h
      intro hs
      refine ⟨p, _, hb hs, address_symAddr E p, ?_⟩
      simpa using hld _ h.symm
    · simp [h0] at h
  case globDat =>
    by_cases h0 : r.sym = 0
    · simp [h0] at h
    · simp only [h0, if_false, Res.ok.injEq] at h
      intro hs
      refine ⟨p, _, hb hs, address_symAddr E p, ?_⟩
      have := hld _ h.symm
      rw [Nat.mod_mod] at this
      rw [this]
      unfold addendNorel
      cases r.addend <;> simp
  case absolute =>
    by_cases h0 : r.sym = 0
    · simp [h0] at h
    · simp only [h0, if_false, Res.ok.injEq] at h
      refine ⟨p, _, _, hb h0, address_symAddr E p, hadd, ?_⟩
      have := hld _ h.symm
      rwa [Nat.mod_mod] at this
  case relative =>
    by_cases h0 : r.sym = 0
    · simp only [h0, ne_eq, not_true, if_false, Res.ok.injEq] at h
      refine ⟨_, hadd, ?_⟩
      have := hld _ h.symm
      rwa [Nat.mod_mod] at this
    · simp [h0] at h
  case dtpmod =>
    split at h
    · cases h
    · by_cases h0 : r.sym = 0
      · simp only [h0, ne_eq, not_true, if_false] at h
        split at h
        · cases h
        · simp only [Res.ok.injEq] at h
          exact ⟨o.m, by simp [h0], hld _ h.symm⟩
      · simp only [h0, ne_eq, not_false_eq_true, if_true] at h
        have hb := hb h0
        cases p with
        | none => cases h
        | some d =>
          simp only at h
          split at h
          · cases h
          · simp only [Res.ok.injEq] at h
            exact ⟨d.obj, by simp only [h0, if_false]; exact ⟨d, hb, rfl⟩, hld _ h.symm⟩
  case dtpoff =>
    by_cases h0 : r.sym = 0
    · simp [h0] at h
    · simp only [h0, if_false] at h
      have hb := hb h0
      cases p with
      | none => cases h
      | some d =>
        simp only [Res.ok.injEq] at h
        refine ⟨d, _, hb, hadd, ?_⟩
        have := hld _ h.symm
        rwa [Nat.mod_mod] at this
  case tpoff =>
    by_cases h0 : r.sym = 0
    · simp only [h0, ne_eq, not_true, if_false] at h
      split at h
      · cases h
      · rename_i hi
        simp only [Res.ok.injEq] at h
        refine ⟨o.m, 0, _, by simp [h0], hadd, ?_⟩
        intro th hs ht
        rw [hld _ h.symm, hs.fixed _ ht (by simpa using hi)]
        exact tp_arith _ _ 0 _
    · simp only [h0, ne_eq, not_false_eq_true, if_true] at h
      have hb := hb h0
      cases p with
      | none => cases h
      | some d =>
        simp only at h
        split at h
        · cases h
        · rename_i hi
          simp only [Res.ok.injEq] at h
          refine ⟨d.obj, d.value, _, by simp only [h0, if_false]; exact ⟨d, hb, rfl, rfl⟩, hadd, ?_⟩
          intro th hs ht
          rw [hld _ h.symm, hs.fixed _ ht (by simpa using hi)]
          exact tp_arith _ _ _ _

/-! ### Late records -/

theorem late_frame (E : Env) (o : Obj) (r : Rel) (m m' : Mem) (h : processLate E o m r = .ok m') (x : Nat)
    (hx : ¬ r.static → ¬ Touch E o r x) : m' x = m x := by
  unfold processLate at h
  unfold dest at h
  cases hkind : r.kind <;> simp only [hkind] at h
  case copy =>
    have hx := hx (fun hs => hs.1 hkind)
    unfold Touch at hx
    simp only [hkind] at hx
    split at h
    · cases h
    · rename_i d hd
      by_cases h0 : r.sym = 0
      · simp [h0] at hd
      · simp only [h0, ne_eq, not_false_eq_true, if_true] at hd
        simp only [Res.ok.injEq] at h
        subst h
        unfold copy
        exact if_neg (fun hc => hx ⟨d, hd, hc.1, hc.2⟩)
  case irelative =>
    have hx := hx (fun hs => hs.2 hkind)
    unfold Touch at hx
    simp only [hkind] at hx
    cases h
    exact store_other _ _ _ _ hx
  all_goals (cases h; rfl)

/-- The bytes a copy record reads. -/
def Source (E : Env) (o : Obj) (r : Rel) (x : Nat) : Prop :=
  r.kind = .copy ∧ ∃ d S, o.others r.sym = some d ∧ AddressOf E (some d) S ∧ S ≤ x ∧ x < S + d.size

theorem late_meets (E : Env) (T : Module → Prop) (o : Obj) (r : Rel) (m1 m1' m m' : Mem)
    (h : processLate E o m1 r = .ok m1') (hst : ¬ r.static)
    (hself : ∀ x, Source E o r x → ¬ Touch E o r x)
    (hm : ∀ x, Touch E o r x ∨ Source E o r x → m x = m1 x)
    (hm' : ∀ x, Touch E o r x ∨ Source E o r x → m' x = m1' x) : Meets E T o r m m' := by
  have hfr := late_frame E o r m1 m1' h
  unfold processLate at h
  unfold dest at h
  unfold Meets
  cases hkind : r.kind <;> simp only [hkind] at h ⊢
  case copy =>
    split at h
    · cases h
    · rename_i d hd
      by_cases h0 : r.sym = 0
      · simp [h0] at hd
      · simp only [h0, ne_eq, not_false_eq_true, if_true] at hd
        simp only [Res.ok.injEq] at h
        have ha : AddressOf E (some d) (virtualAddress E.call d) := address_symAddr E (some d)
        refine ⟨d, virtualAddress E.call d, hd, ha, ?_⟩
        intro i hi
        have t : Touch E o r ((o.m.base + r.offset) % 2 ^ 64 + i) := by
          unfold Touch; simp only [hkind]; exact ⟨d, hd, by omega, by omega⟩
        have s : Source E o r (virtualAddress E.call d + i) := ⟨hkind, d, _, hd, ha, by omega, by omega⟩
        rw [hm' _ (Or.inl t), hm' _ (Or.inr s), hfr _ (fun _ => hself _ s), ← h]
        unfold copy
        rw [if_pos (by omega), Nat.add_sub_cancel_left]
  case irelative =>
    have tch : ∀ x, (o.m.base + r.offset) % 2 ^ 64 ≤ x → x < (o.m.base + r.offset) % 2 ^ 64 + 8 → Touch E o r x := by
      intro x h1 h2; unfold Touch; simp only [hkind]; exact ⟨h1, h2⟩
    simp only [Res.ok.injEq] at h
    refine ⟨_, addend_addendRel o r m1 m (fun x h1 h2 => hm x (Or.inl (tch x h1 h2))), ?_⟩
    rw [load_congr (m := m1') (fun x h1 h2 => hm' x (Or.inl (tch x h1 h2))), ← h, load_store]
  all_goals exact absurd ⟨by simp [hkind], by simp [hkind]⟩ hst

/-! ### All objects -/

def staticUpd (E : Env) (o : Obj) (r : Rel) : Upd where
  foot x := r.static ∧ Touch E o r x
  dep x := r.static ∧ Touch E o r x
  post m m' := ∃ m1 m1', process E o m1 r = .ok m1' ∧ (r.static → ∀ x, Touch E o r x → m x = m1 x) ∧
    (r.static → ∀ x, Touch E o r x → m' x = m1' x)

def lateUpd (E : Env) (o : Obj) (r : Rel) : Upd where
  foot x := ¬ r.static ∧ Touch E o r x
  dep x := ¬ r.static ∧ (Touch E o r x ∨ Source E o r x)
  post m m' := ∃ m1 m1', processLate E o m1 r = .ok m1' ∧
    (¬ r.static → ∀ x, Touch E o r x ∨ Source E o r x → m x = m1 x) ∧
    (¬ r.static → ∀ x, Touch E o r x ∨ Source E o r x → m' x = m1' x)

theorem static_local (E : Env) (o : Obj) (r : Rel) : (staticUpd E o r).Local := by
  rintro m1 m2 n1 n2 h1 h2 ⟨a, b, h3, h4, h5⟩
  exact ⟨a, b, h3, fun hs x hx => (h1 x ⟨hs, hx⟩).trans (h4 hs x hx), fun hs x hx => (h2 x ⟨hs, hx⟩).trans (h5 hs x hx)⟩

theorem late_local (E : Env) (o : Obj) (r : Rel) : (lateUpd E o r).Local := by
  rintro m1 m2 n1 n2 h1 h2 ⟨a, b, h3, h4, h5⟩
  exact ⟨a, b, h3, fun hs x hx => (h1 x ⟨hs, hx⟩).trans (h4 hs x hx), fun hs x hx => (h2 x ⟨hs, hx⟩).trans (h5 hs x hx)⟩

theorem processAll_run (E : Env) (o : Obj) (rs : List Rel) : ∀ m m', processAll E o m rs = .ok m' →
    Run (rs.map (staticUpd E o)) m m' := by
  induction rs with
  | nil => intro m m' h; cases h; exact .nil
  | cons r rs ih =>
    intro m m' h
    unfold processAll at h
    rw [Res.bind_eq_ok] at h
    obtain ⟨m1, h1, h2⟩ := h
    refine .cons ?_ ?_ (ih m1 m' h2)
    · intro x hx
      exact process_frame E o r m m1 h1 x (fun hs ht => hx ⟨hs, ht⟩)
    · exact ⟨m, m1, h1, fun _ _ _ => rfl, fun _ _ _ => rfl⟩

theorem lateAll_run (E : Env) (o : Obj) (rs : List Rel) : ∀ m m', lateAll E o m rs = .ok m' →
    Run (rs.map (lateUpd E o)) m m' := by
  induction rs with
  | nil => intro m m' h; cases h; exact .nil
  | cons r rs ih =>
    intro m m' h
    unfold lateAll at h
    rw [Res.bind_eq_ok] at h
    obtain ⟨m1, h1, h2⟩ := h
    refine .cons ?_ ?_ (ih m1 m' h2)
    · intro x hx
      exact late_frame E o r m m1 h1 x (fun hs ht => hx ⟨hs, ht⟩)
    · exact ⟨m, m1, h1, fun _ _ _ => rfl, fun _ _ _ => rfl⟩

/-- All records with their objects. -/
def records (Ls : List Loaded) : List (Obj × Rel) := Ls.flatMap fun L => L.rels.map fun r => (L.o, r)

theorem staticPass_run (E : Env) (Ls : List Loaded) : ∀ m m', staticPass E Ls m = .ok m' →
    Run ((records Ls).map fun q => staticUpd E q.1 q.2) m m' := by
  induction Ls with
  | nil => intro m m' h; cases h; exact .nil
  | cons L Ls ih =>
    intro m m' h
    unfold staticPass at h
    rw [Res.bind_eq_ok] at h
    obtain ⟨m1, h1, h2⟩ := h
    have := run_append (processAll_run E L.o L.rels m m1 h1) (ih m1 m' h2)
    simpa [records, List.map_map, Function.comp_def] using this

theorem latePass_cons (E : Env) (L : Loaded) (Ls : List Loaded) (m : Mem) : latePass E (L :: Ls) m =
    ((if L.o.isMain then lateAll E L.o m L.rels else .ok m) >>= fun m => latePass E Ls m) := by
  conv => lhs; unfold latePass
  by_cases h : L.o.isMain = true <;> simp [h]

theorem pairwise_all {α : Type} {R : α → α → Prop} {l : List α} (h : l.Pairwise R) (hs : ∀ a b, R a b → R b a) :
    ∀ a ∈ l, ∀ b ∈ l, a ≠ b → R a b := by
  induction h with
  | nil => intro a ha; cases ha
  | @cons x l h1 _ ih =>
    intro a ha b hb hab
    rcases List.mem_cons.1 ha with ha' | ha' <;> rcases List.mem_cons.1 hb with hb' | hb'
    · exact absurd (ha'.trans hb'.symm) hab
    · subst ha'; exact h1 b hb'
    · subst hb'; exact hs _ _ (h1 a ha')
    · exact ih a ha' b hb' hab

theorem latePass_run (E : Env) (Ls : List Loaded) : ∀ m m', latePass E Ls m = .ok m' →
    Run (((records Ls).filter (fun q => q.1.isMain)).map fun q => lateUpd E q.1 q.2) m m' := by
  induction Ls with
  | nil => intro m m' h; cases h; exact .nil
  | cons L Ls ih =>
    intro m m' h
    rw [latePass_cons, Res.bind_eq_ok] at h
    obtain ⟨m1, h1, h2⟩ := h
    have e : ((records (L :: Ls)).filter (fun q => q.1.isMain)).map (fun q => lateUpd E q.1 q.2)
        = (if L.o.isMain then L.rels.map (lateUpd E L.o) else []) ++
          ((records Ls).filter (fun q => q.1.isMain)).map (fun q => lateUpd E q.1 q.2) := by
      unfold records
      rw [List.flatMap_cons, List.filter_append, List.map_append]
      congr 1
      by_cases hm : L.o.isMain = true
      · rw [if_pos hm, List.filter_eq_self.2 (by
          intro q hq; obtain ⟨r, _, rfl⟩ := List.mem_map.1 hq; exact hm), List.map_map]
        rfl
      · rw [if_neg hm, List.filter_eq_nil_iff.2 (by
          intro q hq; obtain ⟨r, _, rfl⟩ := List.mem_map.1 hq; exact hm)]
        rfl
    rw [e]
    refine run_append ?_ (ih m1 m' h2)
    by_cases hm : L.o.isMain = true
    · rw [if_pos hm] at h1 ⊢; exact lateAll_run E L.o L.rels m m1 h1
    · rw [if_neg hm] at h1 ⊢; cases h1; exact .nil

/-- The conditions on a set of objects: no byte belongs to two records, the memory for TLS descriptors is apart
from the descriptors, and the sources of copy records are not destinations of late records. -/
structure LinkOk (E : Env) (Ls : List Loaded) : Prop where
  apart : (records Ls).Pairwise fun q q' => ∀ x, Touch E q.1 q.2 x → ¬ Touch E q'.1 q'.2 x
  heap : ∀ q ∈ records Ls, q.2.HeapOk q.1
  source : ∀ q ∈ records Ls, q.1.isMain = true → ∀ q' ∈ records Ls, q'.1.isMain = true → ¬ q'.2.static →
    ∀ x, Source E q.1 q.2 x → ¬ Touch E q'.1 q'.2 x

/-- **Relocation of a set of objects.** When the linker has processed the objects, every record is met (copy and
indirect relative records: those of the main program), and no other byte has changed. -/
theorem link_meets_partial (E : Env) (hE : E.Ok) (T : Module → Prop) (Ls : List Loaded) (h : LinkOk E Ls)
    (m m' : Mem) (hr : link E Ls m = .ok m') :
    (∀ L ∈ Ls, ∀ r ∈ L.rels, (r.static ∨ L.o.isMain = true) → r.Unsymbolic L.o → Meets E T L.o r m m') ∧
    (∀ x, (∀ L ∈ Ls, ∀ r ∈ L.rels, ¬ Touch E L.o r x) → m' x = m x) := by
  unfold link at hr
  rw [Res.bind_eq_ok] at hr
  obtain ⟨mi, h1, h2⟩ := hr
  have r1 := staticPass_run E Ls m mi h1
  have r2 := latePass_run E Ls mi m' h2
  have hmem : ∀ L ∈ Ls, ∀ r ∈ L.rels, (L.o, r) ∈ records Ls := by
    intro L hL r hr
    exact List.mem_flatMap.2 ⟨L, hL, List.mem_map.2 ⟨r, hr, rfl⟩⟩
  have hof : ∀ q ∈ records Ls, ∃ L ∈ Ls, q.2 ∈ L.rels ∧ q.1 = L.o := by
    intro q hq
    obtain ⟨L, hL, hq⟩ := List.mem_flatMap.1 hq
    obtain ⟨r, hr, rfl⟩ := List.mem_map.1 hq
    exact ⟨L, hL, hr, rfl⟩
  -- a static and a late record never share a byte
  have cross : ∀ q ∈ records Ls, ∀ q' ∈ records Ls, q.2.static → ¬ q'.2.static → ∀ x,
      Touch E q.1 q.2 x → ¬ Touch E q'.1 q'.2 x := by
    intro q hq q' hq' hs hs' x hx hx'
    have hne : q ≠ q' := by rintro rfl; exact hs' hs
    exact pairwise_all h.apart (fun a b hab x hx hx' => hab x hx' hx) q hq q' hq' hne x hx hx'
  have p1 := run_posts r1 (by
      intro u hu; obtain ⟨q, _, rfl⟩ := List.mem_map.1 hu; exact static_local E q.1 q.2) (by
      rw [List.pairwise_map]
      refine h.apart.imp ?_
      intro a b hab
      exact ⟨fun x hx hx' => hab x hx.2 hx'.2, fun x hx hx' => hab x hx'.2 hx.2⟩)
  have p2 := run_posts r2 (by
      intro u hu; obtain ⟨q, _, rfl⟩ := List.mem_map.1 hu; exact late_local E q.1 q.2) (by
      rw [List.pairwise_map]
      refine List.Pairwise.imp_of_mem ?_ (h.apart.filter _)
      intro a b ha hb hab
      obtain ⟨ha1, ha2⟩ := List.mem_filter.1 ha
      obtain ⟨hb1, hb2⟩ := List.mem_filter.1 hb
      refine ⟨?_, ?_⟩
      · rintro x ⟨hs, hx⟩ ⟨hs', hx'⟩
        rcases hx with hx | hx
        · exact hab x hx hx'
        · exact h.source a ha1 ha2 b hb1 hb2 hs' x hx hx'
      · rintro x ⟨hs, hx⟩ ⟨hs', hx'⟩
        rcases hx with hx | hx
        · exact hab x hx' hx
        · exact h.source b hb1 hb2 a ha1 ha2 hs' x hx hx')
  refine ⟨?_, ?_⟩
  · intro L hL r hr hsm hsy
    have hq := hmem L hL r hr
    by_cases hs : r.static
    · obtain ⟨m1, m1', e1, e2, e3⟩ := p1 _ (List.mem_map.2 ⟨_, hq, rfl⟩)
      refine process_meets E hE T L.o r m1 m1' m m' e1 hs (h.heap _ hq) hsy (e2 hs) ?_
      intro x hx
      rw [← e3 hs x hx]
      refine run_frame r2 x ?_
      intro u hu
      obtain ⟨q, hq', rfl⟩ := List.mem_map.1 hu
      rintro ⟨hns, ht⟩
      exact cross _ hq q (List.mem_filter.1 hq').1 hs hns x hx ht
    · have hmain : L.o.isMain = true := by
        rcases hsm with h | h
        · exact absurd h hs
        · exact h
      obtain ⟨m1, m1', e1, e2, e3⟩ := p2 _ (List.mem_map.2 ⟨(L.o, r), List.mem_filter.2 ⟨hq, hmain⟩, rfl⟩)
      have hself := h.source _ hq hmain _ hq hmain hs
      have hmi := late_meets E T L.o r m1 m1' mi m' e1 hs hself (e2 hs) (e3 hs)
      have hsame : ∀ x, Touch E L.o r x → mi x = m x := by
        intro x hx
        refine run_frame r1 x ?_
        intro u hu
        obtain ⟨q, hq', rfl⟩ := List.mem_map.1 hu
        rintro ⟨hqs, ht⟩
        exact cross q hq' _ hq hqs hs x ht hx
      unfold Meets at hmi ⊢
      unfold Touch at hsame
      cases hkind : r.kind <;> simp only [hkind] at hmi hsame ⊢
      case copy => exact hmi
      case irelative =>
        obtain ⟨A, hA, hv⟩ := hmi
        refine ⟨A, ?_, hv⟩
        rcases hA with hA | ⟨hA, hA'⟩
        · exact Or.inl hA
        · refine Or.inr ⟨hA, ?_⟩
          rw [hA']
          exact load_congr fun x h1 h2 => hsame x ⟨h1, h2⟩
      all_goals exact absurd ⟨by simp [hkind], by simp [hkind]⟩ hs
  · intro x hx
    rw [run_frame r2 x ?_, run_frame r1 x ?_]
    · intro u hu
      obtain ⟨q, hq, rfl⟩ := List.mem_map.1 hu
      obtain ⟨L, hL, hr, he⟩ := hof q hq
      rintro ⟨_, ht⟩
      rw [he] at ht
      exact hx L hL _ hr ht
    · intro u hu
      obtain ⟨q, hq, rfl⟩ := List.mem_map.1 hu
      obtain ⟨L, hL, hr, he⟩ := hof q (List.mem_filter.1 hq).1
      rintro ⟨_, ht⟩
      rw [he] at ht
      exact hx L hL _ hr ht

/-- What the linker accepts: every symbol is defined or weak, TLS records name a definition (of an object in
the initial set for static TLS), and the fields that must be 0 are. -/
structure Acceptable (o : Obj) (r : Rel) : Prop where
  known : r.kind ≠ .other
  resolved : r.sym ≠ 0 → r.kind ≠ .copy → ∀ p, Binds o r.sym p → p = none → o.weak r.sym = true ∧ r.kind ≠ .dtpmod ∧
    r.kind ≠ .dtpoff ∧ r.kind ≠ .tpoff
  needs : r.kind = .globDat ∨ r.kind = .absolute ∨ r.kind = .dtpoff ∨ r.kind = .copy → r.sym ≠ 0
  bare : r.kind = .relative → r.sym = 0
  zero : r.kind = .jumpSlot ∨ r.kind = .dtpmod → r.addend = some 0
  index : r.kind = .dtpmod → (r.sym = 0 → o.m.tlsIndex ≠ 0) ∧ ∀ d, r.sym ≠ 0 → Binds o r.sym (some d) → d.obj.tlsIndex ≠ 0
  fixed : r.kind = .tpoff → (r.sym = 0 → o.m.tlsModel = .initial) ∧
    ∀ d, r.sym ≠ 0 → Binds o r.sym (some d) → d.obj.tlsModel = .initial
  source : r.kind = .copy → ∃ d, o.others r.sym = some d

theorem process_ok (E : Env) (o : Obj) (r : Rel) (m : Mem) (h : Acceptable o r) (hsy : r.Unsymbolic o) :
    ∃ m', process E o m r = .ok m' := by
  unfold process
  by_cases hk : r.kind = .copy ∨ r.kind = .irelative
  · rw [if_pos hk]; exact ⟨m, rfl⟩
  rw [if_neg hk]
  have hnc : r.kind ≠ .copy := fun hc => hk (Or.inl hc)
  by_cases hu : r.sym ≠ 0 ∧ lookup o r.sym = none ∧ o.weak r.sym = false
  · have := (h.resolved hu.1 hnc _ (binds_lookup o _ hu.1) hu.2.1).1
    rw [hu.2.2] at this; cases this
  rw [if_neg hu]
  have hb := binds_lookup o r.sym
  have hres := h.resolved
  obtain ⟨p, hp⟩ : ∃ p, lookup o r.sym = p := ⟨_, rfl⟩
  rw [hp] at hb ⊢
  unfold apply
  cases hkind : r.kind <;> simp only
  case copy => exact absurd hkind hnc
  case irelative => exact absurd (Or.inr hkind) hk
  case other => exact absurd hkind h.known
  case none => exact ⟨_, rfl⟩
  case jumpSlot =>
    have := h.zero (Or.inl hkind)
    unfold addendNorel; rw [this]; simp
  case globDat => have := h.needs (Or.inl hkind); simp [this]
  case absolute => have := h.needs (Or.inr (Or.inl hkind)); simp [this]
  case relative => have := h.bare hkind; simp [this]
  case dtpmod =>
    have hz := h.zero (Or.inr hkind)
    have : addendRel o r m = 0 := by unfold addendRel; rw [hz]
    rw [if_neg (by simp [this])]
    by_cases h0 : r.sym = 0
    · have := (h.index hkind).1 h0
      simp [h0, this]
    · cases p with
      | none => exact absurd hkind (hres h0 hnc _ (hb h0) rfl).2.1
      | some d =>
        have := (h.index hkind).2 d h0 (hb h0)
        simp [h0, this]
  case dtpoff =>
    have h0 := h.needs (Or.inr (Or.inr (Or.inl hkind)))
    cases p with
    | none => exact absurd hkind (hres h0 hnc _ (hb h0) rfl).2.2.1
    | some d => simp [h0]
  case tpoff =>
    by_cases h0 : r.sym = 0
    · have := (h.fixed hkind).1 h0
      simp [h0, this]
    · cases p with
      | none => exact absurd hkind (hres h0 hnc _ (hb h0) rfl).2.2.2
      | some d =>
        have := (h.fixed hkind).2 d h0 (hb h0)
        simp [h0, this]
  case tlsdesc =>
    by_cases h0 : r.sym = 0
    · simp [h0]
    · simp only [h0, ne_eq, not_false_eq_true, if_true]
      cases hsc : o.scope r.sym with
      | some d => simp
      | none =>
        have hb' : Binds o r.sym (o.scope r.sym) := .scope (hsy hkind)
        rw [hsc] at hb'
        have := (hres h0 hnc _ hb' rfl).1
        simp [this]

theorem late_ok (E : Env) (o : Obj) (r : Rel) (m : Mem) (h : Acceptable o r) : ∃ m', processLate E o m r = .ok m' := by
  unfold processLate
  cases hkind : r.kind <;> simp only
  case copy =>
    obtain ⟨d, hd⟩ := h.source hkind
    have h0 := h.needs (Or.inr (Or.inr (Or.inr hkind)))
    rw [if_pos h0, hd]
    exact ⟨_, rfl⟩
  all_goals exact ⟨_, rfl⟩

/-- **The linker does not give up** on objects whose records are acceptable. -/
theorem link_succeeds (E : Env) (Ls : List Loaded) (m : Mem)
    (h : ∀ L ∈ Ls, ∀ r ∈ L.rels, Acceptable L.o r ∧ r.Unsymbolic L.o) : ∃ m', link E Ls m = .ok m' := by
  have pa : ∀ (o : Obj) (rs : List Rel), (∀ r ∈ rs, Acceptable o r ∧ r.Unsymbolic o) → ∀ m, ∃ m', processAll E o m rs = .ok m' := by
    intro o rs
    induction rs with
    | nil => intro _ m; exact ⟨m, rfl⟩
    | cons r rs ih =>
      intro h m
      obtain ⟨m1, h1⟩ := process_ok E o r m (h r (List.mem_cons_self ..)).1 (h r (List.mem_cons_self ..)).2
      obtain ⟨m2, h2⟩ := ih (fun r hr => h r (List.mem_cons_of_mem _ hr)) m1
      exact ⟨m2, by unfold processAll; rw [h1]; exact h2⟩
  have la : ∀ (o : Obj) (rs : List Rel), (∀ r ∈ rs, Acceptable o r ∧ r.Unsymbolic o) → ∀ m, ∃ m', lateAll E o m rs = .ok m' := by
    intro o rs
    induction rs with
    | nil => intro _ m; exact ⟨m, rfl⟩
    | cons r rs ih =>
      intro h m
      obtain ⟨m1, h1⟩ := late_ok E o r m (h r (List.mem_cons_self ..)).1
      obtain ⟨m2, h2⟩ := ih (fun r hr => h r (List.mem_cons_of_mem _ hr)) m1
      exact ⟨m2, by unfold lateAll; rw [h1]; exact h2⟩
  have sp : ∀ m, ∃ m', staticPass E Ls m = .ok m' := by
    induction Ls with
    | nil => intro m; exact ⟨m, rfl⟩
    | cons L Ls ih =>
      intro m
      obtain ⟨m1, h1⟩ := pa L.o L.rels (h L (List.mem_cons_self ..)) m
      obtain ⟨m2, h2⟩ := ih (fun L hL => h L (List.mem_cons_of_mem _ hL)) m1
      exact ⟨m2, by unfold staticPass; rw [h1]; exact h2⟩
  have lp : ∀ m, ∃ m', latePass E Ls m = .ok m' := by
    clear sp
    induction Ls with
    | nil => intro m; exact ⟨m, rfl⟩
    | cons L Ls ih =>
      intro m
      obtain ⟨m1, h1⟩ := la L.o L.rels (h L (List.mem_cons_self ..)) m
      rw [latePass_cons]
      by_cases hm : L.o.isMain = true
      · rw [if_pos hm, h1]; exact ih (fun L hL => h L (List.mem_cons_of_mem _ hL)) m1
      · rw [if_neg hm]; exact ih (fun L hL => h L (List.mem_cons_of_mem _ hL)) m
  obtain ⟨m1, h1⟩ := sp m
  obtain ⟨m2, h2⟩ := lp m1
  exact ⟨m2, by unfold link; rw [h1]; exact h2⟩

/-- **Unresolved symbols are fatal**: a record other than a copy record by a strong symbol that nothing defines
ends the program; nothing is bound to address 0 silently. -/
theorem unresolved_panics (E : Env) (o : Obj) (r : Rel) (m : Mem) (hs : r.sym ≠ 0) (hw : o.weak r.sym = false)
    (hk : r.kind ≠ .copy ∧ r.kind ≠ .irelative) (h1 : o.own r.sym = none) (h2 : o.scope r.sym = none) :
    process E o m r = .panic := by
  have : lookup o r.sym = none := by unfold lookup; simp [hs, h1, h2]
  unfold process
  rw [if_neg (fun h => h.elim hk.1 hk.2), if_pos ⟨hs, this, hw⟩]

/-! ### Thread-local variables -/

/-- allocateTcb builds a sound table: for the objects in the map, the table leads to their blocks. -/
theorem allocDtv_sound (tp : Nat) (buf : Nat → Nat) (mods : List (Option Module)) (hl : mods.length < 2 ^ 64)
    (block : Module → Nat)
    (hb : ∀ t, block t = if t.tlsModel = .initial then (tp + t.tlsOffset) % 2 ^ 64 else buf t.tlsIndex)
    (hn : ∀ t, some t ∈ mods → block t ≠ 0) :
    Thread.Sound ⟨tp, allocDtv tp buf mods, block⟩
      (fun t => t.tlsIndex ≠ 0 ∧ t.tlsModel ≠ .null ∧ mods[t.tlsIndex]? = some (some t)) where
  index := by
    rintro t ⟨h1, h2, h3⟩
    have hlt := (List.getElem?_eq_some_iff.1 h3).1
    refine ⟨h1, by omega, ?_⟩
    simp only [allocDtv, List.getElem?_mapIdx, h3, Option.map_some, hb]
    cases ht : t.tlsModel with
    | null => exact absurd ht h2
    | initial => simp
    | dynamic => simp
  nonnull := by
    rintro t ⟨_, _, h3⟩
    exact hn t (List.mem_of_getElem? h3)
  fixed := by
    rintro t _ hi
    simp only [hb, hi, if_true]

/-- **`__tls_get_addr`.** For a pair of words filled in by a module and an offset record for the same symbol,
it returns the address of the variable in the calling thread's copy of the defining object's TLS segment. -/
theorem tls_get_addr_spec (E : Env) (T : Module → Prop) (o : Obj) (r1 r2 : Rel) (m m' : Mem) (d : Def)
    (hk1 : r1.kind = .dtpmod) (hk2 : r2.kind = .dtpoff) (hs : r1.sym = r2.sym) (hs0 : r1.sym ≠ 0)
    (hoff : (o.m.base + r2.offset) % 2 ^ 64 = (o.m.base + r1.offset) % 2 ^ 64 + 8)
    (h1 : Meets E T o r1 m m') (h2 : Meets E T o r2 m m') (hd : Binds o r1.sym (some d)) (A : Nat)
    (hA : r2.addend = some A) (th : Thread) (hth : th.Sound T) (ht : T d.obj) :
    tlsGetAddr th.dtv m' ((o.m.base + r1.offset) % 2 ^ 64) = .ok ((th.block d.obj + d.value + A) % 2 ^ 64) := by
  have hun : ∀ p q, Binds o r1.sym p → Binds o r1.sym q → p = q := by
    intro p q hp hq
    cases hp with
    | own d1 e1 e2 =>
      cases hq with
      | own d2 f1 f2 => rw [e2] at f2; exact f2
      | scope f => rcases f with f | f
                   · rw [e1] at f; cases f
                   · rw [e2] at f; cases f
    | scope e =>
      cases hq with
      | own d2 f1 f2 => rcases e with e | e
                        · rw [f1] at e; cases e
                        · rw [f2] at e; cases e
      | scope f => rfl
  unfold Meets at h1 h2
  simp only [hk1, hk2] at h1 h2
  obtain ⟨t, ht1, g2⟩ := h1
  rw [if_neg hs0] at ht1
  obtain ⟨d1, g1, rfl⟩ := ht1
  cases hun _ _ g1 hd
  obtain ⟨d2, A', k1, k2, k3⟩ := h2
  rw [← hs] at k1
  cases hun _ _ k1 hd
  have : A' = A := by
    rcases k2 with k2 | ⟨k2, _⟩
    · rw [hA] at k2; cases k2; rfl
    · rw [hA] at k2; cases k2
  subst this
  obtain ⟨i1, i2, i3⟩ := hth.index d.obj ht
  have i4 := hth.nonnull d.obj ht
  unfold tlsGetAddr
  rw [hoff] at k3
  simp only [g2, k3, Nat.mod_eq_of_lt i2, i1, i3, i4, if_false]
  congr 1
  omega

/-! ### The procedure linkage table -/

/-- **Calls through the PLT** of an object without DT_SYMBOLIC: with eager binding the slot holds the address
of the definition; with lazy binding it holds its old content moved by the base, and the first call stores
and calls the address of the definition. -/
theorem plt_partial (E : Env) (o : Obj) (r : Rel) (m : Mem) (d : Def) (S : Nat) (hk : r.kind = .jumpSlot)
    (hs : o.symbolic = false) (hd : Binds o r.sym (some d)) (hS : AddressOf E (some d) S) :
    (∃ m', processPlt E true o m r = .ok m' ∧ load m' ((o.m.base + r.offset) % 2 ^ 64) = S % 2 ^ 64) ∧
    (∃ m', processPlt E false o m r = .ok m' ∧ load m' ((o.m.base + r.offset) % 2 ^ 64)
        = (load m ((o.m.base + r.offset) % 2 ^ 64) + o.m.base) % 2 ^ 64) ∧
    (∃ m', lazyRelocate E o m r = .ok (m', S) ∧ load m' ((o.m.base + r.offset) % 2 ^ 64) = S % 2 ^ 64 ∧
      ∀ x, ¬ Touch E o r x → m' x = m x) := by
  have hsc : o.scope r.sym = some d := by
    generalize hp : some d = p at hd
    cases hd with
    | own d' h1 _ => rw [hs] at h1; cases h1
    | scope _ => rfl
  have hv : virtualAddress E.call d = S := by
    have := address_symAddr E (some d)
    unfold symAddr at this
    simp only at this
    unfold virtualAddress at this ⊢
    cases hS with
    | plain _ hi => simp [hi]
    | indirect _ hi => simp [hi]
  refine ⟨?_, ?_, ?_⟩
  · unfold processPlt
    simp only [hk, if_true, hsc]
    exact ⟨_, rfl, by rw [hv]; exact load_store _ _ _⟩
  · unfold processPlt
    simp only [hk]
    refine ⟨_, rfl, ?_⟩
    show load (store m (dest o r) _) (dest o r) = _
    rw [load_store, Nat.mod_mod]; rfl
  · unfold lazyRelocate
    simp only [hk, ne_eq, not_true, if_false, hsc, hv]
    refine ⟨_, rfl, load_store _ _ _, ?_⟩
    intro x hx
    refine store_other _ _ _ _ ?_
    unfold Touch at hx
    simp only [hk] at hx
    exact hx

/-! ### What the code gets wrong -/

/-- The program at 0x1000 and a library at 0x10000 which define the same symbol (index 1). -/
def prog : Module := ⟨0x1000, 1, .initial, 2 ^ 64 - 64⟩
def lib : Module := ⟨0x10000, 2, .initial, 2 ^ 64 - 128⟩
def symbolicLib : Obj where
  m := lib
  symbolic := true
  own i := if i = 1 then some { obj := lib, value := 16 } else none
  scope i := if i = 1 then some { obj := prog, value := 32 } else none
def env : Env := ⟨fun a => a + 4, 0x77000, 0x77008⟩

/-- **DT_SYMBOLIC is ignored by PLT slots**: the call goes to the program's definition, although the library's
own one should be used; a GLOB_DAT record for the same symbol gets it right. -/
theorem symbolic_plt_violated :
    Binds symbolicLib 1 (some { obj := lib, value := 16 }) ∧
    (∃ m', processPlt env true symbolicLib (fun _ => 0) { offset := 8, kind := .jumpSlot, sym := 1 } = .ok m' ∧
      load m' 0x10008 = 0x1020) ∧
    (∃ m', process env symbolicLib (fun _ => 0) { offset := 8, kind := .globDat, sym := 1 } = .ok m' ∧
      load m' 0x10008 = 0x10010) := by
  refine ⟨.own _ rfl rfl, ⟨_, rfl, by decide⟩, ⟨_, rfl, by decide⟩⟩

/-- **DT_SYMBOLIC is ignored by TLS descriptors.** -/
theorem symbolic_tlsdesc_violated :
    ∃ m', process env symbolicLib (fun _ => 0) { offset := 8, kind := .tlsdesc, sym := 1, heap := 0x50000 } = .ok m' ∧
      tlsdescCall env 0x9000 [0, 0x9000 - 64, 0x9000 - 128] m' 0x10008 = .ok (2 ^ 64 - 64 + 32) ∧
      (0x9000 + (2 ^ 64 - 64 + 32)) % 2 ^ 64 ≠ (0x9000 - 128) + 16 := by
  refine ⟨_, rfl, by decide, by decide⟩

/-- **Indirect relative records of libraries are never applied** (outside the PLT): the word keeps its content. -/
theorem irelative_library_violated (E : Env) (o : Obj) (r : Rel) (m : Mem) (h : r.kind = .irelative)
    (hm : o.isMain = false) : link E [⟨o, [r]⟩] m = .ok m := by
  simp [link, staticPass, latePass, processAll, process, h, hm]

/-! ### Concrete cases -/

/-- The base is added to the words at 0x10, 0x18 and 0x28. -/
example : Ascending 0x1000 [0x10, 0b1011] none :=
  .addr rfl (by omega) (by omega) (by simp) (.bits rfl (by omega) .nil)
example : Listed 0x1000 [0x10, 0b1011] 0 0x1018 := .afterAddr rfl (.bit (k := 1) rfl (by omega) rfl)
example : Listed 0x1000 [0x10, 0b1011] 0 0x1028 := .afterAddr rfl (.bit (k := 3) rfl (by omega) rfl)

/-- A program that refers to a variable and copies another one, and the library that defines them. -/
def demoProg : Loaded where
  o := { m := prog, isMain := true
         scope := fun i => some { obj := lib, value := 0x40 * i, size := 8 }
         others := fun i => some { obj := lib, value := 0x40 * i, size := 8 } }
  rels := [{ offset := 0, kind := .globDat, sym := 1 }, { offset := 8, kind := .copy, sym := 2 },
    { offset := 16, kind := .irelative, addend := some 0x300 }, { offset := 24, kind := .tpoff, sym := 1 }]
def demoLib : Loaded where
  o := { m := lib }
  rels := [{ offset := 0x80, kind := .relative, addend := some 0x500 }]

example : LinkOk env [demoProg, demoLib] where
  apart := by
    simp only [records, demoProg, demoLib, List.flatMap_cons, List.map_cons, List.map_nil, List.flatMap_nil,
      List.cons_append, List.nil_append, List.append_nil, List.pairwise_cons, List.mem_cons, List.not_mem_nil,
      or_false, forall_eq_or_imp, forall_eq, Touch, prog, lib, false_imp_iff, List.Pairwise.nil, and_true,
      implies_true, Option.some.injEq, exists_eq_left']
    refine ⟨⟨?_, ?_, ?_, ?_⟩, ⟨?_, ?_, ?_⟩, ⟨?_, ?_⟩, ?_⟩ <;> intro x h1 h2 <;> omega
  heap := by
    intro q hq
    simp [records, demoProg, demoLib] at hq
    rcases hq with rfl | rfl | rfl | rfl | rfl <;> (intro h; simp at h)
  source := by
    intro q hq hm q' hq' hm' hs x hx hx'
    simp [records, demoProg, demoLib] at hq hq'
    rcases hq with rfl | rfl | rfl | rfl | rfl <;> simp [Source] at hx hm
    obtain ⟨S, h1, h2, h3⟩ := hx
    cases h1 with
    | plain _ _ =>
      rcases hq' with rfl | rfl | rfl | rfl | rfl <;> simp [Touch, prog, lib] at hx' h2 h3 hm' <;> omega
    | indirect _ h => simp at h

example : ∀ L ∈ [demoProg, demoLib], ∀ r ∈ L.rels, Acceptable L.o r ∧ r.Unsymbolic L.o := by
  have hb : ∀ i p, Binds demoProg.o i p → p = some { obj := lib, value := 0x40 * i, size := 8 } := by
    intro i p h
    cases h with
    | own d h1 _ => cases h1
    | scope _ => rfl
  intro L hL r hr
  simp only [List.mem_cons, List.not_mem_nil, or_false] at hL
  rcases hL with rfl | rfl
  · refine ⟨?_, fun _ => Or.inl rfl⟩
    have hr' := hr
    simp only [demoProg, List.mem_cons, List.not_mem_nil, or_false] at hr
    constructor
    · rcases hr with rfl | rfl | rfl | rfl <;> simp
    · intro _ _ p hp h; rw [hb _ _ hp] at h; cases h
    · rcases hr with rfl | rfl | rfl | rfl <;> simp
    · rcases hr with rfl | rfl | rfl | rfl <;> simp
    · rcases hr with rfl | rfl | rfl | rfl <;> simp
    · rcases hr with rfl | rfl | rfl | rfl <;> simp
    · rcases hr with rfl | rfl | rfl | rfl <;> simp
      intro d h; cases hb _ _ h; rfl
    · rcases hr with rfl | rfl | rfl | rfl <;> simp [demoProg]
  · simp only [demoLib, List.mem_cons, List.not_mem_nil, or_false] at hr
    subst hr
    refine ⟨?_, fun _ => Or.inl rfl⟩
    constructor <;> simp

/-- The linked demo: the word at 0x1000 has the address of symbol 1 of the library, the one at 0x1010 what the
resolver at 0x1300 returned, the one at 0x10080 the address 0x10500. -/
example : ∃ m', link env [demoProg, demoLib] (fun _ => 0) = .ok m' ∧ load m' 0x1000 = 0x10040 ∧
    load m' 0x1010 = 0x1304 ∧ load m' 0x10080 = 0x10500 := ⟨_, rfl, by decide, by decide, by decide⟩

/-- A thread with its thread pointer at 0x9000: the program's block starts 64 bytes below, the library's 128. -/
example : Thread.Sound ⟨0x9000, allocDtv 0x9000 (fun _ => 0) [none, some prog, some lib],
    fun t => if t = prog then 0x9000 - 64 else 0x9000 - 128⟩ (fun t => t = prog ∨ t = lib) where
  index := by rintro t (rfl | rfl) <;> decide
  nonnull := by rintro t (rfl | rfl) <;> decide
  fixed := by rintro t (rfl | rfl) <;> decide

end Mlibc.Reloc
