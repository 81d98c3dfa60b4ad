import Verif.Base
import Verif.Rtld.InitOrder

/-!
C64: symbol lookup in the dynamic linker.

Names are lists of bytes. An object is its symbol table, its version tables as parsed by `_parseVerdef`
and `_parseVerneed`, and one of the two kinds of hash tables. Words are natural numbers except where
their width matters. The bloom filter is not used by the code.
-/

namespace Mlibc.Symbols

/-! ### The code: hash functions -/

/-- A `char` converted to 32 bits: `char` is signed on x86. -/
def widen (c : UInt8) : UInt32 := if c < 128 then c.toUInt32 else c.toUInt32 + 0xFFFFFF00

/-- One iteration of `elf64Hash`. options/rtld/generic/linker.cpp L1578-1584 -/
def elfStep (h c : UInt32) : UInt32 :=
  let h := (h <<< 4) + c
  let g := h &&& 0xF0000000
  let h := if g ≠ 0 then h ^^^ (g >>> 24) else h
  h &&& 0x0FFFFFFF

/-- `elf64Hash`. options/rtld/generic/linker.cpp L1575-1587 -/
def elf64Hash (s : List UInt8) : UInt32 := s.foldl (fun h c => elfStep h (widen c)) 0

/-- `gnuHash`. options/rtld/generic/linker.cpp L1589-1594 -/
def gnuHash (s : List UInt8) : UInt32 := s.foldl (fun h c => (h <<< 5) + h + widen c) 5381

/-! ### The code: versions, symbols, objects -/

/-- `SymbolVersion`. options/rtld/generic/linker.hpp L407-461 -/
structure Version where
  isLocal : Bool
  isGlobal : Bool
  isDefault : Bool
  name : List UInt8
  hash : UInt32
  deriving DecidableEq, Repr

/-- `SymbolVersion::SymbolVersion(int)`. options/rtld/generic/linker.hpp L412-414 -/
def Version.special (idx : Nat) : Version := ⟨idx = 0, idx = 1, false, [], 0⟩

/-- `SymbolVersion::SymbolVersion(const char *)`. options/rtld/generic/linker.hpp L416-418 -/
def Version.named (name : List UInt8) : Version := ⟨false, false, false, name, elf64Hash name⟩

/-- `SymbolVersion::makeDefault`. options/rtld/generic/linker.hpp L448-453 -/
def Version.makeDefault (v : Version) : Version := { v with isDefault := true }

/-- `SymbolVersion::operator==`. options/rtld/generic/linker.hpp L441-446 -/
def Version.eq (v w : Version) : Bool :=
  if v.isLocal || w.isLocal then v.isLocal && w.isLocal
  else if v.isGlobal || w.isGlobal then v.isGlobal && w.isGlobal
  else if v.hash ≠ w.hash then false
  else v.name = w.name

inductive Bind where
  | local | global | weak | unique | other
  deriving DecidableEq, Repr

/-- An entry of the symbol table; the name is empty if `st_name` is 0. -/
structure Sym where
  name : List UInt8
  undef : Bool
  bind : Bind
  deriving DecidableEq, Repr

inductive Table where
  /-- DT_HASH -/
  | sysv (buckets chain : List Nat)
  /-- DT_GNU_HASH -/
  | gnu (symOffset : Nat) (buckets : List Nat) (chains : List Nat)

structure Obj where
  syms : List Sym
  /-- the VERSYM table, if the object has one -/
  versym : Option (List Nat)
  /-- `knownVersions` -/
  known : Nat → Option Version
  /-- `definedVersions.size() != 0` -/
  definesVersions : Bool
  table : Table

/-- Reading an array of the object. -/
def rd {α : Type} (l : List α) (i : Nat) : Res α :=
  match l[i]? with
  | some a => .ok a
  | none => .ub

/-- `SharedObject::getSymbolByIndex`. options/rtld/generic/linker.cpp L1211-1262 -/
def getSymbolByIndex (o : Obj) (i : Nat) : Res (Sym × Version) :=
  (rd o.syms i).bind fun s =>
  match o.versym with
  | none => .ok (s, .special 1)
  | some vs =>
    (rd vs i).bind fun raw =>
    let isDefault := raw < 0x8000
    let idx := raw % 0x8000
    let ver : Res Version :=
      if idx ≠ 0 ∧ idx ≠ 1 then
        match o.known idx with
        | none => .panic
        | some v => .ok v
      else .ok (.special idx)
    ver.bind fun v => .ok (s, if isDefault then v.makeDefault else v)

/-- The lambda `eligible`. options/rtld/generic/linker.cpp L1600-1609 -/
def eligible (s : Sym) : Bool :=
  if s.undef then false
  else if s.bind ≠ .global ∧ s.bind ≠ .weak ∧ s.bind ≠ .unique then false
  else true

/-- The lambda `correctVersion`. options/rtld/generic/linker.cpp L1612-1636 -/
def correctVersion (o : Obj) (want : Option Version) (v : Version) : Res Bool :=
  (if o.definesVersions then ensure (!v.isLocal) else .ok ()).bind fun _ =>
  match want with
  | none => .ok (v.isDefault || v.isGlobal || v.isLocal)
  | some w =>
    if (w.isLocal || w.isGlobal) && (v.isGlobal || v.isDefault || v.isLocal) then .ok true
    else .ok (w.eq v)

/-- `eligible(cand) && cand.getString() == string && correctVersion(ver)`; `getString` insists on a name.
options/rtld/generic/linker.cpp L1645-1647, L1677-1679, L1540-1544 -/
def accepts (o : Obj) (name : List UInt8) (want : Option Version) (i : Nat) : Res Bool :=
  (getSymbolByIndex o i).bind fun (s, v) =>
  if eligible s then
    (ensure (decide (s.name ≠ []))).bind fun _ =>
    if s.name = name then correctVersion o want v else .ok false
  else .ok false

/-- The loop over a chain of a DT_HASH table; the number bounds the iterations.
options/rtld/generic/linker.cpp L1644-1651 -/
def sysvLoop (o : Obj) (chain : List Nat) (name : List UInt8) (want : Option Version) :
    Nat → Nat → Res (Option Nat)
  | n, i =>
    if i = 0 then .ok none
    else match n with
      | 0 => .ub
      | n + 1 =>
        (accepts o name want i).bind fun a =>
        if a then .ok (some i) else (rd chain i).bind fun i' => sysvLoop o chain name want n i'

/-- The loop over the symbols of a bucket of a DT_GNU_HASH table; the number bounds the iterations.
`chash & ~1` is compared as `chash / 2`. options/rtld/generic/linker.cpp L1672-1687 -/
def gnuLoop (o : Obj) (symOffset : Nat) (chains : List Nat) (hash : Nat) (name : List UInt8)
    (want : Option Version) : Nat → Nat → Res (Option Nat)
  | 0, _ => .ub
  | n + 1, i =>
    (if i < symOffset then Res.ub else rd chains (i - symOffset)).bind fun chash =>
    (if chash / 2 = hash / 2 then accepts o name want i else .ok false).bind fun a =>
    if a then .ok (some i)
    else if chash % 2 = 1 then .ok none
    else gnuLoop o symOffset chains hash name want n (i + 1)

/-- `resolveInObject`; the result is the index of the symbol. A table without buckets makes the code
divide by zero. options/rtld/generic/linker.cpp L1597-1689 -/
def resolveInObject (o : Obj) (name : List UInt8) (want : Option Version) : Res (Option Nat) :=
  match o.table with
  | .sysv buckets chain =>
    if buckets.length = 0 then .ub
    else
      (rd buckets ((elf64Hash name).toNat % buckets.length)).bind fun i =>
      sysvLoop o chain name want (o.syms.length + 1) i
  | .gnu symOffset buckets chains =>
    if buckets.length = 0 then .ub
    else
      (rd buckets ((gnuHash name).toNat % buckets.length)).bind fun i =>
      if i = 0 then .ok none
      else gnuLoop o symOffset chains (gnuHash name).toNat name want (o.syms.length + 1) i

/-! ### Specification of lookup in one object -/

/-- One step of the hash function of the System V ABI: `h = (h << 4) + c; if ((g = h & 0xf0000000)) h ^= g >> 24;
h &= ~g;` -/
def abiStep (h c : UInt32) : UInt32 :=
  let h := (h <<< 4) + c
  let g := h &&& 0xF0000000
  (if g ≠ 0 then h ^^^ (g >>> 24) else h) &&& ~~~ g

/-- The hash function of the System V ABI: characters are unsigned. -/
def stdElfHash (s : List UInt8) : UInt32 := s.foldl (fun h c => abiStep h c.toUInt32) 0

/-- The hash function of DT_GNU_HASH: `h * 33 + c` modulo 2^32 with unsigned characters. -/
def stdGnuHash (s : List UInt8) : UInt32 := s.foldl (fun h c => h * 33 + c.toUInt32) 5381

/-- The symbol has no version of its own. -/
def Version.unversioned (v : Version) : Prop := v.isLocal = true ∨ v.isGlobal = true

/-- A symbol of version `v` satisfies a reference: a reference that names no version takes the default
version or an unversioned symbol; so does a reference of an unversioned symbol; otherwise the names of the
versions agree. -/
def VersionOk : Option Version → Version → Prop
  | none, v => v.isDefault = true ∨ v.unversioned
  | some w, v =>
    (w.unversioned ∧ (v.isDefault = true ∨ v.unversioned)) ∨
    (¬ w.unversioned ∧ ¬ v.unversioned ∧ w.name = v.name)

/-- The version of the symbol with index `i`: its entry in VERSYM is the index of a version, of which 0
and 1 are special, with bit 15 set for versions that are not the default. -/
def VersionOf (o : Obj) (i : Nat) (v : Version) : Prop :=
  match o.versym with
  | none => v = .special 1
  | some vs => ∃ idx hidden, vs[i]? = some (idx + if hidden then 0x8000 else 0) ∧ idx < 0x8000 ∧
      ∃ w, (if idx ≤ 1 then w = .special idx else o.known idx = some w) ∧
        v = { w with isDefault := w.isDefault || !hidden }

/-- The object has, at index `i`, a definition of `name` that others may use, in an acceptable version. -/
def Satisfies (o : Obj) (name : List UInt8) (want : Option Version) (i : Nat) : Prop :=
  ∃ s v, o.syms[i]? = some s ∧ s.name = name ∧ s.undef = false ∧
    (s.bind = .global ∨ s.bind = .weak ∨ s.bind = .unique) ∧ VersionOf o i v ∧ VersionOk want v

/-- Versions with a name carry the hash of the name. -/
def Version.Proper (v : Version) : Prop := ¬ v.unversioned → v.hash = stdElfHash v.name

/-- Following the links of a chain visits the indices `l`, then ends. -/
def Chain (chain : List Nat) : Nat → List Nat → Prop
  | i, [] => i = 0
  | i, j :: l => i = j ∧ j ≠ 0 ∧ ∃ k, chain[j]? = some k ∧ Chain chain k l

/-- What the link editor guarantees about a hash table. -/
def Table.WellFormed (o : Obj) : Table → Prop
  | .sysv buckets chain => 0 < buckets.length ∧
      ∀ b < buckets.length, ∃ i l, buckets[b]? = some i ∧ Chain chain i l ∧ l.Nodup ∧
        (∀ j ∈ l, j < o.syms.length) ∧
        ∀ j s, j ≠ 0 → o.syms[j]? = some s → (stdElfHash s.name).toNat % buckets.length = b → j ∈ l
  | .gnu off buckets chains => 0 < buckets.length ∧ 0 < off ∧ off + chains.length = o.syms.length ∧
      -- only what is defined is in the table, and it has the hash of its name
      (∀ j s, o.syms[j]? = some s → s.undef = false → j ≠ 0 → off ≤ j) ∧
      (∀ j s c, off ≤ j → o.syms[j]? = some s → chains[j - off]? = some c →
        c / 2 = (stdGnuHash s.name).toNat / 2) ∧
      -- a bucket is empty, or names the first symbol of a run; the last one is marked
      ∀ b < buckets.length, ∃ i, buckets[b]? = some i ∧
        ((i = 0 ∧ ∀ j s, off ≤ j → o.syms[j]? = some s →
            (stdGnuHash s.name).toNat % buckets.length ≠ b) ∨
         (off ≤ i ∧ ∃ n, i + n < off + chains.length ∧
            (∀ k ≤ n, ∃ c, chains[i + k - off]? = some c ∧ (c % 2 = 1 ↔ k = n)) ∧
            ∀ j s, off ≤ j → o.syms[j]? = some s →
              (stdGnuHash s.name).toNat % buckets.length = b → i ≤ j ∧ j ≤ i + n))

structure Obj.WellFormed (o : Obj) : Prop where
  /-- index 0 is the undefined symbol, usable symbols have names -/
  null : ∃ s, o.syms[0]? = some s ∧ s.undef = true
  names : ∀ (i : Nat) (s : Sym), o.syms[i]? = some s → s.undef = false → s.name ≠ []
  /-- every symbol has a known version -/
  versions : ∀ vs, o.versym = some vs → ∀ i < o.syms.length, ∃ raw, vs[i]? = some raw ∧ raw < 0x10000 ∧
    (raw % 0x8000 ≤ 1 ∨ ∃ v, o.known (raw % 0x8000) = some v ∧ v.Proper)
  /-- in an object that defines versions, usable symbols are not local -/
  noLocal : o.definesVersions = true → ∀ (i : Nat) (s : Sym) v, o.syms[i]? = some s → s.undef = false →
    VersionOf o i v → v.isLocal = false
  table : o.table.WellFormed o

/-- A name of ASCII characters. -/
def Ascii (s : List UInt8) : Prop := ∀ c ∈ s, c < 128

/-! ### Proofs: hash functions -/

theorem widen_ascii {c : UInt8} (h : c < 128) : widen c = c.toUInt32 := if_pos h

theorem mask_top (x : BitVec 32) : ((if (x &&& 0xF0000000#32) ≠ 0#32 then x ^^^ ((x &&& 0xF0000000#32) >>> 24) else x) &&& 0x0FFFFFFF#32) =
   (if (x &&& 0xF0000000#32) ≠ 0#32 then x ^^^ ((x &&& 0xF0000000#32) >>> 24) else x) &&& ~~~ (x &&& 0xF0000000#32) := by
  have hm : ∀ i : Fin 32, (0xF0000000#32).getLsbD i = decide (28 ≤ i.val) := by decide
  have hn : ∀ i : Fin 32, (0x0FFFFFFF#32).getLsbD i = decide (i.val < 28) := by decide
  split
  · apply BitVec.eq_of_getLsbD_eq
    intro i hi
    simp only [BitVec.getLsbD_and, BitVec.getLsbD_xor, BitVec.getLsbD_ushiftRight, BitVec.getLsbD_not, hm ⟨i, hi⟩, hn ⟨i, hi⟩]
    by_cases h : i < 28
    · have : ¬ 28 ≤ i := by omega
      simp [h, this, hi]
    · have h2 : 28 ≤ i := by omega
      rw [BitVec.getLsbD_of_ge _ (24 + i) (by omega)]
      simp [h, h2, hi]
  · rename_i h
    have h : x &&& 0xF0000000#32 = 0#32 := by simpa using h
    rw [h]
    apply BitVec.eq_of_getLsbD_eq
    intro i hi
    have := congrArg (fun y => y.getLsbD i) h
    simp only [BitVec.getLsbD_and, hm ⟨i, hi⟩, BitVec.getLsbD_zero] at this
    simp only [BitVec.getLsbD_and, hn ⟨i, hi⟩, BitVec.getLsbD_not, BitVec.getLsbD_zero]
    by_cases h : i < 28
    · simp [h, hi]
    · have h2 : 28 ≤ i := by omega
      simp [h, h2] at this ⊢
      simp [this]

theorem elfStep_abi (h c : UInt32) : elfStep h c = abiStep h c := by
  unfold elfStep abiStep
  generalize (h <<< 4) + c = x
  have := mask_top x.toBitVec
  have e : (x &&& 0xF0000000 ≠ (0 : UInt32)) ↔ (x.toBitVec &&& 0xF0000000#32) ≠ 0#32 := by
    rw [ne_eq, ← UInt32.toBitVec_inj]; rfl
  apply UInt32.toBitVec_inj.1
  simp only []
  by_cases h : x &&& 0xF0000000 ≠ (0 : UInt32)
  · rw [if_pos (e.1 h)] at this
    rw [if_pos h]
    exact this
  · rw [if_neg (fun h' => h (e.2 h'))] at this
    rw [if_neg h]
    exact this

theorem elf_ascii {s : List UInt8} (h : Ascii s) : elf64Hash s = stdElfHash s := by
  have : ∀ (s : List UInt8), Ascii s → ∀ a : UInt32, s.foldl (fun h c => elfStep h (widen c)) a =
      s.foldl (fun h c => abiStep h c.toUInt32) a := by
    intro s
    induction s with
    | nil => intro _ a; rfl
    | cons c s ih =>
      intro h a
      simp only [List.foldl_cons]
      rw [widen_ascii (h c (by simp)), elfStep_abi, ih (fun x hx => h x (by simp [hx]))]
  exact this s h 0

theorem times33 (h : UInt32) : (h <<< 5) + h = h * 33 := by
  apply UInt32.toNat_inj.1
  have := h.toNat_lt
  simp [UInt32.toNat_add, UInt32.toNat_mul, UInt32.toNat_shiftLeft, Nat.shiftLeft_eq]
  omega

theorem gnu_ascii {s : List UInt8} (h : Ascii s) : gnuHash s = stdGnuHash s := by
  have : ∀ (s : List UInt8), Ascii s → ∀ a : UInt32, s.foldl (fun (h : UInt32) c => (h <<< 5) + h + widen c) a =
      s.foldl (fun h c => h * 33 + c.toUInt32) a := by
    intro s
    induction s with
    | nil => intro _ a; rfl
    | cons c s ih =>
      intro h a
      simp only [List.foldl_cons]
      rw [widen_ascii (h c (by simp)), times33, ih (fun x hx => h x (by simp [hx]))]
  exact this s h 5381

/-! ### Proofs: one candidate -/

theorem rd_ok {α : Type} {l : List α} {i : Nat} {a : α} (h : l[i]? = some a) : rd l i = .ok a := by
  unfold rd; rw [h]

theorem Version.special_unversioned {i : Nat} (h : i ≤ 1) : (Version.special i).unversioned := by
  unfold Version.unversioned Version.special
  simp
  omega

theorem getSymbol_spec {o : Obj} (hw : o.WellFormed) {i : Nat} {s : Sym} (hs : o.syms[i]? = some s) :
    ∃ v, getSymbolByIndex o i = .ok (s, v) ∧ v.Proper ∧ VersionOf o i v ∧ ∀ w, VersionOf o i w → w = v := by
  unfold getSymbolByIndex VersionOf
  rw [rd_ok hs]
  simp only [Res.bind]
  cases hvs : o.versym with
  | none =>
    refine ⟨_, rfl, fun h => absurd (Version.special_unversioned (by omega)) h, rfl, fun w h => h⟩
  | some vs =>
    have hi : i < o.syms.length := (List.getElem?_eq_some_iff.1 hs).1
    obtain ⟨raw, hr, hlt, hk⟩ := hw.versions vs hvs i hi
    simp only [rd_ok hr]
    -- the raw entry and its parts
    have hparts : ∀ (idx : Nat) (hidden : Bool), vs[i]? = some (idx + if hidden then 0x8000 else 0) →
        idx < 0x8000 → idx = raw % 0x8000 ∧ hidden = !decide (raw < 0x8000) := by
      intro idx hidden h hl
      rw [hr] at h
      have h := Option.some.inj h
      cases hidden with
      | true => simp only [if_true] at h; refine ⟨by omega, ?_⟩; simp; omega
      | false => simp only [Bool.false_eq_true, if_false] at h; refine ⟨by omega, ?_⟩; simp; omega
    have hraw : raw = raw % 0x8000 + if (!decide (raw < 0x8000)) = true then 0x8000 else 0 := by
      by_cases h : raw < 0x8000
      · simp [h]; omega
      · simp [h]; omega
    by_cases hidx : raw % 0x8000 ≤ 1
    · have hn : ¬ (raw % 0x8000 ≠ 0 ∧ raw % 0x8000 ≠ 1) := by omega
      simp only [if_neg hn]
      refine ⟨_, rfl, ?_, ?_, ?_⟩
      · intro h
        refine absurd ?_ h
        have := Version.special_unversioned hidx
        split <;> exact this
      · refine ⟨raw % 0x8000, !decide (raw < 0x8000), by rw [← hraw]; exact hr, Nat.mod_lt _ (by decide),
          .special (raw % 0x8000), by rw [if_pos hidx], ?_⟩
        by_cases h : raw < 0x8000 <;> simp [h, Version.makeDefault, Version.special]
      · rintro w ⟨idx, hidden, h1, h2, u, h3, rfl⟩
        obtain ⟨rfl, rfl⟩ := hparts idx hidden h1 h2
        rw [if_pos hidx] at h3
        subst h3
        by_cases h : raw < 0x8000 <;> simp [h, Version.makeDefault, Version.special]
    · have hn : raw % 0x8000 ≠ 0 ∧ raw % 0x8000 ≠ 1 := by omega
      simp only [if_pos hn]
      obtain ⟨v, hv, hp⟩ := hk.resolve_left hidx
      simp only [hv]
      refine ⟨_, rfl, ?_, ?_, ?_⟩
      · split <;> exact hp
      · refine ⟨raw % 0x8000, !decide (raw < 0x8000), by rw [← hraw]; exact hr, Nat.mod_lt _ (by decide),
          v, by rw [if_neg hidx]; exact hv, ?_⟩
        by_cases h : raw < 0x8000 <;> simp [h, Version.makeDefault]
      · rintro w ⟨idx, hidden, h1, h2, u, h3, rfl⟩
        obtain ⟨rfl, rfl⟩ := hparts idx hidden h1 h2
        rw [if_neg hidx, hv] at h3
        have h3 := Option.some.inj h3
        subst h3
        by_cases h : raw < 0x8000 <;> simp [h, Version.makeDefault]

theorem correctVersion_spec {o : Obj} {want : Option Version} {v : Version}
    (hl : o.definesVersions = true → v.isLocal = false) (hv : v.Proper)
    (hw : ∀ w, want = some w → w.Proper) :
    ∃ b, correctVersion o want v = .ok b ∧ (b = true ↔ VersionOk want v) := by
  unfold correctVersion
  have h0 : (if o.definesVersions then ensure (!v.isLocal) else Res.ok ()) = .ok () := by
    by_cases h : o.definesVersions = true
    · rw [if_pos h, hl h]; rfl
    · rw [if_neg h]
  rw [h0]
  simp only [Res.bind]
  cases want with
  | none =>
    refine ⟨_, rfl, ?_⟩
    simp only [VersionOk, Version.unversioned, Bool.or_eq_true]
    constructor
    · rintro ((h | h) | h)
      · exact .inl h
      · exact .inr (.inr h)
      · exact .inr (.inl h)
    · rintro (h | h | h)
      · exact .inl (.inl h)
      · exact .inr h
      · exact .inl (.inr h)
  | some w =>
    have hwp := hw w rfl
    unfold Version.Proper Version.unversioned at hwp hv
    simp only [VersionOk, Version.unversioned]
    by_cases h1 : ((w.isLocal || w.isGlobal) && (v.isGlobal || v.isDefault || v.isLocal)) = true
    · rw [if_pos h1]
      refine ⟨true, rfl, ?_⟩
      simp only [Bool.and_eq_true, Bool.or_eq_true] at h1
      simp only [true_iff]
      left
      refine ⟨h1.1, ?_⟩
      rcases h1.2 with (h | h) | h
      · exact .inr (.inr h)
      · exact .inl h
      · exact .inr (.inl h)
    · rw [if_neg h1]
      refine ⟨_, rfl, ?_⟩
      unfold Version.eq
      cases hwl : w.isLocal <;> cases hwg : w.isGlobal <;> cases hvl : v.isLocal <;>
        cases hvg : v.isGlobal <;> cases hvd : v.isDefault <;> simp_all
      all_goals
        intro hn
        rw [hn]

theorem accepts_spec {o : Obj} (hw : o.WellFormed) {name : List UInt8} {want : Option Version}
    (hwant : ∀ w, want = some w → w.Proper) {i : Nat} (hi : i < o.syms.length) :
    ∃ b, accepts o name want i = .ok b ∧ (b = true ↔ Satisfies o name want i) := by
  obtain ⟨s, hs⟩ : ∃ s, o.syms[i]? = some s := ⟨_, List.getElem?_eq_getElem hi⟩
  obtain ⟨v, hg, hp, hvo, huniq⟩ := getSymbol_spec hw hs
  unfold accepts
  rw [hg]
  simp only [Res.bind]
  have hel : eligible s = true ↔ s.undef = false ∧ (s.bind = .global ∨ s.bind = .weak ∨ s.bind = .unique) := by
    unfold eligible
    cases s.undef <;> cases s.bind <;> simp
  by_cases he : eligible s = true
  · have he' := hel.1 he
    have hne := hw.names i s hs he'.1
    rw [if_pos he, decide_eq_true hne]
    simp only [ensure_true]
    by_cases hn : s.name = name
    · rw [if_pos hn]
      obtain ⟨b, hb, hbi⟩ := correctVersion_spec (o := o) (want := want) (v := v)
        (fun hd => hw.noLocal hd i s v hs he'.1 hvo) hp hwant
      refine ⟨b, hb, hbi.trans ?_⟩
      constructor
      · intro h
        exact ⟨s, v, hs, hn, he'.1, he'.2, hvo, h⟩
      · rintro ⟨s', v', h1, -, -, -, h2, h3⟩
        rw [huniq v' h2] at h3
        exact h3
    · rw [if_neg hn]
      refine ⟨false, rfl, ?_⟩
      simp only [Bool.false_eq_true, false_iff]
      rintro ⟨s', v', h1, h2, -⟩
      rw [hs] at h1
      exact hn (Option.some.inj h1 ▸ h2)
  · rw [if_neg he]
    refine ⟨false, rfl, ?_⟩
    simp only [Bool.false_eq_true, false_iff]
    rintro ⟨s', v', h1, -, h2, h3, -⟩
    rw [hs] at h1
    have := Option.some.inj h1
    subst this
    exact he (hel.2 ⟨h2, h3⟩)

/-! ### Proofs: the two tables -/

theorem sysvLoop_spec {o : Obj} (hw : o.WellFormed) {chain : List Nat} {name : List UInt8}
    {want : Option Version} (hwant : ∀ w, want = some w → w.Proper) (l : List Nat) (n i : Nat)
    (hc : Chain chain i l) (hl : ∀ j ∈ l, j < o.syms.length) (hn : l.length ≤ n) :
    ∃ r, sysvLoop o chain name want n i = .ok r ∧
      match r with
      | some j => j ∈ l ∧ Satisfies o name want j
      | none => ∀ j ∈ l, ¬ Satisfies o name want j := by
  induction l generalizing n i with
  | nil =>
    have : i = 0 := hc
    rw [sysvLoop.eq_def]
    simp only [this, if_true]
    exact ⟨none, rfl, by simp⟩
  | cons j l ih =>
    obtain ⟨rfl, h0, k, hk, hc'⟩ := hc
    cases n with
    | zero => simp at hn
    | succ n =>
      rw [sysvLoop.eq_def]
      simp only [if_neg h0]
      obtain ⟨b, hb, hbi⟩ := accepts_spec (name := name) hw hwant (hl i (by simp))
      rw [hb]
      simp only [Res.bind]
      by_cases h : b = true
      · rw [if_pos h]
        exact ⟨some i, rfl, by simp, hbi.1 h⟩
      · rw [if_neg h, rd_ok hk]
        obtain ⟨r, hr, hri⟩ := ih n k hc' (fun x hx => hl x (by simp [hx])) (by simpa using hn)
        refine ⟨r, hr, ?_⟩
        cases r with
        | some x => exact ⟨by simp [hri.1], hri.2⟩
        | none =>
          intro x hx
          rcases List.mem_cons.1 hx with rfl | hx
          · exact fun hs => h (hbi.2 hs)
          · exact hri x hx

theorem gnuLoop_spec {o : Obj} (hw : o.WellFormed) {off : Nat} {chains : List Nat} {name : List UInt8}
    {want : Option Version} (hwant : ∀ w, want = some w → w.Proper)
    (hlen : off + chains.length = o.syms.length)
    (hh : ∀ j s c, off ≤ j → o.syms[j]? = some s → chains[j - off]? = some c →
        c / 2 = (stdGnuHash s.name).toNat / 2) (n i fuel : Nat) (hi : off ≤ i)
    (hin : i + n < off + chains.length)
    (hrun : ∀ k ≤ n, ∃ c, chains[i + k - off]? = some c ∧ (c % 2 = 1 ↔ k = n)) (hf : n < fuel) :
    ∃ r, gnuLoop o off chains (stdGnuHash name).toNat name want fuel i = .ok r ∧
      match r with
      | some j => i ≤ j ∧ j ≤ i + n ∧ Satisfies o name want j
      | none => ∀ j, i ≤ j → j ≤ i + n → ¬ Satisfies o name want j := by
  induction n generalizing i fuel with
  | zero | succ n ih =>
    cases fuel with
    | zero => omega
    | succ fuel =>
      obtain ⟨c, hc, hcn⟩ := hrun 0 (by omega)
      rw [Nat.add_zero] at hc
      obtain ⟨s, hs⟩ : ∃ s, o.syms[i]? = some s := ⟨_, List.getElem?_eq_getElem (by omega)⟩
      obtain ⟨b, hb, hbi⟩ := accepts_spec (name := name) (want := want) hw hwant (i := i) (by omega)
      rw [gnuLoop]
      simp only [if_neg (Nat.not_lt.2 hi), rd_ok hc, Res.bind]
      -- the comparison of hashes changes nothing
      have hcond : ∃ a, (if c / 2 = (stdGnuHash name).toNat / 2 then accepts o name want i else .ok false) =
          .ok a ∧ (a = true ↔ Satisfies o name want i) := by
        by_cases h : c / 2 = (stdGnuHash name).toNat / 2
        · rw [if_pos h]; exact ⟨b, hb, hbi⟩
        · rw [if_neg h]
          refine ⟨false, rfl, ?_⟩
          simp only [Bool.false_eq_true, false_iff]
          rintro ⟨s', v', h1, h2, -⟩
          have := hh i s' c hi h1 hc
          rw [h2] at this
          exact h this
      obtain ⟨a, ha, hai⟩ := hcond
      rw [ha]
      simp only []
      by_cases h : a = true
      · rw [if_pos h]
        exact ⟨some i, rfl, by omega, by omega, hai.1 h⟩
      · rw [if_neg h]
        have hnot : ¬ Satisfies o name want i := fun hs => h (hai.2 hs)
        first
        | -- the last symbol of the run
          rw [if_pos (hcn.2 rfl)]
          refine ⟨none, rfl, fun j h1 h2 => ?_⟩
          have : j = i := by omega
          subst this
          exact hnot
        | rw [if_neg (fun h => by have := hcn.1 h; omega)]
          obtain ⟨r, hr, hri⟩ := ih (i + 1) fuel (by omega) (by omega) (by
            intro k hk
            obtain ⟨c', h1, h2⟩ := hrun (k + 1) (by omega)
            refine ⟨c', ?_, by omega⟩
            rw [← h1]
            congr 1
            omega) (by omega)
          refine ⟨r, hr, ?_⟩
          cases r with
          | some x => exact ⟨by omega, by omega, hri.2.2⟩
          | none =>
            intro j h1 h2
            by_cases hj : j = i
            · subst hj; exact hnot
            · exact hri j (by omega) (by omega)

/-- C64: for a well-formed object and a name of ASCII characters, the lookup finds a usable definition of
this name in an acceptable version exactly if the object has one, whatever else shares its bucket.
(Names with other characters are excluded, see `sysv_utf8_violated` and `gnu_utf8_violated`.) -/
theorem lookup_exact_partial {o : Obj} (hw : o.WellFormed) {name : List UInt8} (hn : Ascii name)
    {want : Option Version} (hwant : ∀ w, want = some w → w.Proper) :
    (∃ i, resolveInObject o name want = .ok (some i) ∧ Satisfies o name want i) ∨
    (resolveInObject o name want = .ok none ∧ ∀ i, ¬ Satisfies o name want i) := by
  -- index 0 never satisfies
  have hz : ¬ Satisfies o name want 0 := by
    rintro ⟨s, v, h1, -, h2, -⟩
    obtain ⟨s', h3, h4⟩ := hw.null
    rw [h3] at h1
    rw [Option.some.inj h1] at h4
    rw [h4] at h2
    cases h2
  have hT := hw.table
  unfold resolveInObject
  cases ht : o.table with
  | sysv buckets chain =>
    rw [ht] at hT
    obtain ⟨hpos, hb⟩ := hT
    simp only []
    rw [if_neg (by omega), elf_ascii hn]
    obtain ⟨i, l, hbi, hch, hnd, hlt, hall⟩ := hb _ (Nat.mod_lt (stdElfHash name).toNat hpos)
    rw [rd_ok hbi]
    simp only [Res.bind]
    have hlen : l.length ≤ o.syms.length := by
      have := InitOrder.nodup_le (V := List.range o.syms.length) hnd (by simpa using hlt)
      simpa using this
    obtain ⟨r, hr, hri⟩ := sysvLoop_spec (name := name) hw hwant l (o.syms.length + 1) i hch hlt (by omega)
    rw [hr]
    cases r with
    | some j => exact .inl ⟨j, rfl, hri.2⟩
    | none =>
      refine .inr ⟨rfl, fun j hs => ?_⟩
      obtain ⟨s, v, h1, h2, h3⟩ := hs
      have hj0 : j ≠ 0 := by rintro rfl; exact hz ⟨s, v, h1, h2, h3⟩
      exact hri j (hall j s hj0 h1 (by rw [h2])) ⟨s, v, h1, h2, h3⟩
  | gnu off buckets chains =>
    rw [ht] at hT
    obtain ⟨hpos, hoff, hlen, hdef, hh, hb⟩ := hT
    simp only []
    rw [if_neg (by omega), gnu_ascii hn]
    obtain ⟨i, hbi, hcase⟩ := hb _ (Nat.mod_lt (stdGnuHash name).toNat hpos)
    rw [rd_ok hbi]
    simp only [Res.bind]
    rcases hcase with ⟨rfl, hnone⟩ | ⟨hi, n, hin, hrun, hall⟩
    · rw [if_pos rfl]
      refine .inr ⟨rfl, fun j hs => ?_⟩
      obtain ⟨s, v, h1, h2, h3⟩ := hs
      have hj0 : j ≠ 0 := by rintro rfl; exact hz ⟨s, v, h1, h2, h3⟩
      exact hnone j s (hdef j s h1 h3.1 hj0) h1 (by rw [h2])
    · rw [if_neg (by omega)]
      obtain ⟨r, hr, hri⟩ := gnuLoop_spec (name := name) hw hwant hlen hh n i (o.syms.length + 1) hi hin hrun
        (by omega)
      rw [hr]
      cases r with
      | some j => exact .inl ⟨j, rfl, hri.2.2⟩
      | none =>
        refine .inr ⟨rfl, fun j hs => ?_⟩
        obtain ⟨s, v, h1, h2, h3⟩ := hs
        have hj0 : j ≠ 0 := by rintro rfl; exact hz ⟨s, v, h1, h2, h3⟩
        have := hall j s (hdef j s h1 h3.1 hj0) h1 (by rw [h2])
        exact hri j this.1 this.2 ⟨s, v, h1, h2, h3⟩


/-! #### Examples: both kinds of tables -/

/-- An object with the symbols `a` (defined), `b` (needed from elsewhere), `q` (defined; same bucket as `a`)
and `a` once more in an old version. -/
def demo (t : Table) : Obj where
  syms := [⟨[], true, .local⟩, ⟨[98], true, .global⟩, ⟨[97], false, .global⟩, ⟨[113], false, .weak⟩,
    ⟨[97], false, .global⟩]
  versym := some [0, 1, 2, 3, 0x8003]
  known := fun i => if i = 2 then some ⟨false, false, false, [86, 50], stdElfHash [86, 50]⟩
    else if i = 3 then some ⟨false, false, false, [86, 49], stdElfHash [86, 49]⟩ else none
  definesVersions := true
  table := t

def demoSysv : Obj := demo (.sysv [1, 2] [0, 0, 3, 4, 0])

def demoGnu : Obj := demo (.gnu 2 [2, 0] [(stdGnuHash [97]).toNat / 2 * 2, (stdGnuHash [113]).toNat / 2 * 2,
  (stdGnuHash [97]).toNat / 2 * 2 + 1])

theorem demo_common (t : Table) (ht : t.WellFormed (demo t)) : (demo t).WellFormed where
  null := ⟨_, rfl, rfl⟩
  names := by
    intro i s h hu
    match i, h with
    | 0, h => cases h; cases hu
    | 1, h => cases h; cases hu
    | 2, h => cases h; simp
    | 3, h => cases h; simp
    | 4, h => cases h; simp
    | i + 5, h => simp [demo] at h
  versions := by
    intro vs h i hi
    cases h
    match i, hi with
    | 0, _ => exact ⟨0, rfl, by decide, .inl (by decide)⟩
    | 1, _ => exact ⟨1, rfl, by decide, .inl (by decide)⟩
    | 2, _ => exact ⟨2, rfl, by decide, .inr ⟨_, rfl, fun _ => rfl⟩⟩
    | 3, _ => exact ⟨3, rfl, by decide, .inr ⟨_, rfl, fun _ => rfl⟩⟩
    | 4, _ => exact ⟨0x8003, rfl, by decide, .inr ⟨_, rfl, fun _ => rfl⟩⟩
    | i + 5, h => simp [demo] at h; omega
  noLocal := by
    rintro - i s v h hu ⟨idx, hidden, h1, h2, w, h3, rfl⟩
    match i, h with
    | 0, h => cases h; cases hu
    | 1, h => cases h; cases hu
    | 2, h | 3, h | 4, h =>
      simp only [List.getElem?_cons_succ, List.getElem?_cons_zero, Option.some.injEq] at h1
      cases hidden <;> simp at h1 <;> (try omega) <;> subst h1 <;> simp at h3 <;>
        (simp only [demo] at h3) <;> (have h3 := Option.some.inj h3) <;> subst h3 <;> rfl
    | i + 5, h => simp [demo] at h
  table := ht

theorem stdElf_a : (stdElfHash [97]).toNat = 97 := by decide
theorem stdElf_b : (stdElfHash [98]).toNat = 98 := by decide
theorem stdElf_q : (stdElfHash [113]).toNat = 113 := by decide
theorem stdGnu_a : (stdGnuHash [97]).toNat = 177670 := by decide
theorem stdGnu_q : (stdGnuHash [113]).toNat = 177686 := by decide

theorem demoSysv_wf : demoSysv.WellFormed := by
  apply demo_common
  refine ⟨by decide, fun b hb => ?_⟩
  match b, hb with
  | 0, _ =>
    refine ⟨1, [1], rfl, ⟨rfl, by decide, 0, rfl, rfl⟩, by decide, by decide, ?_⟩
    intro j s h0 h hh
    match j, h with
    | 0, _ => exact absurd rfl h0
    | 1, _ => simp
    | 2, h => cases h; simp [stdElf_a] at hh
    | 3, h => cases h; simp [stdElf_q] at hh
    | 4, h => cases h; simp [stdElf_a] at hh
    | j + 5, h => simp [demo] at h
  | 1, _ =>
    refine ⟨2, [2, 3, 4], rfl, ⟨rfl, by decide, 3, rfl, rfl, by decide, 4, rfl, rfl, by decide, 0, rfl, rfl⟩,
      by decide, by decide, ?_⟩
    intro j s h0 h hh
    match j, h with
    | 0, _ => exact absurd rfl h0
    | 1, h => cases h; simp [stdElf_b] at hh
    | 2, _ => simp
    | 3, _ => simp
    | 4, _ => simp
    | j + 5, h => simp [demo] at h
  | b + 2, hb => simp at hb; omega

theorem demoGnu_wf : demoGnu.WellFormed := by
  apply demo_common
  refine ⟨by decide, by decide, rfl, ?_, ?_, ?_⟩
  · intro j s h hu h0
    match j, h with
    | 0, _ => exact absurd rfl h0
    | 1, h => cases h; cases hu
    | j + 2, _ => omega
  · intro j s c hj h hc
    match j, h, hc with
    | 0, _, _ => omega
    | 1, _, _ => omega
    | 2, h, hc => cases h; cases hc; simp
    | 3, h, hc => cases h; cases hc; simp
    | 4, h, hc => cases h; cases hc; simp; omega
    | j + 5, h, _ => simp [demo] at h
  · intro b hb
    match b, hb with
    | 0, _ =>
      refine ⟨2, rfl, .inr ⟨by decide, 2, by decide, ?_, ?_⟩⟩
      · intro k hk
        match k, hk with
        | 0, _ => exact ⟨_, rfl, by simp [stdGnu_a]⟩
        | 1, _ => exact ⟨_, rfl, by simp [stdGnu_q]⟩
        | 2, _ => exact ⟨_, rfl, by simp [stdGnu_a]⟩
        | k + 3, h => omega
      · intro j s hj h hh
        match j, h with
        | 0, _ => omega
        | 1, _ => omega
        | 2, _ => omega
        | 3, _ => omega
        | 4, _ => omega
        | j + 5, h => simp [demo] at h
    | 1, _ =>
      refine ⟨0, rfl, .inl ⟨rfl, ?_⟩⟩
      intro j s hj h
      match j, h with
      | 0, _ => omega
      | 1, _ => omega
      | 2, h => cases h; simp [stdGnu_a]
      | 3, h => cases h; simp [stdGnu_q]
      | 4, h => cases h; simp [stdGnu_a]
      | j + 5, h => simp [demo] at h
    | b + 2, hb => simp at hb; omega

/-- Without a version `a` is the default one at index 2; in version `V1` it is the one at index 4; `b` is not
defined here; `q` is found behind `a`. -/
example : resolveInObject demoSysv [97] none = .ok (some 2) ∧
    resolveInObject demoSysv [97] (some (.named [86, 49])) = .ok (some 4) ∧
    resolveInObject demoSysv [98] none = .ok none ∧ resolveInObject demoSysv [113] none = .ok (some 3) := by
  decide

example : resolveInObject demoGnu [97] none = .ok (some 2) ∧
    resolveInObject demoGnu [97] (some (.named [86, 49])) = .ok (some 4) ∧
    resolveInObject demoGnu [98] none = .ok none ∧ resolveInObject demoGnu [113] none = .ok (some 3) := by
  decide

example : Ascii [97] ∧ ∀ w, some (Version.named [86, 49]) = some w → w.Proper := by
  constructor
  · intro c hc
    simp at hc
    subst hc
    decide
  · intro w h _
    cases h
    exact elf_ascii (by intro c hc; simp at hc; rcases hc with rfl | rfl <;> decide)

/-! ### Names with other characters -/

/-- An object that defines one symbol, named `é` in UTF-8, without versions. -/
def accent (t : Table) : Obj where
  syms := [⟨[], true, .local⟩, ⟨[0xC3, 0xA9], false, .global⟩]
  versym := none
  known := fun _ => none
  definesVersions := false
  table := t

theorem accent_common (t : Table) (ht : t.WellFormed (accent t)) : (accent t).WellFormed where
  null := ⟨_, rfl, rfl⟩
  names := by
    intro i s h hu
    match i, h with
    | 0, h => cases h; cases hu
    | 1, h => cases h; simp
    | i + 2, h => simp [accent] at h
  versions := by intro vs h; cases h
  noLocal := by intro h; cases h
  table := ht

theorem accent_satisfies (t : Table) : Satisfies (accent t) [0xC3, 0xA9] none 1 :=
  ⟨_, .special 1, rfl, rfl, rfl, .inl rfl, rfl, .inr (.inr rfl)⟩

/-- What C64 asks for, of any name. -/
def LookupExact : Prop :=
  ∀ o : Obj, o.WellFormed → ∀ name want, (∀ w, want = some w → Version.Proper w) →
    (∃ i, resolveInObject o name want = .ok (some i) ∧ Satisfies o name want i) ∨
    (resolveInObject o name want = .ok none ∧ ∀ i, ¬ Satisfies o name want i)

theorem stdElf_e : (stdElfHash [0xC3, 0xA9]).toNat = 0xCD9 := by decide
theorem stdGnu_e : (stdGnuHash [0xC3, 0xA9]).toNat = 5866513 := by decide

/-- C64 fails for names with characters that are negative as `char`: the table places `é` by the hash of
the ABI, the code computes another one and looks into another bucket. -/
theorem sysv_utf8_violated : ∃ o : Obj, o.WellFormed ∧ (∃ b c, o.table = .sysv b c) ∧
    (∃ i, Satisfies o [0xC3, 0xA9] none i) ∧ resolveInObject o [0xC3, 0xA9] none = .ok none := by
  refine ⟨accent (.sysv [0, 0, 0, 0, 0, 0, 1] [0, 0]), accent_common _ ⟨by decide, fun b hb => ?_⟩, ⟨_, _, rfl⟩,
    ⟨1, accent_satisfies _⟩, by decide⟩
  by_cases h : b = 6
  · subst h
    refine ⟨1, [1], rfl, ⟨rfl, by decide, 0, rfl, rfl⟩, by decide, by decide, ?_⟩
    intro j s h0 h _
    match j, h with
    | 0, _ => exact absurd rfl h0
    | 1, _ => simp
    | j + 2, h => simp [accent] at h
  · refine ⟨0, [], ?_, rfl, by decide, by decide, ?_⟩
    · match b, hb, h with
      | 0, _, _ => rfl
      | 1, _, _ => rfl
      | 2, _, _ => rfl
      | 3, _, _ => rfl
      | 4, _, _ => rfl
      | 5, _, _ => rfl
      | b + 7, hb, _ => simp at hb; omega
    · intro j s h0 hj hh
      match j, hj with
      | 0, _ => exact absurd rfl h0
      | 1, hj =>
        cases hj
        simp [stdElf_e] at hh
        exact absurd hh.symm h
      | j + 2, hj => simp [accent] at hj

theorem gnu_utf8_violated : ∃ o : Obj, o.WellFormed ∧ (∃ f b c, o.table = .gnu f b c) ∧
    (∃ i, Satisfies o [0xC3, 0xA9] none i) ∧ resolveInObject o [0xC3, 0xA9] none = .ok none := by
  refine ⟨accent (.gnu 1 [1] [(stdGnuHash [0xC3, 0xA9]).toNat / 2 * 2 + 1]),
    accent_common _ ⟨by decide, by decide, rfl, ?_, ?_, ?_⟩, ⟨_, _, _, rfl⟩, ⟨1, accent_satisfies _⟩, by decide⟩
  · intro j s _ _ h0; omega
  · intro j s c hj h hc
    match j, h, hc with
    | 0, _, _ => omega
    | 1, h, hc => cases h; cases hc; simp; omega
    | j + 2, h, _ => simp [accent] at h
  · intro b hb
    have : b = 0 := by simp at hb; exact hb
    subst this
    refine ⟨1, rfl, .inr ⟨by decide, 0, by decide, ?_, ?_⟩⟩
    · intro k hk
      have : k = 0 := by omega
      subst this
      exact ⟨_, rfl, by simp [stdGnu_e]⟩
    · intro j s hj h _
      match j, h with
      | 0, _ => omega
      | 1, _ => omega
      | j + 2, h => simp [accent] at h

theorem lookup_violated : ¬ LookupExact := by
  intro h
  obtain ⟨o, hw, -, ⟨i, hi⟩, hr⟩ := sysv_utf8_violated
  rcases h o hw [0xC3, 0xA9] none (by simp) with ⟨j, hj, -⟩ | ⟨-, hn⟩
  · rw [hr] at hj; simp at hj
  · exact hn i hi

/-! ### The code: scopes

Objects are numbers. `find` is the lookup of a fixed name and version in an object. -/

/-- `Scope::appendObject`. options/rtld/generic/linker.cpp L1720-1728 -/
def appendObject (l : List Nat) (o : Nat) : List Nat := if o ∈ l then l else l ++ [o]

/-- `(flags & skipGlobalAfterRts) && object->globalRts > skipRts`. options/rtld/generic/linker.cpp L1756 -/
def later (globalRts : Nat → Nat) (skip : Option Nat) (o : Nat) : Bool :=
  match skip with
  | some r => decide (globalRts o > r)
  | none => false

/-- `Scope::resolveSymbol`; `skip` is `skipRts` if the flag `skipGlobalAfterRts` is set.
options/rtld/generic/linker.cpp L1750-1775 -/
def resolveSymbol (isMain : Nat → Bool) (globalRts : Nat → Nat) (find : Nat → Res (Option Nat))
    (isGlobal copy : Bool) (skip : Option Nat) : List Nat → Res (Option (Nat × Nat))
  | [] => .ok none
  | o :: l =>
    if copy && isMain o then resolveSymbol isMain globalRts find isGlobal copy skip l
    else if later globalRts skip o then
      if isGlobal then .ok none else resolveSymbol isMain globalRts find isGlobal copy skip l
    else
      (find o).bind fun
        | some i => .ok (some (o, i))
        | none => resolveSymbol isMain globalRts find isGlobal copy skip l

/-- The state of the linker that matters for scopes. An object that is not loaded has `objectRts` 0.
A `scopeOf` of `none` stands for the global scope. -/
structure St where
  rts : Nat
  objectRts : Nat → Nat
  globalRts : Nat → Nat
  scopeOf : Nat → Option Nat
  global : List Nat
  locals : Nat → List Nat

def upd {α : Type} (f : Nat → α) (i : Nat) (a : α) : Nat → α := fun j => if j = i then a else f j

/-- Promotion of one object to the global scope. options/rtld/generic/linker.cpp L1822-1825 -/
def linkGlobal (rts : Nat) (s : (Nat → Nat) × List Nat) (o : Nat) : (Nat → Nat) × List Nat :=
  (if s.1 o = 0 then upd s.1 o rts else s.1, appendObject s.2 o)

inductive Event where
  /-- the start of the program or a call of `dlopen` links an object: the scope it belongs to, and the
  object with its dependencies in breadth-first order, those that are not loaded yet included -/
  | link (scope : Option Nat) (bfs : List Nat)
  /-- `dlopen` of a loaded object with RTLD_GLOBAL -/
  | promote (o : Nat)
  /-- a call of `dlopen` that fails or does not load -/
  | other

/-- The objects loaded by a call of `dlopen` get its time stamp and scope.
options/rtld/generic/linker.cpp L1190, L1164 -/
def load (s : St) (sc : Option Nat) (bfs : List Nat) : St :=
  { s with
    objectRts := fun o => if o ∈ bfs ∧ s.objectRts o = 0 then s.rts else s.objectRts o
    scopeOf := fun o => if o ∈ bfs ∧ s.objectRts o = 0 then sc else s.scopeOf o }

/-- `__dlapi_open` and the initial link, as far as scopes are concerned.
options/rtld/generic/main.cpp L730, L738-742, L797-798, L666; options/rtld/generic/linker.cpp L1821-1826 -/
def step (s : St) : Event → St
  | .link none bfs =>
    let s' := load s none bfs
    let r := bfs.foldl (linkGlobal s.rts) (s.globalRts, s.global)
    { s' with rts := s.rts + 1, globalRts := r.1, global := r.2 }
  | .link (some k) bfs =>
    let s' := load s (some k) bfs
    { s' with rts := s.rts + 1, locals := upd s.locals k (bfs.foldl appendObject (s.locals k)) }
  | .promote o =>
    if s.objectRts o ≠ 0 ∧ s.globalRts o = 0 then
      { s with rts := s.rts + 1, globalRts := upd s.globalRts o s.rts, global := appendObject s.global o }
    else { s with rts := s.rts + 1 }
  | .other => { s with rts := s.rts + 1 }

/-- Before the initial link, whose time stamp is 1. options/rtld/generic/main.cpp L666 -/
def start : St := ⟨1, fun _ => 0, fun _ => 0, fun _ => none, [], fun _ => []⟩

def run (h : List Event) : St := h.foldl step start

/-- `Scope::resolveGlobalOrLocal` for a reference of the object `a`.
options/rtld/generic/linker.cpp L1730-1737, L2134-2135, options/rtld/generic/main.cpp L220 -/
def resolveFrom (s : St) (isMain : Nat → Bool) (find : Nat → Res (Option Nat)) (copy : Bool) (a : Nat) :
    Res (Option (Nat × Nat)) :=
  (resolveSymbol isMain s.globalRts find true copy (some (s.objectRts a)) s.global).bind fun
    | some r => .ok (some r)
    | none =>
      match s.scopeOf a with
      | none => resolveSymbol isMain s.globalRts find true copy (some (s.objectRts a)) s.global
      | some k => resolveSymbol isMain s.globalRts find false copy (some (s.objectRts a)) (s.locals k)

/-- `Scope::_resolveNext`. options/rtld/generic/linker.cpp L1691-1715 -/
def resolveNext (isMain : Nat → Bool) (find : Nat → Res (Option Nat)) (target : Nat) :
    List Nat → Res (Option (Nat × Nat))
  | [] => .ok none
  | o :: l =>
    if o = target then resolveSymbol isMain (fun _ => 0) find false true none l
    else resolveNext isMain find target l

/-! ### Specification of lookup in scopes -/

/-- `r` is the definition in the first object of the list that has one. -/
def FirstDef (f : Nat → Option Nat) (l : List Nat) : Option (Nat × Nat) → Prop
  | some (o, i) => ∃ l₁ l₂, l = l₁ ++ o :: l₂ ∧ (∀ x ∈ l₁, f x = none) ∧ f o = some i
  | none => ∀ x ∈ l, f x = none

/-! ### Proofs -/

theorem FirstDef.unique {f : Nat → Option Nat} {l : List Nat} {r r' : Option (Nat × Nat)}
    (h : FirstDef f l r) (h' : FirstDef f l r') : r = r' := by
  induction l generalizing r r' with
  | nil =>
    match r, r', h, h' with
    | none, none, _, _ => rfl
    | some (o, i), _, ⟨l₁, l₂, h, _⟩, _ => simp at h
    | none, some (o, i), _, ⟨l₁, l₂, h, _⟩ => simp at h
  | cons a l ih =>
    have key : ∀ {r : Option (Nat × Nat)}, FirstDef f (a :: l) r →
        (∃ i, f a = some i ∧ r = some (a, i)) ∨ (f a = none ∧ FirstDef f l r) := by
      intro r h
      match r, h with
      | none, h => exact .inr ⟨h a (by simp), fun x hx => h x (by simp [hx])⟩
      | some (o, i), ⟨[], l₂, h1, _, h3⟩ =>
        simp at h1
        obtain ⟨rfl, rfl⟩ := h1
        exact .inl ⟨i, h3, rfl⟩
      | some (o, i), ⟨b :: l₁, l₂, h1, h2, h3⟩ =>
        simp at h1
        obtain ⟨rfl, rfl⟩ := h1
        exact .inr ⟨h2 a (by simp), l₁, l₂, rfl, fun x hx => h2 x (by simp [hx]), h3⟩
    rcases key h with ⟨i, h1, rfl⟩ | ⟨h1, h2⟩ <;> rcases key h' with ⟨i', h3, rfl⟩ | ⟨h3, h4⟩
    · rw [h1] at h3
      rw [Option.some.inj h3]
    · rw [h1] at h3; cases h3
    · rw [h1] at h3; cases h3
    · exact ih h2 h4

theorem FirstDef.cons_none {f : Nat → Option Nat} {l : List Nat} {r : Option (Nat × Nat)} {o : Nat}
    (ho : f o = none) (h : FirstDef f l r) : FirstDef f (o :: l) r := by
  match r, h with
  | none, h =>
    intro x hx
    rcases List.mem_cons.1 hx with rfl | hx
    · exact ho
    · exact h x hx
  | some (p, i), ⟨l₁, l₂, h1, h2, h3⟩ =>
    refine ⟨o :: l₁, l₂, by rw [h1]; rfl, ?_, h3⟩
    intro x hx
    rcases List.mem_cons.1 hx with rfl | hx
    · exact ho
    · exact h2 x hx

theorem FirstDef.append {f : Nat → Option Nat} {l l' : List Nat} {r : Option (Nat × Nat)}
    (hn : FirstDef f l none) (h : FirstDef f l' r) : FirstDef f (l ++ l') r := by
  induction l with
  | nil => exact h
  | cons o l ih =>
    exact FirstDef.cons_none (hn o (by simp)) (ih fun x hx => hn x (by simp [hx]))

theorem FirstDef.append_some {f : Nat → Option Nat} {l l' : List Nat} {p : Nat × Nat}
    (h : FirstDef f l (some p)) : FirstDef f (l ++ l') (some p) := by
  obtain ⟨l₁, l₂, rfl, h2, h3⟩ := h
  exact ⟨l₁, l₂ ++ l', by simp, h2, h3⟩

/-- Without the early exit: objects outside are left out. -/
theorem resolve_filter {isMain : Nat → Bool} {g : Nat → Nat} {find : Nat → Res (Option Nat)}
    {f : Nat → Option Nat} (hf : ∀ o, find o = .ok (f o)) (isGlobal copy : Bool) (skip : Option Nat)
    (l : List Nat) (hmono : isGlobal = true → l.Pairwise (fun a b => g a ≤ g b)) :
    ∃ r, resolveSymbol isMain g find isGlobal copy skip l = .ok r ∧
      FirstDef f (l.filter fun o => !(copy && isMain o) && !later g skip o) r := by
  induction l with
  | nil => exact ⟨none, rfl, by simp [FirstDef]⟩
  | cons o l ih =>
    obtain ⟨r, hr, hri⟩ := ih (fun h => (List.pairwise_cons.1 (hmono h)).2)
    rw [resolveSymbol.eq_def]
    simp only []
    by_cases h1 : (copy && isMain o) = true
    · rw [if_pos h1]
      refine ⟨r, hr, ?_⟩
      rw [List.filter_cons_of_neg (by simp only [h1]; simp)]
      exact hri
    · rw [if_neg h1]
      have h1' : (copy && isMain o) = false := by simpa using h1
      by_cases h2 : later g skip o = true
      · rw [if_pos h2, List.filter_cons_of_neg (by simp [h2])]
        cases hg : isGlobal with
        | false =>
          simp only [Bool.false_eq_true, if_false]
          rw [hg] at hr
          exact ⟨r, hr, hri⟩
        | true =>
          simp only [if_true]
          refine ⟨none, rfl, ?_⟩
          intro x hx
          have := List.mem_filter.1 hx
          have h3 := (List.pairwise_cons.1 (hmono hg)).1 x this.1
          have h4 := this.2
          unfold later at h2 h4
          cases skip with
          | none => simp at h2
          | some k => simp at h2 h4; omega
      · rw [if_neg h2, hf o]
        simp only [Res.bind]
        have hkeep : (!(copy && isMain o) && !later g skip o) = true := by
          rw [h1']
          simpa using h2
        rw [List.filter_cons_of_pos (by exact hkeep)]
        cases hfo : f o with
        | some i => exact ⟨_, rfl, [], _, rfl, by simp, hfo⟩
        | none => exact ⟨r, hr, FirstDef.cons_none hfo hri⟩

/-- The invariant of the global scope. -/
structure Inv (s : St) : Prop where
  mem : ∀ o, o ∈ s.global ↔ s.globalRts o ≠ 0
  lt : ∀ o, s.globalRts o < s.rts
  sorted : s.global.Pairwise (fun a b => s.globalRts a ≤ s.globalRts b)
  pos : 0 < s.rts
  loaded : ∀ o, s.objectRts o < s.rts

/-- What one promotion preserves, and what it adds. -/
structure Grow (rts : Nat) (g₀ : Nat → Nat) (l₀ : List Nat) (g : Nat → Nat) (l : List Nat) : Prop where
  mem : ∀ o, o ∈ l ↔ g o ≠ 0
  le : ∀ o, g o ≤ rts
  keep : ∀ o, g₀ o ≠ 0 → g o = g₀ o
  new : ∀ o, g₀ o = 0 → g o = 0 ∨ g o = rts
  ext : ∃ t, l = l₀ ++ t ∧ ∀ o ∈ t, g o = rts

theorem Grow.one {rts : Nat} (hr : 0 < rts) {g₀ : Nat → Nat} {l₀ : List Nat} {g : Nat → Nat} {l : List Nat}
    (h : Grow rts g₀ l₀ g l) (o : Nat) :
    Grow rts g₀ l₀ (linkGlobal rts (g, l) o).1 (linkGlobal rts (g, l) o).2 := by
  unfold linkGlobal appendObject
  simp only []
  by_cases hg : g o = 0
  · have ho : o ∉ l := fun hm => (h.mem o).1 hm hg
    rw [if_pos hg, if_neg ho]
    refine ⟨?_, ?_, ?_, ?_, ?_⟩
    · intro x
      unfold upd
      by_cases hx : x = o
      · subst hx; simp; omega
      · simp [hx, h.mem x]
    · intro x
      unfold upd
      split
      · omega
      · exact h.le x
    · intro x hx
      unfold upd
      split
      · next e => subst e; have := h.keep x hx; rw [hg] at this; exact absurd this.symm hx
      · exact h.keep x hx
    · intro x hx
      unfold upd
      split
      · exact .inr rfl
      · exact h.new x hx
    · obtain ⟨t, ht, htr⟩ := h.ext
      refine ⟨t ++ [o], by rw [ht]; simp, ?_⟩
      intro x hx
      unfold upd
      split
      · rfl
      · next e =>
        rcases List.mem_append.1 hx with hx | hx
        · exact htr x hx
        · exact absurd (by simpa using hx) e
  · have ho : o ∈ l := (h.mem o).2 hg
    rw [if_neg hg, if_pos ho]
    exact h

theorem Grow.fold {rts : Nat} (hr : 0 < rts) {g₀ : Nat → Nat} {l₀ : List Nat} (bfs : List Nat) {g : Nat → Nat}
    {l : List Nat} (h : Grow rts g₀ l₀ g l) :
    Grow rts g₀ l₀ (bfs.foldl (linkGlobal rts) (g, l)).1 (bfs.foldl (linkGlobal rts) (g, l)).2 := by
  induction bfs generalizing g l with
  | nil => exact h
  | cons o bfs ih =>
    rw [List.foldl_cons]
    exact ih (h.one hr o)

theorem Grow.refl {s : St} (h : Inv s) : Grow s.rts s.globalRts s.global s.globalRts s.global :=
  ⟨h.mem, fun o => Nat.le_of_lt (h.lt o), fun _ _ => rfl, fun _ h => .inl h, [], by simp, by simp⟩

theorem Grow.sorted {rts : Nat} {g₀ : Nat → Nat} {l₀ : List Nat} {g : Nat → Nat} {l : List Nat}
    (h : Grow rts g₀ l₀ g l) (hm : ∀ o, o ∈ l₀ ↔ g₀ o ≠ 0)
    (hs : l₀.Pairwise (fun a b => g₀ a ≤ g₀ b)) : l.Pairwise (fun a b => g a ≤ g b) := by
  obtain ⟨t, rfl, ht⟩ := h.ext
  rw [List.pairwise_append]
  refine ⟨?_, ?_, ?_⟩
  · refine List.Pairwise.imp_of_mem ?_ hs
    intro a b ha hb hab
    rw [h.keep a ((hm a).1 ha), h.keep b ((hm b).1 hb)]
    exact hab
  · rw [List.pairwise_iff_forall_sublist]
    intro a b hab
    rw [ht a (hab.subset (by simp)), ht b (hab.subset (by simp))]
    exact Nat.le_refl _
  · intro a _ b hb
    rw [ht b hb]
    exact h.le a

/-- Every event extends the global scope by objects with its time stamp. -/
theorem step_grow {s : St} (h : Inv s) (e : Event) :
    Grow s.rts s.globalRts s.global (step s e).globalRts (step s e).global ∧ (step s e).rts = s.rts + 1 := by
  match e with
  | .link none bfs => exact ⟨(Grow.refl h).fold h.pos bfs, rfl⟩
  | .link (some k) bfs => exact ⟨Grow.refl h, rfl⟩
  | .promote o =>
    unfold step
    by_cases hc : s.objectRts o ≠ 0 ∧ s.globalRts o = 0
    · simp only [if_pos hc]
      have := (Grow.refl h).one h.pos o
      unfold linkGlobal at this
      rw [if_pos hc.2] at this
      exact ⟨this, trivial⟩
    · simp only [if_neg hc]
      exact ⟨Grow.refl h, trivial⟩
  | .other => exact ⟨Grow.refl h, rfl⟩

theorem step_objectRts (s : St) (e : Event) (o : Nat) :
    (step s e).objectRts o = s.objectRts o ∨ (s.objectRts o = 0 ∧ (step s e).objectRts o = s.rts) := by
  match e with
  | .link none bfs | .link (some k) bfs =>
    simp only [step, load]
    split
    · next h => exact .inr ⟨h.2, rfl⟩
    · exact .inl rfl
  | .promote o' =>
    unfold step
    simp only []
    split <;> exact .inl rfl
  | .other => exact .inl rfl

theorem step_inv {s : St} (h : Inv s) (e : Event) : Inv (step s e) := by
  obtain ⟨hg, hr⟩ := step_grow h e
  refine ⟨hg.mem, ?_, hg.sorted h.mem h.sorted, by omega, ?_⟩
  · intro o
    have := hg.le o
    omega
  · intro o
    have := h.loaded o
    rcases step_objectRts s e o with h' | ⟨-, h'⟩ <;> omega

theorem start_inv : Inv start :=
  ⟨fun o => by simp [start], fun o => by simp [start], by simp [start], by simp [start], fun o => by simp [start]⟩

theorem foldl_inv (h : List Event) {s : St} (hs : Inv s) : Inv (h.foldl step s) := by
  induction h generalizing s with
  | nil => exact hs
  | cons e h ih => exact ih (step_inv hs e)

theorem run_inv (h : List Event) : Inv (run h) := foldl_inv h start_inv

/-- The objects that became global before `k` never change. -/
theorem filter_stable (h : List Event) {s : St} (hs : Inv s) (k : Nat) (hk : k < s.rts) :
    (h.foldl step s).global.filter (fun o => decide ((h.foldl step s).globalRts o ≤ k)) =
      s.global.filter (fun o => decide (s.globalRts o ≤ k)) := by
  induction h generalizing s with
  | nil => rfl
  | cons e h ih =>
    rw [List.foldl_cons]
    obtain ⟨hg, hr⟩ := step_grow hs e
    rw [ih (step_inv hs e) (by omega)]
    obtain ⟨t, ht, htr⟩ := hg.ext
    rw [ht, List.filter_append]
    have h1 : t.filter (fun o => decide ((step s e).globalRts o ≤ k)) = [] := by
      rw [List.filter_eq_nil_iff]
      intro o ho
      rw [htr o ho]
      simp
      omega
    rw [h1, List.append_nil]
    apply List.filter_congr
    intro o ho
    rw [hg.keep o ((hs.mem o).1 ho)]

/-- Once loaded, the time stamp and the scope of an object do not change. -/
theorem step_loaded (s : St) (e : Event) {a : Nat} (ha : s.objectRts a ≠ 0) :
    (step s e).objectRts a = s.objectRts a ∧ (step s e).scopeOf a = s.scopeOf a := by
  match e with
  | .link none bfs | .link (some k) bfs => simp [step, load, ha]
  | .promote o' => unfold step; simp only []; split <;> exact ⟨rfl, rfl⟩
  | .other => exact ⟨rfl, rfl⟩

theorem foldl_loaded (h : List Event) {s : St} {a : Nat} (ha : s.objectRts a ≠ 0) :
    (h.foldl step s).objectRts a = s.objectRts a ∧ (h.foldl step s).scopeOf a = s.scopeOf a := by
  induction h generalizing s with
  | nil => exact ⟨rfl, rfl⟩
  | cons e h ih =>
    have := step_loaded s e ha
    rw [List.foldl_cons]
    have h2 := ih (s := step s e) (by rw [this.1]; exact ha)
    exact ⟨h2.1.trans this.1, h2.2.trans this.2⟩

theorem filter_le_self {l : List Nat} {g : Nat → Nat} {k : Nat} (h : ∀ o ∈ l, g o ≤ k) :
    l.filter (fun o => decide (g o ≤ k)) = l := by
  rw [List.filter_eq_self]
  intro o ho
  simpa using h o ho

/-- C64, scopes: let `a` be loaded by the event `e` of any history. Whatever is opened later, a reference of
`a` gets the definition of the first object that has one, among the objects that were global right after `a`
was linked, in the order in which they became global, and then among those of its own scope. Copy
relocations leave out the main program. (Missing: objects of the scope of `a` that become global later, see
`promoted_violated`.) -/
theorem scope_lookup_partial (h h' : List Event) (e : Event) (a : Nat)
    (hbefore : (run h).objectRts a = 0) (hloaded : (run (h ++ [e])).objectRts a ≠ 0)
    {find : Nat → Res (Option Nat)} {f : Nat → Option Nat} (hf : ∀ o, find o = .ok (f o))
    (isMain : Nat → Bool) (copy : Bool)
    (hlocal : ∀ k, (run (h ++ [e])).scopeOf a = some k → ∀ o ∈ (run (h ++ e :: h')).locals k,
      (run (h ++ e :: h')).globalRts o ≤ (run (h ++ [e])).objectRts a) :
    ∃ r, resolveFrom (run (h ++ e :: h')) isMain find copy a = .ok r ∧
      FirstDef f (((run (h ++ [e])).global ++
        (match (run (h ++ [e])).scopeOf a with
          | none => []
          | some k => (run (h ++ e :: h')).locals k)).filter fun o => !(copy && isMain o)) r := by
  -- states
  have hrun : run (h ++ e :: h') = h'.foldl step (run (h ++ [e])) := by
    unfold run
    rw [List.append_cons, List.foldl_append]
  have hrun1 : run (h ++ [e]) = step (run h) e := by
    unfold run
    rw [List.foldl_append]
    rfl
  have hi1 := run_inv (h ++ [e])
  have hi := run_inv (h ++ e :: h')
  obtain ⟨hg0, hr0⟩ := step_grow (run_inv h) e
  rw [← hrun1] at hg0 hr0
  have hts : (run (h ++ [e])).objectRts a = (run h).rts := by
    rcases step_objectRts (run h) e a with h1 | h1
    · rw [← hrun1, hbefore] at h1
      exact absurd h1 hloaded
    · rw [← hrun1] at h1
      exact h1.2
  have hlate := foldl_loaded h' hloaded
  rw [← hrun] at hlate
  -- the part of the global scope
  have hG := filter_stable h' hi1 (run h).rts (by omega)
  rw [← hrun, filter_le_self (fun o _ => hg0.le o)] at hG
  -- generalise
  generalize hs : run (h ++ e :: h') = s at *
  generalize hs1 : run (h ++ [e]) = s1 at *
  unfold resolveFrom
  rw [hlate.1, hlate.2, hts]
  rw [hts] at hlocal
  have hsplit : ∀ l : List Nat, l.filter (fun o => !(copy && isMain o) && !later s.globalRts (some (run h).rts) o) =
      (l.filter (fun o => decide (s.globalRts o ≤ (run h).rts))).filter (fun o => !(copy && isMain o)) := by
    intro l
    rw [List.filter_filter]
    apply List.filter_congr
    intro o _
    unfold later
    by_cases h : s.globalRts o ≤ (run h).rts <;> simp [h]
    omega
  obtain ⟨r, hr, hri⟩ := resolve_filter (isMain := isMain) hf true copy (some (run h).rts) s.global
    (fun _ => hi.sorted)
  rw [hsplit, hG] at hri
  rw [hr]
  simp only [Res.bind]
  cases r with
  | some p =>
    refine ⟨some p, rfl, ?_⟩
    rw [List.filter_append]
    exact hri.append_some
  | none =>
    simp only []
    cases hsc : s1.scopeOf a with
    | none =>
      simp only [List.append_nil]
      exact ⟨none, by first | rfl | rw [hr], hri⟩
    | some k =>
      simp only []
      obtain ⟨r', hr', hri'⟩ := resolve_filter (isMain := isMain) (g := s.globalRts) hf false copy
        (some (run h).rts) (s.locals k) (fun h => by cases h)
      rw [hsplit, filter_le_self (hlocal k hsc)] at hri'
      refine ⟨r', hr', ?_⟩
      rw [List.filter_append]
      exact hri.append hri'

/-- The program 0 with the library 1 starts; the plugin 2 needs the library 3; later the library 4, which
defines the same symbol as 3, is opened globally. -/
example : ∃ h e h', (run h).objectRts 2 = 0 ∧ (run (h ++ [e])).objectRts 2 ≠ 0 ∧
    (∀ k, (run (h ++ [e])).scopeOf 2 = some k → ∀ o ∈ (run (h ++ e :: h')).locals k,
      (run (h ++ e :: h')).globalRts o ≤ (run (h ++ [e])).objectRts 2) ∧
    resolveFrom (run (h ++ e :: h')) (· == 0) (fun o => .ok (if o = 3 ∨ o = 4 then some 7 else none)) false 2 =
      .ok (some (3, 7)) := by
  refine ⟨[.link none [0, 1]], .link (some 0) [2, 3, 1], [.link none [4, 1]], rfl, by decide, ?_, by decide⟩
  intro k hk
  have : k = 0 := by
    have h : (run [.link none [0, 1], .link (some 0) [2, 3, 1]]).scopeOf 2 = some 0 := by decide
    exact (Option.some.inj (h.symm.trans hk)).symm
  subst this
  decide

/-- C64 is false if an object of the scope becomes global later: the plugin 2 was opened with the library 3,
then the library 3 is opened with RTLD_GLOBAL. A reference of 2 to a symbol of 3 that is resolved now, at the
first call, is not found any more. -/
theorem promoted_violated : ∃ h e h', (run h).objectRts 2 = 0 ∧ (run (h ++ [e])).objectRts 2 ≠ 0 ∧
    (run (h ++ [e])).scopeOf 2 = some 0 ∧ 3 ∈ (run (h ++ e :: h')).locals 0 ∧ 3 ∈ (run (h ++ e :: h')).global ∧
    resolveFrom (run (h ++ [e])) (· == 0) (fun o => .ok (if o = 3 then some 7 else none)) false 2 =
      .ok (some (3, 7)) ∧
    resolveFrom (run (h ++ e :: h')) (· == 0) (fun o => .ok (if o = 3 then some 7 else none)) false 2 =
      .ok none :=
  ⟨[.link none [0, 1]], .link (some 0) [2, 3, 1], [.promote 3], by decide⟩

/-- C64, RTLD_NEXT: the definition comes from the first object behind the calling one that has it; the main
program is left out. An object outside the scope gets nothing. -/
theorem next_exact {find : Nat → Res (Option Nat)} {f : Nat → Option Nat} (hf : ∀ o, find o = .ok (f o))
    (isMain : Nat → Bool) (a : Nat) (l : List Nat) :
    (∀ l₁ l₂, l = l₁ ++ a :: l₂ → a ∉ l₁ →
      ∃ r, resolveNext isMain find a l = .ok r ∧ FirstDef f (l₂.filter fun o => !isMain o) r) ∧
    (a ∉ l → resolveNext isMain find a l = .ok none) := by
  induction l with
  | nil => exact ⟨fun l₁ l₂ h => by simp at h, fun _ => rfl⟩
  | cons o l ih =>
    rw [resolveNext]
    constructor
    · intro l₁ l₂ h hn
      match l₁, h with
      | [], h =>
        simp at h
        obtain ⟨rfl, rfl⟩ := h
        rw [if_pos rfl]
        obtain ⟨r, hr, hri⟩ := resolve_filter (isMain := isMain) (g := fun _ => 0) hf false true none l
          (fun h => by cases h)
        refine ⟨r, hr, ?_⟩
        simpa [later] using hri
      | b :: l₁, h =>
        simp at h
        obtain ⟨rfl, rfl⟩ := h
        simp at hn
        rw [if_neg (fun e => hn.1 e.symm)]
        exact ih.1 l₁ l₂ rfl hn.2
    · intro hn
      simp at hn
      rw [if_neg (fun e => hn.1 e.symm)]
      exact ih.2 hn.2

example : resolveNext (· == 0) (fun o => .ok (if o ≤ 3 then some o else none)) 1 [4, 1, 0, 5, 3, 2] =
    .ok (some (3, 3)) := by decide

/-! ### `dlsym` with a handle -/

/-- The loop that queues the dependencies not visited yet. options/rtld/generic/main.cpp L883-888 -/
def pushDeps (s : List Nat × List Nat) (d : Nat) : List Nat × List Nat :=
  if d ∈ s.2 then s else (s.1 ++ [d], d :: s.2)

/-- The loop over the queue; the number bounds the iterations. options/rtld/generic/main.cpp L876-889 -/
def dlsymLoop (deps : Nat → List Nat) (find : Nat → Res (Option Nat)) :
    Nat → List Nat → List Nat → Res (Option (Nat × Nat))
  | _, [], _ => .ok none
  | 0, _ :: _, _ => .ub
  | n + 1, o :: queue, visited =>
    (find o).bind fun
      | some i => .ok (some (o, i))
      | none =>
        let s := (deps o).foldl pushDeps (queue, visited)
        dlsymLoop deps find n s.1 s.2

/-- `__dlapi_resolve` for a handle. options/rtld/generic/main.cpp L865-889 -/
def dlsym (n : Nat) (deps : Nat → List Nat) (find : Nat → Res (Option Nat)) (root : Nat) :
    Res (Option (Nat × Nat)) :=
  dlsymLoop deps find n [root] [root]

/-- A path of `n` dependencies. -/
inductive Path (deps : Nat → List Nat) (root : Nat) : Nat → Nat → Prop
  | root : Path deps root 0 root
  | dep {n o d : Nat} : Path deps root n o → d ∈ deps o → Path deps root (n + 1) d

/-- What the loop over dependencies does. -/
theorem pushDeps_spec (ds q v : List Nat) :
    ∃ t, (ds.foldl pushDeps (q, v)).1 = q ++ t ∧ (∀ x, x ∈ (ds.foldl pushDeps (q, v)).2 ↔ x ∈ v ∨ x ∈ t) ∧
      (∀ x ∈ t, x ∈ ds) ∧ (∀ x ∈ ds, x ∈ v ∨ x ∈ t) ∧ t.Nodup ∧ ∀ x ∈ t, x ∉ v := by
  induction ds generalizing q v with
  | nil => exact ⟨[], by simp, by simp, by simp, by simp, by simp, by simp⟩
  | cons d ds ih =>
    rw [List.foldl_cons]
    by_cases hd : d ∈ v
    · rw [show pushDeps (q, v) d = (q, v) from if_pos hd]
      obtain ⟨t, h1, h2, h3, h4, h5, h6⟩ := ih q v
      refine ⟨t, h1, h2, fun x hx => by simp [h3 x hx], ?_, h5, h6⟩
      intro x hx
      rcases List.mem_cons.1 hx with rfl | hx
      · exact .inl hd
      · exact h4 x hx
    · rw [show pushDeps (q, v) d = (q ++ [d], d :: v) from if_neg hd]
      obtain ⟨t, h1, h2, h3, h4, h5, h6⟩ := ih (q ++ [d]) (d :: v)
      refine ⟨d :: t, by rw [h1]; simp, ?_, ?_, ?_, ?_, ?_⟩
      · intro x
        rw [h2 x]
        simp only [List.mem_cons]
        constructor
        · rintro ((h | h) | h)
          · exact .inr (.inl h)
          · exact .inl h
          · exact .inr (.inr h)
        · rintro (h | h | h)
          · exact .inl (.inr h)
          · exact .inl (.inl h)
          · exact .inr h
      · intro x hx
        rcases List.mem_cons.1 hx with rfl | hx
        · simp
        · simp [h3 x hx]
      · intro x hx
        rcases List.mem_cons.1 hx with rfl | hx
        · exact .inr (by simp)
        · rcases h4 x hx with h | h
          · rcases List.mem_cons.1 h with rfl | h
            · exact .inr (by simp)
            · exact .inl h
          · exact .inr (by simp [h])
      · rw [List.nodup_cons]
        exact ⟨fun h => h6 d h (by simp), h5⟩
      · intro x hx
        rcases List.mem_cons.1 hx with rfl | hx
        · exact hd
        · exact fun h => h6 x hx (by simp [h])

/-- The invariant of the search: `P` is done, `L` is the rest of level `k`, `N` what is known of the next. -/
structure Bfs (deps : Nat → List Nat) (root : Nat) (f : Nat → Option Nat) (k : Nat) (P L N v : List Nat) :
    Prop where
  level : ∀ o ∈ L, Path deps root k o
  next : ∀ o ∈ N, Path deps root (k + 1) o
  visited : ∀ x, x ∈ v ↔ x ∈ P ∨ x ∈ L ∨ x ∈ N
  below : ∀ m o, m < k → Path deps root m o → o ∈ P
  here : ∀ o, Path deps root k o → o ∈ P ∨ o ∈ L
  closed : ∀ o ∈ P, ∀ d ∈ deps o, d ∈ P ∨ d ∈ L ∨ d ∈ N
  none : ∀ o ∈ P, f o = none
  reach : ∀ o ∈ P, ∃ n, Path deps root n o
  nodup : (P ++ (L ++ N)).Nodup

/-- The last level done, the next one becomes the current one. -/
theorem Bfs.advance {deps : Nat → List Nat} {root : Nat} {f : Nat → Option Nat} {k : Nat} {P N v : List Nat}
    (h : Bfs deps root f k P [] N v) : Bfs deps root f (k + 1) P N [] v where
  level := h.next
  next := by simp
  visited := by intro x; rw [h.visited x]; simp
  below := by
    intro m o hm hp
    by_cases e : m = k
    · subst e
      rcases h.here o hp with h | h
      · exact h
      · simp at h
    · exact h.below m o (by omega) hp
  here := by
    intro o hp
    cases hp with
    | dep hp hd =>
      rcases h.here _ hp with h1 | h1
      · rcases h.closed _ h1 _ hd with h2 | h2 | h2
        · exact .inl h2
        · simp at h2
        · exact .inr h2
      · simp at h1
  closed := by
    intro o ho d hd
    rcases h.closed o ho d hd with h2 | h2 | h2
    · exact .inl h2
    · simp at h2
    · exact .inr (.inl h2)
  none := h.none
  reach := h.reach
  nodup := by simpa using h.nodup

/-- One object without a definition is done. -/
theorem Bfs.step {deps : Nat → List Nat} {root : Nat} {f : Nat → Option Nat} {k o : Nat} {P L N v : List Nat}
    (h : Bfs deps root f k P (o :: L) N v) (ho : f o = .none) : ∃ t,
      ((deps o).foldl pushDeps (L ++ N, v)).1 = L ++ (N ++ t) ∧
      Bfs deps root f k (o :: P) L (N ++ t) ((deps o).foldl pushDeps (L ++ N, v)).2 := by
  obtain ⟨t, h1, h2, h3, h4, h5, h6⟩ := pushDeps_spec (deps o) (L ++ N) v
  have hpo := h.level o (by simp)
  refine ⟨t, by rw [h1]; simp, ?_, ?_, ?_, ?_, ?_, ?_, ?_, ?_, ?_⟩
  · exact fun x hx => h.level x (by simp [hx])
  · intro x hx
    rcases List.mem_append.1 hx with hx | hx
    · exact h.next x hx
    · exact .dep hpo (h3 x hx)
  · intro x
    rw [h2 x, h.visited x]
    simp only [List.mem_cons, List.mem_append]
    constructor
    · rintro ((h | (h | h) | h) | h) <;> simp [h]
    · rintro ((h | h) | h | h | h) <;> simp [h]
  · intro m x hm hp
    simp [h.below m x hm hp]
  · intro x hp
    rcases h.here x hp with h | h
    · simp [h]
    · rcases List.mem_cons.1 h with rfl | h
      · simp
      · simp [h]
  · intro x hx d hd
    have key : d ∈ v ∨ d ∈ t → d ∈ o :: P ∨ d ∈ L ∨ d ∈ N ++ t := by
      rw [h.visited d]
      simp only [List.mem_cons, List.mem_append]
      rintro ((h | (h | h) | h) | h) <;> simp [h]
    rcases List.mem_cons.1 hx with rfl | hx
    · exact key (h4 d hd)
    · exact key (.inl ((h.visited d).2 (h.closed x hx d hd)))
  · intro x hx
    rcases List.mem_cons.1 hx with rfl | hx
    · exact ho
    · exact h.none x hx
  · intro x hx
    rcases List.mem_cons.1 hx with rfl | hx
    · exact ⟨k, hpo⟩
    · exact h.reach x hx
  · have hv : ∀ x ∈ t, x ∉ P ∧ x ≠ o ∧ x ∉ L ∧ x ∉ N := by
      intro x hx
      have := h6 x hx
      rw [h.visited x] at this
      simp only [List.mem_cons, not_or] at this
      exact ⟨this.1, this.2.1.1, this.2.1.2, this.2.2⟩
    have hnd := h.nodup
    have e1 : (o :: P ++ (L ++ (N ++ t))) = (o :: P ++ (L ++ N)) ++ t := by simp
    rw [e1, List.nodup_append]
    refine ⟨?_, h5, ?_⟩
    · have : (P ++ (o :: L ++ N)).Perm (o :: P ++ (L ++ N)) := by
        rw [List.cons_append]
        exact List.perm_middle
      exact this.nodup_iff.1 hnd
    · intro x hx y hy e
      subst e
      obtain ⟨v1, v2, v3, v4⟩ := hv x hy
      simp only [List.cons_append, List.mem_cons, List.mem_append] at hx
      rcases hx with h | h | h | h
      · exact v2 h
      · exact v1 h
      · exact v3 h
      · exact v4 h

theorem Bfs.done {deps : Nat → List Nat} {root : Nat} {f : Nat → Option Nat} {k : Nat} {P v : List Nat}
    (h : Bfs deps root f k P [] [] v) (hr : root ∈ P) {n o : Nat} (hp : Path deps root n o) : o ∈ P := by
  induction hp with
  | root => exact hr
  | dep _ hd ih =>
    rcases h.closed _ ih _ hd with h | h | h
    · exact h
    · simp at h
    · simp at h

/-- What the search promises. -/
def Nearest (deps : Nat → List Nat) (root : Nat) (f : Nat → Option Nat) : Option (Nat × Nat) → Prop
  | some (o, i) => f o = some i ∧ ∃ n, Path deps root n o ∧ ∀ m < n, ∀ o', Path deps root m o' → f o' = none
  | none => ∀ n o, Path deps root n o → f o = none

theorem dlsymLoop_spec {deps : Nat → List Nat} {root : Nat} {find : Nat → Res (Option Nat)}
    {f : Nat → Option Nat} (hf : ∀ o, find o = .ok (f o)) {V : List Nat}
    (hV : ∀ n o, Path deps root n o → o ∈ V) (n : Nat) : ∀ (k : Nat) (P L N v : List Nat),
    Bfs deps root f k P L N v → (root ∈ P ∨ root ∈ L) → V.length ≤ n + P.length →
    ∃ r, dlsymLoop deps find n (L ++ N) v = .ok r ∧ Nearest deps root f r := by
  induction n with
  | zero =>
    intro k P L N v hb hr hn
    -- everything is done
    have hsub : ∀ x ∈ P ++ (L ++ N), x ∈ V := by
      intro x hx
      simp only [List.mem_append] at hx
      rcases hx with h | h | h
      · obtain ⟨n, hp⟩ := hb.reach x h
        exact hV n x hp
      · exact hV _ x (hb.level x h)
      · exact hV _ x (hb.next x h)
    have hle := InitOrder.nodup_le hb.nodup hsub
    have : (L ++ N).length = 0 := by simp only [List.length_append] at hle ⊢; omega
    have h0 := List.eq_nil_of_length_eq_zero this
    obtain ⟨rfl, rfl⟩ := List.append_eq_nil_iff.1 h0
    refine ⟨none, by rw [List.append_nil, dlsymLoop], fun m o hp => ?_⟩
    exact hb.none o (hb.done (by simpa using hr) hp)
  | succ n ih =>
    intro k P L N v hb hr hn
    -- one object of the current level
    have one : ∀ (k : Nat) (P : List Nat) (o : Nat) (L N : List Nat), Bfs deps root f k P (o :: L) N v →
        (root ∈ P ∨ root ∈ o :: L) → V.length ≤ n + 1 + P.length →
        ∃ r, dlsymLoop deps find (n + 1) (o :: L ++ N) v = .ok r ∧ Nearest deps root f r := by
      intro k P o L N hb hr hn
      rw [List.cons_append, dlsymLoop, hf o]
      simp only [Res.bind]
      cases hfo : f o with
      | some i =>
        refine ⟨some (o, i), rfl, hfo, k, hb.level o (by simp), ?_⟩
        intro m hm o' hp
        exact hb.none o' (hb.below m o' hm hp)
      | none =>
        simp only []
        obtain ⟨t, h1, h2⟩ := hb.step hfo
        rw [h1]
        refine ih k (o :: P) L (N ++ t) _ h2 ?_ (by simp only [List.length_cons]; omega)
        rcases hr with h | h
        · exact .inl (by simp [h])
        · rcases List.mem_cons.1 h with h | h
          · exact .inl (by simp [h])
          · exact .inr h
    match L, hb, hr with
    | o :: L, hb, hr => exact one k P o L N hb hr hn
    | [], hb, hr =>
      match N, hb with
      | [], hb =>
        refine ⟨none, by rw [List.append_nil, dlsymLoop], fun m o hp => ?_⟩
        exact hb.none o (hb.done (by simpa using hr) hp)
      | o :: N, hb =>
        have := one (k + 1) P o N [] hb.advance (.inl (by simpa using hr)) hn
        rwa [List.append_nil] at this

/-- C64, `dlsym` with a handle: it finds a symbol exactly if the object or one of its direct or indirect
dependencies defines it, and no object fewer dependencies away defines it; cycles and shared dependencies do
not matter. `V` lists the objects of the process. -/
theorem dlsym_nearest (deps : Nat → List Nat) (root : Nat) {find : Nat → Res (Option Nat)}
    {f : Nat → Option Nat} (hf : ∀ o, find o = .ok (f o)) {V : List Nat}
    (hV : ∀ n o, Path deps root n o → o ∈ V) :
    ∃ r, dlsym V.length deps find root = .ok r ∧ Nearest deps root f r := by
  have := dlsymLoop_spec hf hV V.length 0 [] [root] [] [root]
    { level := by intro o ho; simp at ho; subst ho; exact .root
      next := by simp
      visited := by simp
      below := by intro m o hm; omega
      here := by intro o hp; cases hp; simp
      closed := by simp
      none := by simp
      reach := by simp
      nodup := by simp } (by simp) (by simp)
  exact this

/-- 0 needs 1 and 2, 1 needs 3, 2 and 3 need 0; both 2 and 3 define the symbol. -/
example : dlsym 4 (fun o => if o = 0 then [1, 2] else if o = 1 then [3, 0] else [0])
    (fun o => .ok (if o = 2 ∨ o = 3 then some 7 else none)) 0 = .ok (some (2, 7)) := by decide

/-- The lookup in well-formed objects is the one assumed for scopes. -/
theorem find_ok {objs : Nat → Obj} (hw : ∀ o, (objs o).WellFormed) {name : List UInt8} (hn : Ascii name)
    {want : Option Version} (hwant : ∀ w, want = some w → w.Proper) :
    ∃ f : Nat → Option Nat, (∀ o, resolveInObject (objs o) name want = .ok (f o)) ∧
      ∀ o, (∀ i, f o = some i → Satisfies (objs o) name want i) ∧
        (f o = none ↔ ∀ i, ¬ Satisfies (objs o) name want i) := by
  have : ∀ o, ∃ r, resolveInObject (objs o) name want = .ok r ∧
      (∀ i, r = some i → Satisfies (objs o) name want i) ∧
        (r = none ↔ ∀ i, ¬ Satisfies (objs o) name want i) := by
    intro o
    rcases lookup_exact_partial (hw o) hn hwant with ⟨i, h1, h2⟩ | ⟨h1, h2⟩
    · refine ⟨some i, h1, fun j hj => by cases hj; exact h2, ?_⟩
      constructor
      · intro h; cases h
      · intro h; exact absurd h2 (h i)
    · exact ⟨none, h1, ⟨fun j hj => by simp at hj, ⟨fun _ => h2, fun _ => rfl⟩⟩⟩
  exact ⟨fun o => Classical.choose (this o), fun o => (Classical.choose_spec (this o)).1,
    fun o => (Classical.choose_spec (this o)).2⟩

end Mlibc.Symbols
