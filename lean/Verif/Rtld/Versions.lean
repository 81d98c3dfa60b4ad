import Verif.Base
import Verif.Rtld.Symbols

/-!
C115: the version tables of a shared object (GNU symbol versioning).

The loaded image of an object is a list of bytes; addresses are offsets from its load address and
do not wrap around. The machine is little-endian and the structures are those of ELF (the two
classes have the same layout). `Verif.Rtld.Symbols` takes the map from version indices to versions
as a parameter of an object; this module models the two functions that build it.
-/

namespace Mlibc.Versions

open Mlibc.Symbols

/-! ### Specification -/

/-- The number `n` as `k` bytes, least significant first. -/
def le : Nat → Nat → List UInt8
  | 0, _ => []
  | k + 1, n => UInt8.ofNat n :: le k (n / 256)

/-- The bytes `bs` lie at offset `a` of the image. -/
def At (img : List UInt8) (a : Nat) (bs : List UInt8) : Prop := bs <+: img.drop a

instance (img : List UInt8) (a : Nat) (bs : List UInt8) : Decidable (At img a bs) :=
  inferInstanceAs (Decidable (bs <+: img.drop a))

/-- A version an object defines. The first entry usually is not a version but the name of the object
itself (`base`). -/
structure Def where
  name : List UInt8
  hash : UInt32
  index : Nat
  base : Bool
  weak : Bool

/-- An image has, at offset `a`, a table of version definitions (DT_VERDEF); its strings are relative to
`str`. A definition is a record of 20 bytes that points to at least one record of 8 bytes, which points to
the name; the others are the versions it inherits from. -/
def DefTable (img : List UInt8) (str : Nat) : Nat → List Def → Prop
  | _, [] => True
  | a, d :: l => ∃ aux next cnt name rest,
      At img a (le 2 1 ++ le 2 ((if d.base then 1 else 0) + (if d.weak then 2 else 0)) ++ le 2 d.index
        ++ le 2 cnt ++ le 4 d.hash.toNat ++ le 4 aux ++ le 4 next) ∧
      At img (a + aux) (le 4 name ++ le 4 rest) ∧
      At img (str + name) (d.name ++ [0]) ∧
      d.index < 2 ^ 16 ∧ 1 ≤ cnt ∧ cnt < 2 ^ 16 ∧ aux < 2 ^ 32 ∧ next < 2 ^ 32 ∧ name < 2 ^ 32 ∧
      rest < 2 ^ 32 ∧ (0 : UInt8) ∉ d.name ∧ DefTable img str (a + next) l

/-- A version an object requires from another one. -/
structure Need where
  name : List UInt8
  hash : UInt32
  index : Nat
  hidden : Bool
  weak : Bool

/-- The versions required from one file: records of 16 bytes. -/
def AuxTable (img : List UInt8) (str : Nat) : Nat → List Need → Prop
  | _, [] => True
  | a, n :: l => ∃ name next,
      At img a (le 4 n.hash.toNat ++ le 2 (if n.weak then 2 else 0) ++
        le 2 (n.index + if n.hidden then 2 ^ 15 else 0) ++ le 4 name ++ le 4 next) ∧
      At img (str + name) (n.name ++ [0]) ∧
      n.index < 2 ^ 15 ∧ name < 2 ^ 32 ∧ next < 2 ^ 32 ∧ (0 : UInt8) ∉ n.name ∧
      AuxTable img str (a + next) l

/-- An image has, at offset `a`, a table of version requirements (DT_VERNEED): for every file, a record of
16 bytes that points to the versions required from it. -/
def NeedTable (img : List UInt8) (str : Nat) : Nat → List (List UInt8 × List Need) → Prop
  | _, [] => True
  | a, (file, ns) :: l => ∃ fileOff aux next,
      At img a (le 2 1 ++ le 2 ns.length ++ le 4 fileOff ++ le 4 aux ++ le 4 next) ∧
      At img (str + fileOff) (file ++ [0]) ∧
      AuxTable img str (a + aux) ns ∧
      ns.length < 2 ^ 16 ∧ fileOff < 2 ^ 32 ∧ aux < 2 ^ 32 ∧ next < 2 ^ 32 ∧ (0 : UInt8) ∉ file ∧
      NeedTable img str (a + next) l

/-- The version with a name and a hash that is neither the local nor the global one. -/
def plain (name : List UInt8) (hash : UInt32) (dflt : Bool) : Version := ⟨false, false, dflt, name, hash⟩

/-! ### The code -/

/-- Reading a byte. options/elf/include/elf.h L94-144 -/
def rd8 (m : List UInt8) (a : Nat) : Res Nat := (rd m a).bind fun b => .ok b.toNat

/-- Reading a member of type `Elf64_Half`. options/elf/include/elf.h L94-144 -/
def rd16 (m : List UInt8) (a : Nat) : Res Nat :=
  (rd8 m a).bind fun x => (rd8 m (a + 1)).bind fun y => .ok (x + 256 * y)

/-- Reading a member of type `Elf64_Word`. options/elf/include/elf.h L94-144 -/
def rd32 (m : List UInt8) (a : Nat) : Res Nat :=
  (rd16 m a).bind fun x => (rd16 m (a + 2)).bind fun y => .ok (x + 65536 * y)

/-- The string that starts a list of bytes, for `const char *` in the string table. -/
def cstrOf : List UInt8 → Res (List UInt8)
  | [] => .ub
  | c :: r => if c = 0 then .ok [] else (cstrOf r).bind fun s => .ok (c :: s)

/-- What the two functions compute: `definedVersions` and `knownVersions` of the object.
options/rtld/generic/linker.hpp L219-227 -/
structure Tables where
  defined : List Version
  known : Nat → Option Version

/-- `knownVersions.insert`. The container is not part of the repository; an entry inserted twice hides the
earlier one. options/rtld/generic/linker.cpp L1020, L1121 -/
def Tables.insert (t : Tables) (i : Nat) (v : Version) : Tables :=
  { t with known := fun j => if j = i then some v else t.known j }

/-- The loop of `_parseVerdef`. options/rtld/generic/linker.cpp L991-1024 -/
def verdefLoop (m : List UInt8) (str : Nat) : Nat → Nat → Tables → Res Tables
  | 0, _, t => .ok t
  | n + 1, a, t =>
    (rd16 m a).bind fun version =>
    (rd16 m (a + 2)).bind fun flags =>
    (rd16 m (a + 4)).bind fun ndx =>
    (rd16 m (a + 6)).bind fun cnt =>
    (rd32 m (a + 8)).bind fun hash =>
    (rd32 m (a + 12)).bind fun aux =>
    (rd32 m (a + 16)).bind fun next =>
    (ensure (version == 1)).bind fun _ =>
    (ensure (1 ≤ cnt)).bind fun _ =>
    (ensure (flags < 4)).bind fun _ =>
    (rd32 m (a + aux)).bind fun nameOff =>
    (rd32 m (a + aux + 4)).bind fun _ =>
    (cstrOf (m.drop (str + nameOff))).bind fun name =>
    let t' := if flags % 2 = 1 then t
      else
        let ver : Version := ⟨false, false, false, name, UInt32.ofNat hash⟩
        { t with defined := t.defined ++ [ver] }.insert ndx ver
    verdefLoop m str n (a + next) t'

/-- `_parseVerdef`: `off` and `count` are DT_VERDEF and DT_VERDEFNUM, 0 if absent. The object is new.
options/rtld/generic/linker.cpp L972-1025 -/
def parseVerdef (m : List UInt8) (str off count : Nat) : Res Tables :=
  if off = 0 then .ok ⟨[], fun _ => none⟩
  else verdefLoop m str count off ⟨[], fun _ => none⟩

/-- A loaded object as `_parseVerneed` sees it: `name`, `soName` and `definedVersions`.
options/rtld/generic/linker.hpp L190-230 -/
structure Dep where
  name : List UInt8
  soName : Option (List UInt8)
  defined : List Version

/-- The search for the target object. options/rtld/generic/linker.cpp L1057-1067 -/
def findDep (file : List UInt8) : List Dep → Option Dep
  | [] => none
  | d :: r => if d.name = file ∨ d.soName = some file then some d else findDep file r

/-- The search for the version in the target object. options/rtld/generic/linker.cpp L1103-1110 -/
def findVersion (hash : UInt32) (name : List UInt8) : List Version → Option Version
  | [] => none
  | v :: r =>
    if v.hash ≠ hash then findVersion hash name r
    else if v.name = name then some v
    else findVersion hash name r

/-- The inner loop of `_parseVerneed`. options/rtld/generic/linker.cpp L1084-1124 -/
def auxLoop (m : List UInt8) (str : Nat) (target : Dep) : Nat → Nat → Tables → Res Tables
  | 0, _, t => .ok t
  | n + 1, a, t =>
    (rd32 m a).bind fun hash =>
    (rd16 m (a + 4)).bind fun flags =>
    (rd16 m (a + 6)).bind fun other =>
    (rd32 m (a + 8)).bind fun nameOff =>
    (rd32 m (a + 12)).bind fun next =>
    (ensure (flags == 0)).bind fun _ =>
    (cstrOf (m.drop (str + nameOff))).bind fun name =>
    match findVersion (UInt32.ofNat hash) name target.defined with
    | none => .panic
    | some ver =>
      let isDefault := other < 0x8000
      auxLoop m str target n (a + next)
        (t.insert (other % 0x8000) (if isDefault then ver.makeDefault else ver))

/-- The outer loop of `_parseVerneed`. options/rtld/generic/linker.cpp L1044-1126 -/
def verneedLoop (m : List UInt8) (str : Nat) (deps : List Dep) : Nat → Nat → Tables → Res Tables
  | 0, _, t => .ok t
  | n + 1, a, t =>
    (rd16 m a).bind fun version =>
    (rd16 m (a + 2)).bind fun cnt =>
    (rd32 m (a + 4)).bind fun fileOff =>
    (rd32 m (a + 8)).bind fun aux =>
    (rd32 m (a + 12)).bind fun next =>
    (ensure (version == 1)).bind fun _ =>
    (cstrOf (m.drop (str + fileOff))).bind fun file =>
    match findDep file deps with
    | none => .panic
    | some target =>
      (auxLoop m str target cnt (a + aux) t).bind fun t' =>
      verneedLoop m str deps n (a + next) t'

/-- `_parseVerneed`: `off` and `count` are DT_VERNEED and DT_VERNEEDNUM, 0 if absent; `deps` are the objects
DT_NEEDED names. options/rtld/generic/linker.cpp L1027-1127 -/
def parseVerneed (m : List UInt8) (str off count : Nat) (deps : List Dep) (t : Tables) : Res Tables :=
  if off = 0 then .ok t else verneedLoop m str deps count off t

/-! ### Proofs: reading -/

theorem bok {α β : Type} (a : α) (f : α → Res β) : (Res.ok a).bind f = f a := rfl

theorem At.left {m : List UInt8} {a : Nat} {x y : List UInt8} (h : At m a (x ++ y)) : At m a x :=
  List.IsPrefix.trans (List.prefix_append x y) h

theorem At.right {m : List UInt8} {a : Nat} {x y : List UInt8} (h : At m a (x ++ y)) :
    At m (a + x.length) y := by
  obtain ⟨r, hr⟩ := h
  refine ⟨r, ?_⟩
  rw [← List.drop_drop, ← hr, List.append_assoc, List.drop_left]

theorem le_length (k n : Nat) : (le k n).length = k := by
  induction k generalizing n with
  | zero => rfl
  | succ k ih => simp [le, ih]

theorem At.right' {m : List UInt8} {a k n b : Nat} {y : List UInt8} (h : At m a (le k n ++ y)) (e : b = a + k) :
    At m b y := by
  have := h.right
  rw [le_length] at this
  rw [e]; exact this

theorem At.head {m : List UInt8} {a : Nat} {c : UInt8} {r : List UInt8} (h : At m a (c :: r)) :
    rd m a = .ok c ∧ At m (a + 1) r := by
  obtain ⟨q, hq⟩ := h
  constructor
  · apply rd_ok
    have : (m.drop a)[0]? = some c := by rw [← hq]; rfl
    rw [List.getElem?_drop] at this
    simpa using this
  · refine ⟨q, ?_⟩
    rw [← List.drop_drop, ← hq]; rfl

theorem rd16_at {m : List UInt8} {a n : Nat} {r : List UInt8} (h : At m a (le 2 n ++ r)) (hn : n < 2 ^ 16) :
    rd16 m a = .ok n := by
  have h1 : At m a (UInt8.ofNat n :: UInt8.ofNat (n / 256) :: r) := h
  have h2 := h1.head
  have h3 := h2.2.head
  unfold rd16 rd8
  rw [h2.1, h3.1]
  simp only [bok]
  congr 1
  simp [UInt8.toNat_ofNat']
  omega

theorem le4 (n : Nat) : le 4 n = le 2 (n % 65536) ++ le 2 (n / 65536) := by
  simp only [le, List.cons_append, List.nil_append]
  congr 1
  · apply UInt8.toNat_inj.1; simp [UInt8.toNat_ofNat']
  · congr 1
    · apply UInt8.toNat_inj.1; simp [UInt8.toNat_ofNat']; omega
    · congr 1
      · congr 1; omega
      · congr 2; omega

theorem rd32_at {m : List UInt8} {a n : Nat} {r : List UInt8} (h : At m a (le 4 n ++ r)) (hn : n < 2 ^ 32) :
    rd32 m a = .ok n := by
  rw [le4, List.append_assoc] at h
  unfold rd32
  rw [rd16_at h (by omega), bok, rd16_at (h.right' rfl) (by omega), bok]
  congr 1
  omega

theorem cstr_prefix {s l : List UInt8} (h : s ++ [0] <+: l) (h0 : (0 : UInt8) ∉ s) : cstrOf l = .ok s := by
  obtain ⟨r, rfl⟩ := h
  induction s with
  | nil => simp [cstrOf]
  | cons c s ih =>
    simp only [List.mem_cons, not_or] at h0
    simp only [List.cons_append, cstrOf]
    rw [if_neg (fun h => h0.1 h.symm), ih h0.2]
    rfl

theorem cstr_at {m : List UInt8} {a : Nat} {s : List UInt8} (h : At m a (s ++ [0])) (h0 : (0 : UInt8) ∉ s) :
    cstrOf (m.drop a) = .ok s := cstr_prefix h h0

/-! ### Proofs: definitions -/

/-- One iteration on a well-formed table. -/
theorem verdef_step {m : List UInt8} {str a : Nat} {d : Def} {l : List Def} (h : DefTable m str a (d :: l)) :
    ∃ next, DefTable m str (a + next) l ∧ ∀ n t, verdefLoop m str (n + 1) a t =
      verdefLoop m str n (a + next) (if d.base then t
        else Tables.insert { t with defined := t.defined ++ [plain d.name d.hash false] } d.index
          (plain d.name d.hash false)) := by
  obtain ⟨aux, next, cnt, name, rest, h1, h2, h3, hi, hc, hc', ha, hx, hn, hr, h0, ht⟩ := h
  refine ⟨next, ht, fun n t => ?_⟩
  simp only [List.append_assoc] at h1
  have f : ((if d.base then 1 else 0) + (if d.weak then 2 else 0)) < 4 := by
    cases d.base <;> cases d.weak <;> decide
  have a1 := h1.right' rfl
  have a2 := a1.right' rfl
  have a3 := a2.right' rfl
  have a4 := a3.right' rfl
  have a5 := a4.right' rfl
  have a6 := a5.right' rfl
  rw [verdefLoop]
  rw [rd16_at h1 (by omega), bok, rd16_at a1 (by omega), bok, rd16_at a2 hi, bok,
    rd16_at a3 hc', bok, rd32_at a4 d.hash.toNat_lt, bok, rd32_at a5 ha, bok,
    rd32_at (r := []) (by simpa using a6) hx, bok]
  rw [ensure, if_pos (by rfl), bok, ensure, if_pos (by simpa using hc), bok, ensure,
    if_pos (by simpa using f), bok, rd32_at h2 hn, bok,
    rd32_at (r := []) (by simpa using h2.right' rfl) hr, bok, cstr_at h3 h0, bok]
  have e : ((if d.base then 1 else 0) + (if d.weak then 2 else 0)) % 2 = 1 ↔ d.base = true := by
    cases d.base <;> cases d.weak <;> decide
  simp only [e, UInt32.ofNat_toNat]
  rfl

/-- What the definitions make known. -/
theorem verdef_loop {m : List UInt8} {str : Nat} (l : List Def) : ∀ {a : Nat} (t : Tables),
    DefTable m str a l → ((l.filter fun d => !d.base).map Def.index).Nodup →
    ∃ t', verdefLoop m str l.length a t = .ok t' ∧
      t'.defined = t.defined ++ (l.filter fun d => !d.base).map (fun d => plain d.name d.hash false) ∧
      (∀ d ∈ l, d.base = false → t'.known d.index = some (plain d.name d.hash false)) ∧
      ∀ i, (∀ d ∈ l, d.base = false → d.index ≠ i) → t'.known i = t.known i := by
  induction l with
  | nil => intro a t _ _; exact ⟨t, rfl, by simp, by simp, fun _ _ => rfl⟩
  | cons d l ih =>
    intro a t h hd
    obtain ⟨next, ht, hs⟩ := verdef_step h
    rw [List.length_cons, hs]
    cases hb : d.base with
    | true =>
      rw [List.filter_cons_of_neg (by simp [hb])] at hd ⊢
      obtain ⟨t', e, h1, h2, h3⟩ := ih t ht hd
      refine ⟨t', by simpa using e, h1, ?_, ?_⟩
      · intro d' hd' hb'
        rcases List.mem_cons.1 hd' with rfl | hd'
        · rw [hb] at hb'; cases hb'
        · exact h2 d' hd' hb'
      · intro i hi
        exact h3 i fun d' hd' => hi d' (List.mem_cons_of_mem _ hd')
    | false =>
      rw [List.filter_cons_of_pos (by simp [hb])] at hd ⊢
      simp only [List.map_cons, List.nodup_cons] at hd
      obtain ⟨t', e, h1, h2, h3⟩ := ih (Tables.insert { t with defined := t.defined ++ [plain d.name d.hash false] }
        d.index (plain d.name d.hash false)) ht hd.2
      refine ⟨t', by simpa using e, ?_, ?_, ?_⟩
      · rw [h1]; simp [Tables.insert]
      · intro d' hd' hb'
        rcases List.mem_cons.1 hd' with rfl | hd'
        · rw [h3 _ ?_]
          · simp [Tables.insert]
          · intro d'' hd'' hb'' e
            exact hd.1 (e ▸ List.mem_map_of_mem (List.mem_filter.2 ⟨hd'', by simp [hb'']⟩))
        · exact h2 d' hd' hb'
      · intro i hi
        rw [h3 i fun d' hd' => hi d' (List.mem_cons_of_mem _ hd')]
        have : i ≠ d.index := fun e => hi d (by simp) hb e.symm
        simp [Tables.insert, this]

/-- C115. An object whose image contains a table of version definitions defines exactly those versions, in
their order; an index stands for the version defined with it, and other indices for none. The entry that
names the object itself is not a version. -/
theorem verdef_spec {img : List UInt8} {str off : Nat} {defs : List Def} (h : DefTable img str off defs)
    (h0 : off ≠ 0) (hd : ((defs.filter fun d => !d.base).map Def.index).Nodup) :
    ∃ t, parseVerdef img str off defs.length = .ok t ∧
      t.defined = (defs.filter fun d => !d.base).map (fun d => plain d.name d.hash false) ∧
      (∀ d ∈ defs, d.base = false → t.known d.index = some (plain d.name d.hash false)) ∧
      ∀ i, (∀ d ∈ defs, d.base = false → d.index ≠ i) → t.known i = none := by
  unfold parseVerdef
  rw [if_neg h0]
  obtain ⟨t, e, h1, h2, h3⟩ := verdef_loop defs ⟨[], fun _ => none⟩ h hd
  exact ⟨t, e, by simpa using h1, h2, h3⟩

/-! ### Proofs: requirements -/

/-- The first of the dependencies that is called `file`, by the name it was loaded with or by its DT_SONAME. -/
def Provider (deps : List Dep) (file : List UInt8) (d : Dep) : Prop :=
  ∃ pre post, deps = pre ++ d :: post ∧ (∀ e ∈ pre, e.name ≠ file ∧ e.soName ≠ some file) ∧
    (d.name = file ∨ d.soName = some file)

/-- A dependency that provides the version. -/
def Provides (d : Dep) (n : Need) : Prop := ∃ v ∈ d.defined, v.name = n.name ∧ v.hash = n.hash

/-- Everything that is required is there. -/
def AllProvided (deps : List Dep) (needs : List (List UInt8 × List Need)) : Prop :=
  ∀ f ∈ needs, ∃ d, Provider deps f.1 d ∧ ∀ n ∈ f.2, Provides d n

/-- The versions a dependency defines are what `verdef_spec` says. -/
def Dep.Plain (d : Dep) : Prop := ∀ v ∈ d.defined, ∃ name hash, v = plain name hash false

theorem findDep_some {file : List UInt8} {deps : List Dep} {d : Dep} (h : Provider deps file d) :
    findDep file deps = some d := by
  obtain ⟨pre, post, rfl, h1, h2⟩ := h
  induction pre with
  | nil => simp only [List.nil_append, findDep]; rw [if_pos h2]
  | cons e pre ih =>
    simp only [List.cons_append, findDep]
    rw [if_neg (fun h => h.elim (h1 e (by simp)).1 (h1 e (by simp)).2)]
    exact ih fun e' he' => h1 e' (List.mem_cons_of_mem _ he')

theorem findDep_provider {file : List UInt8} {deps : List Dep} {d : Dep} (h : findDep file deps = some d) :
    Provider deps file d := by
  induction deps with
  | nil => simp [findDep] at h
  | cons e deps ih =>
    simp only [findDep] at h
    by_cases hc : e.name = file ∨ e.soName = some file
    · rw [if_pos hc] at h
      cases h
      exact ⟨[], deps, rfl, by simp, hc⟩
    · rw [if_neg hc] at h
      obtain ⟨pre, post, rfl, h1, h2⟩ := ih h
      refine ⟨e :: pre, post, rfl, ?_, h2⟩
      intro e' he'
      rcases List.mem_cons.1 he' with rfl | he'
      · exact ⟨fun h => hc (.inl h), fun h => hc (.inr h)⟩
      · exact h1 e' he'

theorem findVersion_some {hash : UInt32} {name : List UInt8} {l : List Version}
    (hp : ∀ v ∈ l, ∃ name hash, v = plain name hash false) (h : ∃ v ∈ l, v.name = name ∧ v.hash = hash) :
    findVersion hash name l = some (plain name hash false) := by
  induction l with
  | nil => simp at h
  | cons v l ih =>
    simp only [findVersion]
    have hp' : ∀ v ∈ l, ∃ name hash, v = plain name hash false := fun v hv => hp v (List.mem_cons_of_mem _ hv)
    by_cases hh : v.hash = hash
    · rw [if_neg (by simp [hh])]
      by_cases hn : v.name = name
      · rw [if_pos hn]
        obtain ⟨name', hash', e⟩ := hp v (by simp)
        subst e
        simp only [plain] at hh hn
        subst hh; subst hn; rfl
      · rw [if_neg hn]
        apply ih hp'
        obtain ⟨w, hw, h1, h2⟩ := h
        rcases List.mem_cons.1 hw with rfl | hw
        · exact absurd h1 hn
        · exact ⟨w, hw, h1, h2⟩
    · rw [if_pos hh]
      apply ih hp'
      obtain ⟨w, hw, h1, h2⟩ := h
      rcases List.mem_cons.1 hw with rfl | hw
      · exact absurd h2 hh
      · exact ⟨w, hw, h1, h2⟩

theorem findVersion_provides {hash : UInt32} {name : List UInt8} {l : List Version} {v : Version}
    (h : findVersion hash name l = some v) : v ∈ l ∧ v.name = name ∧ v.hash = hash := by
  induction l with
  | nil => simp [findVersion] at h
  | cons w l ih =>
    simp only [findVersion] at h
    by_cases hh : w.hash = hash
    · rw [if_neg (by simp [hh])] at h
      by_cases hn : w.name = name
      · rw [if_pos hn] at h; cases h; exact ⟨by simp, hn, hh⟩
      · rw [if_neg hn] at h
        have := ih h
        exact ⟨List.mem_cons_of_mem _ this.1, this.2⟩
    · rw [if_pos hh] at h
      have := ih h
      exact ⟨List.mem_cons_of_mem _ this.1, this.2⟩

/-- One iteration of the inner loop. -/
theorem aux_step {m : List UInt8} {str a : Nat} {x : Need} {l : List Need} (h : AuxTable m str a (x :: l))
    (hw : x.weak = false) :
    ∃ next, AuxTable m str (a + next) l ∧ ∀ d n t, auxLoop m str d (n + 1) a t =
      match findVersion x.hash x.name d.defined with
      | none => .panic
      | some v => auxLoop m str d n (a + next)
          (t.insert x.index (if x.hidden then v else v.makeDefault)) := by
  obtain ⟨name, next, h1, h2, hi, hn, hx, h0, ht⟩ := h
  refine ⟨next, ht, fun d n t => ?_⟩
  simp only [List.append_assoc] at h1
  rw [hw] at h1
  have f : x.index + (if x.hidden then 2 ^ 15 else 0) < 2 ^ 16 := by cases x.hidden <;> simp <;> omega
  have a1 := h1.right' rfl
  have a2 := a1.right' rfl
  have a3 := a2.right' rfl
  have a4 := a3.right' rfl
  rw [auxLoop, rd32_at h1 x.hash.toNat_lt, bok, rd16_at a1 (by simp), bok, rd16_at a2 f,
    bok, rd32_at a3 hn, bok, rd32_at (r := []) (by simpa using a4) hx, bok, ensure,
    if_pos (by simp), bok, cstr_at h2 h0, bok, UInt32.ofNat_toNat]
  have e : (x.index + (if x.hidden then 2 ^ 15 else 0)) % 0x8000 = x.index := by
    cases x.hidden <;> simp <;> omega
  have e' : ((x.index + (if x.hidden then 2 ^ 15 else 0)) < 0x8000) ↔ ¬ x.hidden = true := by
    cases x.hidden <;> simp <;> omega
  simp only [e, e', decide_not, Bool.not_eq_true']
  cases findVersion x.hash x.name d.defined with
  | none => rfl
  | some v => cases x.hidden <;> rfl

theorem aux_loop {m : List UInt8} {str : Nat} {d : Dep} (hp : d.Plain) (l : List Need) : ∀ {a : Nat} (t : Tables),
    AuxTable m str a l → (∀ n ∈ l, n.weak = false) → (∀ n ∈ l, Provides d n) → (l.map Need.index).Nodup →
    ∃ t', auxLoop m str d l.length a t = .ok t' ∧ t'.defined = t.defined ∧
      (∀ n ∈ l, t'.known n.index = some (plain n.name n.hash !n.hidden)) ∧
      ∀ i, (∀ n ∈ l, n.index ≠ i) → t'.known i = t.known i := by
  induction l with
  | nil => intro a t _ _ _ _; exact ⟨t, rfl, rfl, by simp, fun _ _ => rfl⟩
  | cons x l ih =>
    intro a t h hw hv hd
    obtain ⟨next, ht, hs⟩ := aux_step h (hw x (by simp))
    rw [List.length_cons, hs, findVersion_some hp (hv x (by simp))]
    simp only [List.map_cons, List.nodup_cons] at hd
    obtain ⟨t', e, h1, h2, h3⟩ := ih (t.insert x.index (if x.hidden then plain x.name x.hash false
      else (plain x.name x.hash false).makeDefault)) ht (fun n hn => hw n (List.mem_cons_of_mem _ hn))
      (fun n hn => hv n (List.mem_cons_of_mem _ hn)) hd.2
    refine ⟨t', e, h1, ?_, ?_⟩
    · intro n hn
      rcases List.mem_cons.1 hn with rfl | hn
      · rw [h3 n.index fun n' hn' e => hd.1 (e ▸ List.mem_map_of_mem hn')]
        cases hh : n.hidden <;> simp [Tables.insert, plain, Version.makeDefault]
      · exact h2 n hn
    · intro i hi
      rw [h3 i fun n hn => hi n (List.mem_cons_of_mem _ hn)]
      have : i ≠ x.index := fun e => hi x (by simp) e.symm
      simp [Tables.insert, this]

theorem aux_missing {m : List UInt8} {str : Nat} {d : Dep} (l : List Need) : ∀ {a : Nat} (t : Tables),
    AuxTable m str a l → (∀ n ∈ l, n.weak = false) → (∃ n ∈ l, ¬ Provides d n) →
    auxLoop m str d l.length a t = .panic := by
  induction l with
  | nil => intro a t _ _ h; simp at h
  | cons x l ih =>
    intro a t h hw hm
    obtain ⟨next, ht, hs⟩ := aux_step h (hw x (by simp))
    rw [List.length_cons, hs]
    cases hf : findVersion x.hash x.name d.defined with
    | none => rfl
    | some v =>
      apply ih _ ht (fun n hn => hw n (List.mem_cons_of_mem _ hn))
      obtain ⟨n, hn, h'⟩ := hm
      rcases List.mem_cons.1 hn with rfl | hn
      · exact absurd ⟨v, findVersion_provides hf⟩ h'
      · exact ⟨n, hn, h'⟩

theorem need_step {m : List UInt8} {str a : Nat} {file : List UInt8} {ns : List Need}
    {l : List (List UInt8 × List Need)} (h : NeedTable m str a ((file, ns) :: l)) :
    ∃ aux next, AuxTable m str (a + aux) ns ∧ NeedTable m str (a + next) l ∧
      ∀ deps n t, verneedLoop m str deps (n + 1) a t =
        match findDep file deps with
        | none => .panic
        | some d => (auxLoop m str d ns.length (a + aux) t).bind fun t' =>
            verneedLoop m str deps n (a + next) t' := by
  obtain ⟨fileOff, aux, next, h1, h2, hA, hc, hf, ha, hx, h0, ht⟩ := h
  refine ⟨aux, next, hA, ht, fun deps n t => ?_⟩
  simp only [List.append_assoc] at h1
  have a1 := h1.right' rfl
  have a2 := a1.right' rfl
  have a3 := a2.right' rfl
  have a4 := a3.right' rfl
  rw [verneedLoop, rd16_at h1 (by omega), bok, rd16_at a1 hc, bok, rd32_at a2 hf, bok,
    rd32_at a3 ha, bok, rd32_at (r := []) (by simpa using a4) hx, bok, ensure,
    if_pos (by rfl), bok, cstr_at h2 h0, bok]

/-- The indices a table of requirements gives out. -/
def indices (needs : List (List UInt8 × List Need)) : List Nat := needs.flatMap fun f => f.2.map Need.index

theorem need_loop {m : List UInt8} {str : Nat} {deps : List Dep} (hp : ∀ d ∈ deps, d.Plain)
    (l : List (List UInt8 × List Need)) : ∀ {a : Nat} (t : Tables),
    NeedTable m str a l → (∀ f ∈ l, ∀ n ∈ f.2, n.weak = false) → AllProvided deps l → (indices l).Nodup →
    ∃ t', verneedLoop m str deps l.length a t = .ok t' ∧ t'.defined = t.defined ∧
      (∀ f ∈ l, ∀ n ∈ f.2, t'.known n.index = some (plain n.name n.hash !n.hidden)) ∧
      ∀ i, i ∉ indices l → t'.known i = t.known i := by
  induction l with
  | nil => intro a t _ _ _ _; exact ⟨t, rfl, rfl, by simp, fun _ _ => rfl⟩
  | cons f l ih =>
    obtain ⟨file, ns⟩ := f
    intro a t h hw hv hd
    obtain ⟨aux, next, hA, ht, hs⟩ := need_step h
    obtain ⟨d, hd1, hd2⟩ := hv (file, ns) (by simp)
    have hmem : d ∈ deps := by obtain ⟨pre, post, rfl, _⟩ := hd1; simp
    have hi : indices ((file, ns) :: l) = ns.map Need.index ++ indices l := rfl
    rw [hi, List.nodup_append] at hd
    obtain ⟨t1, e1, p1, p2, p3⟩ := aux_loop (hp d hmem) ns t hA (hw (file, ns) (by simp)) hd2 hd.1
    rw [List.length_cons, hs, findDep_some hd1]
    simp only [e1, bok]
    obtain ⟨t2, e2, q1, q2, q3⟩ := ih t1 ht (fun f hf => hw f (List.mem_cons_of_mem _ hf))
      (fun f hf => hv f (List.mem_cons_of_mem _ hf)) hd.2.1
    refine ⟨t2, e2, q1.trans p1, ?_, ?_⟩
    · intro f hf n hn
      rcases List.mem_cons.1 hf with rfl | hf
      · rw [q3 _ fun h => hd.2.2 _ (List.mem_map_of_mem hn) _ h rfl]
        exact p2 n hn
      · exact q2 f hf n hn
    · intro i hni
      rw [hi, List.mem_append, not_or] at hni
      rw [q3 i hni.2]
      exact p3 i fun n hn e => hni.1 (e ▸ List.mem_map_of_mem hn)

/-- C115. An object that requires versions which its dependencies define: every index stands for the version
of the dependency it was required from, with its name; the other indices are unchanged. -/
theorem verneed_spec_partial {img : List UInt8} {str off : Nat} {needs : List (List UInt8 × List Need)} {deps : List Dep}
    (h : NeedTable img str off needs) (h0 : off ≠ 0) (hd : (indices needs).Nodup)
    (hw : ∀ f ∈ needs, ∀ n ∈ f.2, n.weak = false) (hp : ∀ d ∈ deps, d.Plain) (hv : AllProvided deps needs)
    (t : Tables) :
    ∃ t', parseVerneed img str off needs.length deps t = .ok t' ∧ t'.defined = t.defined ∧
      (∀ f ∈ needs, ∀ n ∈ f.2, t'.known n.index = some (plain n.name n.hash !n.hidden)) ∧
      ∀ i, i ∉ indices needs → t'.known i = t.known i := by
  unfold parseVerneed
  rw [if_neg h0]
  exact need_loop hp needs t h hw hv hd

/-- C115. If something that is required is missing, the program ends. -/
theorem verneed_missing {img : List UInt8} {str off : Nat} {needs : List (List UInt8 × List Need)} {deps : List Dep}
    (h : NeedTable img str off needs) (h0 : off ≠ 0) (hw : ∀ f ∈ needs, ∀ n ∈ f.2, n.weak = false)
    (hp : ∀ d ∈ deps, d.Plain) (hv : ¬ AllProvided deps needs) (t : Tables) :
    parseVerneed img str off needs.length deps t = .panic := by
  unfold parseVerneed
  rw [if_neg h0]
  clear h0
  induction needs generalizing off t with
  | nil => exact absurd (fun f hf => by cases hf) hv
  | cons f l ih =>
    obtain ⟨file, ns⟩ := f
    obtain ⟨aux, next, hA, ht, hs⟩ := need_step h
    rw [List.length_cons, hs]
    cases hf : findDep file deps with
    | none => rfl
    | some d =>
      have hprov := findDep_provider hf
      have hmem : d ∈ deps := by obtain ⟨pre, post, rfl, _⟩ := hprov; simp
      have hw1 := hw (file, ns) (by simp)
      by_cases hall : ∀ n ∈ ns, Provides d n
      · have hl : ¬ AllProvided deps l := by
          intro hl
          apply hv
          intro f hf'
          rcases List.mem_cons.1 hf' with rfl | hf'
          · exact ⟨d, hprov, hall⟩
          · exact hl f hf'
        have hi := fun t => ih ht (fun f hf => hw f (List.mem_cons_of_mem _ hf)) hl t
        -- the inner loop ends, whatever the indices are
        have inner : ∀ (l : List Need) (a : Nat) (t : Tables), AuxTable img str a l → (∀ n ∈ l, n.weak = false) →
            (∀ n ∈ l, Provides d n) → ∃ t', auxLoop img str d l.length a t = .ok t' := by
          intro l
          induction l with
          | nil => intro a t _ _ _; exact ⟨t, rfl⟩
          | cons x l ihl =>
            intro a t h hw hv
            obtain ⟨next, ht, hs⟩ := aux_step h (hw x (by simp))
            rw [List.length_cons, hs, findVersion_some (hp d hmem) (hv x (by simp))]
            exact ihl _ _ ht (fun n hn => hw n (List.mem_cons_of_mem _ hn))
              (fun n hn => hv n (List.mem_cons_of_mem _ hn))
        obtain ⟨t', e⟩ := inner ns _ t hA hw1 hall
        simp only [e, bok]
        exact hi t'
      · have : ∃ n ∈ ns, ¬ Provides d n := by
          apply Classical.byContradiction
          intro hc
          apply hall
          intro n hn
          apply Classical.byContradiction
          intro hc'
          exact hc ⟨n, hn, hc'⟩
        simp only [aux_missing ns t hA hw1 this]
        rfl

/-! ### From a reference to the definition -/

/-- C115. A reference of one object and a definition of another, both with a version: the reference is the
symbol `i` of `A`, whose entry in VERSYM is the index of the requirement `n`, and the definition is the
symbol `j` of `B`, whose entry is the index of the version `d`. The definition satisfies the reference
exactly if the two versions have the same name, whether or not it is the default one. -/
theorem version_binding {A B : Obj} {tA tB : Tables} (hA : A.known = tA.known) (hB : B.known = tB.known)
    {n : Need} {d : Def} (hn : tA.known n.index = some (plain n.name n.hash !n.hidden))
    (hd : tB.known d.index = some (plain d.name d.hash false))
    (hh : n.name = d.name → n.hash = d.hash)
    {i j : Nat} {si sj : Sym} (hi : A.syms[i]? = some si) (hj : B.syms[j]? = some sj)
    {vi vj : List Nat} (hvi : A.versym = some vi) (hvj : B.versym = some vj) {ri rj : Nat}
    (hri : vi[i]? = some ri) (hrj : vj[j]? = some rj)
    (ei : ri % 2 ^ 15 = n.index) (ej : rj % 2 ^ 15 = d.index) (hn2 : 2 ≤ n.index) (hd2 : 2 ≤ d.index) :
    ∃ w v, getSymbolByIndex A i = .ok (si, w) ∧ getSymbolByIndex B j = .ok (sj, v) ∧
      correctVersion B (some w) v = .ok (decide (n.name = d.name)) := by
  have h1 : getSymbolByIndex A i = .ok (si, if ri < 0x8000 then (plain n.name n.hash !n.hidden).makeDefault
      else plain n.name n.hash !n.hidden) := by
    unfold getSymbolByIndex
    rw [rd_ok hi, bok, hvi]
    simp only [rd_ok hri, bok]
    have : ri % 0x8000 = n.index := ei
    rw [this, if_pos (by omega), hA, hn]
    simp [bok]
  have h2 : getSymbolByIndex B j = .ok (sj, if rj < 0x8000 then (plain d.name d.hash false).makeDefault
      else plain d.name d.hash false) := by
    unfold getSymbolByIndex
    rw [rd_ok hj, bok, hvj]
    simp only [rd_ok hrj, bok]
    have : rj % 0x8000 = d.index := ej
    rw [this, if_pos (by omega), hB, hd]
    simp [bok]
  refine ⟨_, _, h1, h2, ?_⟩
  generalize hx : (if ri < 0x8000 then (plain n.name n.hash !n.hidden).makeDefault
      else plain n.name n.hash !n.hidden) = w
  generalize hy : (if rj < 0x8000 then (plain d.name d.hash false).makeDefault
      else plain d.name d.hash false) = v
  have w1 : w.isLocal = false ∧ w.isGlobal = false ∧ w.name = n.name ∧ w.hash = n.hash := by
    rw [← hx]; split <;> exact ⟨rfl, rfl, rfl, rfl⟩
  have v1 : v.isLocal = false ∧ v.isGlobal = false ∧ v.name = d.name ∧ v.hash = d.hash := by
    rw [← hy]; split <;> exact ⟨rfl, rfl, rfl, rfl⟩
  unfold correctVersion
  have : (if B.definesVersions = true then ensure (!v.isLocal) else Res.ok ()) = .ok () := by
    rw [v1.1]; cases B.definesVersions <;> rfl
  rw [this, bok]
  simp only [w1.1, w1.2.1, Bool.or_self, Bool.false_and, Bool.false_eq_true, if_false]
  congr 1
  unfold Version.eq
  simp only [w1, v1, Bool.or_self, Bool.false_eq_true, if_false]
  by_cases e : n.name = d.name
  · rw [if_neg (by simp [hh e])]
  · simp [e]

/-- C115. The same for two objects given by their images: the table of definitions of `B`, the table of
requirements of `A`, which depends on `B` among others. -/
theorem image_binding {A B : Obj} {imgA imgB : List UInt8} {strA strB offA offB : Nat} {defs : List Def}
    {needs : List (List UInt8 × List Need)} {deps : List Dep} {t₀ : Tables}
    (hB : DefTable imgB strB offB defs) (hB0 : offB ≠ 0)
    (hBd : ((defs.filter fun d => !d.base).map Def.index).Nodup)
    (hA : NeedTable imgA strA offA needs) (hA0 : offA ≠ 0) (hAd : (indices needs).Nodup)
    (hw : ∀ f ∈ needs, ∀ n ∈ f.2, n.weak = false) (hp : ∀ d ∈ deps, d.Plain) (hv : AllProvided deps needs)
    (kA : ∀ t, parseVerneed imgA strA offA needs.length deps t₀ = .ok t → A.known = t.known)
    (kB : ∀ t, parseVerdef imgB strB offB defs.length = .ok t → B.known = t.known)
    {f : List UInt8 × List Need} (hf : f ∈ needs) {n : Need} (hn : n ∈ f.2) {d : Def} (hd : d ∈ defs)
    (hb : d.base = false) (hh : n.name = d.name → n.hash = d.hash)
    {i j : Nat} {si sj : Sym} (hi : A.syms[i]? = some si) (hj : B.syms[j]? = some sj)
    {vi vj : List Nat} (hvi : A.versym = some vi) (hvj : B.versym = some vj) {ri rj : Nat}
    (hri : vi[i]? = some ri) (hrj : vj[j]? = some rj)
    (ei : ri % 2 ^ 15 = n.index) (ej : rj % 2 ^ 15 = d.index) (hn2 : 2 ≤ n.index) (hd2 : 2 ≤ d.index) :
    ∃ w v, getSymbolByIndex A i = .ok (si, w) ∧ getSymbolByIndex B j = .ok (sj, v) ∧
      correctVersion B (some w) v = .ok (decide (n.name = d.name)) := by
  obtain ⟨tB, eB, _, dB, _⟩ := verdef_spec hB hB0 hBd
  obtain ⟨tA, eA, _, dA, _⟩ := verneed_spec_partial hA hA0 hAd hw hp hv t₀
  exact version_binding (kA tA eA) (kB tB eB) (dA f hf n hn) (dB d hd hb) hh hi hj hvi hvj hri hrj ei ej hn2 hd2

/-! ### Examples -/

/-- A library that defines the versions `V1` (index 2) and `V2` (index 3, inherits from `V1`): strings, then the
table. -/
def libImage : List UInt8 :=
  [0] ++ [108, 0] ++ [86, 49, 0] ++ [86, 50, 0] ++
  -- offset 9: the library itself
  (le 2 1 ++ le 2 1 ++ le 2 1 ++ le 2 1 ++ le 4 108 ++ le 4 20 ++ le 4 28) ++ (le 4 1 ++ le 4 0) ++
  -- offset 37
  (le 2 1 ++ le 2 0 ++ le 2 2 ++ le 2 1 ++ le 4 0x591 ++ le 4 20 ++ le 4 28) ++ (le 4 3 ++ le 4 0) ++
  -- offset 65
  (le 2 1 ++ le 2 2 ++ le 2 3 ++ le 2 2 ++ le 4 0x592 ++ le 4 20 ++ le 4 0) ++ (le 4 6 ++ le 4 8) ++
  (le 4 3 ++ le 4 0)

def libDefs : List Def :=
  [⟨[108], 108, 1, true, false⟩, ⟨[86, 49], 0x591, 2, false, false⟩, ⟨[86, 50], 0x592, 3, false, true⟩]

theorem lib_table : DefTable libImage 0 9 libDefs := by
  refine ⟨20, 28, 1, 1, 0, ?_, ?_, ?_, ?_⟩
  · decide +kernel
  · decide +kernel
  · decide +kernel
  refine ⟨by decide, by decide, by decide, by decide, by decide, by decide, by decide, by decide, ?_⟩
  refine ⟨20, 28, 1, 3, 0, ?_, ?_, ?_, ?_⟩
  · decide +kernel
  · decide +kernel
  · decide +kernel
  refine ⟨by decide, by decide, by decide, by decide, by decide, by decide, by decide, by decide, ?_⟩
  refine ⟨20, 0, 2, 6, 8, ?_, ?_, ?_, ?_⟩
  · decide +kernel
  · decide +kernel
  · decide +kernel
  exact ⟨by decide, by decide, by decide, by decide, by decide, by decide, by decide, by decide, trivial⟩

example : ((libDefs.filter fun d => !d.base).map Def.index).Nodup := by decide

/-- A program that requires `V2` (index 2) from the library `l`; `flags` are those of the requirement. -/
def progImage (flags : Nat) : List UInt8 :=
  [0] ++ [108, 0] ++ [86, 50, 0] ++
  -- offset 6
  (le 2 1 ++ le 2 1 ++ le 4 1 ++ le 4 16 ++ le 4 0) ++
  (le 4 0x592 ++ le 2 flags ++ le 2 2 ++ le 4 3 ++ le 4 0)

def progNeeds (weak : Bool) : List (List UInt8 × List Need) := [([108], [⟨[86, 50], 0x592, 2, false, weak⟩])]

theorem prog_table (weak : Bool) : NeedTable (progImage (if weak then 2 else 0)) 0 6 (progNeeds weak) := by
  cases weak
  · refine ⟨1, 16, 0, by decide +kernel, by decide +kernel, ?_, by decide, by decide, by decide, by decide,
      by decide, trivial⟩
    exact ⟨3, 0, by decide +kernel, by decide +kernel, by decide, by decide, by decide, by decide, trivial⟩
  · refine ⟨1, 16, 0, by decide +kernel, by decide +kernel, ?_, by decide, by decide, by decide, by decide,
      by decide, trivial⟩
    exact ⟨3, 0, by decide +kernel, by decide +kernel, by decide, by decide, by decide, by decide, trivial⟩

/-- The library, loaded as `l.so` with the DT_SONAME `l`. -/
def lib : Dep := ⟨[108, 46, 115, 111], some [108], [plain [86, 49] 0x591 false, plain [86, 50] 0x592 false]⟩

/-- An older library, without `V2`. -/
def oldLib : Dep := ⟨[108, 46, 115, 111], some [108], [plain [86, 49] 0x591 false]⟩

example : (∀ d ∈ [lib], d.Plain) ∧ AllProvided [lib] (progNeeds false) ∧ (indices (progNeeds false)).Nodup ∧
    (∀ f ∈ progNeeds false, ∀ n ∈ f.2, n.weak = false) := by
  refine ⟨?_, ?_, by decide, by simp [progNeeds]⟩
  · intro d hd v hv
    simp only [List.mem_singleton] at hd
    subst hd
    simp only [lib, List.mem_cons, List.not_mem_nil, or_false] at hv
    rcases hv with rfl | rfl <;> exact ⟨_, _, rfl⟩
  · intro f hf
    simp only [progNeeds, List.mem_singleton] at hf
    subst hf
    refine ⟨lib, ⟨[], [], rfl, by simp, Or.inr rfl⟩, ?_⟩
    intro n hn
    simp only [List.mem_singleton] at hn
    subst hn
    exact ⟨plain [86, 50] 0x592 false, by simp [lib], rfl, rfl⟩

/-- The program with a reference `f@V2`, and the library with a definition of it; lookup does not matter here. -/
def progObj : Obj := ⟨[⟨[], true, .local⟩, ⟨[102], true, .global⟩], some [0, 2],
  fun i => if i = 2 then some (plain [86, 50] 0x592 true) else none, false, .sysv [] []⟩
def libObj : Obj := ⟨[⟨[], true, .local⟩, ⟨[102], false, .global⟩], some [0, 0x8003],
  fun i => if i = 3 then some (plain [86, 50] 0x592 false)
    else if i = 2 then some (plain [86, 49] 0x591 false) else none, true, .sysv [] []⟩

example : (∀ t, parseVerneed (progImage 0) 0 6 1 [lib] ⟨[], fun _ => none⟩ = .ok t → progObj.known = t.known) ∧
    (∀ t, parseVerdef libImage 0 9 3 = .ok t → libObj.known = t.known) := by
  constructor
  · intro t h
    have e : parseVerneed (progImage 0) 0 6 1 [lib] ⟨[], fun _ => none⟩ =
      .ok ⟨[], fun i => if i = 2 then some (plain [86, 50] 0x592 true) else none⟩ := rfl
    rw [e] at h; cases h; rfl
  · intro t h
    have e : parseVerdef libImage 0 9 3 = .ok ⟨[plain [86, 49] 0x591 false, plain [86, 50] 0x592 false],
      fun i => if i = 3 then some (plain [86, 50] 0x592 false)
        else if i = 2 then some (plain [86, 49] 0x591 false) else none⟩ := rfl
    rw [e] at h; cases h; rfl

theorem old_missing : ¬ AllProvided [oldLib] (progNeeds false) := by
  intro h
  obtain ⟨d, ⟨pre, post, e, _, _⟩, hp⟩ := h _ (List.mem_singleton.2 rfl)
  have hd : d = oldLib := by
    have : d ∈ [oldLib] := by rw [e]; simp
    simpa using this
  subst hd
  obtain ⟨v, hv, hn, _⟩ := hp _ (List.mem_singleton.2 rfl)
  simp only [oldLib, List.mem_singleton] at hv
  subst hv
  simp [plain] at hn

/-- An object that requires nothing that is missing, or whose missing versions are all weak, can be loaded;
otherwise loading it fails, which `dlopen` reports. -/
def LoadReports : Prop :=
  ∀ (img : List UInt8) (str off : Nat) (needs : List (List UInt8 × List Need)) (deps : List Dep) (t : Tables),
    NeedTable img str off needs → off ≠ 0 → (indices needs).Nodup → (∀ d ∈ deps, d.Plain) →
    parseVerneed img str off needs.length deps t ≠ .panic

/-- C115. `dlopen` of an object that requires a version which its dependency does not define ends the program
instead of returning an error. -/
theorem missing_violated : ¬ LoadReports := by
  intro h
  refine h (progImage 0) 0 6 (progNeeds false) [oldLib] ⟨[], fun _ => none⟩ (prog_table false) (by decide) (by decide)
    ?_ (verneed_missing (prog_table false) (by decide) (by simp [progNeeds]) ?_ old_missing _)
  all_goals
    intro d hd v hv
    simp only [List.mem_singleton] at hd
    subst hd
    simp only [oldLib, List.mem_singleton] at hv
    exact ⟨_, _, hv⟩

/-- C115. A weak requirement ends the program, even if the version is there. -/
theorem weak_violated : ∃ img needs, NeedTable img 0 6 needs ∧ AllProvided [lib] needs ∧
    (∀ f ∈ needs, ∀ n ∈ f.2, n.weak = true) ∧
    ∀ t, parseVerneed img 0 6 needs.length [lib] t = .panic := by
  refine ⟨progImage 2, progNeeds true, prog_table true, ?_, by simp [progNeeds], fun t => ?_⟩
  · intro f hf
    simp only [progNeeds, List.mem_singleton] at hf
    subst hf
    refine ⟨lib, ⟨[], [], rfl, by simp, Or.inr rfl⟩, ?_⟩
    intro n hn
    simp only [List.mem_singleton] at hn
    subst hn
    exact ⟨plain [86, 50] 0x592 false, by simp [lib], rfl, rfl⟩
  · rfl

end Mlibc.Versions
