import Verif.Base
import Verif.Locale.Names
import Mathlib.Data.Nat.Prime.Basic
import Mathlib.Data.Nat.ModEq
import Mathlib.Data.List.Perm.Subperm
import Mathlib.Data.Int.GCD
import Mathlib.Data.Nat.Find

/-!
# The locale archive

`setlocale` finds a locale in /usr/lib/locale/locale-archive: a hash table of names with double hashing, which
gives records, which give for each category a list of fields (options/internal/generic/locale.cpp L352-572,
options/internal/include/mlibc/locale-archive-parsing.hpp).  The file is a list of bytes; its words are in
little-endian order.  Reading beyond its end is undefined behaviour.  The alignment of words is not modelled.
-/
namespace Mlibc.Archive
open Mlibc.Locale

/-! ## Specification: how localedef writes an archive -/

/-- The four bytes of a word. -/
def le32 (v : Nat) : List Nat := [v % 256, v / 256 % 256, v / 65536 % 256, v / 16777216 % 256]

/-- `file` has the bytes `bs` at `p`. -/
def At (file : List Nat) (p : Nat) (bs : List Nat) : Prop := ∃ a b, file = a ++ bs ++ b ∧ a.length = p

/-- The hash of a name: start with its length; for each character turn the word by 9 bits to the left and add
    the character; never zero. -/
def hashOf (name : List Nat) : Nat :=
  let h := name.foldl (fun h c => (h * 2 ^ 9 % 2 ^ 32 + h / 2 ^ 23 + c) % 2 ^ 32) (name.length % 2 ^ 32)
  if h = 0 then 4294967295 else h

/-- The `k`-th place tried for a name in a table of `n` places. -/
def place (n : Nat) (name : List Nat) (k : Nat) : Nat :=
  (hashOf name + k * (1 + hashOf name % (n - 2))) % n

/-- A table of `n` places into which entries (name and record) have been put one after the other, each at the
    first free place tried for it. -/
inductive Table (n : Nat) : (Nat → Option (List Nat × Nat)) → List (List Nat × Nat) → Prop
  | empty : Table n (fun _ => none) []
  | add {T es} (name : List Nat) (r k : Nat) : Table n T es → (∀ r', (name, r') ∉ es) →
      (∀ j, j < k → T (place n name j) ≠ none) → T (place n name k) = none →
      Table n (fun i => if i = place n name k then some (name, r) else T i) ((name, r) :: es)

/-- The file holds the table `T` of `n` places: the position and the size are in its header; each place is three
    words, the hash, the position of the name (0 if the place is free) and the position of the record. -/
structure Holds (file : List Nat) (off n : Nat) (T : Nat → Option (List Nat × Nat)) : Prop where
  size : file.length < 2 ^ 32
  header : 56 ≤ file.length
  offset : At file 8 (le32 off)
  count : At file 16 (le32 n)
  inside : off + 12 * n ≤ file.length
  free : ∀ i, i < n → T i = none → At file (off + 12 * i + 4) (le32 0)
  used : ∀ i name r, i < n → T i = some (name, r) → ∃ p, 0 < p ∧ p < file.length ∧
    At file (off + 12 * i) (le32 (hashOf name) ++ le32 p ++ le32 r) ∧
    At file p (name ++ [0]) ∧ 0 ∉ name ∧ 0 < r ∧ r + 108 ≤ file.length

/-- The magic number of each category (13 categories; 6, LC_ALL, has none). -/
def magicOf : Nat → Nat
  | 0 => 0x20090720 | 1 => 0x20031114 | 2 => 0x20031117 | 3 => 0x20051017 | 4 => 0x20031111 | 5 => 0x20031110
  | 7 => 0x20031112 | 8 => 0x2003111d | 9 => 0x2003111c | 10 => 0x2003111f | 11 => 0x2003111e | 12 => 0x20031119
  | _ => 0

/-- The positions of fields that follow each other from `p`. -/
def positions (p : Nat) : List (List Nat) → List Nat
  | [] => []
  | f :: fs => p :: positions (p + f.length) fs

/-- The file of a category with the fields `fs`: magic number, number of fields, their positions, the fields. -/
def record (cat : Nat) (fs : List (List Nat)) : List Nat :=
  le32 (magicOf cat) ++ le32 fs.length ++ ((positions (8 + 4 * fs.length) fs).map le32).flatten ++ fs.flatten

/-- The kinds of fields. -/
inductive Kind
  | str
  | strList (min max : Nat)
  | bytes
  | raw
  | words (max : Nat)
  | small
  | word
  | byte
  | ignored
deriving DecidableEq, Repr

/-- The value of a field. -/
inductive Value
  | text (s : List Nat)
  | words (ws : List Nat)
  | num (v : Nat)
deriving DecidableEq, Repr

/-- What the bytes of a field mean: text ends with a NUL (which is kept), padding may follow; 255 in a small
    number means "not available", CHAR_MAX. -/
inductive Means : Kind → List Nat → Value → Prop
  | str {s pad} : 0 ∉ s → Means .str (s ++ 0 :: pad) (.text (s ++ [0]))
  | bytes {s pad} : 0 ∉ s → Means .bytes (s ++ 0 :: pad) (.text s)
  | raw {s} : Means .raw s (.text s)
  | words {m ws} : ws.length ≤ m → (∀ w ∈ ws, w < 2 ^ 32) → Means (.words m) (ws.map le32).flatten (.words ws)
  | small {b pad} : b < 128 → Means .small (b :: pad) (.num b)
  | missing {pad} : Means .small (255 :: pad) (.num 127)
  | word {v pad} : v < 2 ^ 32 → Means .word (le32 v ++ pad) (.num v)
  | byte {b pad} : b < 256 → Means .byte (b :: pad) (.num b)
  | strList {a b : Nat} {ss : List (List Nat)} {pad} : a ≤ ss.length → ss.length ≤ b → ss ≠ [] → (∀ s ∈ ss, s ≠ [] ∧ 0 ∉ s) →
      Means (.strList a b) ((ss.map (· ++ [0])).flatten ++ 0 :: pad) (.text ((ss.map (· ++ [0])).flatten ++ [0]))

/-- What localedef writes for field `i` of each category, by the numbers of the `_NL_…` items of glibc's langinfo.h. -/
def layout : Nat → Nat → Option Kind
  | 0, i => if i = 0 ∨ i = 5 ∨ 72 ≤ i ∧ i < 88 then some .bytes else if i = 1 ∨ i = 3 then some (.words 384)
      else if i = 10 then some (.strList 10 32) else if i = 11 then some (.strList 2 32)
      else if i = 13 ∨ 17 ≤ i ∧ i ≤ 19 then some .word else if i = 14 then some .str
      else if i < 72 then some .ignored else none
  | 1, i => if i = 3 ∨ i = 4 then some .word else if i = 2 then some .bytes else if i < 6 then some .str else none
  | 2, i => if i < 50 then some .str else none
  | 3, i => if i = 0 ∨ i = 13 then some .word else if 6 ≤ i ∧ i ≤ 8 then some .ignored else if i < 13 then some .raw
      else if i < 19 then some .str else none
  | 4, i => if i = 4 then some .bytes else if i < 7 ∨ i = 15 then some .str else if i < 22 then some .small else none
  | 5, i | 10, i => if i < 5 then some .str else none
  | 7, i => if i < 2 then some .word else if i = 2 then some .str else none
  | 8, i => if i < 7 then some .str else none
  | 9, i => if i = 6 then some .word else if i < 13 then some .str else none
  | 11, i => if i = 0 then some .byte else if i = 1 then some .str else none
  | 12, i => if i < 16 then some .str else none
  | _, _ => none

/-! ## The code -/

/-- A read of a `uint32_t` at offset `o` of the mapped file, e.g. options/internal/generic/locale.cpp L385. -/
def rd32 (file : List Nat) (o : Nat) : Res Nat :=
  match (file.drop o).take 4 with
  | [a, b, c, d] => .ok (a + 256 * b + 65536 * c + 16777216 * d)
  | _ => .ub

/-- locale-archive-parsing.hpp L70-80 `nameHashVal<uint32_t>`. -/
def nameHash (name : List Nat) : Nat :=
  let h := name.foldl (fun h c => (((h <<< 9) % 2 ^ 32 ||| h >>> 23) + c % 256) % 2 ^ 32) (name.length % 2 ^ 32)
  if h ≠ 0 then h else 2 ^ 32 - 1

/-- How the loop of locale.cpp L384-410 ends: go to the next name, `return null_opt`, return a record; or it
    has not ended. -/
inductive Find
  | next
  | null
  | found (r : Nat)
  | running
deriving DecidableEq, Repr

/-- locale.cpp L384-410, at most `fuel` rounds.  `idx` and `incr` are 32-bit numbers; the file is shorter than
    2^64 bytes. -/
def probe (file : List Nat) (off n : Nat) (e : List Nat) (hash incr : Nat) : Nat → Nat → Res Find
  | 0, _ => .ok .running
  | fuel + 1, idx => do
    let p ← rd32 file (off + 12 * idx + 4)                                         -- L385
    if p = 0 then .ok .next                                                        -- L386-387
    else if file.length ≤ p then .ok .null                                         -- L389-390
    else do
      let h ← rd32 file (off + 12 * idx)
      if h = hash ∧ e = (file.drop p).takeWhile (· ≠ 0) then do                    -- L392-398
        let r ← rd32 file (off + 12 * idx + 8)
        if r = 0 then .ok .null                                                    -- L399-400
        else if r > (file.length + (2 ^ 64 - 108)) % 2 ^ 64 then .ok .null         -- L401-402
        else .ok (.found r)                                                        -- L404
      else
        let idx' := (idx + incr) % 2 ^ 32                                          -- L407
        probe file off n e hash incr fuel (if idx' ≥ n then idx' - n else idx')    -- L408-409

/-- locale.cpp L379-413: the names of the list one after the other. -/
def names (file : List Nat) (off n fuel : Nat) : List (List Nat) → Res Find
  | [] => .ok .null
  | e :: es => do
    match ← probe file off n e (nameHash e) (1 + nameHash e % (n - 2)) fuel (nameHash e % n) with
    | .next => names file off n fuel es
    | o => .ok o

/-- locale.cpp L352-414 `findLocaleRecord`.  Simplification: the name is given as the list of L376-377, which is
    the subject of another property. -/
def findRecord (file : List Nat) (fuel : Nat) (list : List (List Nat)) : Res Find :=
  if file.length < 56 then .ok .null                                               -- L355-356
  else do
    let off ← rd32 file 8
    let n ← rd32 file 16
    if n ≤ 2 ∨ off > file.length ∨ 12 * n > file.length - off then .ok .null       -- L360-367
    else names file off n fuel list

/-- locale.cpp L546-572 `findLocaleArchiveRecord`: the bytes of the category, if the archive has it. -/
def category (file : List Nat) (fuel : Nat) (list : List (List Nat)) (cat : Nat) : Res (Option (List Nat)) := do
  match ← findRecord file fuel list with
  | .found r => do
    let o ← rd32 file (r + 4 + 8 * cat)
    let l ← rd32 file (r + 4 + 8 * cat + 4)
    if o = 0 ∨ l = 0 then .ok none                                                 -- L561-562
    else if o > file.length ∨ l > file.length - o then .ok none                    -- L564-566
    else if o + l > file.length then .ub                                           -- bytes that are not there
    else .ok (some ((file.drop o).take l))                                         -- L568-569
  | _ => .ok none

/-- locale-archive-parsing.hpp L82-89 `categoryMagic`. -/
def categoryMagic (cat : Nat) : Nat :=
  if cat = 3 then 0x20051014 ^^^ cat
  else if cat = 0 then 0x20090720 ^^^ cat
  else 0x20031115 ^^^ cat

/-- locale.cpp L416-435, the positions of the fields of a category. -/
def offsets (cat : Nat) (rec : List Nat) : Res (Option (List Nat)) :=
  if rec.length < 8 then .ok none                                                  -- L417-418
  else do
    let magic ← rd32 rec 0
    if magic ≠ categoryMagic cat then .ok none                                     -- L420-423
    else do
      let n ← rd32 rec 4
      if rec.length < 8 + 4 * n then .ok none                                      -- L425-433
      else do
        let os ← (List.range n).mapM (fun i => rd32 rec (8 + 4 * i))               -- L435
        .ok (some os)

/-- locale-archive-parsing.hpp L182-195: the bytes of field `i`; the difference of the positions is a 32-bit
    number. -/
def field (rec os : List Nat) (i : Nat) : Option (List Nat) :=
  match os[i]? with
  | none => none
  | some o =>
    if o > rec.length then none                                                    -- L186-187
    else
      let size := match os[i + 1]? with                                            -- L189
        | none => rec.length - o
        | some o' => (o' + 2 ^ 32 - o) % 2 ^ 32
      if o + size > rec.length then none                                           -- L190-191
      else some ((rec.drop o).take size)

/-- locale-archive-parsing.hpp L104-111 (with `must`) and L113-120: skips at most `k` strings from `d`; gives the
    number of bytes skipped. -/
def skipStrings (must : Bool) : Nat → List Nat → Option Nat
  | 0, _ => some 0
  | k + 1, d =>
    if !must && (d = [] || d.head? = some 0) then some 0                           -- L114-115
    else if (d.dropWhile (· ≠ 0)) = [] then (if must then none else some 0)        -- L105-107, L116-118
    else
      let s := (d.takeWhile (· ≠ 0)).length + 1                                    -- L108, L119
      if must && (d.drop s = [] || (d.drop s).head? = some 0) then none            -- L109-110
      else (skipStrings must k (d.drop s)).map (· + s)

/-- locale-archive-parsing.hpp L98-126 `parse_stringlist`. -/
def parseStringList (min max : Nat) (d : List Nat) : List Nat :=
  match skipStrings true min d with
  | none => []
  | some a =>
    match skipStrings false (max - min) (d.drop a) with
    | none => []
    | some b => if (d.drop (a + b)).head? = some 0 then d.take (a + b + 1) else []  -- L122-125

/-- The words of a list of bytes, locale-archive-parsing.hpp L139-143; bytes left over are ignored. -/
def toWords : List Nat → List Nat
  | a :: b :: c :: d :: r => (a + 256 * b + 65536 * c + 16777216 * d) :: toWords r
  | _ => []

/-- locale-archive-parsing.hpp L91-161: the parsers. -/
def Kind.parse (d : List Nat) : Kind → Option Value
  | .str => some (.text (d.take (min ((d.takeWhile (· ≠ 0)).length + 1) d.length)))    -- L92-96
  | .strList a b => some (.text (parseStringList a b d))                              -- L98-126
  | .bytes => some (.text (d.takeWhile (· ≠ 0)))                                      -- L128-132
  | .raw => some (.text d)                                                            -- L134-136
  | .words m => some (.words ((toWords d).take m))                                    -- L138-143
  | .ignored => none                                                                  -- L145
  | .small => some (.num (match d with                                                -- L147-151
      | [] => 0
      | b :: _ => if b = 255 then 127 else b))
  | .word => some (.num (match d with                                                 -- L153-161
      | a :: b :: c :: e :: _ => a + 256 * b + 65536 * c + 16777216 * e
      | _ => 0))
  | .byte => some (.num (d.headD 0))                                                  -- L153-161

/-- locale-archive-parsing.hpp L244-562: the kinds of the fields of the categories. -/
def kinds : Nat → List Kind
  | 0 => [.bytes, .words 384, .ignored, .words 384, .ignored, .bytes, .ignored, .ignored, .ignored, .ignored,
      .strList 10 32, .strList 2 32, .ignored, .word, .str, .ignored, .ignored, .word, .word, .word] ++
      List.replicate 52 .ignored ++ List.replicate 16 .bytes                          -- L381-474
  | 1 => [.str, .str, .bytes, .word, .word, .str]                                     -- L244-255
  | 2 => List.replicate 50 .str                                                       -- L298-353
  | 3 => [.word, .raw, .raw, .raw, .raw, .raw, .ignored, .ignored, .ignored, .raw, .raw, .raw, .raw, .word, .str,
      .str, .str, .str, .str]                                                         -- L355-379
  | 4 => [.str, .str, .str, .str, .bytes, .str, .str, .small, .small, .small, .small, .small, .small, .small,
      .small, .str, .small, .small, .small, .small, .small, .small]                   -- L269-296
  | 5 => List.replicate 5 .str                                                        -- L257-267
  | 7 => [.word, .word, .str]                                                         -- L476-484
  | 8 => List.replicate 7 .str                                                        -- L486-498
  | 9 => List.replicate 6 .str ++ [.word] ++ List.replicate 6 .str                    -- L500-518
  | 10 => List.replicate 5 .str                                                       -- L520-530
  | 11 => [.byte, .str]                                                               -- L532-539
  | 12 => List.replicate 16 .str                                                      -- L541-562
  | _ => []

/-- locale.cpp L437-505 and locale-archive-parsing.hpp L202-234: what is assigned to the members of a category;
    `none`: the member keeps its value. -/
def members (cat : Nat) (rec : List Nat) : Res (Option (List (Option Value))) := do
  match ← offsets cat rec with
  | none => .ok none
  | some os => .ok (some ((kinds cat).zipIdx.map fun p => (field rec os p.2).bind (Kind.parse · p.1)))

/-! ## Words and the hash -/

theorem rd32_ok {file : List Nat} {o : Nat} (h : o + 4 ≤ file.length) : ∃ v, rd32 file o = .ok v := by
  unfold rd32
  have hl : ((file.drop o).take 4).length = 4 := by simp; omega
  match hm : (file.drop o).take 4, hl with
  | [a, b, c, d], _ => exact ⟨_, rfl⟩

theorem At.append {file : List Nat} {p : Nat} {xs ys : List Nat} (h : At file p (xs ++ ys)) :
    At file p xs ∧ At file (p + xs.length) ys := by
  obtain ⟨a, b, h1, h2⟩ := h
  exact ⟨⟨a, ys ++ b, by simp [h1], h2⟩, ⟨a ++ xs, b, by simp [h1], by simp [h2]⟩⟩

theorem At.drop {file : List Nat} {p : Nat} {xs : List Nat} (h : At file p xs) :
    ∃ b, file.drop p = xs ++ b := by
  obtain ⟨a, b, h1, h2⟩ := h
  exact ⟨b, by rw [h1, ← h2, List.append_assoc, List.drop_left]⟩

theorem At.le {file : List Nat} {p : Nat} {xs : List Nat} (h : At file p xs) : p + xs.length ≤ file.length := by
  obtain ⟨a, b, h1, h2⟩ := h
  rw [h1, ← h2]; simp

theorem le32_value {v : Nat} (h : v < 2 ^ 32) :
    v % 256 + 256 * (v / 256 % 256) + 65536 * (v / 65536 % 256) + 16777216 * (v / 16777216 % 256) = v := by
  omega

theorem le32_length (v : Nat) : (le32 v).length = 4 := rfl

theorem rd32_at {file : List Nat} {p v : Nat} (h : At file p (le32 v)) (hv : v < 2 ^ 32) : rd32 file p = .ok v := by
  obtain ⟨b, hb⟩ := h.drop
  unfold rd32
  rw [hb]
  simp only [le32, List.cons_append, List.nil_append, List.take_succ_cons, List.take_zero, le32_value hv]

theorem turn (h c : Nat) (hc : c < 256) (hh : h < 2 ^ 32) :
    (((h <<< 9) % 2 ^ 32 ||| h >>> 23) + c % 256) % 2 ^ 32 = (h * 2 ^ 9 % 2 ^ 32 + h / 2 ^ 23 + c) % 2 ^ 32 := by
  rw [Nat.mod_eq_of_lt hc, Nat.shiftLeft_eq, Nat.shiftRight_eq_div_pow]
  have e : h * 2 ^ 9 % 2 ^ 32 = 2 ^ 9 * (h % 2 ^ 23) := by omega
  rw [e, ← Nat.two_pow_add_eq_or_of_lt (show h / 2 ^ 23 < 2 ^ 9 by omega)]

theorem nameHash_eq (name : List Nat) (hb : ∀ c ∈ name, c < 256) : nameHash name = hashOf name := by
  have key : ∀ (l : List Nat) (h : Nat), (∀ c ∈ l, c < 256) → h < 2 ^ 32 →
      l.foldl (fun h c => (((h <<< 9) % 2 ^ 32 ||| h >>> 23) + c % 256) % 2 ^ 32) h =
        l.foldl (fun h c => (h * 2 ^ 9 % 2 ^ 32 + h / 2 ^ 23 + c) % 2 ^ 32) h := by
    intro l
    induction l with
    | nil => intros; rfl
    | cons c l ih =>
      intro h hl hh
      simp only [List.foldl_cons]
      rw [turn h c (hl c (by simp)) hh]
      exact ih _ (fun c hc => hl c (by simp [hc])) (Nat.mod_lt _ (by decide))
  unfold nameHash hashOf
  simp only [key name _ hb (Nat.mod_lt _ (by decide))]
  generalize List.foldl _ _ name = h
  by_cases h0 : h = 0
  · subst h0; rfl
  · rw [if_pos h0, if_neg h0]

/-! ## The table -/

theorem place_lt {n : Nat} (hn : 0 < n) (name : List Nat) (k : Nat) : place n name k < n := Nat.mod_lt _ hn

theorem place_period {n : Nat} (name : List Nat) (k : Nat) : place n name (k + n) = place n name k := by
  unfold place
  rw [Nat.add_mul, ← Nat.add_assoc, Nat.add_mul_mod_self_left]

theorem place_succ {n : Nat} (h2 : 2 < n) (name : List Nat) (k : Nat) (hn : n ≤ 2 ^ 31) :
    (if (place n name k + (1 + hashOf name % (n - 2))) % 2 ^ 32 ≥ n
      then (place n name k + (1 + hashOf name % (n - 2))) % 2 ^ 32 - n
      else (place n name k + (1 + hashOf name % (n - 2))) % 2 ^ 32) = place n name (k + 1) := by
  have h1 := place_lt (show 0 < n by omega) name k
  have h3 : hashOf name % (n - 2) < n - 2 := Nat.mod_lt _ (by omega)
  have e : place n name (k + 1) = (place n name k + (1 + hashOf name % (n - 2))) % n := by
    unfold place
    rw [Nat.mod_add_mod, Nat.add_mul, Nat.one_mul, Nat.add_assoc]
  rw [e]
  generalize place n name k = a at *
  generalize hashOf name % (n - 2) = b at *
  rw [Nat.mod_eq_of_lt (show a + (1 + b) < 2 ^ 32 by omega)]
  split
  · rename_i h
    rw [Nat.mod_eq_sub_mod h, Nat.mod_eq_of_lt (by omega)]
  · rename_i h
    rw [Nat.mod_eq_of_lt (by omega)]

/-- In a table of prime size every place is tried. -/
theorem place_covers {n : Nat} (hp : n.Prime) (h2 : 2 < n) (name : List Nat) (i : Nat) (hi : i < n) :
    ∃ k, k < n ∧ place n name k = i := by
  have h3 : hashOf name % (n - 2) < n - 2 := Nat.mod_lt _ (by omega)
  have hc : Nat.Coprime (1 + hashOf name % (n - 2)) n := by
    refine ((Nat.Prime.coprime_iff_not_dvd hp).2 (fun hd => ?_)).symm
    have := Nat.le_of_dvd (by omega) hd
    omega
  obtain ⟨m, -, hm⟩ := Nat.exists_mul_mod_eq_one_of_coprime hc (by omega)
  unfold place
  generalize hashOf name = a at *
  generalize 1 + a % (n - 2) = b at *
  refine ⟨((i + (n - a % n)) * m) % n, Nat.mod_lt _ (by omega), ?_⟩
  have ha : a % n < n := Nat.mod_lt _ (by omega)
  have e1 : ((i + (n - a % n)) * m) % n * b ≡ i + (n - a % n) [MOD n] := by
    have : ((i + (n - a % n)) * m) % n * b ≡ (i + (n - a % n)) * (b * m) [MOD n] := by
      have := (Nat.mod_modEq ((i + (n - a % n)) * m) n).mul_right b
      refine this.trans ?_
      rw [Nat.mul_assoc, Nat.mul_comm m b]
    refine this.trans ?_
    have h1 : b * m ≡ 1 [MOD n] := by
      show b * m % n = 1 % n
      rw [hm, Nat.mod_eq_of_lt (by omega)]
    simpa using h1.mul_left (i + (n - a % n))
  have e2 : a + ((i + (n - a % n)) * m) % n * b ≡ a % n + (i + (n - a % n)) [MOD n] :=
    (Nat.mod_modEq a n).symm.add e1
  have e3 : a % n + (i + (n - a % n)) = i + n := by omega
  rw [e3] at e2
  have : (a + ((i + (n - a % n)) * m) % n * b) % n = (i + n) % n := e2
  rw [this, Nat.add_mod_right, Nat.mod_eq_of_lt hi]

theorem table_mem {n : Nat} {T : Nat → Option (List Nat × Nat)} {es : List (List Nat × Nat)} (h : Table n T es) :
    ∀ i e, T i = some e → e ∈ es := by
  induction h with
  | empty => intro i e h; simp at h
  | add name r k _ _ _ _ ih =>
    intro i e he
    dsimp only at he
    split at he
    · simp only [Option.some.injEq] at he
      simp [he]
    · exact List.mem_cons_of_mem _ (ih i e he)

theorem table_find {n : Nat} (hn0 : 0 < n) {T : Nat → Option (List Nat × Nat)} {es : List (List Nat × Nat)}
    (h : Table n T es) : ∀ name r, (name, r) ∈ es → ∃ k, k < n ∧ T (place n name k) = some (name, r) ∧
      ∀ j, j < k → ∃ name' r', T (place n name j) = some (name', r') ∧ name' ≠ name := by
  induction h with
  | empty => intro _ _ h; simp at h
  | @add T es name r k ht hn hj hk ih =>
    intro m s hm
    rcases List.mem_cons.1 hm with hm | hm
    · obtain ⟨rfl, rfl⟩ := Prod.mk.inj hm
      refine ⟨k, ?_, if_pos rfl, fun j hjk => ?_⟩
      · by_contra hc
        have hp := place_period (n := n) m (k - n)
        rw [Nat.sub_add_cancel (by omega)] at hp
        exact hj (k - n) (by omega) (by rw [← hp, hk])
      · have h1 := hj j hjk
        have hne : place n m j ≠ place n m k := fun he => h1 (by rw [he, hk])
        obtain ⟨⟨m', s'⟩, he⟩ := Option.ne_none_iff_exists'.1 h1
        refine ⟨m', s', by dsimp only; rw [if_neg hne, he], fun hmm => ?_⟩
        subst hmm
        exact hn s' (table_mem ht _ _ he)
    · obtain ⟨k', h1, h2, h3⟩ := ih m s hm
      refine ⟨k', h1, ?_, fun j hjk => ?_⟩
      · dsimp only
        rw [if_neg (fun he => by rw [he, hk] at h2; simp at h2), h2]
      · obtain ⟨m', s', he, hne⟩ := h3 j hjk
        exact ⟨m', s', by dsimp only; rw [if_neg (fun hx => by rw [hx, hk] at he; simp at he), he], hne⟩

theorem table_lookup {n : Nat} {T : Nat → Option (List Nat × Nat)} {es : List (List Nat × Nat)} (h : Table n T es) :
    ∀ name r, (name, r) ∈ es → es.lookup name = some r := by
  induction h with
  | empty => intro _ _ h; simp at h
  | @add T es name r k ht hn hj hk ih =>
    intro m s hm
    rcases List.mem_cons.1 hm with hm | hm
    · obtain ⟨rfl, rfl⟩ := Prod.mk.inj hm
      simp
    · have hne : m ≠ name := fun he => hn s (he ▸ hm)
      rw [List.lookup_cons, beq_false_of_ne hne]
      exact ih m s hm

/-- A table with fewer entries than places has a free place. -/
theorem table_free {n : Nat} {T : Nat → Option (List Nat × Nat)} {es : List (List Nat × Nat)} (h : Table n T es)
    (hl : es.length < n) : ∃ i, i < n ∧ T i = none := by
  have key : ∃ l : List Nat, l.length = es.length ∧ ∀ i, T i ≠ none → i ∈ l := by
    clear hl
    induction h with
    | empty => exact ⟨[], rfl, fun i h => absurd rfl h⟩
    | @add T es name r k ht hn hj hk ih =>
      obtain ⟨l, h1, h2⟩ := ih
      refine ⟨place n name k :: l, by simp [h1], fun i hi => ?_⟩
      by_cases he : i = place n name k
      · simp [he]
      · dsimp only at hi
        rw [if_neg he] at hi
        exact List.mem_cons_of_mem _ (h2 i hi)
  obtain ⟨l, h1, h2⟩ := key
  by_contra hc
  have hs : List.range n ⊆ l := by
    intro i hi
    refine h2 i (fun hn => hc ⟨i, List.mem_range.1 hi, hn⟩)
  have := (List.subperm_of_subset List.nodup_range hs).length_le
  rw [List.length_range] at this
  omega

/-! ## The search -/

theorem takeWhile_name {name b : List Nat} (h : 0 ∉ name) : (name ++ [0] ++ b).takeWhile (· ≠ 0) = name := by
  induction name with
  | nil => rfl
  | cons c name ih =>
    simp only [List.mem_cons, not_or] at h
    rw [List.cons_append, List.cons_append, List.takeWhile_cons_of_pos (by simpa using fun he => h.1 he.symm), ih h.2]

variable {file : List Nat} {off n : Nat} {T : Nat → Option (List Nat × Nat)}

theorem probe_free (h : Holds file off n T) {i : Nat} (hi : i < n) (ht : T i = none) (e : List Nat) (hash incr fuel : Nat) :
    probe file off n e hash incr (fuel + 1) i = .ok .next := by
  rw [probe, rd32_at (h.free i hi ht) (by decide)]
  rfl

theorem hashOf_lt (name : List Nat) : hashOf name < 2 ^ 32 := by
  unfold hashOf
  have key : ∀ (l : List Nat) (h : Nat), h < 2 ^ 32 →
      l.foldl (fun h c => (h * 2 ^ 9 % 2 ^ 32 + h / 2 ^ 23 + c) % 2 ^ 32) h < 2 ^ 32 := by
    intro l
    induction l with
    | nil => intro h hh; exact hh
    | cons c l ih => intro h _; exact ih _ (Nat.mod_lt _ (by decide))
  have := key name (name.length % 2 ^ 32) (Nat.mod_lt _ (by decide))
  dsimp only
  split
  · decide
  · exact this

theorem probe_used (h : Holds file off n T) {i : Nat} (hi : i < n) {name : List Nat} {r : Nat}
    (ht : T i = some (name, r)) (e : List Nat) (incr fuel : Nat) :
    probe file off n e (hashOf e) incr (fuel + 1) i = if name = e then .ok (.found r) else
      probe file off n e (hashOf e) incr fuel
        (if (i + incr) % 2 ^ 32 ≥ n then (i + incr) % 2 ^ 32 - n else (i + incr) % 2 ^ 32) := by
  obtain ⟨p, h1, h2, h3, h4, h5, h6, h7⟩ := h.used i name r hi ht
  have hs := h.size
  obtain ⟨h3a, h3c⟩ := h3.append
  obtain ⟨h3a, h3b⟩ := h3a.append
  have e1 := rd32_at h3a (hashOf_lt name)
  have e2 := rd32_at h3b (show p < 2 ^ 32 by omega)
  have e3 := rd32_at h3c (show r < 2 ^ 32 by omega)
  simp only [le32_length, List.length_append] at e2 e3
  obtain ⟨b, hb⟩ := h4.drop
  rw [probe, e2]
  simp only [Res.ok_bind, if_neg (show ¬ p = 0 by omega), if_neg (show ¬ file.length ≤ p by omega), e1, hb,
    takeWhile_name h5]
  have hm : (file.length + (2 ^ 64 - 108)) % 2 ^ 64 = file.length - 108 := by
    rw [show file.length + (2 ^ 64 - 108) = (file.length - 108) + 2 ^ 64 by omega, Nat.add_mod_right,
      Nat.mod_eq_of_lt (by omega)]
  by_cases hne : name = e
  · subst hne
    rw [if_pos ⟨rfl, rfl⟩, if_pos rfl, e3, Res.ok_bind, if_neg (show ¬ r = 0 by omega), hm,
      if_neg (show ¬ r > file.length - 108 by omega)]
  · rw [if_neg (fun hx => hne hx.2.symm), if_neg hne]

theorem probe_walk (h : Holds file off n T) (h2 : 2 < n) (hn : n ≤ 2 ^ 31) (e : List Nat) (fuel : Nat) (m : Nat) : ∀ k,
    (∀ j, j < m → ∃ name' r', T (place n e (k + j)) = some (name', r') ∧ name' ≠ e) →
    probe file off n e (hashOf e) (1 + hashOf e % (n - 2)) (fuel + m) (place n e k) =
      probe file off n e (hashOf e) (1 + hashOf e % (n - 2)) fuel (place n e (k + m)) := by
  induction m with
  | zero => intro k _; rfl
  | succ m ih =>
    intro k hj
    obtain ⟨name', r', h3, h4⟩ := hj 0 (by omega)
    rw [← Nat.add_assoc fuel m 1, probe_used h (place_lt (by omega) e k) h3, if_neg h4, place_succ h2 e k hn, ih (k + 1) (fun j hjm => ?_)]
    · rw [Nat.add_assoc k 1 m, Nat.add_comm 1 m]
    · have := hj (j + 1) (by omega)
      rwa [show k + (j + 1) = k + 1 + j by omega] at this

theorem names_spec (h : Holds file off n T) {es : List (List Nat × Nat)} (hT : Table n T es) (hp : n.Prime) (h2 : 2 < n)
    (hl : es.length < n) (fuel : Nat) (hf : n ≤ fuel) (list : List (List Nat)) (hb : ∀ e ∈ list, ∀ c ∈ e, c < 256) :
    names file off n fuel list = .ok (match list.findSome? (fun e => es.lookup e) with
      | some r => .found r
      | none => .null) := by
  have hn : n ≤ 2 ^ 31 := by have := h.inside; have := h.size; omega
  induction list with
  | nil => rfl
  | cons e list ih =>
    have he : nameHash e = hashOf e := nameHash_eq e (hb e (by simp))
    have h0 : hashOf e % n = place n e 0 := by simp [place]
    rw [names, he, h0]
    cases hlk : es.lookup e with
    | some r =>
      have hm : (e, r) ∈ es := by
        have : ∀ (l : List (List Nat × Nat)), l.lookup e = some r → (e, r) ∈ l := by
          intro l
          induction l with
          | nil => intro h; simp at h
          | cons a l ih =>
            intro h
            rw [List.lookup_cons] at h
            split at h
            · rename_i hx
              simp only [Option.some.injEq] at h
              have : a = (e, r) := by rw [← h]; simp at hx; rw [hx]
              simp [this]
            · exact List.mem_cons_of_mem _ (ih h)
        exact this es hlk
      obtain ⟨k, h3, h4, h5⟩ := table_find (by omega) hT e r hm
      obtain ⟨f, rfl⟩ : ∃ f, fuel = f + 1 + k := ⟨fuel - 1 - k, by omega⟩
      rw [probe_walk h h2 hn e (f + 1) k 0 (fun j hj => by simpa using h5 j hj), Nat.zero_add,
        probe_used h (place_lt (by omega) e k) h4, if_pos rfl]
      simp [hlk]
    | none =>
      obtain ⟨i, hi, hfree⟩ := table_free hT hl
      obtain ⟨k0, hk0, hpl⟩ := place_covers hp h2 e i hi
      have hex : ∃ k, T (place n e k) = none := ⟨k0, by rw [hpl, hfree]⟩
      classical
      have hk1 := Nat.find_spec hex
      have hk2 : Nat.find hex ≤ k0 := Nat.find_min' hex (by rw [hpl, hfree])
      have hk3 := fun j (hj : j < Nat.find hex) => Nat.find_min hex hj
      generalize Nat.find hex = k at *
      obtain ⟨f, rfl⟩ : ∃ f, fuel = f + 1 + k := ⟨fuel - 1 - k, by omega⟩
      rw [probe_walk h h2 hn e (f + 1) k 0 (fun j hj => ?_), Nat.zero_add, probe_free h (place_lt (by omega) e k) hk1]
      · simp only [Res.ok_bind]
        rw [ih (fun e he => hb e (by simp [he])), List.findSome?_cons, hlk]
      · rw [Nat.zero_add]
        obtain ⟨⟨name', r'⟩, hx⟩ := Option.ne_none_iff_exists'.1 (hk3 j hj)
        refine ⟨name', r', hx, fun hne => ?_⟩
        subst hne
        have := table_lookup hT _ _ (table_mem hT _ _ hx)
        rw [this] at hlk
        simp at hlk

/-- **C112.** For every archive that localedef can write (a table of prime size with a free place, filled by any
    sequence of insertions), the search ends within as many rounds as there are places and gives the record of
    the first name of the list that the archive has; if it has none of them, it says so. -/
theorem archive_lookup {es : List (List Nat × Nat)} (hT : Table n T es) (hp : n.Prime) (h2 : 2 < n)
    (hl : es.length < n) (h : Holds file off n T) (fuel : Nat) (hf : n ≤ fuel) (list : List (List Nat))
    (hb : ∀ e ∈ list, ∀ c ∈ e, c < 256) :
    findRecord file fuel list = .ok (match list.findSome? (fun e => es.lookup e) with
      | some r => .found r
      | none => .null) := by
  have h1 := h.size
  have h3 := h.inside
  unfold findRecord
  rw [if_neg (by have := h.header; omega), rd32_at h.offset (by omega), Res.ok_bind, rd32_at h.count (by omega), Res.ok_bind,
    if_neg (by omega)]
  exact names_spec h hT hp h2 hl fuel hf list hb

/-- **C112.** The bytes of a category are those its record points to. -/
theorem archive_category {es : List (List Nat × Nat)} (hT : Table n T es) (hp : n.Prime) (h2 : 2 < n)
    (hl : es.length < n) (h : Holds file off n T) (fuel : Nat) (hf : n ≤ fuel) (list : List (List Nat))
    (hb : ∀ e ∈ list, ∀ c ∈ e, c < 256) (r : Nat) (hr : list.findSome? (fun e => es.lookup e) = some r)
    (cat o : Nat) (bs : List Nat) (ho : 0 < o) (hbs : bs ≠ [])
    (hw : At file (r + 4 + 8 * cat) (le32 o ++ le32 bs.length)) (hat : At file o bs) :
    category file fuel list cat = .ok (some bs) := by
  have h1 := h.size
  have h3 := hat.le
  have hpos : 0 < bs.length := List.length_pos_iff.2 hbs
  obtain ⟨hw1, hw2⟩ := hw.append
  obtain ⟨b, hd⟩ := hat.drop
  unfold category
  rw [archive_lookup hT hp h2 hl h fuel hf list hb, hr]
  simp only [Res.ok_bind]
  rw [rd32_at hw1 (by omega), Res.ok_bind, show r + 4 + 8 * cat + 4 = r + 4 + 8 * cat + (le32 o).length from rfl,
    rd32_at hw2 (by omega), Res.ok_bind, if_neg (by omega), if_neg (by omega), if_neg (by omega), hd, List.take_left]

/-! ## No access outside the file -/

theorem probe_safe (file : List Nat) (off n : Nat) (h2 : 2 < n) (hn : n < 2 ^ 32) (hin : off + 12 * n ≤ file.length)
    (e : List Nat) (hash incr : Nat) (hi : incr < n) (fuel : Nat) : ∀ idx, idx < n →
    ∃ o, probe file off n e hash incr fuel idx = .ok o ∧
      ∀ r, o = .found r → 108 ≤ file.length → file.length < 2 ^ 64 → r + 108 ≤ file.length := by
  induction fuel with
  | zero => exact fun idx _ => ⟨_, rfl, by simp⟩
  | succ fuel ih =>
    intro idx hidx
    obtain ⟨p, hp⟩ := rd32_ok (file := file) (o := off + 12 * idx + 4) (by omega)
    obtain ⟨q, hq⟩ := rd32_ok (file := file) (o := off + 12 * idx) (by omega)
    obtain ⟨r, hr⟩ := rd32_ok (file := file) (o := off + 12 * idx + 8) (by omega)
    rw [probe, hp, Res.ok_bind]
    split
    · exact ⟨_, rfl, by simp⟩
    · split
      · exact ⟨_, rfl, by simp⟩
      · rw [hq, Res.ok_bind]
        split
        · rw [hr, Res.ok_bind]
          split
          · exact ⟨_, rfl, by simp⟩
          · split
            · exact ⟨_, rfl, by simp⟩
            · rename_i hx
              refine ⟨_, rfl, fun r' he h108 h64 => ?_⟩
              cases he
              rw [show file.length + (2 ^ 64 - 108) = (file.length - 108) + 2 ^ 64 by omega, Nat.add_mod_right,
                Nat.mod_eq_of_lt (by omega)] at hx
              omega
        · refine ih _ ?_
          have : (idx + incr) % 2 ^ 32 < 2 * n := by
            have := Nat.mod_le (idx + incr) (2 ^ 32)
            omega
          split <;> omega

theorem names_safe (file : List Nat) (off n : Nat) (h2 : 2 < n) (hn : n < 2 ^ 32) (hin : off + 12 * n ≤ file.length)
    (fuel : Nat) (list : List (List Nat)) : ∃ o, names file off n fuel list = .ok o ∧
      ∀ r, o = .found r → 108 ≤ file.length → file.length < 2 ^ 64 → r + 108 ≤ file.length := by
  induction list with
  | nil => exact ⟨_, rfl, by simp⟩
  | cons e list ih =>
    have hm : nameHash e % (n - 2) < n - 2 := Nat.mod_lt _ (by omega)
    obtain ⟨o, h1, h3⟩ := probe_safe file off n h2 hn hin e (nameHash e) (1 + nameHash e % (n - 2)) (by omega) fuel
      (nameHash e % n) (Nat.mod_lt _ (by omega))
    rw [names, h1, Res.ok_bind]
    cases o with
    | next => exact ih
    | null => exact ⟨_, rfl, h3⟩
    | found r => exact ⟨_, rfl, h3⟩
    | running => exact ⟨_, rfl, h3⟩

theorem rd32_lt {file : List Nat} {o v : Nat} (hb : ∀ c ∈ file, c < 256) (h : rd32 file o = .ok v) : v < 2 ^ 32 := by
  unfold rd32 at h
  split at h
  · rename_i a b c d he
    have hm : ∀ x ∈ [a, b, c, d], x < 256 := fun x hx => hb x (List.mem_of_mem_drop (List.mem_of_mem_take (he ▸ hx)))
    simp only [Res.ok.injEq] at h
    have h1 := hm a (by simp)
    have h2 := hm b (by simp)
    have h3 := hm c (by simp)
    have h4 := hm d (by simp)
    omega
  · simp at h

/-- **C112.** Whatever bytes a file has, however short it is, the search for a record never reads outside of it. -/
theorem findRecord_safe (file : List Nat) (hb : ∀ c ∈ file, c < 256) (fuel : Nat) (list : List (List Nat)) :
    ∃ o, findRecord file fuel list = .ok o := by
  unfold findRecord
  split
  · exact ⟨_, rfl⟩
  · obtain ⟨off, ho⟩ := rd32_ok (file := file) (o := 8) (by omega)
    obtain ⟨n, hn⟩ := rd32_ok (file := file) (o := 16) (by omega)
    have hn' := rd32_lt hb hn
    rw [ho, Res.ok_bind, hn, Res.ok_bind]
    split
    · exact ⟨_, rfl⟩
    · obtain ⟨o, h1, -⟩ := names_safe file off n (by omega) hn' (by omega) fuel list
      exact ⟨o, h1⟩

/-- A file of 17 bytes. -/
example : findRecord (List.replicate 17 1) 5 [[67]] = .ok .null := by decide

/-- **C112.** Whatever bytes a file of at least 108 bytes has, the search for a category never reads outside the
    file.  Missing: shorter files, `archive_safe_violated`. -/
theorem archive_safe_partial (file : List Nat) (hb : ∀ c ∈ file, c < 256) (h108 : 108 ≤ file.length)
    (h64 : file.length < 2 ^ 64) (fuel : Nat) (list : List (List Nat)) (cat : Nat) (hc : cat ≤ 12) :
    ∃ o, category file fuel list cat = .ok o := by
  obtain ⟨off, ho⟩ := rd32_ok (file := file) (o := 8) (by omega)
  obtain ⟨n, hn⟩ := rd32_ok (file := file) (o := 16) (by omega)
  have hn' := rd32_lt hb hn
  unfold category findRecord
  rw [if_neg (by omega), ho, Res.ok_bind, hn, Res.ok_bind]
  split
  · exact ⟨_, rfl⟩
  · obtain ⟨o, h1, h2⟩ := names_safe file off n (by omega) hn' (by omega) fuel list
    rw [h1, Res.ok_bind]
    cases o with
    | found r =>
      have hr := h2 r rfl h108 h64
      obtain ⟨x, hx⟩ := rd32_ok (file := file) (o := r + 4 + 8 * cat) (by omega)
      obtain ⟨y, hy⟩ := rd32_ok (file := file) (o := r + 4 + 8 * cat + 4) (by omega)
      simp only [hx, hy, Res.ok_bind]
      split
      · exact ⟨_, rfl⟩
      · split
        · exact ⟨_, rfl⟩
        · rw [if_neg (by omega)]
          exact ⟨_, rfl⟩
    | next => exact ⟨_, rfl⟩
    | null => exact ⟨_, rfl⟩
    | running => exact ⟨_, rfl⟩

/-! ## The fields of a category -/

theorem At.embed {xs bs : List Nat} {p : Nat} (h : At xs p bs) (a b : List Nat) : At (a ++ xs ++ b) (a.length + p) bs := by
  obtain ⟨c, d, h1, h2⟩ := h
  exact ⟨a ++ c, d ++ b, by simp [h1], by simp [h2]⟩

theorem At.refl (xs : List Nat) : At xs 0 xs := ⟨[], [], by simp, rfl⟩

theorem at_words (ps : List Nat) : ∀ i p, ps[i]? = some p → At (ps.map le32).flatten (4 * i) (le32 p) := by
  induction ps with
  | nil => intro i p h; simp at h
  | cons q ps ih =>
    intro i p h
    cases i with
    | zero =>
      simp only [List.getElem?_cons_zero, Option.some.injEq] at h
      subst h
      exact ⟨[], (ps.map le32).flatten, by simp, rfl⟩
    | succ i =>
      simp only [List.getElem?_cons_succ] at h
      have := (ih i p h).embed (le32 q) []
      simp only [List.append_nil, le32_length] at this
      rw [show 4 * (i + 1) = 4 + 4 * i by omega]
      exact this

theorem at_field (fs : List (List Nat)) : ∀ (i : Nat) f, fs[i]? = some f → At fs.flatten (fs.take i).flatten.length f := by
  induction fs with
  | nil => intro i p h; simp at h
  | cons g fs ih =>
    intro i p h
    cases i with
    | zero =>
      simp only [List.getElem?_cons_zero, Option.some.injEq] at h
      subst h
      exact ⟨[], fs.flatten, by simp, rfl⟩
    | succ i =>
      simp only [List.getElem?_cons_succ] at h
      have := (ih i p h).embed g []
      simp only [List.append_nil] at this
      simpa using this

theorem positions_length (fs : List (List Nat)) : ∀ p, (positions p fs).length = fs.length := by
  induction fs with
  | nil => intro p; rfl
  | cons f fs ih => intro p; simp [positions, ih]

theorem positions_get (fs : List (List Nat)) : ∀ p i, (positions p fs)[i]? =
    (fs[i]?).map (fun _ => p + (fs.take i).flatten.length) := by
  induction fs with
  | nil => intro p i; simp [positions]
  | cons f fs ih =>
    intro p i
    cases i with
    | zero => simp [positions]
    | succ i => simp [positions, ih, Nat.add_assoc]

theorem mapM_ok {f : Nat → Res Nat} {g : Nat → Nat} (l : List Nat) (h : ∀ x ∈ l, f x = .ok (g x)) :
    l.mapM f = .ok (l.map g) := by
  induction l with
  | nil => rfl
  | cons a l ih =>
    rw [List.mapM_cons, h a (by simp), Res.ok_bind, ih (fun x hx => h x (by simp [hx]))]
    rfl

theorem words_length (ps : List Nat) : ((ps.map le32).flatten).length = 4 * ps.length := by
  induction ps with
  | nil => rfl
  | cons p ps ih => simp [ih, le32]; omega

theorem record_length (cat : Nat) (fs : List (List Nat)) :
    (record cat fs).length = 8 + 4 * fs.length + fs.flatten.length := by
  simp only [record, List.length_append, le32_length, words_length, positions_length]

theorem magic_eq {cat : Nat} (hc : cat ≤ 12) (h6 : cat ≠ 6) : categoryMagic cat = magicOf cat := by
  have : ∀ c, c ≤ 12 → c ≠ 6 → categoryMagic c = magicOf c := by decide
  exact this cat hc h6

theorem magic_lt (cat : Nat) : magicOf cat < 2 ^ 32 := by
  unfold magicOf
  split <;> decide

theorem offsets_record {cat : Nat} (hc : cat ≤ 12) (h6 : cat ≠ 6) (fs : List (List Nat))
    (hl : (record cat fs).length < 2 ^ 32) :
    offsets cat (record cat fs) = .ok (some (positions (8 + 4 * fs.length) fs)) := by
  have hlen := record_length cat fs
  have a0 : At (record cat fs) 0 (le32 (magicOf cat)) := ⟨[], _, by unfold record; simp only [List.append_assoc, List.nil_append]; rfl, rfl⟩
  have a1 : At (record cat fs) 4 (le32 fs.length) :=
    ⟨le32 (magicOf cat), _, by unfold record; simp only [List.append_assoc]; rfl, rfl⟩
  unfold offsets
  rw [if_neg (by omega), rd32_at a0 (magic_lt cat), Res.ok_bind, if_neg (by simp [magic_eq hc h6]),
    rd32_at a1 (by omega), Res.ok_bind, if_neg (by omega)]
  have hm : (List.range fs.length).mapM (fun i => rd32 (record cat fs) (8 + 4 * i)) =
      .ok ((List.range fs.length).map (fun i => (positions (8 + 4 * fs.length) fs)[i]?.getD 0)) := by
    refine mapM_ok _ (fun i hi => ?_)
    have hi := List.mem_range.1 hi
    have hg := positions_get fs (8 + 4 * fs.length) i
    rw [List.getElem?_eq_getElem hi, Option.map_some] at hg
    have ha := ((at_words _ i _ hg).embed (le32 (magicOf cat) ++ le32 fs.length) fs.flatten)
    have hle : (fs.take i).flatten.length ≤ fs.flatten.length := by
      conv => rhs; rw [← List.take_append_drop i fs]
      rw [List.flatten_append, List.length_append]
      omega
    rw [hg]
    refine rd32_at (v := 8 + 4 * fs.length + (fs.take i).flatten.length) ?_ (by omega)
    exact ha
  rw [hm, Res.ok_bind]
  congr 2
  refine List.ext_getElem? (fun i => ?_)
  by_cases hi : i < fs.length
  · have : i < (positions (8 + 4 * fs.length) fs).length := by rw [positions_length]; exact hi
    simp [hi, List.getElem?_eq_getElem this]
  · rw [List.getElem?_eq_none (by simp; omega), List.getElem?_eq_none (by rw [positions_length]; omega)]

theorem field_record {cat : Nat} (fs : List (List Nat)) (hl : (record cat fs).length < 2 ^ 32) (i : Nat) (f : List Nat)
    (hf : fs[i]? = some f) : field (record cat fs) (positions (8 + 4 * fs.length) fs) i = some f := by
  have hlen := record_length cat fs
  have ha : At (record cat fs) (8 + 4 * fs.length + (fs.take i).flatten.length) f := by
    have := (at_field fs i f hf).embed (le32 (magicOf cat) ++ le32 fs.length ++
      ((positions (8 + 4 * fs.length) fs).map le32).flatten) []
    simp only [List.length_append, le32_length, words_length, positions_length, List.append_nil] at this
    exact this
  have hle := ha.le
  obtain ⟨b, hb⟩ := ha.drop
  unfold field
  rw [positions_get, hf, Option.map_some]
  dsimp only
  rw [if_neg (by omega)]
  have hi : i < fs.length := (List.getElem?_eq_some_iff.1 hf).1
  have hnext : (fs.take (i + 1)).flatten.length = (fs.take i).flatten.length + f.length := by
    rw [List.take_add_one, hf]; simp
  have hs : (match (positions (8 + 4 * fs.length) fs)[i + 1]? with
      | none => (record cat fs).length - (8 + 4 * fs.length + (fs.take i).flatten.length)
      | some o' => (o' + 2 ^ 32 - (8 + 4 * fs.length + (fs.take i).flatten.length)) % 2 ^ 32) = f.length := by
    rw [positions_get]
    cases hn : fs[i + 1]? with
    | none =>
      have : fs.length ≤ i + 1 := List.getElem?_eq_none_iff.1 hn
      have he : fs.take (i + 1) = fs := List.take_of_length_le this
      rw [he] at hnext
      show (record cat fs).length - (8 + 4 * fs.length + (fs.take i).flatten.length) = f.length
      rw [hlen, hnext]
      omega
    | some g =>
      simp only [Option.map_some, hnext]
      rw [show 8 + 4 * fs.length + ((fs.take i).flatten.length + f.length) + 2 ^ 32 -
        (8 + 4 * fs.length + (fs.take i).flatten.length) = f.length + 2 ^ 32 by omega, Nat.add_mod_right,
        Nat.mod_eq_of_lt (by omega)]
  rw [hs, if_neg (by omega), hb, List.take_left]

/-- **C112.** Whatever the positions in a record are, a field is the bytes from its position to that of the next (the last one: to the end),
    all of them inside the record; it is left out if they are not. -/
theorem field_exact (rec os : List Nat) (hl : rec.length < 2 ^ 32) (ho : ∀ o ∈ os, o < 2 ^ 32) (i : Nat) (f : List Nat) :
    field rec os i = some f ↔ ∃ o e, os[i]? = some o ∧ e = (os[i + 1]?).getD rec.length ∧ o ≤ e ∧ e ≤ rec.length ∧
      At rec o f ∧ f.length = e - o := by
  unfold field
  cases h1 : os[i]? with
  | none => simp
  | some o =>
    have ho1 := ho o (List.mem_of_getElem? h1)
    have step : ∀ k, (if o + k > rec.length then none else some ((rec.drop o).take k)) = some f ↔
        o + k ≤ rec.length ∧ At rec o f ∧ f.length = k := by
      intro k
      by_cases hk : o + k > rec.length
      · rw [if_pos hk]
        simp
        omega
      · rw [if_neg hk, Option.some.injEq]
        constructor
        · rintro rfl
          refine ⟨by omega, ⟨rec.take o, (rec.drop o).drop k, ?_, by simp; omega⟩, by simp; omega⟩
          rw [List.append_assoc, List.take_append_drop, List.take_append_drop]
        · rintro ⟨-, hat, rfl⟩
          obtain ⟨b, hb⟩ := hat.drop
          rw [hb, List.take_left]
    dsimp only
    by_cases h3 : o > rec.length
    · rw [if_pos h3]
      constructor
      · intro h
        exact absurd h (by simp)
      · rintro ⟨o2, e, h, -, h5, h6, -⟩
        have : o = o2 := by simpa using h
        omega
    · rw [if_neg h3]
      refine (step _).trans ?_
      cases h2 : os[i + 1]? with
      | none =>
        simp only [Option.getD_none]
        constructor
        · rintro ⟨-, a, b⟩
          exact ⟨o, _, rfl, rfl, by omega, by omega, a, b⟩
        · rintro ⟨o2, e, h, rfl, -, -, a, b⟩
          have : o = o2 := by simpa using h
          subst this
          exact ⟨by omega, a, b⟩
      | some o' =>
        have ho2 := ho o' (List.mem_of_getElem? h2)
        simp only [Option.getD_some]
        constructor
        · rintro ⟨h, a, b⟩
          exact ⟨o, _, rfl, rfl, by omega, by omega, a, by omega⟩
        · rintro ⟨o2, e, h, rfl, h5, h6, a, b⟩
          have : o = o2 := by simpa using h
          subst this
          exact ⟨by omega, a, by omega⟩

example : field [1, 2, 3, 4, 5, 6] [2, 4] 0 = some [3, 4] ∧ field [1, 2, 3, 4, 5, 6] [2, 4] 1 = some [5, 6] ∧
    field [1, 2, 3, 4, 5, 6] [2, 9] 0 = none ∧ field [1, 2, 3, 4, 5, 6] [4, 2] 0 = none := by decide

theorem takeWhile_text {s pad : List Nat} (h : 0 ∉ s) : (s ++ 0 :: pad).takeWhile (· ≠ 0) = s := by
  have := takeWhile_name (b := pad) h
  simpa using this

theorem dropWhile_text {s pad : List Nat} (h : 0 ∉ s) : (s ++ 0 :: pad).dropWhile (· ≠ 0) = 0 :: pad := by
  have h1 := List.takeWhile_append_dropWhile (p := fun x => decide (x ≠ 0)) (l := s ++ 0 :: pad)
  rw [takeWhile_text h] at h1
  exact List.append_cancel_left h1

theorem toWords_le32 (ws : List Nat) (h : ∀ w ∈ ws, w < 2 ^ 32) : toWords (ws.map le32).flatten = ws := by
  induction ws with
  | nil => rfl
  | cons w ws ih =>
    simp only [List.map_cons, List.flatten_cons, le32, List.cons_append, List.nil_append, toWords]
    rw [le32_value (h w (by simp)), ih (fun w hw => h w (by simp [hw]))]

/-- Strings, each with its NUL. -/
theorem skip_must (ss : List (List Nat)) : ∀ a rest, (∀ s ∈ ss, s ≠ [] ∧ 0 ∉ s) → a < ss.length →
    skipStrings true a ((ss.map (· ++ [0])).flatten ++ rest) = some (((ss.take a).map (· ++ [0])).flatten.length) := by
  induction ss with
  | nil => intro a rest _ h; simp at h
  | cons s ss ih =>
    intro a rest hs ha
    cases a with
    | zero => simp [skipStrings]
    | succ a =>
      have ⟨h1, h2⟩ := hs s (by simp)
      have ha' : a < ss.length := by simpa using ha
      have e : ((s :: ss).map (· ++ [0])).flatten ++ rest = s ++ 0 :: ((ss.map (· ++ [0])).flatten ++ rest) := by simp
      rw [e, skipStrings, dropWhile_text h2, takeWhile_text h2]
      have ed : (s ++ 0 :: ((ss.map (· ++ [0])).flatten ++ rest)).drop (s.length + 1) = (ss.map (· ++ [0])).flatten ++ rest := by
        rw [← List.drop_drop, List.drop_left]; rfl
      simp only [ed, Bool.not_true, Bool.false_and, Bool.true_and]
      cases ss with
      | nil => simp at ha'
      | cons t ss =>
        have ⟨h3, h4⟩ := hs t (by simp)
        cases t with
        | nil => exact absurd rfl h3
        | cons c t =>
          have hc : c ≠ 0 := fun h => h4 (by simp [h])
          rw [if_neg (by simp), if_neg (by simp), if_neg (by simp [hc]), ih a rest (fun s hs' => hs s (by simp [hs'])) ha']
          simp [Nat.add_comm]
          omega

theorem skip_may (ss : List (List Nat)) : ∀ m pad, (∀ s ∈ ss, s ≠ [] ∧ 0 ∉ s) → ss.length ≤ m →
    skipStrings false m ((ss.map (· ++ [0])).flatten ++ 0 :: pad) = some ((ss.map (· ++ [0])).flatten.length) := by
  induction ss with
  | nil => intro m pad _ _; cases m <;> simp [skipStrings]
  | cons s ss ih =>
    intro m pad hs hm
    cases m with
    | zero => simp at hm
    | succ m =>
      have ⟨h1, h2⟩ := hs s (by simp)
      have e : ((s :: ss).map (· ++ [0])).flatten ++ 0 :: pad = s ++ 0 :: ((ss.map (· ++ [0])).flatten ++ 0 :: pad) := by simp
      rw [e, skipStrings, dropWhile_text h2, takeWhile_text h2]
      have ed : (s ++ 0 :: ((ss.map (· ++ [0])).flatten ++ 0 :: pad)).drop (s.length + 1) =
          (ss.map (· ++ [0])).flatten ++ 0 :: pad := by
        rw [← List.drop_drop, List.drop_left]; rfl
      cases s with
      | nil => exact absurd rfl h1
      | cons c s =>
        have hc : c ≠ 0 := fun h => h2 (by simp [h])
        simp only [ed]
        rw [if_neg (by simp [hc]), if_neg (by simp), if_neg (by simp), ih m pad (fun s hs' => hs s (by simp [hs'])) (by simpa using hm)]
        simp [Nat.add_comm]
        omega

theorem strList_parse (a b : Nat) (ss : List (List Nat)) (pad : List Nat) (h1 : a < ss.length) (h2 : ss.length ≤ b)
    (hs : ∀ s ∈ ss, s ≠ [] ∧ 0 ∉ s) :
    parseStringList a b ((ss.map (· ++ [0])).flatten ++ 0 :: pad) = (ss.map (· ++ [0])).flatten ++ [0] := by
  have e : (ss.map (· ++ [0])).flatten ++ 0 :: pad =
      ((ss.take a).map (· ++ [0])).flatten ++ (((ss.drop a).map (· ++ [0])).flatten ++ 0 :: pad) := by
    conv => lhs; rw [← List.take_append_drop a ss]
    simp only [List.map_append, List.flatten_append, List.append_assoc]
  have e2 : ((ss.take a).map (· ++ [0])).flatten.length + ((ss.drop a).map (· ++ [0])).flatten.length =
      (ss.map (· ++ [0])).flatten.length := by
    conv => rhs; rw [← List.take_append_drop a ss]
    simp only [List.map_append, List.flatten_append, List.length_append]
  unfold parseStringList
  rw [skip_must ss a _ hs h1]
  dsimp only
  have ed : ((ss.map (· ++ [0])).flatten ++ 0 :: pad).drop ((ss.take a).map (· ++ [0])).flatten.length =
      ((ss.drop a).map (· ++ [0])).flatten ++ 0 :: pad := by
    rw [e, List.drop_left]
  rw [ed, skip_may (ss.drop a) (b - a) pad (fun s h => hs s (List.mem_of_mem_drop h)) (by simp; omega)]
  dsimp only
  rw [e2, List.drop_left, if_pos (by rfl)]
  generalize (ss.map (· ++ [0])).flatten = X
  rw [show X ++ 0 :: pad = X ++ [0] ++ pad by simp, show X.length + 1 = (X ++ [0]).length by simp, List.take_left]

theorem parse_means {k : Kind} {f : List Nat} {v : Value} (h : Means k f v)
    (hs : ∀ a b t, k = .strList a b → v = .text t → a + 1 < t.count 0) : k.parse f = some v := by
  cases h with
  | @str s pad h0 =>
    simp only [Kind.parse, takeWhile_text h0]
    rw [Nat.min_eq_left (by simp), show s ++ 0 :: pad = s ++ [0] ++ pad by simp]
    rw [show s.length + 1 = (s ++ [0]).length by simp, List.take_left]
  | bytes h0 => simp only [Kind.parse, takeWhile_text h0]
  | raw => rfl
  | words h1 h2 => simp only [Kind.parse, toWords_le32 _ h2, List.take_of_length_le h1]
  | small h0 =>
    simp only [Kind.parse]
    rw [if_neg (by omega)]
  | missing => rfl
  | word h0 => simp only [Kind.parse, le32, List.cons_append, le32_value h0]
  | byte h0 => rfl
  | @strList a b ss pad h1 h2 h3 h4 =>
    have := hs a b _ rfl rfl
    have hcount : ((ss.map (· ++ [0])).flatten ++ [0]).count 0 = ss.length + 1 := by
      clear h1 h2 h3 this hs
      induction ss with
      | nil => rfl
      | cons s ss ih =>
        have := ih (fun s hs => h4 s (by simp [hs]))
        simp only [List.map_cons, List.flatten_cons, List.append_assoc, List.count_append] at this ⊢
        have hz : s.count 0 = 0 := List.count_eq_zero.2 (h4 s (by simp)).2
        simp [hz] at this ⊢
        omega
    rw [hcount] at this
    simp only [Kind.parse, strList_parse a b ss pad (by omega) h2 h4]

theorem kinds_layout {cat : Nat} (hc : cat ≤ 12) (h6 : cat ≠ 6) (i : Nat) : (kinds cat)[i]? = layout cat i := by
  have hs : ∀ c ∈ [0, 1, 2, 3, 4, 5, 7, 8, 9, 10, 11, 12], ∀ j < 88, (kinds c)[j]? = layout c j := by decide +kernel
  have hm : cat ∈ [0, 1, 2, 3, 4, 5, 7, 8, 9, 10, 11, 12] := by simp; omega
  by_cases hi : i < 88
  · exact hs cat hm i hi
  · have hk : ∀ c ∈ [0, 1, 2, 3, 4, 5, 7, 8, 9, 10, 11, 12], (kinds c).length ≤ 88 := by decide
    rw [List.getElem?_eq_none (by have := hk cat hm; omega)]
    clear hs hk hc h6
    simp only [List.mem_cons, List.not_mem_nil, or_false] at hm
    rcases hm with rfl | rfl | rfl | rfl | rfl | rfl | rfl | rfl | rfl | rfl | rfl | rfl <;>
      simp only [layout] <;> repeat rw [if_neg (by omega)]

/-- **C112.** Every field of a category that localedef wrote is read back with its value.  Missing: a list of
    strings with as few members as are required, `strList_violated`. -/
theorem category_fields_partial {cat : Nat} (hc : cat ≤ 12) (h6 : cat ≠ 6) (fs : List (List Nat))
    (hl : (record cat fs).length < 2 ^ 32) :
    ∃ ms, members cat (record cat fs) = .ok (some ms) ∧
      ∀ (i : Nat) (k : Kind) (f : List Nat) (v : Value), layout cat i = some k → fs[i]? = some f → Means k f v →
        (∀ a b t, k = .strList a b → v = .text t → a + 1 < t.count 0) → ms[i]? = some (some v) := by
  refine ⟨_, by unfold members; rw [offsets_record hc h6 fs hl, Res.ok_bind], fun i k f v hk hf hm hs => ?_⟩
  rw [List.getElem?_map, List.getElem?_zipIdx, kinds_layout hc h6, hk]
  simp only [Option.map_some, Nat.zero_add, field_record fs hl i f hf, Option.bind_some, parse_means hm hs]

/-- **C112.** Whatever the bytes of a category, a field of numbers gives no more of them than the array that they
    are stored in has room for. -/
theorem words_bounded {cat : Nat} (hc : cat ≤ 12) (h6 : cat ≠ 6) (rec : List Nat) (ms : List (Option Value))
    (h : members cat rec = .ok (some ms)) (i m : Nat) (ws : List Nat) (hk : layout cat i = some (.words m))
    (hi : ms[i]? = some (some (.words ws))) : ws.length ≤ m := by
  unfold members at h
  cases ho : offsets cat rec with
  | ub => rw [ho] at h; cases h
  | panic => rw [ho] at h; cases h
  | ok os =>
    rw [ho, Res.ok_bind] at h
    cases os with
    | none => cases h
    | some os =>
      injection h with h
      injection h with h
      rw [← h, List.getElem?_map, List.getElem?_zipIdx, kinds_layout hc h6, hk] at hi
      simp only [Option.map_some, Nat.zero_add] at hi
      cases hf : field rec os i with
      | none => rw [hf] at hi; simp at hi
      | some d =>
        rw [hf] at hi
        simp only [Option.bind_some, Kind.parse, Option.some.injEq, Value.words.injEq] at hi
        rw [← hi, List.length_take]
        omega

/-- Two capital letters in LC_CTYPE. -/
example : (match members 0 (record 0 ([0] :: (le32 65 ++ le32 66) :: List.replicate 86 [0])) with
    | .ok (some ms) => decide (ms[1]? = some (some (.words [65, 66])))
    | _ => false) = true ∧ layout 0 1 = some (.words 384) := by decide +kernel

/-- **C112.** Reading the fields of a category, whatever its bytes, stays inside them, and a field that is
    assigned is a part of them. -/
theorem members_safe (cat : Nat) (rec : List Nat) : ∃ o, members cat rec = .ok o := by
  unfold members
  have : ∃ o, offsets cat rec = .ok o := by
    unfold offsets
    split
    · exact ⟨_, rfl⟩
    · obtain ⟨m, hm⟩ := rd32_ok (file := rec) (o := 0) (by omega)
      rw [hm, Res.ok_bind]
      split
      · exact ⟨_, rfl⟩
      · obtain ⟨n, hn⟩ := rd32_ok (file := rec) (o := 4) (by omega)
        rw [hn, Res.ok_bind]
        split
        · exact ⟨_, rfl⟩
        · have : ∃ g : Nat → Nat, ∀ x ∈ List.range n, rd32 rec (8 + 4 * x) = .ok (g x) := by
            refine ⟨fun x => match rd32 rec (8 + 4 * x) with | .ok v => v | _ => 0, fun x hx => ?_⟩
            have hx := List.mem_range.1 hx
            obtain ⟨v, hv⟩ := rd32_ok (file := rec) (o := 8 + 4 * x) (by omega)
            simp only [hv]
          obtain ⟨g, hg⟩ := this
          rw [mapM_ok _ hg]
          exact ⟨_, rfl⟩
  obtain ⟨o, ho⟩ := this
  rw [ho, Res.ok_bind]
  cases o <;> exact ⟨_, rfl⟩

/-! ## An archive -/

/-- The fourteen words of a header: a table of three places at 56. -/
def exampleHeader : List Nat :=
  ([0xde020109, 0, 56, 1, 3, 92, 4, 4, 96, 1, 1, 0, 0, 0].map le32).flatten

/-- An archive with the locale "a", which has a category LC_MEASUREMENT: the number 1 and the text "U". -/
def exampleArchive : List Nat :=
  exampleHeader ++ ([609, 92, 96, 0, 0, 0, 0, 0, 0].map le32).flatten ++ [97, 0, 0, 0] ++
    (([1] ++ List.replicate 22 0 ++ [204, 19] ++ [0, 0]).map le32).flatten ++ record 11 [[1], [85, 0]]

/-- The table of `exampleArchive`. -/
def exampleTable : Nat → Option (List Nat × Nat) :=
  fun i => if i = place 3 [97] 0 then some ([97], 96) else none

theorem example_table : Table 3 exampleTable [([97], 96)] :=
  .add [97] 96 0 .empty (by simp) (by simp) rfl

theorem example_holds : Holds exampleArchive 56 3 exampleTable where
  size := by decide +kernel
  header := by decide +kernel
  offset := ⟨exampleArchive.take 8, exampleArchive.drop 12, by decide +kernel, by decide +kernel⟩
  count := ⟨exampleArchive.take 16, exampleArchive.drop 20, by decide +kernel, by decide +kernel⟩
  inside := by decide +kernel
  free i hi ht := by
    have : i = 1 ∨ i = 2 := by
      have h0 : i ≠ 0 := by rintro rfl; revert ht; decide +kernel
      omega
    rcases this with rfl | rfl
    · exact ⟨exampleArchive.take 72, exampleArchive.drop 76, by decide +kernel, by decide +kernel⟩
    · exact ⟨exampleArchive.take 84, exampleArchive.drop 88, by decide +kernel, by decide +kernel⟩
  used i name r hi ht := by
    have h0 : i = 0 := by
      by_contra h0
      have : i = 1 ∨ i = 2 := by omega
      rcases this with rfl | rfl <;> (revert ht; rw [show exampleTable _ = none from by decide +kernel]; simp)
    subst h0
    rw [show exampleTable 0 = some ([97], 96) from by decide +kernel] at ht
    simp only [Option.some.injEq, Prod.mk.injEq] at ht
    obtain ⟨rfl, rfl⟩ := ht
    exact ⟨92, by decide +kernel, by decide +kernel, ⟨exampleArchive.take 56, exampleArchive.drop 68, by decide +kernel, by decide +kernel⟩,
      ⟨exampleArchive.take 92, exampleArchive.drop 94, by decide +kernel, by decide +kernel⟩, by decide +kernel, by decide +kernel, by decide +kernel⟩

/-- "b" is not in the archive, "a" is: its category is found, and its fields are read. -/
example : category exampleArchive 3 [[98], [97]] 11 = .ok (some (record 11 [[1], [85, 0]])) ∧
    members 11 (record 11 [[1], [85, 0]]) = .ok (some [some (.num 1), some (.text [85, 0])]) :=
  ⟨archive_category example_table (by decide +kernel) (by decide +kernel) (by decide +kernel) example_holds 3 (by decide +kernel) _ (by decide +kernel) 96 (by decide +kernel) 11
      204 _ (by decide +kernel) (by decide +kernel) ⟨exampleArchive.take 188, exampleArchive.drop 196, by decide +kernel, by decide +kernel⟩
      ⟨exampleArchive.take 204, [], by decide +kernel, by decide +kernel⟩,
    by decide +kernel⟩

example : 108 ≤ exampleArchive.length ∧ ∀ c ∈ exampleArchive, c < 256 := by decide +kernel

/-- **C112 is violated by the code**: an archive of 92 bytes, which has no room for a record, gives a record
    position outside the file: `size - sizeof(LocaleRecord)` wraps around, so that no position is too large
    (locale.cpp L401), and the record is read. -/
theorem archive_safe_violated : ∃ file : List Nat, (∀ c ∈ file, c < 256) ∧ file.length = 92 ∧
    findRecord file 1 [[97]] = .ok (.found 1000) ∧ category file 1 [[97]] 0 = .ub :=
  ⟨([0xde020109, 0, 56, 1, 3, 0, 97, 0, 0, 0, 0, 0, 0, 0].map le32).flatten ++
    ([609, 24, 1000, 0, 0, 0, 0, 0, 0].map le32).flatten, by decide +kernel, by decide +kernel, by decide +kernel, by decide +kernel⟩

/-- An archive whose table is full. -/
def fullArchive : List Nat :=
  exampleHeader ++ ([609, 92, 96, 609, 92, 96, 609, 92, 96].map le32).flatten ++ [97, 0, 0, 0] ++ List.replicate 108 0

/-- **C112 is violated by the code**: in an archive whose table has no free place the search for a name that it
    does not have never ends. -/
theorem archive_ends_violated : ∀ fuel, findRecord fullArchive fuel [[98]] = .ok .running := by
  have key : ∀ fuel idx, idx < 3 → probe fullArchive 56 3 [98] 610 1 fuel idx = .ok .running := by
    intro fuel
    induction fuel with
    | zero => intros; rfl
    | succ fuel ih =>
      intro idx hi
      have h1 : ∀ i, i < 3 → rd32 fullArchive (56 + 12 * i + 4) = .ok 92 := by decide +kernel
      have h2 : ∀ i, i < 3 → rd32 fullArchive (56 + 12 * i) = .ok 609 := by decide +kernel
      rw [probe, h1 idx hi, Res.ok_bind, if_neg (by decide +kernel), if_neg (by decide +kernel), h2 idx hi, Res.ok_bind, if_neg (by decide +kernel)]
      exact ih _ (by split <;> omega)
  intro fuel
  have h := key fuel 1 (by decide +kernel)
  unfold findRecord
  rw [if_neg (by decide +kernel), show rd32 fullArchive 8 = .ok 56 by decide +kernel, Res.ok_bind, show rd32 fullArchive 16 = .ok 3 by decide +kernel,
    Res.ok_bind, if_neg (by decide +kernel), names, show nameHash [98] = 610 by decide +kernel]
  simp only [show 1 + 610 % (3 - 2) = 1 by decide +kernel, show 610 % 3 = 1 by decide +kernel, h, Res.ok_bind]

/-- **C112 is violated by the code**: a list of strings with as few members as are required, for example the
    names of the maps "toupper" and "tolower", is read as no list at all
    (locale-archive-parsing.hpp L109-110 looks for one more string). -/
theorem strList_violated : ∃ f v, Means (.strList 2 32) f v ∧ (Kind.strList 2 32).parse f = some (.text []) ∧ v ≠ .text [] :=
  ⟨txt "toupper" ++ [0] ++ (txt "tolower" ++ [0]) ++ [0], .text (txt "toupper" ++ [0] ++ (txt "tolower" ++ [0]) ++ [0]),
    Means.strList (ss := [txt "toupper", txt "tolower"]) (pad := []) (by decide +kernel) (by decide +kernel) (by decide +kernel) (by decide +kernel), by decide +kernel, by decide +kernel⟩

/-- **C112 is violated by the code**: in a damaged category a text need not end; it becomes a member all the
    same (`ends_with("\0")` at locale-archive-parsing.hpp L213 is always true), and whoever uses it as a C string
    reads on. -/
theorem unterminated_violated : ∃ rec s, members 11 rec = .ok (some [some (.num 1), some (.text s)]) ∧ s ≠ [] ∧ 0 ∉ s :=
  ⟨record 11 [[1], [85]], [85], by decide +kernel, by decide +kernel, by decide +kernel⟩

end Mlibc.Archive
