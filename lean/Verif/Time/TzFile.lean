import Verif.Time.Tz

/-
Zones from files: parse_tzfile, unix_local_from_gmt_tzfile, and unix_local_from_gmt for such a zone (options/ansi/generic/
time.cpp L419-428, L465-541, L790-876, L881-902). A file is the list of its bytes; reading past its end is undefined (the
code reads the window it has mapped). The file exists and does not change between the two times it is read. Indices and
counts that are `int` in the code are taken as unbounded. Property C70.
-/
namespace Mlibc.TzFile
open Mlibc

/-! ## Model -/

/-- A byte of the window. -/
def byte (b : List Nat) (i : Nat) : Res Nat := match b[i]? with
  | some x => .ok x
  | none => .ub

/-- `memcpy` of four bytes and `be_to_host`. L483-489, L839-843 -/
def u32 (b : List Nat) (i : Nat) : Res Nat :=
  (byte b i).bind fun w => (byte b (i + 1)).bind fun x => (byte b (i + 2)).bind fun y => (byte b (i + 3)).bind fun z =>
  .ok (w * 16777216 + x * 65536 + y * 256 + z)

/-- The same, stored in an `int32_t`. L520, L839-843, L865 -/
def i32 (b : List Nat) (i : Nat) : Res Int :=
  (u32 b i).bind fun x => .ok (if x < 2147483648 then (x : Int) else (x : Int) - 4294967296)

/-- `struct ttinfo`: offset, flag, index of the name. L251-255, L514-520, L860-865 -/
def ttinfo (b : List Nat) (i : Nat) : Res (Int × Nat × Nat) :=
  (i32 b i).bind fun o => (byte b (i + 4)).bind fun d => (byte b (i + 5)).bind fun n => .ok (o, d, n)

/-- The string at a place. L522, L529, L874 -/
def cstr : List Nat → Res (List Nat)
  | [] => .ub
  | c :: b => if c = 0 then .ok [] else (cstr b).bind fun n => .ok (c :: n)

/-- The header: number of transitions and of types; `none` if it is not the header of a zone file. L419-428, L481-502, L808-829 -/
def header (b : List Nat) : Res (Option (Nat × Nat)) :=
  (u32 b 32).bind fun timecnt => (u32 b 36).bind fun typecnt => (u32 b 40).bind fun _ =>
  (byte b 4).bind fun version =>
  if b.take 4 ≠ [84, 90, 105, 102] then .ok none
  else if version ≠ 0 ∧ version ≠ 50 ∧ version ≠ 51 then .ok none
  else .ok (some (timecnt, typecnt))

/-- What is known after the loop over the types: name of the standard time, name of the summer time (then `daylight` is
set), offset (`-timezone`). -/
structure Info where
  std : Option (List Nat)
  dst : Option (List Nat)
  offset : Int
  deriving DecidableEq, Repr

/-- The loop over the types, from the index `typecnt` down to 1. L513-535 -/
def typeLoop (b : List Nat) (types abbrevs : Nat) : Nat → Info → Res Info
  | 0, s => .ok s
  | i + 1, s =>
    (ttinfo b (types + (i + 1) * 6)).bind fun ti =>
    (if ti.2.1 = 0 ∧ s.std = none then (cstr (b.drop (abbrevs + ti.2.2))).bind fun n => .ok { s with std := some n, offset := ti.1 }
      else .ok s).bind fun s =>
    (if ti.2.1 ≠ 0 ∧ s.dst = none then (cstr (b.drop (abbrevs + ti.2.2))).bind fun n => .ok { s with dst := some n, offset := ti.1 }
      else .ok s).bind fun s =>
    if s.std ≠ none ∧ s.dst ≠ none then .ok s else typeLoop b types abbrevs i s

/-- `parse_tzfile`; `none` is the return value `true`. L478-541 -/
def parseFile (b : List Nat) : Res (Option Info) :=
  (header b).bind fun h => match h with
  | none => .ok none
  | some (timecnt, typecnt) =>
    if typecnt = 0 then .ok none
    else (typeLoop b (44 + timecnt * 4 + timecnt) (44 + timecnt * 4 + timecnt + typecnt * 6) typecnt ⟨none, none, 0⟩).bind fun s => .ok (some s)

/-- The search for the transition. L831-845 -/
def findLoop (b : List Nat) (t : Int) : Nat → Nat → Res (Option Nat)
  | 0, _ => .ok none
  | k + 1, i => (i32 b (44 + i * 4)).bind fun u => if i ≠ 0 ∧ u > t then .ok (some (i - 1)) else findLoop b t k (i + 1)

/-- `unix_local_from_gmt_tzfile`; `none` is the return value -1. L790-876 -/
def lookup (b : List Nat) (t : Int) : Res (Option (Int × Bool × List Nat)) :=
  (header b).bind fun h => match h with
  | none => .ok none
  | some (timecnt, typecnt) =>
    (findLoop b t timecnt 0).bind fun idx =>
    (match idx with | some j => byte b (44 + timecnt * 4 + j) | none => .ok 0).bind fun k =>
    if typecnt = 0 then .panic
    else (ttinfo b (44 + timecnt * 4 + timecnt + k * 6)).bind fun ti =>
      (cstr (b.drop (44 + timecnt * 4 + timecnt + typecnt * 6 + ti.2.2))).bind fun n => .ok (some (ti.1, decide (ti.2.1 ≠ 0), n))

/-- `unix_local_from_gmt` when TZ names a file: offset, summer time, name. L556-581, L881-902, L947-950 -/
def localOf (b : List Nat) (t : Int) : Res (Int × Bool × List Nat) :=
  (parseFile b).bind fun p => match p with
  | none => .ok (0, false, [85, 84, 67])
  | some s =>
    if s.dst ≠ none then (lookup b t).bind fun r => match r with | some r => .ok r | none => .panic
    else .ok (s.offset, false, s.std.getD [])

/-- `localtime_r` then. L935-971 -/
def localtime (b : List Nat) (t : Int) : Res (Calendar.Tm × Int × Bool × List Nat) :=
  (localOf b t).bind fun l => (Calendar.localtime l.1 t).bind fun tm => .ok (tm, l)

/-! ## Specification: the format (RFC 8536) and its meaning -/
namespace Spec

/-- What a file says. -/
structure File where
  version : Nat
  reserved : List Nat
  counts : Int × Int × Int
  /-- from when on, which type -/
  transitions : List (Int × Nat)
  /-- offset, summer time, where the name begins -/
  types : List (Int × Bool × Nat)
  names : List Nat
  /-- everything behind the names -/
  rest : List Nat

def be32 (x : Int) : List Nat :=
  [(x / 16777216 % 256).toNat, (x / 65536 % 256).toNat, (x / 256 % 256).toNat, (x % 256).toNat]

/-- The bytes of the file. -/
def File.bytes (f : File) : List Nat :=
  [84, 90, 105, 102, f.version] ++ f.reserved ++
  be32 f.counts.1 ++ be32 f.counts.2.1 ++ be32 f.counts.2.2 ++ be32 f.transitions.length ++ be32 f.types.length ++ be32 f.names.length ++
  f.transitions.flatMap (fun x => be32 x.1) ++
  f.transitions.map (·.2) ++
  f.types.flatMap (fun x => be32 x.1 ++ [if x.2.1 then 1 else 0, x.2.2]) ++
  f.names ++ f.rest

/-- A file in the format: versions 1 to 3, numbers that fit, transitions in order, types that exist. -/
structure File.Good (f : File) : Prop where
  version : f.version = 0 ∨ f.version = 50 ∨ f.version = 51
  reserved : f.reserved.length = 15
  transitions : (f.transitions.length : Int) < 4294967296
  types : f.types.length < 256
  times : ∀ x ∈ f.transitions, -2147483648 ≤ x.1 ∧ x.1 < 2147483648
  indices : ∀ x ∈ f.transitions, x.2 < f.types.length
  offsets : ∀ x ∈ f.types, -2147483648 ≤ x.1 ∧ x.1 < 2147483648
  sorted : f.transitions.Pairwise (fun x y => x.1 < y.1)
  nonempty : 0 < f.types.length

/-- The type in force at a time: that of the last transition up to then; the first type before all of them. -/
inductive InForce (f : File) (t : Int) : Nat → Prop
  | before : (∀ x ∈ f.transitions, t < x.1) → InForce f t 0
  | after {i u k} : f.transitions[i]? = some (u, k) → u ≤ t → (∀ x, f.transitions[i + 1]? = some x → t < x.1) → InForce f t k

/-- The name that begins at a place. -/
def IsName (names : List Nat) (i : Nat) (n : List Nat) : Prop := 0 ∉ n ∧ ∃ r, names.drop i = n ++ 0 :: r

/-- `Says f t off dst n`: the offset, flag and name in force at `t`. -/
def Says (f : File) (t : Int) (off : Int) (dst : Bool) (n : List Nat) : Prop :=
  ∃ k i, InForce f t k ∧ f.types[k]? = some (off, dst, i) ∧ IsName f.names i n

end Spec
open Spec

/-! ## Proof -/

theorem byte_at {b pre post : List Nat} {x i : Nat} (h : b = pre ++ x :: post) (hi : i = pre.length) : byte b i = .ok x := by
  subst h; subst hi
  unfold byte
  rw [List.getElem?_append_right (Nat.le_refl _), Nat.sub_self]
  rfl

theorem be32_length (x : Int) : (be32 x).length = 4 := rfl

theorem u32_at {b pre post : List Nat} {x : Int} {i : Nat} (h : b = pre ++ (be32 x ++ post)) (hi : i = pre.length) :
    u32 b i = .ok (x % 4294967296).toNat := by
  unfold be32 at h
  unfold u32
  rw [byte_at (pre := pre) (x := (x / 16777216 % 256).toNat) (post := (x / 65536 % 256).toNat :: (x / 256 % 256).toNat :: (x % 256).toNat :: post)
      (by rw [h]; rfl) hi,
    byte_at (pre := pre ++ [(x / 16777216 % 256).toNat]) (x := (x / 65536 % 256).toNat) (post := (x / 256 % 256).toNat :: (x % 256).toNat :: post)
      (by rw [h]; simp) (by simp [hi]),
    byte_at (pre := pre ++ [(x / 16777216 % 256).toNat, (x / 65536 % 256).toNat]) (x := (x / 256 % 256).toNat) (post := (x % 256).toNat :: post)
      (by rw [h]; simp) (by simp [hi]),
    byte_at (pre := pre ++ [(x / 16777216 % 256).toNat, (x / 65536 % 256).toNat, (x / 256 % 256).toNat]) (x := (x % 256).toNat) (post := post)
      (by rw [h]; simp) (by simp [hi])]
  simp only [Res.bind]
  congr 1
  omega

theorem i32_at {b pre post : List Nat} {x : Int} {i : Nat} (h : b = pre ++ (be32 x ++ post)) (hi : i = pre.length)
    (hx : -2147483648 ≤ x ∧ x < 2147483648) : i32 b i = .ok x := by
  unfold i32
  rw [u32_at h hi]
  simp only [Res.bind]
  split <;> · congr 1; omega

theorem split_flatMap {α : Type} (g : α → List Nat) (k : Nat) (hg : ∀ x, (g x).length = k) (l : List α) (i : Nat) (x : α) (h : l[i]? = some x) :
    ∃ p q, l.flatMap g = p ++ (g x ++ q) ∧ p.length = i * k := by
  induction l generalizing i with
  | nil => simp at h
  | cons y l ih =>
    cases i with
    | zero =>
      simp only [List.getElem?_cons_zero, Option.some.injEq] at h
      subst h
      exact ⟨[], l.flatMap g, by simp, by simp⟩
    | succ i =>
      simp only [List.getElem?_cons_succ] at h
      obtain ⟨p, q, h1, h2⟩ := ih i h
      refine ⟨g y ++ p, q, by simp [h1], ?_⟩
      rw [List.length_append, hg, h2, Nat.add_mul, Nat.one_mul, Nat.add_comm]

theorem flatMap_length {α : Type} (g : α → List Nat) (k : Nat) (hg : ∀ x, (g x).length = k) (l : List α) : (l.flatMap g).length = l.length * k := by
  induction l with
  | nil => simp
  | cons y l ih => rw [List.flatMap_cons, List.length_append, hg, ih, List.length_cons, Nat.add_mul, Nat.one_mul, Nat.add_comm]

/-- The header is 44 bytes. -/
def head (f : File) : List Nat :=
  [84, 90, 105, 102, f.version] ++ f.reserved ++
  be32 f.counts.1 ++ be32 f.counts.2.1 ++ be32 f.counts.2.2 ++ be32 f.transitions.length ++ be32 f.types.length ++ be32 f.names.length

theorem head_length {f : File} (h : f.Good) : (head f).length = 44 := by
  simp [head, be32_length, h.reserved]

def times (f : File) : List Nat := f.transitions.flatMap (fun x => be32 x.1)
def infos (f : File) : List Nat := f.types.flatMap (fun x => be32 x.1 ++ [if x.2.1 then 1 else 0, x.2.2])

theorem bytes_eq (f : File) : f.bytes = head f ++ (times f ++ (f.transitions.map (·.2) ++ (infos f ++ (f.names ++ f.rest)))) := by
  simp [File.bytes, head, times, infos]

theorem times_length (f : File) : (times f).length = f.transitions.length * 4 := flatMap_length _ 4 (fun _ => rfl) _
theorem infos_length (f : File) : (infos f).length = f.types.length * 6 := flatMap_length _ 6 (fun _ => rfl) _

theorem header_bytes {f : File} (h : f.Good) : header f.bytes = .ok (some (f.transitions.length, f.types.length)) := by
  unfold header
  have h15 := h.reserved
  have h1 : u32 f.bytes 32 = .ok f.transitions.length := by
    rw [u32_at (pre := [84, 90, 105, 102, f.version] ++ f.reserved ++ be32 f.counts.1 ++ be32 f.counts.2.1 ++ be32 f.counts.2.2)
      (x := f.transitions.length) (post := be32 f.types.length ++ be32 f.names.length ++ (times f ++ (f.transitions.map (·.2) ++ (infos f ++ (f.names ++ f.rest)))))
      (by rw [bytes_eq]; simp [head]) (by simp [be32_length, h15])]
    congr 1
    have := h.transitions
    omega
  have h2 : u32 f.bytes 36 = .ok f.types.length := by
    rw [u32_at (pre := [84, 90, 105, 102, f.version] ++ f.reserved ++ be32 f.counts.1 ++ be32 f.counts.2.1 ++ be32 f.counts.2.2 ++ be32 f.transitions.length)
      (x := f.types.length) (post := be32 f.names.length ++ (times f ++ (f.transitions.map (·.2) ++ (infos f ++ (f.names ++ f.rest)))))
      (by rw [bytes_eq]; simp [head]) (by simp [be32_length, h15])]
    congr 1
    have := h.types
    omega
  have h3 : ∃ x, u32 f.bytes 40 = .ok x := ⟨_,
    u32_at (pre := [84, 90, 105, 102, f.version] ++ f.reserved ++ be32 f.counts.1 ++ be32 f.counts.2.1 ++ be32 f.counts.2.2 ++ be32 f.transitions.length ++ be32 f.types.length)
      (x := f.names.length) (post := (times f ++ (f.transitions.map (·.2) ++ (infos f ++ (f.names ++ f.rest)))))
      (by rw [bytes_eq]; simp [head]) (by simp [be32_length, h15])⟩
  obtain ⟨x, h3⟩ := h3
  have h4 : byte f.bytes 4 = .ok f.version := by
    apply byte_at (pre := [84, 90, 105, 102]) (post := f.bytes.drop 5)
    · simp [File.bytes]
    · rfl
  rw [h1, h2, h3, h4]
  simp only [Res.bind]
  rw [if_neg (by simp [File.bytes]), if_neg (by have := h.version; omega)]

theorem time_at {f : File} (h : f.Good) {i : Nat} {x : Int × Nat} (hx : f.transitions[i]? = some x) : i32 f.bytes (44 + i * 4) = .ok x.1 := by
  obtain ⟨p, q, h1, h2⟩ := split_flatMap (fun x : Int × Nat => be32 x.1) 4 (fun _ => rfl) f.transitions i x hx
  apply i32_at (pre := head f ++ p) (post := q ++ (f.transitions.map (·.2) ++ (infos f ++ (f.names ++ f.rest))))
  · rw [bytes_eq, times, h1]; simp
  · simp [head_length h, h2]
  · exact h.times x (List.mem_of_getElem? hx)

theorem index_at {f : File} (h : f.Good) {i : Nat} {x : Int × Nat} (hx : f.transitions[i]? = some x) :
    byte f.bytes (44 + f.transitions.length * 4 + i) = .ok x.2 := by
  obtain ⟨hlt, he⟩ := List.getElem?_eq_some_iff.1 hx
  apply byte_at (pre := head f ++ (times f ++ (f.transitions.map (·.2)).take i)) (post := (f.transitions.map (·.2)).drop (i + 1) ++ (infos f ++ (f.names ++ f.rest)))
  · have hx2 : x.2 = (f.transitions.map (·.2))[i]'(by simpa using hlt) := by rw [List.getElem_map, he]
    have hsplit : f.transitions.map (·.2) = (f.transitions.map (·.2)).take i ++ x.2 :: (f.transitions.map (·.2)).drop (i + 1) := by
      rw [hx2, List.getElem_cons_drop, List.take_append_drop]
    rw [bytes_eq]
    conv => lhs; rw [hsplit]
    simp only [List.append_assoc, List.cons_append]
  · simp only [List.length_append, head_length h, times_length, List.length_take, List.length_map]
    omega

theorem info_at {f : File} (h : f.Good) {k : Nat} {x : Int × Bool × Nat} (hx : f.types[k]? = some x) :
    ttinfo f.bytes (44 + f.transitions.length * 4 + f.transitions.length + k * 6) = .ok (x.1, if x.2.1 then 1 else 0, x.2.2) := by
  obtain ⟨p, q, h1, h2⟩ := split_flatMap (fun x : Int × Bool × Nat => be32 x.1 ++ [if x.2.1 then 1 else 0, x.2.2]) 6 (fun _ => rfl) f.types k x hx
  have hb : f.bytes = (head f ++ (times f ++ (f.transitions.map (·.2) ++ p))) ++ (be32 x.1 ++ ([if x.2.1 then 1 else 0, x.2.2] ++ (q ++ (f.names ++ f.rest)))) := by
    rw [bytes_eq, infos, h1]; simp
  have hl : (head f ++ (times f ++ (f.transitions.map (·.2) ++ p))).length = 44 + f.transitions.length * 4 + f.transitions.length + k * 6 := by
    simp only [List.length_append, head_length h, times_length, List.length_map, h2]
    omega
  unfold ttinfo
  rw [i32_at hb hl.symm (h.offsets x (List.mem_of_getElem? hx)),
    byte_at (pre := (head f ++ (times f ++ (f.transitions.map (·.2) ++ p))) ++ be32 x.1) (x := if x.2.1 then 1 else 0) (post := x.2.2 :: (q ++ (f.names ++ f.rest)))
      (by rw [hb]; simp) (by rw [List.length_append, hl, be32_length]),
    byte_at (pre := (head f ++ (times f ++ (f.transitions.map (·.2) ++ p))) ++ be32 x.1 ++ [if x.2.1 then 1 else 0]) (x := x.2.2) (post := q ++ (f.names ++ f.rest))
      (by rw [hb]; simp) (by rw [List.length_append, List.length_append, hl, be32_length]; rfl)]
  rfl

theorem cstr_name {n r : List Nat} (h : 0 ∉ n) : cstr (n ++ 0 :: r) = .ok n := by
  induction n with
  | nil => simp [cstr]
  | cons c n ih =>
    simp only [List.mem_cons, not_or] at h
    simp only [List.cons_append, cstr]
    rw [if_neg (fun e => h.1 e.symm), ih h.2]
    rfl

theorem name_at {f : File} (h : f.Good) {i : Nat} {n : List Nat} (hn : IsName f.names i n) :
    cstr (f.bytes.drop (44 + f.transitions.length * 4 + f.transitions.length + f.types.length * 6 + i)) = .ok n := by
  obtain ⟨h0, r, hr⟩ := hn
  have hi : i ≤ f.names.length := by
    rcases Nat.lt_or_ge f.names.length i with h' | h'
    · rw [List.drop_eq_nil_of_le (by omega)] at hr
      simp at hr
    · exact h'
  have : f.bytes.drop (44 + f.transitions.length * 4 + f.transitions.length + f.types.length * 6 + i) = n ++ 0 :: (r ++ f.rest) := by
    rw [show f.bytes = (head f ++ (times f ++ (f.transitions.map (·.2) ++ infos f))) ++ (f.names ++ f.rest) by rw [bytes_eq]; simp,
      show 44 + f.transitions.length * 4 + f.transitions.length + f.types.length * 6 + i
        = (head f ++ (times f ++ (f.transitions.map (·.2) ++ infos f))).length + i by
          simp only [List.length_append, head_length h, times_length, infos_length, List.length_map]; omega,
      ← List.drop_drop, List.drop_left, List.drop_append_of_le_length hi, hr]
    simp
  rw [this, cstr_name h0]

theorem findLoop_found {f : File} (h : f.Good) (t : Int) {i : Nat} {u u' : Int} {k k' : Nat} (h1 : f.transitions[i]? = some (u, k)) (h2 : u ≤ t)
    (h3 : f.transitions[i + 1]? = some (u', k')) (h4 : t < u') (m j : Nat) (hj : j ≤ i + 1) (hm : j + m = f.transitions.length) :
    findLoop f.bytes t m j = .ok (some i) := by
  induction m generalizing j with
  | zero =>
    have := (List.getElem?_eq_some_iff.1 h3).1
    omega
  | succ m ih =>
    have hlt : j < f.transitions.length := by omega
    have hx : f.transitions[j]? = some f.transitions[j] := List.getElem?_eq_getElem hlt
    simp only [findLoop]
    rw [time_at h hx]
    simp only [Res.bind]
    by_cases he : j = i + 1
    · subst he
      rw [h3] at hx
      injection hx with hx
      rw [if_pos ⟨by omega, by rw [← hx]; exact h4⟩]
      rfl
    · rw [if_neg, ih (j + 1) (by omega) (by omega)]
      rintro ⟨-, hgt⟩
      obtain ⟨hli, hei⟩ := List.getElem?_eq_some_iff.1 h1
      have : f.transitions[j].1 ≤ u := by
        rcases Nat.lt_or_ge j i with hji | hji
        · have := List.pairwise_iff_getElem.1 h.sorted j i hlt hli hji
          rw [hei] at this
          exact Int.le_of_lt this
        · have : j = i := by omega
          subst this
          rw [hei]
          exact Int.le_refl _
      omega

/-- From the first transition on and up to the last one, the lookup says what the file says. -/
theorem lookup_partial {f : File} (h : f.Good) (t : Int) (h1 : ∃ x ∈ f.transitions, x.1 ≤ t) (h2 : ∃ x ∈ f.transitions, t < x.1)
    {off : Int} {dst : Bool} {n : List Nat} (hs : Says f t off dst n) : lookup f.bytes t = .ok (some (off, dst, n)) := by
  obtain ⟨k, idx, hk, ht, hn⟩ := hs
  cases hk with
  | before hb =>
    obtain ⟨x, hx, hle⟩ := h1
    have := hb x hx
    omega
  | @after i u k hi hu hnext =>
    have hnx : ∃ x, f.transitions[i + 1]? = some x := by
      rcases Nat.lt_or_ge (i + 1) f.transitions.length with hlt | hge
      · exact ⟨_, List.getElem?_eq_getElem hlt⟩
      · exfalso
        obtain ⟨x, hx, hgt⟩ := h2
        obtain ⟨j, hj, he⟩ := List.mem_iff_getElem.1 hx
        obtain ⟨hli, hei⟩ := List.getElem?_eq_some_iff.1 hi
        rcases Nat.lt_or_ge j i with hji | hji
        · have := List.pairwise_iff_getElem.1 h.sorted j i hj hli hji
          rw [he, hei] at this
          have : x.1 < u := this
          omega
        · have : j = i := by omega
          subst this
          rw [hei] at he
          rw [← he] at hgt
          have : t < u := hgt
          omega
    obtain ⟨⟨u', k'⟩, hx⟩ := hnx
    unfold lookup
    rw [header_bytes h]
    simp only [Res.bind]
    rw [findLoop_found h t hi hu hx (hnext _ hx) f.transitions.length 0 (by omega) (by omega)]
    simp only []
    rw [index_at h hi]
    simp only []
    rw [if_neg (by have := h.nonempty; omega), info_at h ht]
    simp only []
    rw [name_at h hn]
    simp only []
    cases dst <;> rfl

theorem typeLoop_dst {b : List Nat} {types abbrevs : Nat} {m : Nat} {s s' : Info} (h : typeLoop b types abbrevs m s = .ok s') :
    (s.dst ≠ none → s'.dst ≠ none) ∧ ∀ k, 1 ≤ k → k ≤ m → (∀ ti, ttinfo b (types + k * 6) = .ok ti → ti.2.1 ≠ 0) → s'.dst ≠ none := by
  induction m generalizing s with
  | zero =>
    simp only [typeLoop] at h
    injection h with h
    subst h
    exact ⟨id, fun k h1 h2 => by omega⟩
  | succ m ih =>
    simp only [typeLoop] at h
    cases ht : ttinfo b (types + (m + 1) * 6) with
    | ub => rw [ht] at h; cases h
    | panic => rw [ht] at h; cases h
    | ok ti =>
      rw [ht] at h
      simp only [Res.bind] at h
      split at h
      · rename_i s1 hs1
        have hd1 : s1.dst = s.dst := by
          split at hs1
          · split at hs1
            · injection hs1 with hs1; subst hs1; rfl
            · cases hs1
            · cases hs1
          · injection hs1 with hs1; subst hs1; rfl
        split at h
        · rename_i s2 hs2
          have hd2 : (s1.dst ≠ none → s2.dst ≠ none) ∧ (ti.2.1 ≠ 0 → s2.dst ≠ none) := by
            split at hs2
            · split at hs2
              · injection hs2 with hs2; subst hs2; exact ⟨by simp, by simp⟩
              · cases hs2
              · cases hs2
            · rename_i hc
              injection hs2 with hs2
              subst hs2
              refine ⟨id, fun hti => ?_⟩
              intro hnone
              exact hc ⟨hti, hnone⟩
          have hrest : (s2.dst ≠ none → s'.dst ≠ none) ∧ ∀ k, 1 ≤ k → k ≤ m → (∀ ti, ttinfo b (types + k * 6) = .ok ti → ti.2.1 ≠ 0) → s'.dst ≠ none := by
            split at h
            · rename_i hc
              injection h with h
              subst h
              exact ⟨id, fun _ _ _ _ => hc.2⟩
            · exact ih h
          refine ⟨fun hs => hrest.1 (hd2.1 (by rw [hd1]; exact hs)), fun k hk1 hk2 hti => ?_⟩
          rcases Nat.lt_or_ge m k with hk | hk
          · have : k = m + 1 := by omega
            subst this
            exact hrest.1 (hd2.2 (hti ti ht))
          · exact hrest.2 k hk1 hk hti
        · cases h
        · cases h
      · cases h
      · cases h

/-! ## C70 -/

/-- If TZ names a zone file with summer time (in a type other than the first), then from its first transition on and up to
its last one, `tm_gmtoff`, `tm_isdst` and `tm_zone` are what the file says and the fields are those of the instant moved by
that offset. Missing: instants outside of the transitions, files without summer time, where the code is wrong. The
hypothesis that `parseFile` succeeds is there because it reads one type past the table. -/
theorem localtime_partial {f : File} (h : f.Good) (t : Int) (h1 : ∃ x ∈ f.transitions, x.1 ≤ t) (h2 : ∃ x ∈ f.transitions, t < x.1)
    (hdst : ∃ k x, 1 ≤ k ∧ f.types[k]? = some x ∧ x.2.1 = true) (hp : ∃ s, parseFile f.bytes = .ok s)
    {off : Int} {dst : Bool} {n : List Nat} (hs : Says f t off dst n)
    (h0 : 0 ≤ t + off) (hb : (t + off) / 86400 ≤ 2147483647 - 719468) :
    ∃ tm, localtime f.bytes t = .ok (tm, off, dst, n) ∧
      (0 ≤ tm.sec ∧ tm.sec < 60) ∧ (0 ≤ tm.min ∧ tm.min < 60) ∧ (0 ≤ tm.hour ∧ tm.hour < 24) ∧
      t + off = (t + off) / 86400 * 86400 + tm.hour * 3600 + tm.min * 60 + tm.sec ∧
      Calendar.Spec.IsDay ((t + off) / 86400) ⟨tm.year + 1900, tm.mon + 1, tm.mday⟩ ∧ tm.wday = ((t + off) / 86400 + 4) % 7 := by
  obtain ⟨tm, g1, g2, g3, g4, g5, g6, g7, -⟩ := Calendar.gmtime_exact_partial (t + off) h0 hb
  refine ⟨tm, ?_, g2, g3, g4, g5, g6, g7⟩
  have hlocal : localOf f.bytes t = .ok (off, dst, n) := by
    obtain ⟨s, hp⟩ := hp
    unfold localOf
    rw [hp]
    unfold parseFile at hp
    rw [header_bytes h] at hp
    simp only [Res.bind] at hp
    rw [if_neg (by have := h.nonempty; omega)] at hp
    split at hp
    · rename_i s1 hs1
      injection hp with hp
      subst hp
      obtain ⟨k, x, hk1, hk2, hk3⟩ := hdst
      have := (typeLoop_dst hs1).2 k hk1 (by have := (List.getElem?_eq_some_iff.1 hk2).1; omega) (by
        intro ti hti
        rw [info_at h hk2] at hti
        injection hti with hti
        subst hti
        simp [hk3])
      simp only [Res.bind]
      rw [if_pos this, lookup_partial h t h1 h2 hs]
    · cases hp
    · cases hp
  unfold localtime Calendar.localtime
  unfold Calendar.gmtime at g1
  rw [hlocal]
  simp only [Res.bind]
  rw [g1]

/-- A file like that of Berlin, two years long. -/
def berlin : File where
  version := 50
  reserved := List.replicate 15 0
  counts := (0, 0, 0)
  transitions := [(1679792400, 1), (1698541200, 2), (1711846800, 1), (1729990800, 2)]
  types := [(3208, false, 0), (7200, true, 4), (3600, false, 9)]
  names := [76, 77, 84, 0, 67, 69, 83, 84, 0, 67, 69, 84, 0]
  rest := List.replicate 80 0

theorem berlin_good : berlin.Good := ⟨by decide, by decide, by decide, by decide, by decide, by decide, by decide, by decide, by decide⟩

/-- 1 December 2023 is standard time. -/
example : ∃ tm, localtime berlin.bytes 1701432000 = .ok (tm, 3600, false, [67, 69, 84]) := by
  obtain ⟨tm, h, -⟩ := localtime_partial berlin_good 1701432000 ⟨_, List.mem_cons_self, by decide⟩ ⟨(1711846800, 1), by decide, by decide⟩
    ⟨1, _, by decide, rfl, rfl⟩ ⟨some ⟨some [67, 69, 84], some [], 3600⟩, by decide +kernel⟩
    (off := 3600) (dst := false) (n := [67, 69, 84])
    ⟨2, 9, .after (i := 1) (u := 1698541200) rfl (by decide) (by rintro x ⟨⟩; decide), rfl, by decide, [], rfl⟩ (by decide) (by decide)
  exact ⟨tm, h⟩

/-- After the last transition (1 December 2024: standard time), and between any two instants before the first one, the file
is read wrongly: the first type (the mean solar time of long ago) after the last transition, the type of the first
transition before it. -/
theorem outside_violated : lookup berlin.bytes 1733054400 = .ok (some (3208, false, [76, 77, 84])) ∧
    Says berlin 1733054400 3600 false [67, 69, 84] ∧
    lookup berlin.bytes 0 = .ok (some (7200, true, [67, 69, 83, 84])) ∧ Says berlin 0 3208 false [76, 77, 84] := by
  refine ⟨by decide +kernel, ?_, by decide +kernel, ?_⟩
  · exact ⟨2, 9, .after (i := 3) (u := 1729990800) rfl (by decide) (by rintro x ⟨⟩), rfl, by decide, [], rfl⟩
  · exact ⟨0, 0, .before (by decide), rfl, by decide, _, rfl⟩

/-- The file of UTC: one type, no transitions. -/
def utc : File where
  version := 50
  reserved := List.replicate 15 0
  counts := (0, 0, 0)
  transitions := []
  types := [(0, false, 0)]
  names := [85, 84, 67, 0]
  rest := List.replicate 300 0

/-- In a file with a single type the loop reads the names as if they were a type: with the file of UTC, local time is
1431585536 seconds (45 years) ahead. -/
theorem single_type_violated : utc.Good ∧ Says utc 0 0 false [85, 84, 67] ∧ localOf utc.bytes 0 = .ok (1431585536, false, [85, 84, 67]) :=
  ⟨⟨by decide, by decide, by decide, by decide, by decide, by decide, by decide, by decide, by decide⟩,
    ⟨0, 0, .before (by decide), rfl, by decide, [], rfl⟩, by decide +kernel⟩

end Mlibc.TzFile
