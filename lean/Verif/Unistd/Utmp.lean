import Verif.Base
/-!
# The user accounting database: utmp and utmpx

`options/internal/include/mlibc/utmp.hpp` (the record functions), `options/posix/generic/utmpx.cpp`
and `options/linux/generic/utmp.cpp` (the two interfaces, the same code but for the fallback to a
read-only open in `setutxent`).

Simplifications.  The file is its list of bytes, the descriptor its offset.  A record is a list of
`size` bytes; how the fields lie in it is a parameter (`Layout`).  How many bytes each `read` and
`write` transfers, and which of them fail, is up to an oracle, one per call of an interface function.
The lock that every function holds makes the calls of the threads of one process a sequence; other
processes may append records between two calls (`Op.other`).
-/

namespace Mlibc.Utmp

/-- The layout of `struct utmpx`: `type`, `id`, `line` read the fields of the bytes of a record;
`line` is the field up to its first null, which is what `strncmp` over the whole field compares. -/
structure Layout where
  size : Nat
  type : List Nat → Nat
  id : List Nat → List Nat
  line : List Nat → List Nat

/-- What a `read` or `write` does: fail with an error number, or transfer at most `k + 1` bytes. -/
inductive Io where
  | err (e : Nat)
  | chunk (k : Nat)

/-- `ESRCH` and `ENOENT` (utmp.hpp L43, L56; utmpx.cpp L34 and others). -/
def ESRCH : Nat := 3
def ENOENT : Nat := 2

/-- A record or an error number. -/
inductive Got where
  | entry (r : List Nat)
  | err (e : Nat)
  deriving DecidableEq

/-- `sysdep<Read>` of at most `n` bytes at `pos`. -/
def sysRead (file : List Nat) (pos n k : Nat) : List Nat := ((file.drop pos).take n).take (k + 1)

/-- The rest of a record after a short read (utmp.hpp L45-L57); `i` numbers the calls of `read`.
The bound `fuel` is for the definition only; running out of it is `none`. -/
def getRest (sz : Nat) (file : List Nat) (o : Nat → Io) :
    (fuel i pos : Nat) → (acc : List Nat) → Option (Got × Nat × Nat)
  | 0, _, _, _ => none
  | fuel + 1, i, pos, acc =>
    match o i with
    | .err e => some (.err e, i + 1, pos)
    | .chunk k =>
      let b := sysRead file pos (sz - acc.length) k
      if (acc ++ b).length = sz then some (.entry (acc ++ b), i + 1, pos + b.length)
      else if b.length = 0 then some (.err ESRCH, i + 1, pos)
      else getRest sz file o fuel (i + 1) (pos + b.length) (acc ++ b)

/-- `getUtmpEntry` (utmp.hpp L28-L58): the result, the number of the next `read` and the offset. -/
def getEntry (sz : Nat) (file : List Nat) (o : Nat → Io) (i pos : Nat) : Option (Got × Nat × Nat) :=
  match o i with
  | .err e => some (.err e, i + 1, pos)
  | .chunk k =>
    let b := sysRead file pos sz k
    if b.length = sz then some (.entry b, i + 1, pos + b.length)
    else if b.length = 0 then some (.err ESRCH, i + 1, pos)
    else getRest sz file o sz (i + 1) (pos + b.length) b

/-- The loops of `getUtmpEntryById` and `getUtmpEntryByType` (utmp.hpp L61-L83, L86-L99). -/
def search (m : List Nat → Bool) (sz : Nat) (file : List Nat) (o : Nat → Io) :
    (fuel i pos : Nat) → Option (Got × Nat)
  | 0, _, _ => none
  | fuel + 1, i, pos =>
    match getEntry sz file o i pos with
    | none => none
    | some (.err e, _, p) => some (.err e, p)
    | some (.entry r, i', p) => if m r then some (.entry r, p) else search m sz file o fuel i' p

/-- The test in `getUtmpEntryById` (utmp.hpp L67-L81). -/
def matchId (l : Layout) (q r : List Nat) : Bool :=
  if l.type q = 1 ∨ l.type q = 2 ∨ l.type q = 3 ∨ l.type q = 4 then l.type r == l.type q
  else if l.type q = 5 ∨ l.type q = 6 ∨ l.type q = 7 ∨ l.type q = 8 then l.id r == l.id q
  else false

/-- The test in `getUtmpEntryByType` (utmp.hpp L92-L97). -/
def matchLine (l : Layout) (q r : List Nat) : Bool :=
  if l.type q = 7 ∨ l.type q = 6 then l.line r == l.line q else false

/-- `putUtmpEntry` (utmp.hpp L102-L119) after the seek to the end: the file, and the error if any. -/
def putLoop (o : Nat → Io) : (fuel i : Nat) → (file todo : List Nat) → Option (List Nat × Option Nat)
  | 0, _, _, _ => none
  | fuel + 1, i, file, todo =>
    if todo = [] then some (file, none)
    else
      match o i with
      | .err e => some (file, some e)
      | .chunk k => putLoop o fuel (i + 1) (file ++ todo.take (k + 1)) (todo.drop (k + 1))

/-- The process's state: the file and the offset of the descriptor, if the file is open. -/
structure St where
  file : List Nat
  fd : Option Nat
  deriving DecidableEq

/-- `setutxent` (utmpx.cpp L70-L97): open at offset 0, or go back to offset 0; `ok` says whether the
open succeeds. -/
def setut (st : St) (ok : Bool) : St :=
  match st.fd with
  | none => if ok then { st with fd := some 0 } else st
  | some _ => { st with fd := some 0 }

/-- `if(!utmpxFd) setutxent();` (utmpx.cpp L29-L30, L100-L101, L117-L118, L154-L155). -/
def opened (st : St) (ok : Bool) : St := if st.fd.isNone then setut st ok else st

/-- One call.  `ok`: whether an open succeeds; `o`: what the reads and writes do. -/
inductive Op where
  | set (ok : Bool)
  | get (ok : Bool) (o : Nat → Io)
  | getId (ok : Bool) (o : Nat → Io) (q : List Nat)
  | getLine (ok : Bool) (o : Nat → Io) (q : List Nat)
  | put (ok : Bool) (o : Nat → Io) (r : List Nat)
  | fin
  | other (r : List Nat)

/-- One call of the interface: `setutxent`, `getutxent` (utmpx.cpp L99-L114), `getutxid` (L153-L168),
`getutxline` (L28-L43, L170-L172), `pututxline` (L116-L131), `endutxent` (L61-L68), and a record appended by another
process.  The result is `none` for a null pointer without error and for void functions. -/
def step (l : Layout) (st : St) : Op → Option (St × Option Got)
  | .set ok => some (setut st ok, none)
  | .get ok o =>
    let st := opened st ok
    match st.fd with
    | none => some (st, some (.err ENOENT))
    | some pos =>
      match getEntry l.size st.file o 0 pos with
      | none => none
      | some (g, _, p) => some ({ st with fd := some p }, some g)
  | .getId ok o q =>
    let st := opened st ok
    match st.fd with
    | none => some (st, some (.err ENOENT))
    | some pos =>
      match search (matchId l q) l.size st.file o (st.file.length + 1) 0 pos with
      | none => none
      | some (g, p) => some ({ st with fd := some p }, some g)
  | .getLine ok o q =>
    let st := opened st ok
    match st.fd with
    | none => some (st, some (.err ENOENT))
    | some pos =>
      match search (matchLine l q) l.size st.file o (st.file.length + 1) 0 pos with
      | none => none
      | some (g, p) => some ({ st with fd := some p }, some g)
  | .put ok o r =>
    let st := opened st ok
    match st.fd with
    | none => some (st, some (.err ENOENT))
    | some _ =>
      match putLoop o (l.size + 1) 0 st.file r with
      | none => none
      | some (f, none) => some (⟨f, some f.length⟩, some (.entry r))
      | some (f, some e) => some (⟨f, some f.length⟩, some (.err e))
  | .fin => some ({ st with fd := none }, none)
  | .other r => some ({ st with file := st.file ++ r }, none)

/-- A sequence of calls, with all results. -/
def run (l : Layout) : St → List Op → Option (St × List (Option Got))
  | st, [] => some (st, [])
  | st, op :: ops =>
    match step l st op with
    | none => none
    | some (st', g) =>
      match run l st' ops with
      | none => none
      | some (st'', gs) => some (st'', g :: gs)

/-! ## Specification: a list of records and an index into it -/

/-- The database as its user sees it. -/
structure Db where
  recs : List (List Nat)
  cur : Option Nat
  deriving DecidableEq

/-- POSIX, getutxid: an entry of the same type for the four types of times and run level; for the
four types of processes an entry that is of one of these four types and has the same id. -/
def SameId (l : Layout) (q r : List Nat) : Prop :=
  (l.type q ∈ [1, 2, 3, 4] ∧ l.type r = l.type q) ∨
  (l.type q ∈ [5, 6, 7, 8] ∧ l.type r ∈ [5, 6, 7, 8] ∧ l.id r = l.id q)

/-- POSIX, getutxline: an entry of type LOGIN_PROCESS or USER_PROCESS with the same line. -/
def SameLine (l : Layout) (q r : List Nat) : Prop :=
  l.type r ∈ [6, 7] ∧ l.line r = l.line q

instance (l : Layout) (q r : List Nat) : Decidable (SameId l q r) := by unfold SameId; infer_instance
instance (l : Layout) (q r : List Nat) : Decidable (SameLine l q r) := by unfold SameLine; infer_instance

/-- The database is opened if need be. -/
def Db.opened (d : Db) (ok : Bool) : Db :=
  if d.cur = none ∧ ok = true then { d with cur := some 0 } else d

/-- The first record from index `c` on that satisfies `p`: its result, and the index after it; at the
end of the database if there is none. -/
def find (p : List Nat → Bool) (recs : List (List Nat)) (c : Nat) : Got × Nat :=
  match (recs.drop c).findIdx? p with
  | some j => (.entry (recs.getD (c + j) []), c + j + 1)
  | none => (.err 3, recs.length)

/-- What each call does to the database. -/
def Db.step (l : Layout) (d : Db) : Op → Db × Option Got
  | .set ok => (if d.cur = none ∧ ok = false then d else { d with cur := some 0 }, none)
  | .get ok _ =>
    let d := d.opened ok
    match d.cur with
    | none => (d, some (.err 2))
    | some c =>
      match d.recs[c]? with
      | some r => ({ d with cur := some (c + 1) }, some (.entry r))
      | none => (d, some (.err 3))
  | .getId ok _ q =>
    let d := d.opened ok
    match d.cur with
    | none => (d, some (.err 2))
    | some c =>
      let f := find (fun r => decide (SameId l q r)) d.recs c
      ({ d with cur := some f.2 }, some f.1)
  | .getLine ok _ q =>
    let d := d.opened ok
    match d.cur with
    | none => (d, some (.err 2))
    | some c =>
      let f := find (fun r => decide (SameLine l q r)) d.recs c
      ({ d with cur := some f.2 }, some f.1)
  | .put ok _ r =>
    let d := d.opened ok
    match d.cur with
    | none => (d, some (.err 2))
    | some _ => (⟨d.recs ++ [r], some (d.recs.length + 1)⟩, some (.entry r))
  | .fin => ({ d with cur := none }, none)
  | .other r => ({ d with recs := d.recs ++ [r] }, none)

/-- A sequence of calls. -/
def Db.run (l : Layout) : Db → List Op → Db × List (Option Got)
  | d, [] => (d, [])
  | d, op :: ops =>
    let x := d.step l op
    let y := Db.run l x.1 ops
    (y.1, x.2 :: y.2)

/-- No `read` or `write` fails. -/
def NoError (o : Nat → Io) : Prop := ∀ i, ∃ k, o i = .chunk k

/-- A call within the proved part of the specification, when the records of `all` are those that are
ever in the database: no read or write fails, records have the right size, the queries have the type
that the interface asks for, and no record that a query of the code would take wrongly exists. -/
def Good (l : Layout) (all : List Nat → Prop) : Op → Prop
  | .set _ => True
  | .get _ o => NoError o
  | .getId _ o q => NoError o ∧ ∀ r, all r → l.type q ∈ [5, 6, 7, 8] → l.id r = l.id q →
      l.type r ∈ [5, 6, 7, 8]
  | .getLine _ o q => NoError o ∧ l.type q ∈ [6, 7] ∧
      ∀ r, all r → l.line r = l.line q → l.type r ∈ [6, 7]
  | .put _ o r => NoError o ∧ r.length = l.size ∧ all r
  | .fin => True
  | .other r => r.length = l.size ∧ all r

/-! ## Proofs -/

theorem sysRead_length (file : List Nat) (pos n k : Nat) :
    (sysRead file pos n k).length = min (k + 1) (min n (file.length - pos)) := by
  simp [sysRead]

theorem sysRead_eq (file : List Nat) (pos n k : Nat) :
    sysRead file pos n k = (file.drop pos).take (min (k + 1) n) := by
  simp [sysRead, List.take_take]

theorem getRest_ok (sz : Nat) (file : List Nat) (o : Nat → Io) (ho : NoError o) (start : Nat)
    (hf : start + sz ≤ file.length) :
    ∀ (fuel i n : Nat), n < sz → sz - n ≤ fuel →
      ∃ i', getRest sz file o fuel i (start + n) ((file.drop start).take n) =
        some (.entry ((file.drop start).take sz), i', start + sz) := by
  intro fuel
  induction fuel with
  | zero => intro i n h1 h2; omega
  | succ fuel ih =>
    intro i n h1 h2
    obtain ⟨k, hk⟩ := ho i
    have hacc : ((file.drop start).take n).length = n := by simp; omega
    simp only [getRest, hk, hacc]
    rw [sysRead_eq]
    have hb : (file.drop start).take n ++ (file.drop (start + n)).take (min (k + 1) (sz - n)) =
        (file.drop start).take (n + min (k + 1) (sz - n)) := by
      rw [List.take_add, List.drop_drop]
    have hbl : ((file.drop (start + n)).take (min (k + 1) (sz - n))).length = min (k + 1) (sz - n) := by
      simp; omega
    rw [hb]
    have hl : ((file.drop start).take (n + min (k + 1) (sz - n))).length = n + min (k + 1) (sz - n) := by
      simp; omega
    rw [hl, hbl]
    by_cases hd : n + min (k + 1) (sz - n) = sz
    · rw [if_pos hd, hd]
      exact ⟨i + 1, by congr 3; omega⟩
    · rw [if_neg hd, if_neg (by omega)]
      have := ih (i + 1) (n + min (k + 1) (sz - n)) (by omega) (by omega)
      rw [Nat.add_assoc]
      exact this

/-- A whole record is read, however the reads are cut. -/
theorem getEntry_ok (sz : Nat) (hsz : 0 < sz) (file : List Nat) (o : Nat → Io) (ho : NoError o)
    (i start : Nat) (hf : start + sz ≤ file.length) :
    ∃ i', getEntry sz file o i start =
      some (.entry ((file.drop start).take sz), i', start + sz) := by
  obtain ⟨k, hk⟩ := ho i
  unfold getEntry
  simp only [hk]
  rw [sysRead_eq]
  have hbl : ((file.drop start).take (min (k + 1) sz)).length = min (k + 1) sz := by simp; omega
  rw [hbl]
  by_cases hd : min (k + 1) sz = sz
  · rw [if_pos hd, hd]; exact ⟨i + 1, rfl⟩
  · rw [if_neg hd, if_neg (by omega)]
    exact getRest_ok sz file o ho start hf sz (i + 1) _ (by omega) (by omega)

/-- At the end of the file there is no record. -/
theorem getEntry_end (sz : Nat) (hsz : 0 < sz) (file : List Nat) (o : Nat → Io) (ho : NoError o)
    (i : Nat) : ∃ i', getEntry sz file o i file.length = some (.err 3, i', file.length) := by
  obtain ⟨k, hk⟩ := ho i
  unfold getEntry
  simp only [hk]
  have : sysRead file file.length sz k = [] := by simp [sysRead]
  rw [this]
  simp only [List.length_nil]
  rw [if_neg (by omega), if_pos trivial]
  exact ⟨_, rfl⟩

theorem flatten_length (sz : Nat) (recs : List (List Nat)) (h : ∀ r ∈ recs, r.length = sz) :
    recs.flatten.length = recs.length * sz := by
  induction recs with
  | nil => simp
  | cons r rs ih =>
    simp only [List.flatten_cons, List.length_append, List.length_cons]
    rw [h r (by simp), ih fun r hr => h r (by simp [hr]), Nat.succ_mul]; omega

theorem drop_flatten (sz : Nat) : ∀ (recs : List (List Nat)) (c : Nat), (∀ r ∈ recs, r.length = sz) →
    recs.flatten.drop (c * sz) = (recs.drop c).flatten
  | recs, 0, _ => by simp
  | [], c + 1, _ => by simp
  | r :: rs, c + 1, h => by
    have hr : r.length = sz := h r (by simp)
    rw [List.flatten_cons, List.drop_succ_cons, ← drop_flatten sz rs c fun r hr => h r (by simp [hr]),
      show (c + 1) * sz = r.length + c * sz by rw [hr, Nat.succ_mul]; omega, ← List.drop_drop,
      List.drop_left]

/-- The record at index `c`. -/
theorem take_flatten (sz : Nat) (recs : List (List Nat)) (c : Nat) (h : ∀ r ∈ recs, r.length = sz)
    (hc : c < recs.length) : (recs.flatten.drop (c * sz)).take sz = recs[c] := by
  rw [drop_flatten sz recs c h, List.drop_eq_getElem_cons hc, List.flatten_cons,
    ← h recs[c] (List.getElem_mem hc), List.take_left]

theorem getEntry_rec (sz : Nat) (hsz : 0 < sz) (recs : List (List Nat))
    (h : ∀ r ∈ recs, r.length = sz) (o : Nat → Io) (ho : NoError o) (i c : Nat) (hc : c < recs.length) :
    ∃ i', getEntry sz recs.flatten o i (c * sz) = some (.entry recs[c], i', (c + 1) * sz) := by
  obtain ⟨i', hi'⟩ := getEntry_ok sz hsz recs.flatten o ho i (c * sz) (by
    rw [flatten_length sz recs h, ← Nat.succ_mul]
    exact Nat.mul_le_mul_right _ hc)
  refine ⟨i', ?_⟩
  rw [hi', take_flatten sz recs c h hc, Nat.succ_mul]

theorem search_rec (m : List Nat → Bool) (sz : Nat) (hsz : 0 < sz) (recs : List (List Nat))
    (h : ∀ r ∈ recs, r.length = sz) (o : Nat → Io) (ho : NoError o) :
    ∀ (fuel i c : Nat), c ≤ recs.length → recs.length - c < fuel →
      search m sz recs.flatten o fuel i (c * sz) = some ((find m recs c).1, (find m recs c).2 * sz) := by
  intro fuel
  induction fuel with
  | zero => intro i c _ hf; omega
  | succ fuel ih =>
    intro i c hc hf
    rw [search]
    by_cases hlt : c < recs.length
    · obtain ⟨i', hi'⟩ := getEntry_rec sz hsz recs h o ho i c hlt
      rw [hi']
      simp only
      have hdrop := List.drop_eq_getElem_cons hlt
      cases hm : m recs[c] with
      | true =>
        rw [if_pos rfl]
        have : (recs.drop c).findIdx? m = some 0 := by rw [hdrop, List.findIdx?_cons, hm]; rfl
        unfold find
        rw [this]
        simp only [Nat.add_zero]
        rw [List.getD_eq_getElem?_getD, List.getElem?_eq_getElem hlt]; rfl
      | false =>
        rw [if_neg (by decide), ih i' (c + 1) (by omega) (by omega)]
        have : (recs.drop c).findIdx? m = ((recs.drop (c + 1)).findIdx? m).map (· + 1) := by
          rw [hdrop, List.findIdx?_cons, hm]; rfl
        unfold find
        rw [this]
        cases (recs.drop (c + 1)).findIdx? m with
        | none => rfl
        | some j =>
          simp only [Option.map_some]
          have e : c + (j + 1) = c + 1 + j := by omega
          rw [e]
    · have hce : c = recs.length := by omega
      have hend := getEntry_end sz hsz recs.flatten o ho i
      rw [flatten_length sz recs h] at hend
      obtain ⟨i', hi'⟩ := hend
      rw [hce, hi']
      unfold find
      simp

theorem putLoop_ok (o : Nat → Io) (ho : NoError o) :
    ∀ (fuel i : Nat) (file todo : List Nat), todo.length < fuel →
      putLoop o fuel i file todo = some (file ++ todo, none) := by
  intro fuel
  induction fuel with
  | zero => intro i file todo h; omega
  | succ fuel ih =>
    intro i file todo h
    rw [putLoop]
    by_cases ht : todo = []
    · rw [if_pos ht, ht, List.append_nil]
    · rw [if_neg ht]
      obtain ⟨k, hk⟩ := ho i
      have hpos : 0 < todo.length := List.length_pos_iff.2 ht
      rw [hk]
      simp only
      rw [ih _ _ _ (by simp; omega), List.append_assoc, List.take_append_drop]

/-- The file is the records one after the other, the offset is at the current record. -/
structure Rel (l : Layout) (all : List Nat → Prop) (st : St) (d : Db) : Prop where
  file : st.file = d.recs.flatten
  fd : st.fd = d.cur.map (· * l.size)
  size : ∀ r ∈ d.recs, r.length = l.size
  all : ∀ r ∈ d.recs, all r
  cur : ∀ c, d.cur = some c → c ≤ d.recs.length

theorem rel_opened (l : Layout) (all : List Nat → Prop) (st : St) (d : Db) (h : Rel l all st d)
    (ok : Bool) : Rel l all (opened st ok) (d.opened ok) := by
  obtain ⟨h1, h2, h3, h4, h5⟩ := h
  obtain ⟨file, fd⟩ := st
  obtain ⟨recs, cur⟩ := d
  simp only at *
  cases cur with
  | none =>
    simp only [Option.map_none] at h2
    subst h2
    cases ok
    · exact ⟨h1, rfl, h3, h4, by intro c hc; simp [Db.opened] at hc⟩
    · refine ⟨h1, ?_, h3, h4, ?_⟩
      · simp [Db.opened, opened, setut]
      · intro c hc
        simp [Db.opened] at hc
        subst hc
        exact Nat.zero_le _
  | some c =>
    simp only [Option.map_some] at h2
    subst h2
    have e1 : opened ⟨file, some (c * l.size)⟩ ok = ⟨file, some (c * l.size)⟩ := by simp [opened]
    have e2 : Db.opened ⟨recs, some c⟩ ok = ⟨recs, some c⟩ := by simp [Db.opened]
    rw [e1, e2]
    exact ⟨h1, rfl, h3, h4, h5⟩

theorem find_congr (p q : List Nat → Bool) (recs : List (List Nat)) (c : Nat)
    (h : ∀ r ∈ recs, p r = q r) : find p recs c = find q recs c := by
  have : ∀ l : List (List Nat), (∀ r ∈ l, p r = q r) → l.findIdx? p = l.findIdx? q := by
    intro l
    induction l with
    | nil => intro _; rfl
    | cons r rs ih =>
      intro h
      rw [List.findIdx?_cons, List.findIdx?_cons, h r (by simp), ih fun r hr => h r (by simp [hr])]
  unfold find
  rw [this _ fun r hr => h r (List.mem_of_mem_drop hr)]

theorem find_cur_le (p : List Nat → Bool) (recs : List (List Nat)) (c : Nat) :
    (find p recs c).2 ≤ recs.length := by
  unfold find
  split
  · rename_i j hj
    have := (List.findIdx?_eq_some_iff_getElem.1 hj).1
    simp only [List.length_drop] at this
    simp only; omega
  · exact Nat.le_refl _

theorem length_le_flatten (l : Layout) (hsz : 0 < l.size) (recs : List (List Nat))
    (h : ∀ r ∈ recs, r.length = l.size) : recs.length ≤ recs.flatten.length := by
  rw [flatten_length l.size recs h]
  exact Nat.le_mul_of_pos_right _ hsz

theorem step_rel (l : Layout) (hsz : 0 < l.size) (all : List Nat → Prop) (st : St) (d : Db)
    (h : Rel l all st d) (op : Op) (hg : Good l all op) :
    ∃ st', step l st op = some (st', (d.step l op).2) ∧ Rel l all st' (d.step l op).1 := by
  cases op with
  | set ok =>
    refine ⟨setut st ok, rfl, ?_⟩
    obtain ⟨h1, h2, h3, h4, h5⟩ := h
    obtain ⟨file, fd⟩ := st
    obtain ⟨recs, cur⟩ := d
    simp only at *
    cases cur with
    | none =>
      simp only [Option.map_none] at h2
      subst h2
      cases ok
      · exact ⟨h1, by simp [setut, Db.step], h3, h4, by intro c hc; simp [Db.step] at hc⟩
      · exact ⟨h1, by simp [setut, Db.step], h3, h4, by
          intro c hc; simp [Db.step] at hc; subst hc; exact Nat.zero_le _⟩
    | some c =>
      simp only [Option.map_some] at h2
      subst h2
      exact ⟨h1, by simp [setut, Db.step], h3, h4, by
        intro c hc; simp [Db.step] at hc; subst hc; exact Nat.zero_le _⟩
  | get ok o =>
    have ho : NoError o := hg
    have hr := rel_opened l all st d h ok
    simp only [step, Db.step]
    generalize opened st ok = st1 at *
    generalize d.opened ok = d1 at *
    obtain ⟨h1, h2, h3, h4, h5⟩ := hr
    obtain ⟨file, fd⟩ := st1
    obtain ⟨recs, cur⟩ := d1
    simp only at h1 h2 h3 h4 h5 ⊢
    subst h1 h2
    cases cur with
    | none => exact ⟨_, rfl, rfl, rfl, h3, h4, h5⟩
    | some c =>
      have hc := h5 c rfl
      simp only [Option.map_some]
      by_cases hlt : c < recs.length
      · obtain ⟨i', hi'⟩ := getEntry_rec l.size hsz recs h3 o ho 0 c hlt
        rw [hi', List.getElem?_eq_getElem hlt]
        exact ⟨_, rfl, rfl, rfl, h3, h4, by intro x hx; injection hx with hx; simp only at hx ⊢; omega⟩
      · have hce : c = recs.length := by omega
        have hend := getEntry_end l.size hsz recs.flatten o ho 0
        rw [flatten_length l.size recs h3] at hend
        obtain ⟨i', hi'⟩ := hend
        rw [hce, hi', List.getElem?_eq_none (Nat.le_refl _)]
        exact ⟨_, rfl, rfl, rfl, h3, h4, by intro x hx; injection hx with hx; simp only at hx ⊢; omega⟩
  | getId ok o q =>
    obtain ⟨ho, hq⟩ := hg
    have hr := rel_opened l all st d h ok
    simp only [step, Db.step]
    generalize opened st ok = st1 at *
    generalize d.opened ok = d1 at *
    obtain ⟨h1, h2, h3, h4, h5⟩ := hr
    obtain ⟨file, fd⟩ := st1
    obtain ⟨recs, cur⟩ := d1
    simp only at h1 h2 h3 h4 h5 ⊢
    subst h1 h2
    cases cur with
    | none => exact ⟨_, rfl, rfl, rfl, h3, h4, h5⟩
    | some c =>
      have hc := h5 c rfl
      simp only [Option.map_some]
      have hlen := length_le_flatten l hsz recs h3
      have hcon : find (matchId l q) recs c = find (fun r => decide (SameId l q r)) recs c := by
        apply find_congr
        intro r hr
        have hq' := hq r (h4 r hr)
        unfold matchId SameId
        simp only [List.mem_cons, List.not_mem_nil, or_false] at hq' ⊢
        by_cases c1 : l.type q = 1 ∨ l.type q = 2 ∨ l.type q = 3 ∨ l.type q = 4
        · rw [if_pos c1]
          have c2 : ¬ (l.type q = 5 ∨ l.type q = 6 ∨ l.type q = 7 ∨ l.type q = 8) := by omega
          simp [c1, c2]
          rfl
        · rw [if_neg c1]
          by_cases c2 : l.type q = 5 ∨ l.type q = 6 ∨ l.type q = 7 ∨ l.type q = 8
          · rw [if_pos c2]
            by_cases c3 : l.id r = l.id q
            · have c4 := hq' c2 c3
              simp [c1, c2, c3, c4]
            · simp [c1, c2, c3]
          · rw [if_neg c2]
            simp [c1, c2]
      rw [search_rec (matchId l q) l.size hsz recs h3 o ho _ 0 c hc (by omega), hcon]
      refine ⟨_, rfl, rfl, rfl, h3, h4, ?_⟩
      intro x hx; injection hx with hx; subst hx
      exact find_cur_le _ _ _
  | getLine ok o q =>
    obtain ⟨ho, hq7, hq⟩ := hg
    have hr := rel_opened l all st d h ok
    simp only [step, Db.step]
    generalize opened st ok = st1 at *
    generalize d.opened ok = d1 at *
    obtain ⟨h1, h2, h3, h4, h5⟩ := hr
    obtain ⟨file, fd⟩ := st1
    obtain ⟨recs, cur⟩ := d1
    simp only at h1 h2 h3 h4 h5 ⊢
    subst h1 h2
    cases cur with
    | none => exact ⟨_, rfl, rfl, rfl, h3, h4, h5⟩
    | some c =>
      have hc := h5 c rfl
      simp only [Option.map_some]
      have hlen := length_le_flatten l hsz recs h3
      have hcon : find (matchLine l q) recs c = find (fun r => decide (SameLine l q r)) recs c := by
        apply find_congr
        intro r hr
        have hq' := hq r (h4 r hr)
        unfold matchLine SameLine
        simp only [List.mem_cons, List.not_mem_nil, or_false] at hq' hq7 ⊢
        rw [if_pos (by omega)]
        by_cases c3 : l.line r = l.line q
        · have c4 := hq' c3
          simp [c3, c4]
        · simp [c3]
      rw [search_rec (matchLine l q) l.size hsz recs h3 o ho _ 0 c hc (by omega), hcon]
      refine ⟨_, rfl, rfl, rfl, h3, h4, ?_⟩
      intro x hx; injection hx with hx; subst hx
      exact find_cur_le _ _ _
  | put ok o r =>
    obtain ⟨ho, hrl, har⟩ := hg
    have hr := rel_opened l all st d h ok
    simp only [step, Db.step]
    generalize opened st ok = st1 at *
    generalize d.opened ok = d1 at *
    obtain ⟨h1, h2, h3, h4, h5⟩ := hr
    obtain ⟨file, fd⟩ := st1
    obtain ⟨recs, cur⟩ := d1
    simp only at h1 h2 h3 h4 h5 ⊢
    subst h1 h2
    cases cur with
    | none => exact ⟨_, rfl, rfl, rfl, h3, h4, h5⟩
    | some c =>
      simp only [Option.map_some]
      rw [putLoop_ok o ho _ 0 recs.flatten r (by omega)]
      refine ⟨_, rfl, ?_, ?_, ?_, ?_, ?_⟩
      · simp
      · simp only [Option.map_some, List.length_append]
        rw [flatten_length l.size recs h3, hrl, Nat.succ_mul]
      · intro x hx
        rcases List.mem_append.1 hx with hx | hx
        · exact h3 x hx
        · rw [List.mem_singleton.1 hx]; exact hrl
      · intro x hx
        rcases List.mem_append.1 hx with hx | hx
        · exact h4 x hx
        · rw [List.mem_singleton.1 hx]; exact har
      · intro x hx; injection hx with hx; subst hx; simp
  | fin =>
    obtain ⟨h1, h2, h3, h4, h5⟩ := h
    exact ⟨_, rfl, h1, rfl, h3, h4, by intro c hc; cases hc⟩
  | other r =>
    obtain ⟨hrl, har⟩ := hg
    obtain ⟨h1, h2, h3, h4, h5⟩ := h
    refine ⟨_, rfl, ?_, h2, ?_, ?_, ?_⟩
    · simp [Db.step, h1]
    · intro x hx
      rcases List.mem_append.1 hx with hx | hx
      · exact h3 x hx
      · rw [List.mem_singleton.1 hx]; exact hrl
    · intro x hx
      rcases List.mem_append.1 hx with hx | hx
      · exact h4 x hx
      · rw [List.mem_singleton.1 hx]; exact har
    · intro c hc
      have := h5 c hc
      simp only [Db.step, List.length_append]
      omega

theorem run_rel (l : Layout) (hsz : 0 < l.size) (all : List Nat → Prop) :
    ∀ (ops : List Op) (st : St) (d : Db), Rel l all st d → (∀ op ∈ ops, Good l all op) →
      ∃ st', run l st ops = some (st', (d.run l ops).2) ∧ Rel l all st' (d.run l ops).1
  | [], st, d, h, _ => ⟨st, rfl, h⟩
  | op :: ops, st, d, h, hg => by
    obtain ⟨st1, e1, h1⟩ := step_rel l hsz all st d h op (hg op (by simp))
    obtain ⟨st2, e2, h2⟩ := run_rel l hsz all ops st1 (d.step l op).1 h1 fun o ho => hg o (by simp [ho])
    refine ⟨st2, ?_, h2⟩
    rw [run, e1]
    simp only [e2]
    rfl

/-- **Every history of calls sees one database.**  From a file that holds the records `recs`, and
whatever sizes of reads and writes the system chooses, all results of all calls are those of the
specification, the calls of the whole history end, and the file holds exactly the records of the
specification at the end.  Partial: the calls are `Good` (see there), and in the specification
`pututxline` always appends, where POSIX wants it to replace the entry with the same id
(`replace_violated`). -/
theorem history_partial (l : Layout) (hsz : 0 < l.size) (all : List Nat → Prop)
    (recs : List (List Nat)) (hrecs : ∀ r ∈ recs, r.length = l.size ∧ all r) (ops : List Op)
    (hg : ∀ op ∈ ops, Good l all op) :
    ∃ st', run l ⟨recs.flatten, none⟩ ops = some (st', (Db.run l ⟨recs, none⟩ ops).2) ∧
      st'.file = (Db.run l ⟨recs, none⟩ ops).1.recs.flatten := by
  obtain ⟨st', h1, h2⟩ := run_rel l hsz all ops ⟨recs.flatten, none⟩ ⟨recs, none⟩
    ⟨rfl, rfl, fun r hr => (hrecs r hr).1, fun r hr => (hrecs r hr).2, by intro c hc; cases hc⟩ hg
  exact ⟨st', h1, h2.file⟩

/-! ## Examples and violations -/

/-- A small layout: a byte of type, two of id, two of line. -/
def small : Layout where
  size := 5
  type r := r.getD 0 0
  id r := (r.drop 1).take 2
  line r := ((r.drop 3).take 2).takeWhile (· != 0)

/-- Reads and writes of two bytes each. -/
def two : Nat → Io := fun _ => .chunk 1

def boot : List Nat := [2, 126, 126, 0, 0]
def user1 : List Nat := [7, 49, 0, 97, 0]
def user2 : List Nat := [7, 50, 0, 98, 0]
def dead2 : List Nat := [8, 50, 0, 98, 0]

/-- The hypotheses of `history_partial` are met, with short reads and writes. -/
example : (∀ r ∈ [boot, user1], r.length = small.size ∧ (r = boot ∨ r = user1 ∨ r = user2)) ∧
    (∀ op ∈ [Op.get true two, .getId true two user2, .put true two user2, .set true,
      .getLine true two user2], Good small (fun r => r = boot ∨ r = user1 ∨ r = user2) op) := by
  have hn : NoError two := fun i => ⟨1, rfl⟩
  refine ⟨by decide, ?_⟩
  intro op hop
  simp only [List.mem_cons, List.not_mem_nil, or_false] at hop
  rcases hop with rfl | rfl | rfl | rfl | rfl
  · exact hn
  · refine ⟨hn, ?_⟩
    rintro r (rfl | rfl | rfl) <;> decide
  · exact ⟨hn, rfl, .inr (.inr rfl)⟩
  · trivial
  · refine ⟨hn, by decide, ?_⟩
    rintro r (rfl | rfl | rfl) <;> decide

example : (run small ⟨boot ++ user1, none⟩ [.get true two, .getId true two user2,
      .put true two user2, .set true, .getLine true two user2]).map (·.2) =
    some [some (.entry boot), some (.err 3), some (.entry user2), none, some (.entry user2)] := by
  decide +kernel

/-- POSIX: pututxline replaces the entry with the same id if there is one.  Here the old entry stays,
and is the one that is found. -/
theorem replace_violated :
    (run small ⟨user2, none⟩ [.put true two dead2, .set true, .getId true two dead2]).map
      (fun x => (x.1.file, x.2)) =
      some (user2 ++ dead2, [some (.entry dead2), none, some (.entry user2)]) := by
  decide +kernel

/-- POSIX: getutxline searches for the line alone.  Here a query whose type is not set finds nothing,
and an entry of a dead process is returned. -/
theorem line_type_violated :
    ((run small ⟨user1, none⟩ [.getLine true two [0, 0, 0, 97, 0]]).map (·.2) =
      some [some (.err 3)] ∧ SameLine small [0, 0, 0, 97, 0] user1) ∧
    ((run small ⟨dead2, none⟩ [.getLine true two user2]).map (·.2) = some [some (.entry dead2)] ∧
      ¬ SameLine small user2 dead2) := by
  decide +kernel

/-- getutxid for a process returns an entry that is not one of a process. -/
theorem id_type_violated :
    (run small ⟨boot, none⟩ [.getId true two [7, 126, 126, 0, 0]]).map (·.2) = some [some (.entry boot)] ∧
    ¬ SameId small [7, 126, 126, 0, 0] boot := by
  decide +kernel

/-- A write that fails in the middle of a record leaves a part of it in the file: every later record
is read at the wrong place. -/
theorem torn_write_violated :
    (run small ⟨[], none⟩ [.put true (fun i => if i = 0 then .chunk 1 else .err 28) user1,
      .put true two user2, .set true, .get true two]).map (·.2) =
      some [some (.err 28), some (.entry user2), none, some (.entry [7, 49, 7, 50, 0])] := by
  decide +kernel

/-- A read that is interrupted in the middle of a record loses the place: the next call returns parts
of two records. -/
theorem torn_read_violated :
    (run small ⟨boot ++ user1, none⟩ [.get true (fun i => if i = 0 then .chunk 1 else .err 4),
      .get true two]).map (·.2) = some [some (.err 4), some (.entry [126, 0, 0, 7, 49])] := by
  decide +kernel

/-! ## utmpname -/

/-- The name of the database, and the name under which the open descriptor was opened. -/
structure Names where
  path : List Nat
  open_ : Option (List Nat)
  deriving DecidableEq

/-- `utmpname` (utmp.cpp L128-L149, utmpx.cpp L133-L151); `mem` says whether `strdup` finds memory. -/
def utmpname (dflt : List Nat) (n : Names) (file : List Nat) (mem : Bool) : Names × Int :=
  if file = n.path then (n, 0)
  else if file = dflt then ({ n with path := dflt }, 0)
  else if mem then ({ n with path := file }, 0)
  else (n, -1)

/-- `setutent` (utmp.cpp L26-L43): the file is opened only when none is open. -/
def openName (n : Names) : Names :=
  match n.open_ with
  | none => { n with open_ := some n.path }
  | some _ => n

/-- `endutent` (utmp.cpp L83-L90). -/
def closeName (n : Names) : Names := { n with open_ := none }

/-- After utmpname the named file is the one that is opened, if no file is open. -/
theorem utmpname_partial (dflt file : List Nat) (n : Names) (h : n.open_ = none) :
    (utmpname dflt n file true).2 = 0 ∧
      (openName (utmpname dflt n file true).1).open_ = some file := by
  unfold utmpname openName
  by_cases h1 : file = n.path
  · simp [h1, h]
  · by_cases h2 : file = dflt
    · subst h2; simp [h1, h]
    · simp [h1, h2, h]

example : (⟨[47], none⟩ : Names).open_ = none := rfl

/-- If the database is open, utmpname succeeds but the functions go on with the old file, even after
setutent. -/
theorem utmpname_violated :
    (openName (utmpname [1] (openName ⟨[1], none⟩) [2] true).1).open_ = some [1] := by
  decide +kernel

end Mlibc.Utmp
