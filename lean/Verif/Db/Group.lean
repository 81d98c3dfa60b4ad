import Verif.Db.Text

/-
The group database (options/posix/generic/grp.cpp L32-181, L209-411). The file is what `fopen` and `fgets` give: `none` if it
cannot be opened, else its contents and whether reading ended with an error. Memory is never short. Property C71.
-/
namespace Mlibc.Group
open Mlibc Mlibc.Db

/-! ## Model -/

/-- `struct group`. -/
structure Group where
  name : List Nat
  passwd : List Nat
  gid : Nat
  members : List (List Nat)
  deriving DecidableEq, Repr

/-- The last chunk loses a trailing newline. L46-50 -/
def chop (s : List Nat) : List Nat := if s.getLast? = some 10 then s.dropLast else s

/-- `walk_segments`: the chunks that `fn` gets; `acc` is the chunk so far. The character behind the view that is looked at if
the last chunk is empty makes no difference. L32-54 -/
def walkSegments (delim : Nat) : List Nat → List Nat → List (List Nat)
  | [], acc => if acc = [] then [] else [chop acc]
  | c :: s, acc => if c = delim then acc :: walkSegments delim s [] else walkSegments delim s (acc ++ [c])

/-- `extract_entry`. A fourth chunk that does not exist is a view without memory, which is read. L56-97 -/
def extractEntry (line : List Nat) : Res (Option Group) :=
  let segs := walkSegments 58 (line.takeWhile (· ≠ 0)) []
  if segs.length > 4 then .panic
  else match segs with
    | name :: passwd :: gid :: rest =>
      (toNumber gid 0).bind fun
      | none => .ok none
      | some gid => match rest with
        | [] => .ub
        | m :: _ => .ok (some ⟨name, passwd, gid, walkSegments 44 m []⟩)
    | _ => .ok none

/-- The file: `none` if it cannot be opened; contents, and whether `ferror` is set at the end. -/
abbrev File := Option (List Nat × Bool)

/-- The loop of `walk_file`. L119-126 -/
def walkLoop (cond : Group → Bool) : List (List Nat) → Res (Option Group)
  | [] => .ok none
  | l :: ls => (extractEntry l).bind fun
    | none => walkLoop cond ls
    | some g => if cond g then .ok (some g) else walkLoop cond ls

/-- `walk_file`: the entry, or the error (EIO 5, ESRCH 3). L111-135 -/
def walkFile (f : File) (cond : Group → Bool) : Res (Except Nat Group) :=
  match f with
  | none => .ok (.error 5)
  | some (s, err) => (walkLoop cond (reads 511 s.length s)).bind fun
    | some g => .ok (.ok g)
    | none => .ok (.error (if err then 5 else 3))

/-- `getgrnam`: the entry or errno. L252-265 -/
def getgrnam (f : File) (name : List Nat) : Res (Except Nat Group) := walkFile f (fun g => g.name = name)

/-- `getgrgid`. L216-229 -/
def getgrgid (f : File) (gid : Nat) : Res (Except Nat Group) := walkFile f (fun g => g.gid = gid)

/-- `fgetgrent`, `getgrent`: the entry (`none` for a null pointer) and the rest of the file. L194-214, L365-383 -/
def fgetgrent (s : List Nat) : Res (Option Group × List Nat) :=
  if s = [] then .ok (none, [])
  else (extractEntry (chunk 511 s).1).bind fun g => .ok (g, (chunk 511 s).2)

/-- `putgrent`: the text, or `none` for EINVAL. L328-362 -/
def putgrent (g : Group) : Option (List Nat) :=
  let invalid := fun (s : List Nat) => decide (10 ∈ s ∨ 58 ∈ s)
  if invalid g.name || invalid g.passwd || g.members.any invalid then none
  else some (g.name ++ [58] ++ g.passwd ++ [58] ++ dec g.gid ++ [58] ++ List.intercalate [44] g.members ++ [10])

/-- The callback of `getgrouplist`, for all lines: number of groups, groups stored. L393-401 -/
def listLoop (user : List Nat) (limit : Nat) : List (List Nat) → Nat → List Nat → Res (Nat × List Nat)
  | [], n, out => .ok (n, out)
  | l :: ls, n, out => (extractEntry l).bind fun
    | none => listLoop user limit ls n out
    | some g =>
      if user ∈ g.members then listLoop user limit ls (n + 1) (if n + 1 ≤ limit then out ++ [g.gid] else out)
      else listLoop user limit ls n out

/-- `getgrouplist`: return value, `*ngroups`, the array. `none` for an error. L385-411 -/
def getgrouplist (f : File) (user : List Nat) (gid limit : Nat) : Res (Option (Int × Nat × List Nat)) :=
  match f with
  | none => .ok none
  | some (s, err) =>
    (listLoop user limit (reads 511 s.length s) 1 (if limit ≥ 1 then [gid] else [])).bind fun r =>
    if err then .ok none else .ok (some (if r.1 > limit then -1 else (r.1 : Int), r.1, r.2))

/-- `initgroups`: the list given to `setgroups`, or failure. L295-319 -/
def initgroups (f : File) (user : List Nat) (gid : Nat) : Res (Option (List Nat)) :=
  (getgrouplist f user gid 32).bind fun r => match r with
  | some (ret, n, out) =>
    if ret < 0 then (getgrouplist f user gid n).bind fun
      | some (ret, n, out) => if ret < 0 then .ok none else .ok (some (out.take n))
      | none => .ok none
    else .ok (some (out.take n))
  | none => (getgrouplist f user gid 32).bind fun
      | some (ret, n, out) => if ret < 0 then .ok none else .ok (some (out.take n))
      | none => .ok none

/-- Strings one after the other from an address on. -/
def place : Nat → List (List Nat) → List (Nat × List Nat)
  | _, [] => []
  | a, s :: ss => (a, s) :: place (a + s.length + 1) ss

/-- `copy_to_buffer`: where the array and the strings go (members, name, password), or `none` for ERANGE. A store behind
the buffer, or of pointers to a misaligned array, is undefined. L137-181 -/
def copyToBuffer (g : Group) (addr size : Nat) : Res (Option (Nat × List (Nat × List Nat))) :=
  let offset := (addr % 8 + 7) / 8 * 8
  if size < offset then .ok none
  else
    let required := (g.members.map (fun m => m.length + 1 + 8)).sum + (g.name.length + 1 + 8)
    if size - offset < required then .ok none
    else
      let base := addr + offset
      let start := base + (g.members.length + 1) * 8
      if base % 8 ≠ 0 then .ub
      else if start + (g.members.map (fun m => m.length + 1)).sum + (g.name.length + 1) + (g.passwd.length + 1) > addr + size then .ub
      else .ok (some (base, place start (g.members ++ [g.name, g.passwd])))

/-- `getgrnam_r`: 0 and the entry with its places, 0 is never returned without one. L267-287 -/
def getgrnamR (f : File) (name : List Nat) (addr size : Nat) : Res (Except Nat (Group × Nat × List (Nat × List Nat))) :=
  (getgrnam f name).bind fun
  | .error e => .ok (.error e)
  | .ok g => (copyToBuffer g addr size).bind fun
    | none => .ok (.error 34)
    | some l => .ok (.ok (g, l))

/-! ## Specification -/
namespace Spec

/-- The line of an entry, without the newline. -/
def line (g : Group) : List Nat := g.name ++ 58 :: g.passwd ++ 58 :: dec g.gid ++ 58 :: List.intercalate [44] g.members

/-- An entry that can be written: nothing that separates fields, members or lines; a number for `int`; a line that fits. -/
structure Good (g : Group) : Prop where
  name : ∀ c ∈ g.name, c ≠ 58 ∧ c ≠ 10 ∧ c ≠ 0
  passwd : ∀ c ∈ g.passwd, c ≠ 58 ∧ c ≠ 10 ∧ c ≠ 0
  gid : g.gid ≤ 2147483647
  members : ∀ m ∈ g.members, m ≠ [] ∧ ∀ c ∈ m, c ≠ 58 ∧ c ≠ 44 ∧ c ≠ 10 ∧ c ≠ 0
  fits : (line g).length < 511

/-- A line that is not an entry: fewer than two colons (comments, blank lines). -/
structure Junk (l : List Nat) : Prop where
  colons : l.count 58 < 2
  newline : 10 ∉ l
  nul : 0 ∉ l
  fits : l.length < 511

/-- The lines of a file: entries and others. -/
inductive Line
  | entry (g : Group)
  | junk (l : List Nat)

def Line.text : Line → List Nat
  | .entry g => line g
  | .junk l => l

def Line.Good : Line → Prop
  | .entry g => Spec.Good g
  | .junk l => Junk l

/-- The entries of a file. -/
def entries (ls : List Line) : List Group := ls.filterMap fun | .entry g => some g | .junk _ => none

/-- The contents of a file. -/
def text (ls : List Line) : List Nat := ls.flatMap (fun l => l.text ++ [10])

/-- The groups of a user. -/
def groupsOf (user : List Nat) (gid : Nat) (gs : List Group) : List Nat :=
  gid :: (gs.filter (fun g => decide (user ∈ g.members))).map (·.gid)

end Spec
open Spec

/-! ## Proof -/

theorem walk_acc (delim : Nat) (p s acc : List Nat) (hp : delim ∉ p) :
    walkSegments delim (p ++ s) acc = walkSegments delim s (acc ++ p) := by
  induction p generalizing acc with
  | nil => simp
  | cons c p ih =>
    simp only [List.mem_cons, not_or] at hp
    simp only [List.cons_append, walkSegments]
    rw [if_neg (fun e => hp.1 e.symm), ih _ hp.2]
    simp

theorem walk_field (delim : Nat) (p s : List Nat) (hp : delim ∉ p) :
    walkSegments delim (p ++ delim :: s) [] = p :: walkSegments delim s [] := by
  rw [walk_acc delim p _ _ hp]
  simp [walkSegments]

theorem walk_last (delim : Nat) (p : List Nat) (hp : delim ∉ p) :
    walkSegments delim p [] = if p = [] then [] else [chop p] := by
  have := walk_acc delim p [] [] hp
  rw [List.append_nil] at this
  rw [this]
  simp [walkSegments]

theorem chop_line (s : List Nat) : chop (s ++ [10]) = s := by simp [chop]

theorem chop_plain (s : List Nat) (h : 10 ∉ s) : chop s = s := by
  unfold chop
  rw [if_neg]
  intro hl
  exact h (List.mem_of_getLast? hl)

theorem walk_members (ms : List (List Nat)) (h : ∀ m ∈ ms, m ≠ [] ∧ 44 ∉ m ∧ 10 ∉ m) :
    walkSegments 44 (List.intercalate [44] ms) [] = ms := by
  induction ms with
  | nil => simp [walkSegments]
  | cons m ms ih =>
    obtain ⟨h1, h2, h3⟩ := h m (by simp)
    cases ms with
    | nil =>
      rw [List.intercalate_singleton, walk_last 44 m h2, if_neg h1, chop_plain m h3]
    | cons m' ms =>
      rw [List.intercalate_cons_cons, List.append_assoc, List.singleton_append, walk_field 44 m _ h2, ih (fun x hx => h x (by simp [hx]))]

theorem intercalate_mem {ms : List (List Nat)} {c : Nat} (hc : c ∈ List.intercalate [44] ms) : c = 44 ∨ ∃ m ∈ ms, c ∈ m := by
  induction ms with
  | nil => simp at hc
  | cons m ms ih =>
    cases ms with
    | nil =>
      rw [List.intercalate_singleton] at hc
      exact .inr ⟨m, by simp, hc⟩
    | cons m' ms =>
      rw [List.intercalate_cons_cons] at hc
      rcases List.mem_append.1 hc with hc | hc
      · rcases List.mem_append.1 hc with hc | hc
        · exact .inr ⟨m, by simp, hc⟩
        · exact .inl (by simpa using hc)
      · rcases ih hc with h | ⟨x, hx, hcx⟩
        · exact .inl h
        · exact .inr ⟨x, by simp [hx], hcx⟩

theorem members_chars {g : Group} (h : Good g) {c : Nat} (hc : c ∈ List.intercalate [44] g.members) : c ≠ 58 ∧ c ≠ 10 ∧ c ≠ 0 := by
  rcases intercalate_mem hc with rfl | ⟨m, hm, hcm⟩
  · decide
  · have := (h.members m hm).2 c hcm
    exact ⟨this.1, this.2.2⟩

theorem line_chars {g : Group} (h : Good g) : 10 ∉ line g ∧ 0 ∉ line g := by
  have key : ∀ c ∈ line g, c ≠ 10 ∧ c ≠ 0 := by
    intro c hc
    unfold line at hc
    simp only [List.append_assoc, List.mem_append, List.mem_cons, List.cons_append] at hc
    rcases hc with hc | rfl | hc | rfl | hc | rfl | hc
    · exact (h.name c hc).2
    · decide
    · exact (h.passwd c hc).2
    · decide
    · have := dec_digits _ c hc; omega
    · decide
    · exact (members_chars h hc).2
  exact ⟨fun hc => (key _ hc).1 rfl, fun hc => (key _ hc).2 rfl⟩

theorem extract_line {g : Group} (h : Good g) : extractEntry (line g ++ [10]) = .ok (some g) := by
  unfold extractEntry
  have hnul : 0 ∉ line g ++ [10] := by
    have := (line_chars h).2
    simp [this]
  have hsegs : walkSegments 58 (line g ++ [10]) [] = [g.name, g.passwd, dec g.gid, List.intercalate [44] g.members] := by
    unfold line
    simp only [List.append_assoc, List.cons_append]
    rw [walk_field 58 g.name _ (fun hc => (h.name _ hc).1 rfl), walk_field 58 g.passwd _ (fun hc => (h.passwd _ hc).1 rfl),
      walk_field 58 (dec g.gid) _ (fun hc => by have := dec_digits _ _ hc; omega), walk_last, if_neg (by simp), chop_line]
    intro hc
    rcases List.mem_append.1 hc with hc | hc
    · exact (members_chars h hc).1 rfl
    · simp at hc
  simp only [takeWhile_no_nul _ hnul, hsegs]
  rw [if_neg (by simp)]
  simp only [toNumber_dec _ h.gid, Res.bind]
  rw [walk_members _ (fun m hm => ⟨(h.members m hm).1, fun hc => ((h.members m hm).2 _ hc).2.1 rfl, fun hc => ((h.members m hm).2 _ hc).2.2.1 rfl⟩)]

theorem walk_length (delim : Nat) (s acc : List Nat) : (walkSegments delim s acc).length ≤ s.count delim + 1 := by
  induction s generalizing acc with
  | nil =>
    simp only [walkSegments]
    split <;> simp
  | cons c s ih =>
    simp only [walkSegments]
    split
    · rename_i hc
      have := ih []
      rw [hc, List.count_cons_self, List.length_cons]
      omega
    · rename_i hc
      rw [List.count_cons_of_ne hc]
      exact ih _

theorem extract_junk {l : List Nat} (h : Junk l) : extractEntry (l ++ [10]) = .ok none := by
  unfold extractEntry
  have hnul : 0 ∉ l ++ [10] := by simp [h.nul]
  simp only [takeWhile_no_nul _ hnul]
  have hlen := walk_length 58 (l ++ [10]) []
  rw [List.count_append, show List.count 58 [10] = 0 by decide] at hlen
  have := h.colons
  generalize walkSegments 58 (l ++ [10]) [] = segs at hlen
  rw [if_neg (by omega)]
  match segs, hlen with
  | [], _ => rfl
  | [_], _ => rfl
  | [_, _], _ => rfl
  | _ :: _ :: _ :: _, hlen => simp only [List.length_cons] at hlen; omega

theorem extract_text {l : Line} (h : l.Good) : extractEntry (l.text ++ [10]) = .ok (match l with | .entry g => some g | .junk _ => none) := by
  cases l with
  | entry g => exact extract_line h
  | junk l => exact extract_junk h

theorem reads_text (ls : List Line) (h : ∀ l ∈ ls, l.Good) : reads 511 (text ls).length (text ls) = ls.map (fun l => l.text ++ [10]) := by
  have hfile : text ls = file (ls.map Line.text) := by simp [text, file, List.flatMap_map]
  rw [hfile, reads_file 511 (ls.map Line.text) _ _ (Nat.le_refl _)]
  · simp
  · intro l hl
    obtain ⟨x, hx, rfl⟩ := List.mem_map.1 hl
    have := h x hx
    cases x with
    | entry g => exact ⟨(line_chars this).1, Spec.Good.fits this⟩
    | junk l => exact ⟨this.newline, this.fits⟩

theorem walkLoop_text (cond : Group → Bool) (ls : List Line) (h : ∀ l ∈ ls, l.Good) :
    walkLoop cond (ls.map (fun l => l.text ++ [10])) = .ok ((entries ls).find? cond) := by
  induction ls with
  | nil => rfl
  | cons l ls ih =>
    have ih := ih (fun x hx => h x (by simp [hx]))
    simp only [List.map_cons, walkLoop]
    rw [extract_text (h l (by simp))]
    simp only [Res.bind]
    cases l with
    | junk l => simpa [entries] using ih
    | entry g =>
      simp only [entries, List.filterMap_cons] at ih ⊢
      by_cases hc : cond g = true
      · rw [if_pos hc, List.find?_cons_of_pos hc]
      · rw [if_neg hc, List.find?_cons_of_neg hc]
        exact ih

/-! ## C71 -/

/-- getgrnam finds the first entry of that name, in a file of entries and other lines; else the error is ESRCH. -/
theorem getgrnam_exact (ls : List Line) (h : ∀ l ∈ ls, l.Good) (name : List Nat) :
    getgrnam (some (text ls, false)) name = .ok (match (entries ls).find? (fun g => decide (g.name = name)) with | some g => .ok g | none => .error 3) := by
  unfold getgrnam walkFile
  simp only [reads_text ls h, walkLoop_text _ ls h, Res.bind]
  split <;> rfl

/-- getgrgid finds the first entry with that number. -/
theorem getgrgid_exact (ls : List Line) (h : ∀ l ∈ ls, l.Good) (gid : Nat) :
    getgrgid (some (text ls, false)) gid = .ok (match (entries ls).find? (fun g => decide (g.gid = gid)) with | some g => .ok g | none => .error 3) := by
  unfold getgrgid walkFile
  simp only [reads_text ls h, walkLoop_text _ ls h, Res.bind]
  split <;> rfl

/-- If the file could not be read to its end, a group that is not among the entries is reported as EIO; if it cannot be opened, too. -/
theorem getgrnam_read_error (ls : List Line) (h : ∀ l ∈ ls, l.Good) (name : List Nat) (hno : ∀ g ∈ entries ls, g.name ≠ name) :
    getgrnam (some (text ls, true)) name = .ok (.error 5) ∧ getgrnam none name = .ok (.error 5) := by
  refine ⟨?_, rfl⟩
  unfold getgrnam walkFile
  have hf : (entries ls).find? (fun g => decide (g.name = name)) = none := by
    rw [List.find?_eq_none]
    intro g hg
    simpa using hno g hg
  simp only [reads_text ls h, walkLoop_text _ ls h, Res.bind, hf]
  rfl

/-- Successive calls of getgrent give the entries in order; a null pointer at the end. -/
theorem getgrent_next {g : Group} (h : Good g) (rest : List Nat) : fgetgrent (line g ++ 10 :: rest) = .ok (some g, rest) ∧ fgetgrent [] = .ok (none, []) := by
  refine ⟨?_, rfl⟩
  unfold fgetgrent
  rw [if_neg (by simp), chunk_line _ _ (line_chars h).1 511 h.fits]
  simp only [extract_line h, Res.bind]

/-- What putgrent writes is read back, whatever follows. -/
theorem putgrent_round_trip {g : Group} (h : Good g) (rest : List Nat) : ∃ t, putgrent g = some t ∧ fgetgrent (t ++ rest) = .ok (some g, rest) := by
  refine ⟨line g ++ [10], ?_, ?_⟩
  · unfold putgrent line
    simp only []
    rw [if_neg]
    · simp
    · simp only [Bool.or_eq_true, decide_eq_true_eq, List.any_eq_true, not_or, not_exists, not_and]
      refine ⟨⟨⟨fun hc => (h.name _ hc).2.1 rfl, fun hc => (h.name _ hc).1 rfl⟩, ⟨fun hc => (h.passwd _ hc).2.1 rfl, fun hc => (h.passwd _ hc).1 rfl⟩⟩, ?_⟩
      intro m hm
      exact ⟨fun hc => ((h.members m hm).2 _ hc).2.2.1 rfl, fun hc => ((h.members m hm).2 _ hc).1 rfl⟩
  · rw [List.append_assoc, List.singleton_append]
    exact (getgrent_next h rest).1

theorem listLoop_text (user : List Nat) (limit : Nat) (ls : List Line) (h : ∀ l ∈ ls, l.Good) (n : Nat) (all : List Nat) (hall : all.length = n) :
    listLoop user limit (ls.map (fun l => l.text ++ [10])) n (all.take limit) =
      .ok (n + ((entries ls).filter (fun g => decide (user ∈ g.members))).length,
        (all ++ ((entries ls).filter (fun g => decide (user ∈ g.members))).map (·.gid)).take limit) := by
  induction ls generalizing n all with
  | nil => simp [listLoop, entries]
  | cons l ls ih =>
    have hls : ∀ x ∈ ls, x.Good := fun x hx => h x (by simp [hx])
    simp only [List.map_cons, listLoop]
    rw [extract_text (h l (by simp))]
    simp only [Res.bind]
    cases l with
    | junk l => simpa [entries] using ih hls n all hall
    | entry g =>
      simp only [entries, List.filterMap_cons] at ih ⊢
      by_cases hc : user ∈ g.members
      · rw [if_pos hc, List.filter_cons_of_pos (by simpa using hc)]
        have hout : (if n + 1 ≤ limit then all.take limit ++ [g.gid] else all.take limit) = (all ++ [g.gid]).take limit := by
          split
          · rw [List.take_of_length_le (by omega), List.take_of_length_le (by simp; omega)]
          · rw [List.take_append_of_le_length (by omega)]
        rw [hout, ih hls (n + 1) (all ++ [g.gid]) (by simp [hall])]
        simp only [List.map_cons, List.length_cons, List.append_assoc, List.singleton_append]
        congr 2
        omega
      · rw [if_neg hc, List.filter_cons_of_neg (by simpa using hc)]
        exact ih hls n all hall

/-- getgrouplist gives the user's groups: their number, as many as fit, and -1 exactly if they do not all fit. -/
theorem getgrouplist_exact (ls : List Line) (h : ∀ l ∈ ls, l.Good) (user : List Nat) (gid limit : Nat) :
    getgrouplist (some (text ls, false)) user gid limit = .ok (some
      (if (groupsOf user gid (entries ls)).length > limit then -1 else ((groupsOf user gid (entries ls)).length : Int),
        (groupsOf user gid (entries ls)).length, (groupsOf user gid (entries ls)).take limit)) := by
  unfold getgrouplist
  have h0 : (if limit ≥ 1 then [gid] else []) = [gid].take limit := by
    cases limit <;> simp
  simp only [reads_text ls h, h0, listLoop_text user limit ls h 1 [gid] rfl, Res.bind, Bool.false_eq_true, if_false]
  have hlen : (groupsOf user gid (entries ls)).length = 1 + ((entries ls).filter (fun g => decide (user ∈ g.members))).length := by
    simp [groupsOf]; omega
  rw [← hlen]
  simp only [groupsOf, List.singleton_append]

/-- initgroups installs all of the user's groups, however many there are. -/
theorem initgroups_exact (ls : List Line) (h : ∀ l ∈ ls, l.Good) (user : List Nat) (gid : Nat) :
    initgroups (some (text ls, false)) user gid = .ok (some (groupsOf user gid (entries ls))) := by
  unfold initgroups
  simp only [getgrouplist_exact ls h, Res.bind]
  generalize groupsOf user gid (entries ls) = G
  by_cases hG : G.length > 32
  · simp only [if_pos hG]
    rw [if_pos (by decide), if_neg (Nat.lt_irrefl _), if_neg (by omega)]
    simp
  · simp only [if_neg hG]
    rw [if_neg (by omega)]
    simp only [List.take_take]
    rw [List.take_of_length_le (by omega)]

/-- Where strings stand, one behind the other. -/
theorem place_spec (ss : List (List Nat)) (a : Nat) : (place a ss).map (·.2) = ss ∧
    (∀ x ∈ place a ss, a ≤ x.1 ∧ x.1 + x.2.length + 1 ≤ a + (ss.map (fun s => s.length + 1)).sum) ∧
    (place a ss).Pairwise (fun x y => x.1 + x.2.length + 1 ≤ y.1) := by
  induction ss generalizing a with
  | nil => simp [place]
  | cons s ss ih =>
    obtain ⟨h1, h2, h3⟩ := ih (a + s.length + 1)
    refine ⟨by simp [place, h1], ?_, ?_⟩
    · intro x hx
      simp only [place, List.mem_cons] at hx
      simp only [List.map_cons, List.sum_cons]
      rcases hx with rfl | hx
      · simp only; omega
      · have := h2 x hx; omega
    · simp only [place, List.pairwise_cons]
      exact ⟨fun x hx => (h2 x hx).1, h3⟩

/-- With an aligned buffer that has room for everything, getgrnam_r puts the array and the strings (members, name, password)
into the buffer, none over another. Missing: other buffers, see below. -/
theorem getgrnam_r_partial (ls : List Line) (h : ∀ l ∈ ls, l.Good) (name : List Nat) (g : Group)
    (hg : (entries ls).find? (fun g => decide (g.name = name)) = some g) (addr size : Nat) (ha : addr % 8 = 0)
    (hs : (g.members.length + 1) * 8 + (g.members.map (fun m => m.length + 1)).sum + (g.name.length + 1) + (g.passwd.length + 1) ≤ size) :
    ∃ places, getgrnamR (some (text ls, false)) name addr size = .ok (.ok (g, addr, places)) ∧ places.map (·.2) = g.members ++ [g.name, g.passwd] ∧
      (∀ x ∈ places, addr + (g.members.length + 1) * 8 ≤ x.1 ∧ x.1 + x.2.length + 1 ≤ addr + size) ∧
      places.Pairwise (fun x y => x.1 + x.2.length + 1 ≤ y.1) := by
  have hsum : (g.members.map (fun m => m.length + 1 + 8)).sum = (g.members.map (fun m => m.length + 1)).sum + g.members.length * 8 := by
    generalize g.members = ms
    induction ms with
    | nil => rfl
    | cons m ms ih => simp only [List.map_cons, List.sum_cons, List.length_cons, ih]; omega
  obtain ⟨p1, p2, p3⟩ := place_spec (g.members ++ [g.name, g.passwd]) (addr + (g.members.length + 1) * 8)
  refine ⟨place (addr + (g.members.length + 1) * 8) (g.members ++ [g.name, g.passwd]), ?_, p1, ?_, p3⟩
  · unfold getgrnamR
    rw [getgrnam_exact ls h, hg]
    simp only [Res.bind]
    unfold copyToBuffer
    simp only [ha, Nat.zero_add, show 7 / 8 * 8 = 0 by decide, Nat.add_zero, Nat.sub_zero, Nat.not_lt_zero, if_false, hsum]
    rw [if_neg (by omega), if_neg (by simp), if_neg (by omega)]
  · intro x hx
    have := p2 x hx
    simp only [List.map_append, List.sum_append, List.map_cons, List.map_nil, List.sum_cons, List.sum_nil] at this
    omega

/-! ### Examples and where the code differs -/

def txt (s : String) : List Nat := s.toList.map Char.toNat

def wheel : Group := ⟨txt "wheel", txt "x", 10, [txt "ann", txt "bo"]⟩

theorem wheel_good : Good wheel := ⟨by decide +kernel, by decide +kernel, by decide, by decide +kernel, by decide +kernel⟩

def sample : List Line := [.junk (txt "# groups"), .entry wheel, .entry ⟨txt "users", txt "x", 100, [txt "ann"]⟩]

theorem sample_good : ∀ l ∈ sample, l.Good := by
  intro l hl
  simp only [sample, List.mem_cons, List.not_mem_nil, or_false] at hl
  rcases hl with rfl | rfl | rfl
  · exact ⟨by decide +kernel, by decide +kernel, by decide +kernel, by decide +kernel⟩
  · exact wheel_good
  · exact ⟨by decide +kernel, by decide +kernel, by decide, by decide +kernel, by decide +kernel⟩

example : getgrnam (some (text sample, false)) (txt "wheel") = .ok (.ok wheel) := by
  rw [getgrnam_exact sample sample_good]; rfl
example : initgroups (some (text sample, false)) (txt "ann") 5 = .ok (some [5, 10, 100]) := by
  rw [initgroups_exact sample sample_good]; rfl

/-- The room for the password is not counted: with a buffer as small as that, the code writes behind it. -/
theorem buffer_violated : copyToBuffer wheel 4096 37 = .ub ∧ copyToBuffer wheel 4096 39 = .ok (some (4096, place 4120 [txt "ann", txt "bo", txt "wheel", txt "x"])) ∧
    copyToBuffer ⟨txt "wheel", txt "a-very-long-password", 10, []⟩ 4096 22 = .ub := by
  refine ⟨?_, ?_, ?_⟩ <;> decide +kernel

/-- A buffer that is not aligned is not aligned by adding eight. -/
theorem alignment_violated (addr size : Nat) (ha : addr % 8 ≠ 0) (hs : 100 ≤ size) : copyToBuffer wheel addr size = .ub := by
  unfold copyToBuffer
  have h8 : (addr % 8 + 7) / 8 * 8 = 8 := by omega
  have hreq : (wheel.members.map (fun m => m.length + 1 + 8)).sum + (wheel.name.length + 1 + 8) = 37 := by decide +kernel
  simp only [h8, hreq]
  rw [if_neg (by omega), if_neg (by omega), if_pos (by omega)]

/-- A name that does not exist is an error (POSIX: return 0 and store a null pointer). -/
theorem not_found_violated : getgrnamR (some (text sample, false)) (txt "nobody") 4096 1024 = .ok (.error 3) := by
  unfold getgrnamR
  rw [getgrnam_exact sample sample_good]
  rfl

/-- Lines in the file that end the program or read through a null pointer: three fields, four fields with the last one empty
at the end of the file, five fields; a number that `int` cannot hold. -/
theorem malformed_violated : extractEntry (txt "wheel:x:10\n") = .ub ∧ extractEntry (txt "wheel:x:10:") = .ub ∧
    extractEntry (txt "wheel:x:10:ann:\n") = .panic ∧ extractEntry (txt "nogroup:x:4294967294:\n") = .ub := by
  refine ⟨?_, ?_, ?_, ?_⟩ <;> decide +kernel

/-- putgrent writes members with commas, which come back as two. -/
theorem comma_violated : putgrent ⟨txt "g", txt "x", 1, [txt "a,b"]⟩ = some (txt "g:x:1:a,b\n") ∧
    fgetgrent (txt "g:x:1:a,b\n") = .ok (some ⟨txt "g", txt "x", 1, [txt "a", txt "b"]⟩, []) := by
  refine ⟨?_, ?_⟩ <;> decide +kernel

/-- A line of more than 511 characters is read as several lines: the end of a long list of members can define a group. -/
theorem long_line_violated : ∃ s : List Nat, s.count 10 = 1 ∧ s.getLast? = some 10 ∧
    getgrnam (some (s, false)) (txt "root") = .ok (.ok ⟨txt "root", txt "x", 0, []⟩) := by
  refine ⟨txt "g:x:1:" ++ List.replicate 505 97 ++ txt "root:x:0:\n", by decide +kernel, by decide +kernel, ?_⟩
  have h : walkLoop (fun g => decide (g.name = txt "root")) (reads 511 (txt "g:x:1:" ++ List.replicate 505 97 ++ txt "root:x:0:\n").length
    (txt "g:x:1:" ++ List.replicate 505 97 ++ txt "root:x:0:\n")) = .ok (some ⟨txt "root", txt "x", 0, []⟩) := by decide +kernel
  unfold getgrnam walkFile
  simp only [h]
  rfl

end Mlibc.Group
