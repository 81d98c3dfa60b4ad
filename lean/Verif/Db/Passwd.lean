import Verif.Db.Group

/-
The user database (options/posix/generic/pwd.cpp L31-310), as `Verif.Db.Group`. `pw_gecos` stays in memory of its own.
Property C72.
-/
namespace Mlibc.Passwd
open Mlibc Mlibc.Db

/-! ## Model -/

/-- `struct passwd`. -/
structure User where
  name : List Nat
  passwd : List Nat
  uid : Nat
  gid : Nat
  gecos : List Nat
  dir : List Nat
  shell : List Nat
  deriving DecidableEq, Repr

/-- The text between colons; `acc` is the part so far. L35-48 -/
def fields : List Nat → List Nat → List (List Nat)
  | [], acc => [acc]
  | c :: s, acc => if c = 58 then acc :: fields s [] else fields s (acc ++ [c])

/-- A trailing newline of the shell goes. L74-77 -/
def chop (s : List Nat) : List Nat := if s.getLast? = some 10 then s.dropLast else s

/-- `extract_entry`. L31-87 -/
def extractEntry (line : List Nat) : Res (Option User) :=
  match fields (line.takeWhile (· ≠ 0)) [] with
  | name :: passwd :: uid :: gid :: gecos :: dir :: shell :: rest =>
    if rest.length > 1 then .ok none
    else (toNumber uid 0).bind fun
      | none => .ok none
      | some uid => (toNumber gid 0).bind fun
        | none => .ok none
        | some gid => .ok (some ⟨name, passwd, uid, gid, gecos, dir, chop shell⟩)
  | _ => .ok none

/-- The loops of `getpwnam`, `getpwnam_r`, `getpwuid`, `getpwuid_r`. L149-157, L178-195, L212-220, L241-258 -/
def walkLoop (cond : User → Bool) : List (List Nat) → Res (Option User)
  | [] => .ok none
  | l :: ls => (extractEntry l).bind fun
    | none => walkLoop cond ls
    | some g => if cond g then .ok (some g) else walkLoop cond ls

/-- `getpwnam`, `getpwuid` for a file with these contents. L142-168, L205-231 -/
def getpw (s : List Nat) (cond : User → Bool) : Res (Option User) := walkLoop cond (reads 511 s.length s)

/-- `getpwnam`. L142-168 -/
def getpwnam (s : List Nat) (name : List Nat) : Res (Option User) := getpw s (fun u => u.name = name)

/-- `getpwuid`. L205-231 -/
def getpwuid (s : List Nat) (uid : Nat) : Res (Option User) := getpw s (fun u => u.uid = uid)

/-- `getpwnam_r`, `getpwuid_r` and `copy_to_buffer`: the error (ERANGE 34), or 0 with the entry and the places of its strings
(name, directory, shell, password), or 0 with a null pointer. A store behind the buffer is undefined; `strcpy` comes before the
check. L89-107, L170-203, L233-266 -/
def getpwR (s : List Nat) (cond : User → Bool) (addr size : Nat) : Res (Except Nat (Option (User × List (Nat × List Nat)))) :=
  (getpw s cond).bind fun
  | none => .ok (.ok none)
  | some u =>
    if size < u.name.length + u.dir.length + u.shell.length + u.passwd.length + 4 then .ok (.error 34)
    else if addr + size < addr + (u.name.length + 1) + (u.dir.length + 1) + (u.shell.length + 1) + (u.passwd.length + 1) then .ub
    else .ok (.ok (some (u, Group.place addr [u.name, u.dir, u.shell, u.passwd])))

/-- `getpwent`, `fgetpwent`: the entry and the rest of the file. L121-140, L292-310 -/
def fgetpwent (s : List Nat) : Res (Option User × List Nat) :=
  if s = [] then .ok (none, [])
  else (extractEntry (chunk 511 s).1).bind fun g => .ok (g, (chunk 511 s).2)

/-- `putpwent`: the text, or `none` for EINVAL. L278-290 -/
def putpwent (p : User) : Option (List Nat) :=
  let invalid := fun (s : List Nat) => decide (10 ∈ s ∨ 58 ∈ s)
  if invalid p.name || invalid p.passwd || invalid p.gecos || invalid p.dir || invalid p.shell then none
  else some (p.name ++ [58] ++ p.passwd ++ [58] ++ dec p.uid ++ [58] ++ dec p.gid ++ [58] ++ p.gecos ++ [58] ++ p.dir ++ [58] ++ p.shell ++ [10])

/-! ## Specification -/
namespace Spec

/-- The line of an entry, without the newline. -/
def line (u : User) : List Nat := List.intercalate [58] [u.name, u.passwd, dec u.uid, dec u.gid, u.gecos, u.dir, u.shell]

/-- An entry that can be written. -/
structure Good (u : User) : Prop where
  texts : ∀ s ∈ [u.name, u.passwd, u.gecos, u.dir, u.shell], ∀ c ∈ s, c ≠ 58 ∧ c ≠ 10 ∧ c ≠ 0
  uid : u.uid ≤ 2147483647
  gid : u.gid ≤ 2147483647
  fits : (line u).length < 511

/-- A line that is not an entry: fewer than six colons. -/
structure Junk (l : List Nat) : Prop where
  colons : l.count 58 < 6
  newline : 10 ∉ l
  nul : 0 ∉ l
  fits : l.length < 511

inductive Line
  | entry (u : User)
  | junk (l : List Nat)

def Line.text : Line → List Nat
  | .entry u => line u
  | .junk l => l

def Line.Good : Line → Prop
  | .entry u => Spec.Good u
  | .junk l => Junk l

/-- The entries of a file. -/
def entries (ls : List Line) : List User := ls.filterMap fun | .entry u => some u | .junk _ => none

/-- The contents of a file. -/
def text (ls : List Line) : List Nat := ls.flatMap (fun l => l.text ++ [10])

end Spec
open Spec

/-! ## Proof -/

theorem fields_acc (p s acc : List Nat) (hp : 58 ∉ p) : fields (p ++ s) acc = fields s (acc ++ p) := by
  induction p generalizing acc with
  | nil => simp
  | cons c p ih =>
    simp only [List.mem_cons, not_or] at hp
    simp only [List.cons_append, fields]
    rw [if_neg (fun e => hp.1 e.symm), ih _ hp.2]
    simp

theorem fields_cons (p s : List Nat) (hp : 58 ∉ p) : fields (p ++ 58 :: s) [] = p :: fields s [] := by
  rw [fields_acc p _ _ hp]
  simp [fields]

theorem fields_last (p : List Nat) (hp : 58 ∉ p) : fields p [] = [p] := by
  have := fields_acc p [] [] hp
  rw [List.append_nil] at this
  rw [this]
  simp [fields]

theorem fields_length (s acc : List Nat) : (fields s acc).length = s.count 58 + 1 := by
  induction s generalizing acc with
  | nil => rfl
  | cons c s ih =>
    simp only [fields]
    split
    · rename_i hc
      rw [hc, List.count_cons_self, List.length_cons, ih]
    · rename_i hc
      rw [List.count_cons_of_ne hc]
      exact ih _

theorem line_eq (u : User) : line u = u.name ++ 58 :: (u.passwd ++ 58 :: (dec u.uid ++ 58 :: (dec u.gid ++ 58 :: (u.gecos ++ 58 :: (u.dir ++ 58 :: u.shell))))) := by
  simp [line, List.intercalate_cons_cons, List.intercalate_singleton]

theorem dec_no {c : Nat} (n : Nat) (h : c < 48 ∨ 57 < c) : c ∉ dec n := by
  intro hc
  have := dec_digits n c hc
  omega

theorem line_chars {u : User} (h : Good u) : 10 ∉ line u ∧ 0 ∉ line u := by
  have ht : ∀ s ∈ [u.name, u.passwd, u.gecos, u.dir, u.shell], 10 ∉ s ∧ 0 ∉ s := fun s hs =>
    ⟨fun hc => (h.texts s hs _ hc).2.1 rfl, fun hc => (h.texts s hs _ hc).2.2 rfl⟩
  have h1 := ht u.name (by simp)
  have h2 := ht u.passwd (by simp)
  have h3 := ht u.gecos (by simp)
  have h4 := ht u.dir (by simp)
  have h5 := ht u.shell (by simp)
  have h6 := dec_no (c := 10) u.uid (by omega)
  have h7 := dec_no (c := 10) u.gid (by omega)
  have h8 := dec_no (c := 0) u.uid (by omega)
  have h9 := dec_no (c := 0) u.gid (by omega)
  rw [line_eq]
  constructor
  · simp [h1.1, h2.1, h3.1, h4.1, h5.1, h6, h7]
  · simp [h1.2, h2.2, h3.2, h4.2, h5.2, h8, h9]

theorem extract_line {u : User} (h : Good u) : extractEntry (line u ++ [10]) = .ok (some u) := by
  unfold extractEntry
  have hnul : 0 ∉ line u ++ [10] := by
    have := (line_chars h).2
    simp [this]
  have ht : ∀ s ∈ [u.name, u.passwd, u.gecos, u.dir, u.shell], 58 ∉ s := fun s hs hc => (h.texts s hs _ hc).1 rfl
  have hsegs : fields (line u ++ [10]) [] = [u.name, u.passwd, dec u.uid, dec u.gid, u.gecos, u.dir, u.shell ++ [10]] := by
    rw [line_eq]
    simp only [List.append_assoc, List.cons_append]
    rw [fields_cons _ _ (ht _ (by simp)), fields_cons _ _ (ht _ (by simp)), fields_cons _ _ (dec_no _ (by omega)),
      fields_cons _ _ (dec_no _ (by omega)), fields_cons _ _ (ht _ (by simp)), fields_cons _ _ (ht _ (by simp)), fields_last]
    have := ht u.shell (by simp)
    simp [this]
  rw [takeWhile_no_nul _ hnul, hsegs]
  simp only []
  rw [if_neg (by simp)]
  simp only [toNumber_dec _ h.uid, toNumber_dec _ h.gid, Res.bind]
  rw [show chop (u.shell ++ [10]) = u.shell by simp [chop]]

theorem extract_junk {l : List Nat} (h : Junk l) : extractEntry (l ++ [10]) = .ok none := by
  unfold extractEntry
  have hnul : 0 ∉ l ++ [10] := by simp [h.nul]
  rw [takeWhile_no_nul _ hnul]
  have hlen := fields_length (l ++ [10]) []
  rw [List.count_append, show List.count 58 [10] = 0 by decide] at hlen
  have := h.colons
  generalize fields (l ++ [10]) [] = segs at hlen
  match segs, hlen with
  | _ :: _ :: _ :: _ :: _ :: _ :: _ :: _, hlen => simp only [List.length_cons] at hlen; omega
  | [], _ => rfl
  | [_], _ => rfl
  | [_, _], _ => rfl
  | [_, _, _], _ => rfl
  | [_, _, _, _], _ => rfl
  | [_, _, _, _, _], _ => rfl
  | [_, _, _, _, _, _], _ => rfl

theorem extract_text {l : Line} (h : l.Good) : extractEntry (l.text ++ [10]) = .ok (match l with | .entry g => some g | .junk _ => none) := by
  cases l with
  | entry g => exact extract_line h
  | junk l => exact extract_junk h

theorem reads_text (ls : List Line) (h : ∀ l ∈ ls, l.Good) : reads 511 (text ls).length (text ls) = ls.map (fun l => l.text ++ [10]) := by
  have hfile : text ls = file (ls.map Line.text) := by simp [text, file, List.flatMap_map]
  rw [hfile, reads_file 511 (ls.map Line.text) _ _ (Nat.le_refl _)]
  · simp
  · intro l hl
    obtain ⟨x, hx, rfl⟩ := List.mem_map.1 hl
    have := h x hx
    cases x with
    | entry g => exact ⟨(line_chars this).1, Spec.Good.fits this⟩
    | junk l => exact ⟨this.newline, this.fits⟩

theorem getpw_exact (cond : User → Bool) (ls : List Line) (h : ∀ l ∈ ls, l.Good) : getpw (text ls) cond = .ok ((entries ls).find? cond) := by
  unfold getpw
  rw [reads_text ls h]
  induction ls with
  | nil => rfl
  | cons l ls ih =>
    have ih := ih (fun x hx => h x (by simp [hx]))
    simp only [List.map_cons, walkLoop]
    rw [extract_text (h l (by simp))]
    simp only [Res.bind]
    cases l with
    | junk l => simpa [entries] using ih
    | entry g =>
      simp only [entries, List.filterMap_cons] at ih ⊢
      by_cases hc : cond g = true
      · rw [if_pos hc, List.find?_cons_of_pos hc]
      · rw [if_neg hc, List.find?_cons_of_neg hc]
        exact ih

/-! ## C72 -/

/-- getpwnam finds the first entry of that name. -/
theorem getpwnam_exact (ls : List Line) (h : ∀ l ∈ ls, l.Good) (name : List Nat) :
    getpwnam (text ls) name = .ok ((entries ls).find? (fun u => decide (u.name = name))) := getpw_exact _ ls h

/-- getpwuid finds the first entry with that number. -/
theorem getpwuid_exact (ls : List Line) (h : ∀ l ∈ ls, l.Good) (uid : Nat) :
    getpwuid (text ls) uid = .ok ((entries ls).find? (fun u => decide (u.uid = uid))) := getpw_exact _ ls h

/-- Successive calls of getpwent give the entries in order; a null pointer at the end. -/
theorem getpwent_next {u : User} (h : Good u) (rest : List Nat) : fgetpwent (line u ++ 10 :: rest) = .ok (some u, rest) ∧ fgetpwent [] = .ok (none, []) := by
  refine ⟨?_, rfl⟩
  unfold fgetpwent
  rw [if_neg (by simp), chunk_line _ _ (line_chars h).1 511 h.fits]
  simp only [extract_line h, Res.bind]

/-- What putpwent writes is read back, whatever follows. -/
theorem putpwent_round_trip {u : User} (h : Good u) (rest : List Nat) : ∃ t, putpwent u = some t ∧ fgetpwent (t ++ rest) = .ok (some u, rest) := by
  refine ⟨line u ++ [10], ?_, ?_⟩
  · unfold putpwent
    rw [line_eq]
    simp only []
    rw [if_neg]
    · simp
    · have ht : ∀ s ∈ [u.name, u.passwd, u.gecos, u.dir, u.shell], 10 ∉ s ∧ 58 ∉ s := fun s hs =>
        ⟨fun hc => (h.texts s hs _ hc).2.1 rfl, fun hc => (h.texts s hs _ hc).1 rfl⟩
      have h1 := ht u.name (by simp)
      have h2 := ht u.passwd (by simp)
      have h3 := ht u.gecos (by simp)
      have h4 := ht u.dir (by simp)
      have h5 := ht u.shell (by simp)
      simp [h1, h2, h3, h4, h5]
  · rw [List.append_assoc, List.singleton_append]
    exact (getpwent_next h rest).1

/-- putpwent refuses texts that would break the file. -/
theorem putpwent_rejects (u : User) (h : putpwent u ≠ none) : ∀ s ∈ [u.name, u.passwd, u.gecos, u.dir, u.shell], 10 ∉ s ∧ 58 ∉ s := by
  unfold putpwent at h
  simp only [] at h
  split at h
  · exact absurd rfl h
  · rename_i hc
    simp only [Bool.or_eq_true, decide_eq_true_eq, not_or] at hc
    obtain ⟨⟨⟨⟨h1, h2⟩, h3⟩, h4⟩, h5⟩ := hc
    intro s hs
    simp only [List.mem_cons, List.not_mem_nil, or_false] at hs
    rcases hs with rfl | rfl | rfl | rfl | rfl <;> assumption

/-- The reentrant functions: 0 and a null pointer if there is no such entry; ERANGE exactly if the four strings do not fit; else
they all stand in the buffer, none over another. -/
theorem getpw_r_exact (cond : User → Bool) (ls : List Line) (h : ∀ l ∈ ls, l.Good) (addr size : Nat) :
    ((entries ls).find? cond = none → getpwR (text ls) cond addr size = .ok (.ok none)) ∧
    ∀ u, (entries ls).find? cond = some u →
      (size < ([u.name, u.dir, u.shell, u.passwd].map (fun s => s.length + 1)).sum → getpwR (text ls) cond addr size = .ok (.error 34)) ∧
      (([u.name, u.dir, u.shell, u.passwd].map (fun s => s.length + 1)).sum ≤ size →
        ∃ places, getpwR (text ls) cond addr size = .ok (.ok (some (u, places))) ∧ places.map (·.2) = [u.name, u.dir, u.shell, u.passwd] ∧
          (∀ x ∈ places, addr ≤ x.1 ∧ x.1 + x.2.length + 1 ≤ addr + size) ∧ places.Pairwise (fun x y => x.1 + x.2.length + 1 ≤ y.1)) := by
  unfold getpwR
  rw [getpw_exact cond ls h]
  constructor
  · intro hn
    rw [hn]
    rfl
  · intro u hu
    rw [hu]
    simp only [Res.bind, List.map_cons, List.map_nil, List.sum_cons, List.sum_nil]
    constructor
    · intro hs
      rw [if_pos (by omega)]
    · intro hs
      obtain ⟨p1, p2, p3⟩ := Group.place_spec [u.name, u.dir, u.shell, u.passwd] addr
      refine ⟨_, by rw [if_neg (by omega), if_neg (by omega)], p1, ?_, p3⟩
      intro x hx
      have := p2 x hx
      simp only [List.map_cons, List.map_nil, List.sum_cons, List.sum_nil] at this
      omega

/-! ### Examples and where the code differs -/

def txt (s : String) : List Nat := s.toList.map Char.toNat

def ann : User := ⟨txt "ann", txt "x", 1000, 100, txt "Ann", txt "/home/ann", txt "/bin/sh"⟩

theorem ann_good : Good ann := ⟨by decide +kernel, by decide, by decide, by decide +kernel⟩

def sample : List Line := [.entry ⟨txt "root", txt "x", 0, 0, [], txt "/", txt "/bin/sh"⟩, .junk (txt "# people"), .entry ann]

theorem sample_good : ∀ l ∈ sample, l.Good := by
  intro l hl
  simp only [sample, List.mem_cons, List.not_mem_nil, or_false] at hl
  rcases hl with rfl | rfl | rfl
  · exact ⟨by decide +kernel, by decide, by decide, by decide +kernel⟩
  · exact ⟨by decide +kernel, by decide +kernel, by decide +kernel, by decide +kernel⟩
  · exact ann_good

example : getpwuid (text sample) 1000 = .ok (some ann) := by
  rw [getpwuid_exact sample sample_good]; rfl
example : ∃ t, putpwent ann = some t ∧ fgetpwent (t ++ txt "more") = .ok (some ann, txt "more") := putpwent_round_trip ann_good _
example : ∃ places, getpwR (text sample) (fun u => u.uid = 1000) 4096 30 = .ok (.ok (some (ann, places))) := by
  obtain ⟨p, h, -⟩ := ((getpw_r_exact (fun u => decide (u.uid = 1000)) sample sample_good 4096 30).2 ann rfl).2 (by decide +kernel)
  exact ⟨p, h⟩

/-- Eight fields are taken for an entry; numbers of 2^31 and more, like that of nobody in some systems, overflow; a line of more
than 511 characters is read as several. -/
theorem malformed_violated : extractEntry (txt "ann:x:1:2:Ann:/:/bin/sh:more\n") = .ok (some ⟨txt "ann", txt "x", 1, 2, txt "Ann", txt "/", txt "/bin/sh"⟩) ∧
    extractEntry (txt "nobody:x:4294967294:4294967294::/:\n") = .ub ∧
    getpwnam (txt "ann:x:5:5:" ++ List.replicate 501 97 ++ txt "root:x:0:0::/:\n") (txt "root") = .ok (some ⟨txt "root", txt "x", 0, 0, [], txt "/", []⟩) := by
  refine ⟨?_, ?_, ?_⟩ <;> decide +kernel

end Mlibc.Passwd
