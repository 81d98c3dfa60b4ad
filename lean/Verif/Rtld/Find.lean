import Verif.Base

/-
C96: which file the dynamic linker loads for a name, and when it loads one.

Code: options/rtld/generic/linker.cpp requestObjectWithName L267-408, requestObjectAtPath L410-467, findLoadedObject L493-505, findObjectByFileId L507-514,
the part of _parseDynamic about paths L871-880, _discoverDependencies L1129-1175, and options/rtld/generic/main.cpp parseList L253-285, L561-578, L656-661
and __dlapi_open L719-805.

Strings are lists of bytes without the terminator. The file system is a function from paths to what the linker finds there: the identity of the file (if the
system can tell), and the result of loading it (`_fetchFromFile`, which is the subject of `Rtld/Load`) with its dynamic section. It does not change during
a call. A `string_view` that is a part of a longer string comes with the rest of that string, since the code reads `data()` up to the terminator. Objects are
numbered in the order of loading; the number is the handle. What is not modelled: symbol versions, scopes, linking and initialisation after the search
(see `Rtld/Symbols` and `Rtld/InitOrder`), and the name map's order: if several objects have a name, `pick` is any choice.
-/
namespace Mlibc.Find

abbrev Str := List Nat

/-- `LinkerError`. linker.hpp L29-37 -/
inductive Err where
  | notFound | fileTooShort | notElf | wrongElfType | outOfMemory | invalidProgramHeader
  deriving DecidableEq, Repr

/-- The dynamic section, as far as it matters here: DT_SONAME, the DT_RPATH (false) and DT_RUNPATH (true) entries, DT_NEEDED. L871-880, L922-924, L1155-1161 -/
structure Dyn where
  soname : Option Str := none
  paths : List (Bool × Str) := []
  needed : List Str := []
  deriving DecidableEq, Repr

/-- What is at a path that can be opened. `id`: device and inode, if stat works (`tryFileId`). L592, L439-447 -/
structure File where
  id : Option (Nat × Nat)
  load : Except Err Dyn

abbrev Fs := Str → Option File

/-- SharedObject: name, path, soName, runPath, the DT_NEEDED entries, fileDev and fileIno; `isMain`: isMainObject; `isGlobal`: globalRts is not 0. L1186-1209 -/
structure Obj where
  name : Str
  path : Str
  soname : Option Str := none
  runPath : Option Str := none
  needed : List Str := []
  fileId : Option (Nat × Nat) := none
  isMain : Bool := false
  isGlobal : Bool := false
  deriving DecidableEq, Repr

/-- The name map (L494-496): which of the objects with a name `_nameMap.get` returns. Any function that finds one if there is one. -/
structure Pick where
  get : Str → List Obj → Option Nat
  found : ∀ n l i, get n l = some i → ∃ o, l[i]? = some o ∧ o.name = n
  missing : ∀ n l, get n l = none → ∀ o ∈ l, o.name ≠ n

/-- What the linker is set up with: libraryPaths and preloads (a name or path and what follows it in the variable). main.cpp L561-578 -/
structure Setup where
  libraryPaths : List Str
  preloads : List (Str × Str)

/-! ### The lists in environment variables -/

/-- `path.ends_with("/")`: `while(i > 0 && path[i] == '/') i--`. main.cpp L271-276 -/
def stripLoop (path : Str) : Nat → Nat
  | 0 => 0
  | i + 1 => if path.getD (i + 1) 0 = 47 then stripLoop path i else i + 1

/-- main.cpp L271-279 -/
def strip (path : Str) : Str :=
  let path := if path.getLast? = some 47 then path.take (stripLoop path (path.length - 1) + 1) else path
  if path = [47] then [] else path

/-- An entry with the rest of the variable behind its `string_view`; "/" becomes a literal. main.cpp L278-281 -/
def entry (cur after : Str) : Str × Str := (strip cur, if strip cur = [] then [] else cur.drop (strip cur).length ++ after)

/-- `parseList`: the entries with the rest of the variable after each. The text is followed from the left; `cur` is the part of an entry already read, so that
an entry ends at a separator or at the end of the text (there `p` is the size, and the loop ends). main.cpp L253-285 -/
def parseList (seps : List Nat) : Str → Str → List (Str × Str)
  | [], cur => if cur = [] then [] else [entry cur []]
  | c :: s, cur =>
    if c ∈ seps then
      if cur = [] then parseList seps s []
      else entry cur (c :: s) :: parseList seps s []
    else parseList seps s (cur ++ [c])

/-- LD_LIBRARY_PATH and LD_PRELOAD, unless AT_SECURE is set; then the default paths. main.cpp L561-578 -/
def setup (secure : Bool) (envPath envPreload : Option Str) (default : Str) : Setup :=
  { libraryPaths := (match secure, envPath with
      | false, some s => (parseList [58, 59] s []).map (·.1)
      | _, _ => []) ++ (parseList [10] default []).map (·.1)
    preloads := match secure, envPreload with
      | false, some s => parseList [32, 58] s []
      | _, _ => [] }

/-! ### The search -/

/-- The RUNPATH of an object, from the entries in their order: an RPATH is ignored after a RUNPATH. linker.cpp L871-880 -/
def runPathOf : List (Bool × Str) → Bool → Option Str → Option Str
  | [], _, r => r
  | (run, s) :: l, found, r => if !run && found then runPathOf l found r else runPathOf l run (some s)

/-- findLoadedObject. linker.cpp L493-505 -/
def findLoaded (pick : Pick) (objs : List Obj) (name : Str) : Option Nat :=
  match pick.get name objs with
  | some i => some i
  | none => objs.findIdx? (fun o => o.soname == some name)

/-- The part before the last slash, if there is one. L286-292 -/
def dirOf (path : Str) : Option Str :=
  if 47 ∈ path then some ((path.reverse.dropWhile (· ≠ 47)).drop 1).reverse else none

/-- What follows the last slash. L412-415 -/
def baseOf (path : Str) : Str := (path.reverse.takeWhile (· ≠ 47)).reverse

/-- "$ORIGIN". L285 -/
def originText : Str := [36, 79, 82, 73, 71, 73, 78]

/-- processRpath up to the path. The last character of an empty string is read in front of it. L282-301 -/
def rpathFile (origin : Obj) (name : Str) (path : Str) : Res Str :=
  let sPath := if originText.isPrefixOf path then (match dirOf origin.path with | some d => d | none => [46]) ++ path.drop 7 else path
  if sPath = [] then .ub
  else .ok ((if sPath.getLast? ≠ some 47 then sPath ++ [47] else sPath) ++ name)

/-- The state of `res`: the error so far, or the object (its path and what was loaded). L329, L331-343 -/
abbrev Found := Except Err (Str × Option (Nat × Nat) × Dyn)

/-- tryToOpen and trySharedObjectSetup; a path that cannot be opened leaves `res` alone. L359-367, L385-393 -/
def try' (fs : Fs) (path : Str) (res : Found) : Found :=
  match fs path with
  | none => res
  | some f =>
    match f.load with
    | .error e => .error e
    | .ok d => .ok (path, f.id, d)

/-- The entries of the RUNPATH. (The code treats the last entry after the loop; it does the same there.) L345-374 -/
def searchRpath (fs : Fs) (origin : Obj) (name : Str) : Str → Str → Found → Res Found
  | [], cur, res => (rpathFile origin name cur).bind fun p => .ok (try' fs p res)
  | c :: s, cur, res =>
    if c = 58 then
      (rpathFile origin name cur).bind fun p =>
        match try' fs p res with
        | .ok r => .ok (.ok r)
        | .error e => searchRpath fs origin name s [] (.error e)
    else searchRpath fs origin name s (cur ++ [c]) res

/-- The library paths. L379-394 -/
def searchDirs (fs : Fs) (name : Str) : List Str → Found → Found
  | _, .ok r => .ok r
  | [], .error e => .error e
  | d :: ds, .error e => searchDirs fs name ds (try' fs (d ++ 47 :: name) (.error e))

/-- The new object: what `_parseDynamic` gets from the dynamic section. L332-333, L403-405, L962-969, L1177-1180 -/
def newObj (name path : Str) (fileId : Option (Nat × Nat)) (d : Dyn) (isGlobal : Bool) : Obj :=
  { name := name, path := path, soname := d.soname, runPath := runPathOf d.paths false none, needed := d.needed, fileId := fileId, isGlobal := isGlobal }

/-- requestObjectWithName. The name of the new object is what is found at `name.data()`. L267-408 -/
def withName (pick : Pick) (st : Setup) (fs : Fs) (objs : List Obj) (name rest : Str) (origin : Obj) (isGlobal : Bool) : Res (Except Err Nat × List Obj) :=
  match findLoaded pick objs name with
  | some i => .ok (.ok i, objs)
  | none =>
    (match origin.runPath with
      | none => (.ok (.error .notFound) : Res Found)
      | some r => searchRpath fs origin name r [] (.error .notFound)).bind fun res =>
    match searchDirs fs name st.libraryPaths res with
    | .error e => .ok (.error e, objs)
    | .ok (p, id, d) => .ok (.ok objs.length, objs ++ [newObj (name ++ rest) p id d isGlobal])

/-- requestObjectAtPath. L410-467 -/
def atPath (fs : Fs) (objs : List Obj) (path rest : Str) (isGlobal : Bool) : Except Err Nat × List Obj :=
  match objs.findIdx? (fun o => o.path == path || o.soname == some (baseOf path)) with
  | some i => (.ok i, objs)
  | none =>
    match fs path with
    | none => (.error .notFound, objs)
    | some f =>
      match (match f.id with
        | some id => objs.findIdx? (fun o => o.fileId == some id)
        | none => none) with
      | some i => (.ok i, objs)
      | none =>
        match f.load with
        | .error e => (.error e, objs)
        | .ok d => (.ok objs.length, objs ++ [newObj (baseOf path ++ rest) (path ++ rest) f.id d isGlobal])

/-! ### Dependencies -/

/-- The repository (linker.hpp, L197-201): loadedObjects; dependencyQueue (an object is in it when its wasVisited is set); the objects with dependenciesDiscovered. -/
structure Repo where
  objs : List Obj
  queue : List Nat := []
  done : List Nat := []

/-- A library that was found becomes a dependency; it is queued unless it was visited. L1145-1150, L1168-1173 -/
def enqueue (r : Repo) (i : Nat) : Repo := if i ∈ r.queue then r else { r with queue := r.queue ++ [i] }

/-- The preloads of the main object; one that cannot be loaded stops the program. L1131-1152 -/
def preloadAll (pick : Pick) (st : Setup) (fs : Fs) (o : Obj) : List (Str × Str) → Repo → Res Repo
  | [], r => .ok r
  | (p, rest) :: ps, r =>
    (if 47 ∈ p then .ok (atPath fs r.objs p rest true) else withName pick st fs r.objs p rest o true).bind fun
      | (.error _, _) => .panic
      | (.ok i, objs) => preloadAll pick st fs o ps (enqueue { r with objs := objs } i)

/-- The DT_NEEDED entries; one that cannot be loaded stops the program. L1154-1174 -/
def needAll (pick : Pick) (st : Setup) (fs : Fs) (o : Obj) (isGlobal : Bool) : List Str → Repo → Res Repo
  | [], r => .ok r
  | n :: ns, r =>
    (withName pick st fs r.objs n [] o isGlobal).bind fun
      | (.error _, _) => .panic
      | (.ok i, objs) => needAll pick st fs o isGlobal ns (enqueue { r with objs := objs } i)

/-- _discoverDependencies. L1129-1175 -/
def discover (pick : Pick) (st : Setup) (fs : Fs) (i : Nat) (r : Repo) : Res Repo :=
  match r.objs[i]? with
  | none => .ub
  | some o =>
    (if o.isMain then preloadAll pick st fs o st.preloads r else .ok r).bind fun r =>
    needAll pick st fs o o.isGlobal o.needed r

/-- The loop over the queue, from position `k`. (At the start of the program `dependenciesDiscovered` is not looked at, but it is not set for any object in the
rest of the queue.) `none`: out of fuel. main.cpp L656-661, L789-795 -/
def drain (pick : Pick) (st : Setup) (fs : Fs) : Nat → Nat → Repo → Option (Res Repo)
  | 0, _, _ => none
  | fuel + 1, k, r =>
    match r.queue[k]? with
    | none => some (.ok r)
    | some i =>
      if i ∈ r.done then drain pick st fs fuel (k + 1) r
      else
        match discover pick st fs i r with
        | .ok r => drain pick st fs fuel (k + 1) { r with done := r.done ++ [i] }
        | .ub => some .ub
        | .panic => some .panic

/-- `__dlapi_open` of a file; `caller`: the object the call comes from. Null is `none`. L719-805 -/
def dlopen (pick : Pick) (st : Setup) (fs : Fs) (fuel : Nat) (r : Repo) (file : Str) (global noload : Bool) (caller : Obj) : Option (Res (Option Nat × Repo)) :=
  let object := findLoaded pick r.objs (baseOf file)
  let promote : Option (Nat × Obj) := object.bind fun i => r.objs[i]?.bind fun o => if !o.isGlobal && global then some (i, o) else none
  match promote with
  | some (i, o) => some (.ok (some i, { r with objs := r.objs.set i { o with isGlobal := true } }))
  | none =>
    if noload then some (.ok (object, r))
    else
      match (if 47 ∈ file then .ok (atPath fs r.objs file [] global) else withName pick st fs r.objs file [] caller global) with
      | .ub => some .ub
      | .panic => some .panic
      | .ok (.error _, _) => some (.ok (none, r))
      | .ok (.ok i, objs) =>
        match discover pick st fs i { r with objs := objs } with
        | .ub => some .ub
        | .panic => some .panic
        | .ok r => (drain pick st fs fuel 0 r).map fun
          | .ok r => .ok (some i, r)
          | .ub => .ub
          | .panic => .panic

/-! ### Specification -/

/-- `s` is the list of the entries `cs` (at least one), which are without separators, with a separator between them. -/
inductive Entries (seps : List Nat) : Str → List Str → Prop where
  | one (c : Str) (h : ∀ x ∈ c, x ∉ seps) : Entries seps c [c]
  | more (c : Str) (h : ∀ x ∈ c, x ∉ seps) (x : Nat) (hx : x ∈ seps) (s : Str) (cs : List Str) (hs : Entries seps s cs) : Entries seps (c ++ x :: s) (c :: cs)

/-- Two lists with related elements at the same places. -/
inductive Each {α β : Type} (R : α → β → Prop) : List α → List β → Prop where
  | nil : Each R [] []
  | cons {a : α} {b : β} {l : List α} {m : List β} (h : R a b) (t : Each R l m) : Each R (a :: l) (b :: m)

/-- A directory without the slashes at its end. -/
def Trimmed (c d : Str) : Prop := (∃ k, c = d ++ List.replicate k 47) ∧ d.getLast? ≠ some 47

/-- The directories of a variable: its entries that are not empty, each without the slashes at its end. -/
def Dirs (seps : List Nat) (s : Str) (ds : List Str) : Prop :=
  ∃ cs, Entries seps s cs ∧ Each Trimmed (cs.filter (fun c => c ≠ [])) ds

/-- What an entry of a RUNPATH or RPATH stands for: itself, or with the directory of the object in place of $ORIGIN at its beginning. -/
inductive Expands (originPath : Str) : Str → Str → Prop where
  | plain (c : Str) (h0 : c ≠ []) (h : 36 ∉ c) : Expands originPath c c
  | dir (r dir base : Str) (h : 36 ∉ r) (hr : r = [] ∨ r.head? = some 47) (hp : originPath = dir ++ 47 :: base) (hb : 47 ∉ base) (h0 : dir ++ r ≠ []) :
      Expands originPath ("$ORIGIN".toList.map Char.toNat ++ r) (dir ++ r)
  | here (r : Str) (h : 36 ∉ r) (hr : r = [] ∨ r.head? = some 47) (hp : 47 ∉ originPath) :
      Expands originPath ("$ORIGIN".toList.map Char.toNat ++ r) (46 :: r)

/-- The file of a name in a directory. -/
def fileIn (name d : Str) : Str := if d.getLast? = some 47 then d ++ name else d ++ 47 :: name

/-- The directories in the order of the ELF standard: DT_RPATH, LD_LIBRARY_PATH, DT_RUNPATH, the defaults; DT_RPATH counts only without DT_RUNPATH. -/
def order (rpath runpath : Option (List Str)) (env default : List Str) : List Str :=
  match rpath, runpath with
  | _, some r => env ++ r ++ default
  | some r, none => r ++ env ++ default
  | none, none => env ++ default

/-- Nothing can be loaded from there. -/
def Unusable (fs : Fs) (p : Str) : Prop := ∀ f, fs p = some f → ∃ e, f.load = .error e

/-- The object is known by that name. -/
def Known (o : Obj) (n : Str) : Prop := o.name = n ∨ o.soname = some n

/-! ### Proofs -/

theorem getLast?_take {l : Str} {n : Nat} (h : n + 1 ≤ l.length) : (l.take (n + 1)).getLast? = some (l.getD n 0) := by
  rw [List.getLast?_eq_getElem?]
  have : (l.take (n + 1)).length = n + 1 := by simp; omega
  rw [this]
  simp only [Nat.add_sub_cancel]
  rw [List.getElem?_take_of_lt (by omega), List.getD_eq_getElem?_getD, List.getElem?_eq_getElem (by omega)]
  rfl

theorem stripLoop_spec (p : Str) (i : Nat) (h : i < p.length) (h0 : 0 < i → True) :
    stripLoop p i ≤ i ∧ p.take (i + 1) = p.take (stripLoop p i + 1) ++ List.replicate (i - stripLoop p i) 47 ∧
      (0 < stripLoop p i → p.getD (stripLoop p i) 0 ≠ 47) := by
  induction i with
  | zero => simp [stripLoop]
  | succ i ih =>
    unfold stripLoop
    by_cases hc : p.getD (i + 1) 0 = 47
    · rw [if_pos hc]
      obtain ⟨a, b, c⟩ := ih (by omega) (fun _ => trivial)
      refine ⟨by omega, ?_, c⟩
      have e1 : p.take (i + 1 + 1) = p.take (i + 1) ++ [47] := by
        rw [List.take_add_one (i := i + 1), ← hc, List.getD_eq_getElem?_getD, List.getElem?_eq_getElem h]
        rfl
      rw [e1, b, List.append_assoc]
      congr 1
      rw [show i + 1 - stripLoop p i = (i - stripLoop p i) + 1 by omega, List.replicate_succ']
    · rw [if_neg hc]
      refine ⟨Nat.le_refl _, by simp, fun _ => hc⟩

theorem strip_spec (c : Str) (h : c ≠ []) : Trimmed c (strip c) := by
  have hl : 0 < c.length := List.length_pos_iff.mpr h
  unfold strip
  by_cases hs : c.getLast? = some 47
  · simp only [if_pos hs]
    obtain ⟨a, b, d⟩ := stripLoop_spec c (c.length - 1) (by omega) (fun _ => trivial)
    rw [show c.length - 1 + 1 = c.length by omega, List.take_length] at b
    generalize stripLoop c (c.length - 1) = k at *
    by_cases hk : c.take (k + 1) = [47]
    · rw [if_pos hk]
      refine ⟨⟨1 + (c.length - 1 - k), ?_⟩, by simp⟩
      rw [List.nil_append, Nat.add_comm 1, List.replicate_succ]
      rw [hk] at b
      exact b
    · rw [if_neg hk]
      refine ⟨⟨_, b⟩, ?_⟩
      rw [getLast?_take (by omega)]
      intro hc
      have hc := Option.some.inj hc
      rcases Nat.eq_zero_or_pos k with h0 | h0
      · subst h0
        apply hk
        cases c with
        | nil => exact absurd rfl h
        | cons x c =>
          simp at hc
          simp [hc]
      · exact d h0 hc
  · simp only [if_neg hs]
    have : ¬ c = [47] := by
      intro h
      subst h
      simp at hs
    rw [if_neg this]
    exact ⟨⟨0, by simp⟩, hs⟩

theorem parseList_read (seps : List Nat) (c s cur : Str) (h : ∀ x ∈ c, x ∉ seps) : parseList seps (c ++ s) cur = parseList seps s (cur ++ c) := by
  induction c generalizing cur with
  | nil => simp
  | cons x c ih =>
    rw [List.cons_append, parseList, if_neg (h x (by simp)), ih _ (fun y hy => h y (by simp [hy]))]
    simp

theorem parseList_entries {seps : List Nat} {s : Str} {cs : List Str} (h : Entries seps s cs) :
    (parseList seps s []).map (·.1) = (cs.filter (fun c => c ≠ [])).map strip := by
  induction h with
  | one c h =>
    have := parseList_read seps c [] [] h
    rw [List.append_nil] at this
    rw [this, List.nil_append, parseList]
    by_cases hc : c = []
    · simp [hc]
    · simp [hc, entry]
  | more c h x hx s cs hs ih =>
    rw [parseList_read seps c _ [] h, List.nil_append, parseList, if_pos hx]
    by_cases hc : c = []
    · simp [hc, ih]
    · rw [if_neg hc]
      simp [hc, entry, ih]

theorem each_map {α β : Type} {R : α → β → Prop} (f : α → β) (l : List α) (h : ∀ a ∈ l, R a (f a)) : Each R l (l.map f) := by
  induction l with
  | nil => exact .nil
  | cons a l ih => exact .cons (h a (by simp)) (ih (fun b hb => h b (by simp [hb])))

theorem trimmed_unique {c d e : Str} (h1 : Trimmed c d) (h2 : Trimmed c e) : d = e := by
  obtain ⟨⟨j, hj⟩, h1⟩ := h1
  obtain ⟨⟨k, hk⟩, h2⟩ := h2
  subst hj
  induction j generalizing k with
  | zero =>
    cases k with
    | zero => simpa using hk
    | succ k =>
      simp only [List.replicate_zero, List.append_nil] at hk
      rw [hk, List.replicate_succ', ← List.append_assoc] at h1
      simp at h1
  | succ j ih =>
    cases k with
    | zero =>
      simp only [List.replicate_zero, List.append_nil] at hk
      rw [← hk, List.replicate_succ', ← List.append_assoc] at h2
      simp at h2
    | succ k =>
      rw [List.replicate_succ', List.replicate_succ', ← List.append_assoc, ← List.append_assoc] at hk
      exact ih k (List.append_cancel_right hk)

theorem each_unique {α β : Type} {R : α → β → Prop} (hu : ∀ a b c, R a b → R a c → b = c) {l : List α} {m n : List β} (h1 : Each R l m) (h2 : Each R l n) : m = n := by
  induction h1 generalizing n with
  | nil => cases h2; rfl
  | cons h t ih =>
    cases h2 with
    | cons h' t' => rw [hu _ _ _ h h', ih t']

/-- **The lists in variables**: the directories are the entries, whatever their number, without slashes at the end; empty entries are ignored. -/
theorem parseList_dirs (seps : List Nat) (s : Str) (ds : List Str) (h : Dirs seps s ds) : (parseList seps s []).map (·.1) = ds := by
  obtain ⟨cs, h1, h2⟩ := h
  rw [parseList_entries h1]
  exact each_unique (R := Trimmed) (fun _ _ _ h h' => trimmed_unique h h') (each_map strip _ (fun a ha => strip_spec a (by simpa using (List.mem_filter.mp ha).2))) h2

theorem entries_exist (seps : List Nat) (s : Str) : ∃ cs, Entries seps s cs := by
  have : ∀ (s cur : Str), (∀ x ∈ cur, x ∉ seps) → ∃ cs, Entries seps (cur ++ s) cs := by
    intro s
    induction s with
    | nil => intro cur h; exact ⟨[cur], by rw [List.append_nil]; exact .one cur h⟩
    | cons x s ih =>
      intro cur h
      by_cases hx : x ∈ seps
      · obtain ⟨cs, hcs⟩ := ih [] (by simp)
        exact ⟨cur :: cs, .more cur h x hx s cs hcs⟩
      · obtain ⟨cs, hcs⟩ := ih (cur ++ [x]) (by
          intro y hy
          rcases List.mem_append.mp hy with hy | hy
          · exact h y hy
          · rw [List.mem_singleton.mp hy]; exact hx)
        exact ⟨cs, by simpa using hcs⟩
  simpa using this s [] (by simp)

/-- Every text is such a list. -/
theorem dirs_exist (seps : List Nat) (s : Str) : ∃ ds, Dirs seps s ds := by
  obtain ⟨cs, h⟩ := entries_exist seps s
  exact ⟨_, cs, h, each_map strip _ (fun a ha => strip_spec a (by simpa using (List.mem_filter.mp ha).2))⟩

/-- **Secure mode**: the environment has no influence. -/
theorem secure_spec (envPath envPreload : Option Str) (default : Str) : setup true envPath envPreload default = setup true none none default := by
  cases envPath <;> cases envPreload <;> rfl

/-! #### Walking through the files -/

/-- Trying paths in turn. -/
def walk (fs : Fs) : List Str → Found → Found
  | [], res => res
  | p :: ps, res =>
    match try' fs p res with
    | .ok r => .ok r
    | .error e => walk fs ps (.error e)

theorem walk_append (fs : Fs) (ps qs : List Str) (e : Err) :
    walk fs (ps ++ qs) (.error e) = match walk fs ps (.error e) with | .ok r => .ok r | .error e => walk fs qs (.error e) := by
  induction ps generalizing e with
  | nil => rfl
  | cons p ps ih =>
    rw [List.cons_append, walk, walk]
    cases try' fs p (.error e) with
    | ok r => rfl
    | error e => exact ih e

theorem walk_hit (fs : Fs) (pre : List Str) (p : Str) (post : List Str) (f : File) (d : Dyn) (e : Err) (h : ∀ q ∈ pre, Unusable fs q) (hf : fs p = some f)
    (hd : f.load = .ok d) : walk fs (pre ++ p :: post) (.error e) = .ok (p, f.id, d) := by
  induction pre generalizing e with
  | nil => rw [List.nil_append, walk, try', hf]; simp only [hd]
  | cons q pre ih =>
    rw [List.cons_append, walk, try']
    have hq := h q (by simp)
    cases hfq : fs q with
    | none => exact ih e (fun x hx => h x (by simp [hx]))
    | some g =>
      obtain ⟨e', he'⟩ := hq g hfq
      simp only [he']
      exact ih e' (fun x hx => h x (by simp [hx]))

theorem walk_miss (fs : Fs) (ps : List Str) (e : Err) (h : ∀ q ∈ ps, Unusable fs q) :
    ∃ e', walk fs ps (.error e) = .error e' ∧ ((∀ q ∈ ps, fs q = none) → e' = e) := by
  induction ps generalizing e with
  | nil => exact ⟨e, rfl, fun _ => rfl⟩
  | cons q ps ih =>
    rw [walk, try']
    cases hfq : fs q with
    | none =>
      obtain ⟨e', h1, h2⟩ := ih e (fun x hx => h x (by simp [hx]))
      exact ⟨e', h1, fun hn => h2 (fun x hx => hn x (by simp [hx]))⟩
    | some g =>
      obtain ⟨e1, he1⟩ := h q (by simp) g hfq
      simp only [he1]
      obtain ⟨e', h1, _⟩ := ih e1 (fun x hx => h x (by simp [hx]))
      refine ⟨e', h1, fun hn => ?_⟩
      rw [hn q (by simp)] at hfq
      cases hfq

theorem searchDirs_walk (fs : Fs) (name : Str) (ds : List Str) (h : ∀ d ∈ ds, d.getLast? ≠ some 47) (e : Err) :
    searchDirs fs name ds (.error e) = walk fs (ds.map (fileIn name)) (.error e) := by
  induction ds generalizing e with
  | nil => rfl
  | cons d ds ih =>
    rw [searchDirs, List.map_cons, walk, fileIn, if_neg (h d (by simp))]
    cases try' fs (d ++ 47 :: name) (.error e) with
    | ok r => cases ds <;> rfl
    | error e => exact ih (fun x hx => h x (by simp [hx])) e

theorem dirOf_append (dir base : Str) (hb : 47 ∉ base) : dirOf (dir ++ 47 :: base) = some dir := by
  unfold dirOf
  rw [if_pos (by simp)]
  have h : (dir ++ 47 :: base).reverse = base.reverse ++ 47 :: dir.reverse := by simp
  have h2 : ∀ (b r : Str), 47 ∉ b → (b ++ 47 :: r).dropWhile (fun x => decide (x ≠ 47)) = 47 :: r := by
    intro b r hb
    induction b with
    | nil => rfl
    | cons x b ih =>
      simp only [List.mem_cons, not_or] at hb
      rw [List.cons_append, List.dropWhile_cons_of_pos (by simp only [ne_eq, decide_eq_true_eq]; exact fun h => hb.1 h.symm)]
      exact ih hb.2
  rw [h, h2 _ _ (by simpa using hb)]
  simp

theorem rpathFile_expands (origin : Obj) (name c d : Str) (h : Expands origin.path c d) : rpathFile origin name c = .ok (fileIn name d) := by
  have fin : ∀ s : Str, s ≠ [] → ((if s = [] then Res.ub else Res.ok ((if s.getLast? ≠ some 47 then s ++ [47] else s) ++ name)) = .ok (fileIn name s)) := by
    intro s hs
    rw [if_neg hs, fileIn]
    by_cases h : s.getLast? = some 47
    · rw [if_neg (by simpa using h), if_pos h]
    · rw [if_pos h, if_neg h]; simp
  unfold rpathFile
  cases h with
  | plain _ h0 h =>
    have : originText.isPrefixOf c = false := by
      cases c with
      | nil => rfl
      | cons x c =>
        simp only [List.mem_cons, not_or] at h
        have hx : (36 == x) = false := by simpa using h.1
        show ((36 == x) && _) = false
        rw [hx]; rfl
    simp only [this, Bool.false_eq_true, if_false]
    exact fin c h0
  | dir r dir base h hr hp hb h0 =>
    rw [hp, dirOf_append dir base hb]
    exact fin _ h0
  | here r h hr hp =>
    rw [dirOf, if_neg hp]
    exact fin (46 :: r) (by simp)

theorem searchRpath_read (fs : Fs) (origin : Obj) (name c s cur : Str) (res : Found) (h : ∀ x ∈ c, x ∉ [58]) :
    searchRpath fs origin name (c ++ s) cur res = searchRpath fs origin name s (cur ++ c) res := by
  induction c generalizing cur with
  | nil => simp
  | cons x c ih =>
    rw [List.cons_append, searchRpath, if_neg (by simpa using h x (by simp)), ih _ (fun y hy => h y (by simp [hy]))]
    simp

theorem searchRpath_walk (fs : Fs) (origin : Obj) (name : Str) {r : Str} {cs : List Str} (h : Entries [58] r cs) {ds : List Str}
    (hd : Each (Expands origin.path) cs ds) (e : Err) :
    searchRpath fs origin name r [] (.error e) = .ok (walk fs (ds.map (fileIn name)) (.error e)) := by
  induction h generalizing ds e with
  | one c h =>
    cases hd with
    | cons hc t =>
      cases t
      have := searchRpath_read fs origin name c [] [] (.error e) h
      rw [List.append_nil] at this
      rw [this, List.nil_append, searchRpath, rpathFile_expands origin name _ _ hc]
      simp only [Res.bind, List.map_cons, List.map_nil, walk]
      cases try' fs _ _ <;> rfl
  | more c h x hx s cs hs ih =>
    cases hd with
    | @cons _ d _ ds hc t =>
      rw [searchRpath_read fs origin name c _ [] _ h, List.nil_append, searchRpath, if_pos (by simpa using hx), rpathFile_expands origin name _ _ hc]
      simp only [Res.bind, List.map_cons, walk]
      cases try' fs (fileIn name d) (.error e) with
      | ok r => rfl
      | error e => exact ih t e

theorem runPathOf_spec (l : List (Bool × Str)) : runPathOf l false none =
    match (l.filter (fun p => p.1)).getLast? with
    | some p => some p.2
    | none => ((l.filter (fun p => !p.1)).getLast?).map (·.2) := by
  have after : ∀ (l : List (Bool × Str)) (r : Str), runPathOf l true (some r) = match (l.filter (fun p => p.1)).getLast? with | some p => some p.2 | none => some r := by
    intro l
    induction l with
    | nil => intro r; rfl
    | cons p l ih =>
      intro r
      obtain ⟨b, s⟩ := p
      cases b with
      | false => simp [runPathOf, ih]
      | true =>
        simp only [runPathOf, Bool.not_true, Bool.false_and, Bool.false_eq_true, if_false, ih, List.filter_cons_of_pos]
        cases h : (List.filter (fun p => p.1) l) with
        | nil => rfl
        | cons q t => rw [List.getLast?_cons_cons, List.getLast?_cons]
  have before : ∀ (l : List (Bool × Str)) (r : Option Str), runPathOf l false r = match (l.filter (fun p => p.1)).getLast? with
      | some p => some p.2
      | none => match (l.filter (fun p => !p.1)).getLast? with | some p => some p.2 | none => r := by
    intro l
    induction l with
    | nil => intro r; rfl
    | cons p l ih =>
      intro r
      obtain ⟨b, s⟩ := p
      cases b with
      | false =>
        simp only [runPathOf, Bool.not_false, Bool.true_and, Bool.false_eq_true, if_false, ih]
        simp only [List.filter_cons, Bool.false_eq_true, if_false, Bool.not_false, if_true]
        cases (List.filter (fun p => p.1) l).getLast? with
        | some q => rfl
        | none =>
          cases h : (List.filter (fun p => !p.1) l) with
          | nil => rfl
          | cons q t => rw [List.getLast?_cons_cons, List.getLast?_cons]
      | true =>
        simp only [runPathOf, Bool.not_true, Bool.false_and, Bool.false_eq_true, if_false, after]
        simp only [List.filter_cons, if_true]
        cases h : (List.filter (fun p => p.1) l) with
        | nil => rfl
        | cons q t => rw [List.getLast?_cons_cons, List.getLast?_cons]
  rw [before]
  cases (l.filter (fun p => p.1)).getLast? with
  | some p => rfl
  | none => cases (l.filter (fun p => !p.1)).getLast? <;> rfl

theorem findLoaded_none {pick : Pick} {objs : List Obj} {name : Str} (h : ∀ o ∈ objs, ¬ Known o name) : findLoaded pick objs name = none := by
  unfold findLoaded
  cases hp : pick.get name objs with
  | some i =>
    obtain ⟨o, ho, hn⟩ := pick.found _ _ _ hp
    exact absurd (.inl hn) (h o (List.mem_of_getElem? ho))
  | none =>
    rw [List.findIdx?_eq_none_iff]
    intro o ho
    have := h o ho
    unfold Known at this
    simp only [not_or] at this
    simpa using this.2

theorem findLoaded_some {pick : Pick} {objs : List Obj} {name : Str} {i : Nat} (h : findLoaded pick objs name = some i) :
    ∃ o, objs[i]? = some o ∧ Known o name := by
  unfold findLoaded at h
  cases hp : pick.get name objs with
  | some j =>
    rw [hp] at h
    cases h
    obtain ⟨o, ho, hn⟩ := pick.found _ _ _ hp
    exact ⟨o, ho, .inl hn⟩
  | none =>
    rw [hp] at h
    rw [List.findIdx?_eq_some_iff_getElem] at h
    obtain ⟨hi, ho, _⟩ := h
    exact ⟨objs[i], List.getElem?_eq_getElem hi, .inr (by simpa using ho)⟩

theorem findLoaded_exists (pick : Pick) (objs : List Obj) (name : Str) (h : ∃ o ∈ objs, Known o name) : ∃ i, findLoaded pick objs name = some i := by
  unfold findLoaded
  cases hp : pick.get name objs with
  | some j => exact ⟨j, rfl⟩
  | none =>
    dsimp only
    cases hf : objs.findIdx? (fun o => o.soname == some name) with
    | some i => exact ⟨i, rfl⟩
    | none =>
      obtain ⟨o, ho, hk⟩ := h
      rw [List.findIdx?_eq_none_iff] at hf
      rcases hk with hk | hk
      · exact absurd hk (pick.missing _ _ hp o ho)
      · have := hf o ho
        simp [hk] at this

/-- The entry in a dynamic section, and the directories it stands for. -/
def PathDirs (originPath : Str) (entry : Option Str) (ds : Option (List Str)) : Prop :=
  (entry = none ∧ ds = none) ∨ ∃ r cs l, entry = some r ∧ Entries [58] r cs ∧ Each (Expands originPath) cs l ∧ ds = some l

/-- The directories of a variable that may not be set. -/
def EnvDirs (secure : Bool) (env : Option Str) (ds : List Str) : Prop :=
  match secure, env with
  | false, some s => Dirs [58, 59] s ds
  | _, _ => ds = []

theorem trimmed_last {l m : List Str} (h : Each Trimmed l m) : ∀ d ∈ m, d.getLast? ≠ some 47 := by
  induction h with
  | nil => intro d hd; cases hd
  | cons h t ih =>
    intro d hd
    rcases List.mem_cons.mp hd with rfl | hd
    · exact h.2
    · exact ih d hd

/-- **The search**: the library is loaded from the first directory, in the order of the ELF standard, that has a usable file of that name; files that cannot be
loaded (of another architecture, for example) do not matter. Without any, nothing is loaded and there is an error.
Missing, because the code violates it: DT_RUNPATH together with LD_LIBRARY_PATH (`order_violated`), and entries that are empty (`empty_violated`). -/
theorem search_partial (pick : Pick) (fs : Fs) (objs : List Obj) (name : Str) (origin : Obj) (isGlobal secure : Bool) (env pre : Option Str) (default : Str)
    (paths : List (Bool × Str)) (rpath runpath : Option (List Str)) (envDirs defDirs : List Str)
    (hnew : ∀ o ∈ objs, ¬ Known o name) (ho : origin.runPath = runPathOf paths false none)
    (hrun : PathDirs origin.path (((paths.filter (fun p => p.1)).getLast?).map (·.2)) runpath)
    (hr : PathDirs origin.path (((paths.filter (fun p => !p.1)).getLast?).map (·.2)) rpath)
    (he : EnvDirs secure env envDirs) (hd : Dirs [10] default defDirs) (hpart : runpath = none ∨ envDirs = []) :
    (∀ before d after f dyn, order rpath runpath envDirs defDirs = before ++ d :: after → (∀ b ∈ before, Unusable fs (fileIn name b)) →
      fs (fileIn name d) = some f → f.load = .ok dyn →
      ∃ o, withName pick (setup secure env pre default) fs objs name [] origin isGlobal = .ok (.ok objs.length, objs ++ [o]) ∧
        o.name = name ∧ o.path = fileIn name d ∧ o.soname = dyn.soname ∧ o.needed = dyn.needed ∧ o.fileId = f.id) ∧
    ((∀ d ∈ order rpath runpath envDirs defDirs, Unusable fs (fileIn name d)) →
      ∃ e, withName pick (setup secure env pre default) fs objs name [] origin isGlobal = .ok (.error e, objs) ∧
        ((∀ d ∈ order rpath runpath envDirs defDirs, fs (fileIn name d) = none) → e = .notFound)) := by
  have hlib : (setup secure env pre default).libraryPaths = envDirs ++ defDirs := by
    unfold setup EnvDirs at *
    dsimp only
    rw [parseList_dirs [10] default defDirs hd]
    cases secure <;> cases env <;> dsimp only at he ⊢
    · rw [he]
    · rw [parseList_dirs _ _ _ he]
    · rw [he]
    · rw [he]
  have hlast : ∀ d ∈ envDirs ++ defDirs, d.getLast? ≠ some 47 := by
    intro d hdm
    rcases List.mem_append.mp hdm with h | h
    · unfold EnvDirs at he
      cases secure <;> cases env <;> dsimp only at he
      · rw [he] at h; cases h
      · obtain ⟨_, _, ht⟩ := he; exact trimmed_last ht d h
      · rw [he] at h; cases h
      · rw [he] at h; cases h
    · obtain ⟨_, _, ht⟩ := hd; exact trimmed_last ht d h
  have hw : withName pick (setup secure env pre default) fs objs name [] origin isGlobal =
      match walk fs ((order rpath runpath envDirs defDirs).map (fileIn name)) (.error .notFound) with
      | .error e => .ok (.error e, objs)
      | .ok (p, id, d) => .ok (.ok objs.length, objs ++ [newObj name p id d isGlobal]) := by
    unfold withName
    rw [findLoaded_none hnew]
    dsimp only
    rw [List.append_nil, hlib, ho, runPathOf_spec]
    -- the entry that counts
    have hcase : (∃ r cs l, (match ((paths.filter (fun p => p.1)).getLast?) with | some p => some p.2 | none => ((paths.filter (fun p => !p.1)).getLast?).map (·.2)) = some r ∧
          Entries [58] r cs ∧ Each (Expands origin.path) cs l ∧ order rpath runpath envDirs defDirs = l ++ (envDirs ++ defDirs)) ∨
        ((match ((paths.filter (fun p => p.1)).getLast?) with | some p => some p.2 | none => ((paths.filter (fun p => !p.1)).getLast?).map (·.2)) = none ∧
          order rpath runpath envDirs defDirs = envDirs ++ defDirs) := by
      rcases hrun with ⟨h1, h2⟩ | ⟨r, cs, l, h1, h2, h3, h4⟩
      · rw [Option.map_eq_none_iff] at h1
        rw [h1]
        dsimp only
        rcases hr with ⟨h5, h6⟩ | ⟨r, cs, l, h5, h6, h7, h8⟩
        · right
          exact ⟨h5, by rw [h2, h6]; rfl⟩
        · left
          exact ⟨r, cs, l, h5, h6, h7, by rw [h2, h8]; simp [order]⟩
      · left
        rw [Option.map_eq_some_iff] at h1
        obtain ⟨p, hp1, hp2⟩ := h1
        rw [hp1]
        refine ⟨r, cs, l, by rw [← hp2], h2, h3, ?_⟩
        rcases hpart with h | h
        · rw [h4] at h; cases h
        · rw [h4, h]
          cases rpath <;> simp [order]
    rcases hcase with ⟨r, cs, l, e1, e2, e3, e4⟩ | ⟨e1, e2⟩
    · rw [e1]
      dsimp only
      rw [searchRpath_walk fs origin name e2 e3]
      simp only [Res.bind]
      rw [e4, List.map_append, walk_append]
      cases walk fs (l.map (fileIn name)) (.error .notFound) with
      | ok r => cases (envDirs ++ defDirs) <;> rfl
      | error e => dsimp only; rw [searchDirs_walk fs name _ hlast e]
    · rw [e1]
      simp only [Res.bind]
      rw [searchDirs_walk fs name _ hlast, e2]
  constructor
  · intro before d after f dyn h1 h2 h3 h4
    rw [hw, h1, List.map_append, List.map_cons, walk_hit fs _ _ _ f dyn _ (by
      intro q hq
      obtain ⟨b, hb, rfl⟩ := List.mem_map.mp hq
      exact h2 b hb) h3 h4]
    exact ⟨_, rfl, rfl, rfl, rfl, rfl, rfl⟩
  · intro h
    obtain ⟨e, h1, h2⟩ := walk_miss fs ((order rpath runpath envDirs defDirs).map (fileIn name)) .notFound (by
      intro q hq
      obtain ⟨b, hb, rfl⟩ := List.mem_map.mp hq
      exact h b hb)
    rw [hw, h1]
    refine ⟨e, rfl, fun hn => h2 ?_⟩
    intro q hq
    obtain ⟨b, hb, rfl⟩ := List.mem_map.mp hq
    exact hn b hb

/-- **Loaded libraries**: a library known by the name is used, whatever the files are now, and nothing is loaded. -/
theorem known_spec (pick : Pick) (objs : List Obj) (name : Str) (h : ∃ o ∈ objs, Known o name) :
    ∃ i o, objs[i]? = some o ∧ Known o name ∧
      ∀ st fs rest origin isGlobal, withName pick st fs objs name rest origin isGlobal = .ok (.ok i, objs) := by
  obtain ⟨i, hi⟩ := findLoaded_exists pick objs name h
  obtain ⟨o, ho, hk⟩ := findLoaded_some hi
  refine ⟨i, o, ho, hk, fun st fs rest origin isGlobal => ?_⟩
  unfold withName
  rw [hi]

/-- What a request for a name does, in all cases. -/
theorem withName_cases {pick : Pick} {st : Setup} {fs : Fs} {objs objs' : List Obj} {name rest : Str} {origin : Obj} {isGlobal : Bool} {res : Except Err Nat}
    (h : withName pick st fs objs name rest origin isGlobal = .ok (res, objs')) :
    (∃ e, res = .error e ∧ objs' = objs) ∨
    (∃ i o, res = .ok i ∧ objs' = objs ∧ objs[i]? = some o ∧ Known o name ∧ findLoaded pick objs name = some i) ∨
    (∃ o, res = .ok objs.length ∧ objs' = objs ++ [o] ∧ o.name = name ++ rest ∧ o.isGlobal = isGlobal ∧ o.isMain = false ∧ ∀ q ∈ objs, ¬ Known q name) := by
  unfold withName at h
  cases hf : findLoaded pick objs name with
  | some i =>
    rw [hf] at h
    cases h
    obtain ⟨o, ho, hk⟩ := findLoaded_some hf
    exact .inr (.inl ⟨i, o, rfl, rfl, ho, hk, rfl⟩)
  | none =>
    rw [hf] at h
    have hun : ∀ q ∈ objs, ¬ Known q name := by
      intro q hq hk
      obtain ⟨i, hi⟩ := findLoaded_exists pick objs name ⟨q, hq, hk⟩
      rw [hf] at hi
      cases hi
    dsimp only at h
    generalize (match origin.runPath with
      | none => (.ok (.error .notFound) : Res Found)
      | some r => searchRpath fs origin name r [] (.error .notFound)) = q at h
    cases q with
    | ub => cases h
    | panic => cases h
    | ok q =>
      simp only [Res.bind] at h
      cases hs : searchDirs fs name st.libraryPaths q with
      | error e =>
        rw [hs] at h
        cases h
        exact .inl ⟨e, rfl, rfl⟩
      | ok t =>
        rw [hs] at h
        obtain ⟨p, id, d⟩ := t
        cases h
        exact .inr (.inr ⟨_, rfl, rfl, rfl, rfl, rfl, hun⟩)

/-- **Again**: a second request for a name or path gives the same library and loads nothing, even if the files have changed. -/
theorem again_spec (pick : Pick) (st st' : Setup) (fs fs' : Fs) (objs objs' : List Obj) (name : Str) (origin origin' : Obj) (g g' : Bool) (i : Nat)
    (h : withName pick st fs objs name [] origin g = .ok (.ok i, objs')) : withName pick st' fs' objs' name [] origin' g' = .ok (.ok i, objs') := by
  rcases withName_cases h with ⟨e, he, _⟩ | ⟨j, o, hj, ho, _, _, hf⟩ | ⟨o, hi, ho, hn, _, _, hu⟩
  · cases he
  · cases hj
    subst ho
    unfold withName
    rw [hf]
  · cases hi
    subst ho
    have hn : o.name = name := by simpa using hn
    obtain ⟨j, q, hq, hk, hw⟩ := known_spec pick (objs ++ [o]) name ⟨o, by simp, .inl hn⟩
    have : j = objs.length := by
      rcases Nat.lt_or_ge j objs.length with hlt | hge
      · rw [List.getElem?_append_left hlt] at hq
        exact absurd hk (hu q (List.mem_of_getElem? hq))
      · have := (List.getElem?_eq_some_iff.mp hq).1
        simp at this
        omega
    rw [hw, this]

/-- The same for paths; here the file must still be the same one, since it is looked at. -/
theorem againPath_spec (fs : Fs) (objs objs' : List Obj) (path : Str) (g g' : Bool) (i : Nat) (h : atPath fs objs path [] g = (.ok i, objs')) :
    atPath fs objs' path [] g' = (.ok i, objs') := by
  unfold atPath at h
  cases h1 : objs.findIdx? (fun o => o.path == path || o.soname == some (baseOf path)) with
  | some j =>
    rw [h1] at h
    cases h
    unfold atPath
    rw [h1]
  | none =>
    rw [h1] at h
    dsimp only at h
    cases hf : fs path with
    | none => rw [hf] at h; cases h
    | some f =>
      rw [hf] at h
      dsimp only at h
      generalize hid : (match f.id with | some id => List.findIdx? (fun (o : Obj) => o.fileId == some id) objs | none => none) = q at h
      cases q with
      | some j =>
        cases h
        unfold atPath
        rw [h1]
        dsimp only
        rw [hf]
        dsimp only
        rw [hid]
      | none =>
        dsimp only at h
        cases hl : f.load with
        | error e => rw [hl] at h; cases h
        | ok d =>
          rw [hl] at h
          cases h
          unfold atPath
          rw [List.findIdx?_append, h1]
          simp [newObj]

/-- **Paths**: a path that is not yet known (with no library of that SONAME) is opened; if it is a file that has been loaded, by whatever path, that library is
used; otherwise the file is loaded. Missing, because the code violates it: paths whose last component is the SONAME of another library (`path_violated`). -/
theorem path_partial (fs : Fs) (objs : List Obj) (path : Str) (g : Bool) (hp : ∀ o ∈ objs, o.path ≠ path) (hs : ∀ o ∈ objs, o.soname ≠ some (baseOf path)) :
    (fs path = none → atPath fs objs path [] g = (.error .notFound, objs)) ∧
    (∀ f id, fs path = some f → f.id = some id → (∃ o ∈ objs, o.fileId = some id) →
      ∃ i o, atPath fs objs path [] g = (.ok i, objs) ∧ objs[i]? = some o ∧ o.fileId = some id) ∧
    (∀ f d, fs path = some f → f.load = .ok d → (∀ o ∈ objs, o.fileId = none ∨ o.fileId ≠ f.id) →
      ∃ o, atPath fs objs path [] g = (.ok objs.length, objs ++ [o]) ∧ o.path = path ∧ o.soname = d.soname ∧ o.fileId = f.id) ∧
    (∀ f e, fs path = some f → f.load = .error e → (∀ o ∈ objs, o.fileId = none ∨ o.fileId ≠ f.id) → atPath fs objs path [] g = (.error e, objs)) := by
  have h1 : objs.findIdx? (fun o => o.path == path || o.soname == some (baseOf path)) = none := by
    rw [List.findIdx?_eq_none_iff]
    intro o ho
    simp [hp o ho, hs o ho]
  have hfresh : ∀ f : File, (∀ o ∈ objs, o.fileId = none ∨ o.fileId ≠ f.id) →
      (match f.id with | some id => objs.findIdx? (fun o => o.fileId == some id) | none => none) = none := by
    intro f hne
    cases hfi : f.id with
    | none => rfl
    | some id =>
      dsimp only
      rw [List.findIdx?_eq_none_iff]
      intro o ho
      rcases hne o ho with h | h
      · simp [h]
      · rw [hfi] at h; simpa using h
  refine ⟨?_, ?_, ?_, ?_⟩
  · intro hf
    unfold atPath
    rw [h1]
    dsimp only
    rw [hf]
  · intro f id hf hi ⟨o, ho, hoi⟩
    unfold atPath
    rw [h1]
    dsimp only
    rw [hf]
    dsimp only
    rw [hi]
    dsimp only
    cases hx : objs.findIdx? (fun o => o.fileId == some id) with
    | none =>
      rw [List.findIdx?_eq_none_iff] at hx
      have := hx o ho
      simp [hoi] at this
    | some i =>
      rw [List.findIdx?_eq_some_iff_getElem] at hx
      obtain ⟨hlt, hq, _⟩ := hx
      exact ⟨i, objs[i], rfl, List.getElem?_eq_getElem hlt, by simpa using hq⟩
  · intro f d hf hl hne
    unfold atPath
    rw [h1]
    dsimp only
    rw [hf]
    dsimp only
    rw [hfresh f hne]
    dsimp only
    rw [hl]
    refine ⟨_, rfl, ?_, rfl, rfl⟩
    simp [newObj]
  · intro f e hf hl hne
    unfold atPath
    rw [h1]
    dsimp only
    rw [hf]
    dsimp only
    rw [hfresh f hne]
    dsimp only
    rw [hl]

/-! #### Dependencies -/

/-- Only objects are added, and only to the queue. -/
def Grows (r r' : Repo) : Prop := (∃ l, r'.objs = r.objs ++ l) ∧ (∃ l, r'.queue = r.queue ++ l) ∧ r'.done = r.done

theorem Grows.refl (r : Repo) : Grows r r := ⟨⟨[], by simp⟩, ⟨[], by simp⟩, rfl⟩

theorem Grows.trans {a b c : Repo} (h1 : Grows a b) (h2 : Grows b c) : Grows a c := by
  obtain ⟨⟨l1, e1⟩, ⟨m1, f1⟩, g1⟩ := h1
  obtain ⟨⟨l2, e2⟩, ⟨m2, f2⟩, g2⟩ := h2
  exact ⟨⟨l1 ++ l2, by rw [e2, e1, List.append_assoc]⟩, ⟨m1 ++ m2, by rw [f2, f1, List.append_assoc]⟩, by rw [g2, g1]⟩

/-- All loaded objects are queued, and the queue has only loaded objects. -/
def Full (r : Repo) : Prop := ∀ i, i < r.objs.length → i ∈ r.queue

theorem enqueue_grows (r : Repo) (objs : List Obj) (l : List Obj) (h : objs = r.objs ++ l) (i : Nat) :
    Grows r (enqueue { r with objs := objs } i) ∧ i ∈ (enqueue { r with objs := objs } i).queue ∧ (enqueue { r with objs := objs } i).objs = objs := by
  unfold enqueue
  split
  · next hi => exact ⟨⟨⟨l, h⟩, ⟨[], by simp⟩, rfl⟩, hi, rfl⟩
  · exact ⟨⟨⟨l, h⟩, ⟨[i], rfl⟩, rfl⟩, by simp, rfl⟩

theorem atPath_cases {fs : Fs} {objs objs' : List Obj} {path rest : Str} {g : Bool} {res : Except Err Nat} (h : atPath fs objs path rest g = (res, objs')) :
    objs' = objs ∨ ∃ o, objs' = objs ++ [o] ∧ res = .ok objs.length := by
  unfold atPath at h
  split at h
  · cases h; exact .inl rfl
  · split at h
    · cases h; exact .inl rfl
    · split at h
      · cases h; exact .inl rfl
      · split at h
        · cases h; exact .inl rfl
        · cases h; exact .inr ⟨_, rfl, rfl⟩

/-- One request, and the library queued. -/
theorem step_full {r : Repo} {objs : List Obj} {i : Nat} (h : objs = r.objs ∨ ∃ o, objs = r.objs ++ [o] ∧ i = r.objs.length) (hr : Full r) :
    Full (enqueue { r with objs := objs } i) := by
  intro j hj
  have hg := enqueue_grows r objs (objs.drop r.objs.length) (by
    rcases h with h | ⟨o, h, _⟩ <;> rw [h] <;> simp) i
  obtain ⟨⟨_, ⟨l, hq⟩, _⟩, hi, ho⟩ := hg
  rw [ho] at hj
  rcases h with h | ⟨o, h, h2⟩
  · rw [hq]
    exact List.mem_append_left _ (hr j (by rw [h] at hj; exact hj))
  · rw [h] at hj
    simp at hj
    rcases Nat.lt_or_ge j r.objs.length with hlt | hge
    · rw [hq]; exact List.mem_append_left _ (hr j hlt)
    · have : j = i := by omega
      rw [this]; exact hi

theorem preloadAll_grows (pick : Pick) (st : Setup) (fs : Fs) (o : Obj) (ps : List (Str × Str)) (r r' : Repo) (h : preloadAll pick st fs o ps r = .ok r') :
    Grows r r' ∧ (Full r → Full r') := by
  induction ps generalizing r with
  | nil => cases h; exact ⟨.refl _, id⟩
  | cons p ps ih =>
    obtain ⟨p, rest⟩ := p
    rw [preloadAll] at h
    have fin : ∀ (res : Except Err Nat) (objs : List Obj),
        (if 47 ∈ p then Res.ok (atPath fs r.objs p rest true) else withName pick st fs r.objs p rest o true) = .ok (res, objs) →
        objs = r.objs ∨ ∃ q, objs = r.objs ++ [q] ∧ res = .ok r.objs.length := by
      intro res objs hx
      split at hx
      · exact atPath_cases (Res.ok.inj hx)
      · rcases withName_cases hx with ⟨_, _, h⟩ | ⟨_, _, _, h, _⟩ | ⟨q, h1, h2, _⟩
        · exact .inl h
        · exact .inl h
        · exact .inr ⟨q, h2, h1⟩
    generalize (if 47 ∈ p then Res.ok (atPath fs r.objs p rest true) else withName pick st fs r.objs p rest o true) = q at h fin
    cases q with
    | ub => cases h
    | panic => cases h
    | ok q =>
      obtain ⟨res, objs⟩ := q
      cases res with
      | error e => cases h
      | ok i =>
        have hc := fin _ _ rfl
        have hc' : objs = r.objs ∨ ∃ q, objs = r.objs ++ [q] ∧ i = r.objs.length := by
          rcases hc with h | ⟨q, h1, h2⟩
          · exact .inl h
          · exact .inr ⟨q, h1, by cases h2; rfl⟩
        obtain ⟨g1, g2⟩ := ih _ h
        have ⟨g3, _⟩ := enqueue_grows r objs (objs.drop r.objs.length) (by rcases hc' with h | ⟨o, h, _⟩ <;> rw [h] <;> simp) i
        exact ⟨g3.trans g1, fun hf => g2 (step_full hc' hf)⟩

theorem needAll_grows (pick : Pick) (st : Setup) (fs : Fs) (o : Obj) (g : Bool) (ns : List Str) (r r' : Repo) (h : needAll pick st fs o g ns r = .ok r') :
    Grows r r' ∧ (Full r → Full r') ∧ ∀ n ∈ ns, ∃ i q, i ∈ r'.queue ∧ r'.objs[i]? = some q ∧ Known q n := by
  induction ns generalizing r with
  | nil => cases h; exact ⟨.refl _, id, fun n hn => absurd hn (by simp)⟩
  | cons n ns ih =>
    rw [needAll] at h
    cases hw : withName pick st fs r.objs n [] o g with
    | ub => rw [hw] at h; cases h
    | panic => rw [hw] at h; cases h
    | ok q =>
      rw [hw] at h
      obtain ⟨res, objs⟩ := q
      cases res with
      | error e => cases h
      | ok i =>
        simp only [Res.bind] at h
        have hc : (objs = r.objs ∨ ∃ q, objs = r.objs ++ [q] ∧ i = r.objs.length) ∧ ∃ q, objs[i]? = some q ∧ Known q n := by
          rcases withName_cases hw with ⟨_, h, _⟩ | ⟨j, q, h1, h2, h3, h4, _⟩ | ⟨q, h1, h2, h3, _⟩
          · cases h
          · cases h1; subst h2; exact ⟨.inl rfl, q, h3, h4⟩
          · cases h1; subst h2
            exact ⟨.inr ⟨q, rfl, rfl⟩, q, by simp, .inl (by simpa using h3)⟩
        obtain ⟨hc, q, hq, hk⟩ := hc
        obtain ⟨g1, g2, g3⟩ := ih _ h
        have ⟨e1, e2, e3⟩ := enqueue_grows r objs (objs.drop r.objs.length) (by rcases hc with h | ⟨o, h, _⟩ <;> rw [h] <;> simp) i
        refine ⟨e1.trans g1, fun hf => g2 (step_full hc hf), ?_⟩
        intro m hm
        rcases List.mem_cons.mp hm with rfl | hm
        · obtain ⟨⟨l, hl⟩, ⟨l', hl'⟩, _⟩ := g1
          refine ⟨i, q, by rw [hl']; exact List.mem_append_left _ e2, ?_, hk⟩
          rw [hl, e3, List.getElem?_append_left (List.getElem?_eq_some_iff.mp hq).1]
          exact hq
        · exact g3 m hm

/-- All that the object needs is loaded, and will be searched for its own dependencies. -/
def Satisfied (r : Repo) (i : Nat) : Prop := ∀ o, r.objs[i]? = some o → ∀ n ∈ o.needed, ∃ j q, j ∈ r.queue ∧ r.objs[j]? = some q ∧ Known q n

theorem Satisfied.grow {r r' : Repo} (g : Grows r r') {i : Nat} (hi : i < r.objs.length) (h : Satisfied r i) : Satisfied r' i := by
  obtain ⟨⟨l, hl⟩, ⟨l', hl'⟩, _⟩ := g
  intro o ho n hn
  rw [hl, List.getElem?_append_left hi] at ho
  obtain ⟨j, q, h1, h2, h3⟩ := h o ho n hn
  refine ⟨j, q, by rw [hl']; exact List.mem_append_left _ h1, ?_, h3⟩
  rw [hl, List.getElem?_append_left (List.getElem?_eq_some_iff.mp h2).1]
  exact h2

theorem discover_spec (pick : Pick) (st : Setup) (fs : Fs) (i : Nat) (r r' : Repo) (h : discover pick st fs i r = .ok r') :
    Grows r r' ∧ (Full r → Full r') ∧ i < r.objs.length ∧ Satisfied r' i := by
  unfold discover at h
  cases ho : r.objs[i]? with
  | none => rw [ho] at h; cases h
  | some o =>
    rw [ho] at h
    dsimp only at h
    have hlt := (List.getElem?_eq_some_iff.mp ho).1
    have key : ∀ r1, Grows r r1 → (Full r → Full r1) → needAll pick st fs o o.isGlobal o.needed r1 = .ok r' →
        Grows r r' ∧ (Full r → Full r') ∧ i < r.objs.length ∧ Satisfied r' i := by
      intro r1 g1 f1 hn
      obtain ⟨g2, f2, k2⟩ := needAll_grows pick st fs o _ _ _ _ hn
      refine ⟨g1.trans g2, fun hf => f2 (f1 hf), hlt, ?_⟩
      intro o' ho' n hn'
      obtain ⟨⟨l, hl⟩, _⟩ := g1.trans g2
      rw [hl, List.getElem?_append_left hlt, ho] at ho'
      cases ho'
      exact k2 n hn'
    by_cases hm : o.isMain = true
    · rw [if_pos hm] at h
      cases hp : preloadAll pick st fs o st.preloads r with
      | ub => rw [hp] at h; cases h
      | panic => rw [hp] at h; cases h
      | ok r1 =>
        rw [hp] at h
        obtain ⟨g1, f1⟩ := preloadAll_grows pick st fs o _ _ _ hp
        exact key r1 g1 f1 h
    · rw [if_neg hm] at h
      exact key r (.refl _) id h

theorem drain_spec (pick : Pick) (st : Setup) (fs : Fs) (fuel k : Nat) (r r' : Repo) (h : drain pick st fs fuel k r = some (.ok r'))
    (hd : ∀ i ∈ r.done, i < r.objs.length ∧ Satisfied r i) (hk : ∀ j i, j < k → r.queue[j]? = some i → i ∈ r.done) :
    (∃ l, r'.objs = r.objs ++ l) ∧ (∃ l, r'.queue = r.queue ++ l) ∧ (Full r → Full r') ∧ ∀ i ∈ r'.queue, Satisfied r' i := by
  induction fuel generalizing k r with
  | zero => cases h
  | succ fuel ih =>
    rw [drain] at h
    cases hq : r.queue[k]? with
    | none =>
      rw [hq] at h
      cases h
      refine ⟨⟨[], by simp⟩, ⟨[], by simp⟩, id, ?_⟩
      intro i hi
      obtain ⟨j, hj, hji⟩ := List.getElem_of_mem hi
      have : r'.queue.length ≤ k := List.getElem?_eq_none_iff.mp hq
      exact (hd i (hk j i (by omega) (by rw [List.getElem?_eq_getElem hj, hji]))).2
    | some i =>
      rw [hq] at h
      dsimp only at h
      by_cases hi : i ∈ r.done
      · rw [if_pos hi] at h
        refine ih _ _ h hd ?_
        intro j x hj hx
        rcases Nat.lt_or_ge j k with hlt | hge
        · exact hk j x hlt hx
        · have : j = k := by omega
          subst this
          rw [hq] at hx
          cases hx
          exact hi
      · rw [if_neg hi] at h
        cases hdi : discover pick st fs i r with
        | ub => rw [hdi] at h; cases h
        | panic => rw [hdi] at h; cases h
        | ok r1 =>
          rw [hdi] at h
          obtain ⟨g1, f1, hlt, hs⟩ := discover_spec pick st fs i r r1 hdi
          obtain ⟨⟨l, hl⟩, ⟨l', hl'⟩, hdone⟩ := id g1
          have := ih _ _ h (by
            intro x hx
            dsimp only at hx ⊢
            rw [hdone] at hx
            rcases List.mem_append.mp hx with hx | hx
            · have ⟨h1, h2⟩ := hd x hx
              exact ⟨by rw [hl]; simp; omega, Satisfied.grow g1 h1 h2⟩
            · have := List.mem_singleton.mp hx
              subst this
              exact ⟨by rw [hl]; simp; omega, hs⟩) (by
            intro j x hj hx
            dsimp only at hx ⊢
            rw [hdone]
            have hkl := (List.getElem?_eq_some_iff.mp hq).1
            rw [hl', List.getElem?_append_left (by omega)] at hx
            rcases Nat.lt_or_ge j k with hlt | hge
            · exact List.mem_append_left _ (hk j x hlt hx)
            · have : j = k := by omega
              subst this
              rw [hq] at hx
              cases hx
              simp)
          obtain ⟨⟨a, ha⟩, ⟨b, hb⟩, hf, hsat⟩ := this
          refine ⟨⟨l ++ a, by rw [ha]; dsimp only; rw [hl, List.append_assoc]⟩, ⟨l' ++ b, by rw [hb]; dsimp only; rw [hl', List.append_assoc]⟩, ?_, hsat⟩
          intro h
          exact hf (f1 h)

/-- **Start of the program**: when the search for dependencies ends, everything that any loaded object needs is loaded (under its name or its SONAME). -/
theorem startup_spec (pick : Pick) (st : Setup) (fs : Fs) (fuel : Nat) (objs : List Obj) (r' : Repo)
    (h : drain pick st fs fuel 0 { objs := objs, queue := List.range objs.length } = some (.ok r')) :
    (∃ l, r'.objs = objs ++ l) ∧ ∀ o ∈ r'.objs, ∀ n ∈ o.needed, ∃ q ∈ r'.objs, Known q n := by
  obtain ⟨h1, _, h3, h4⟩ := drain_spec pick st fs fuel 0 _ r' h (fun i hi => absurd hi (by simp)) (fun j i hj => absurd hj (by omega))
  refine ⟨h1, ?_⟩
  intro o ho n hn
  obtain ⟨i, hi, hio⟩ := List.getElem_of_mem ho
  have hq := h3 (by intro i hi; simpa using hi) i hi
  obtain ⟨j, q, _, hj, hk⟩ := h4 i hq o (by rw [List.getElem?_eq_getElem hi, hio]) n hn
  exact ⟨q, List.mem_of_getElem? hj, hk⟩

/-- **dlopen**: a library that dlopen returns without RTLD_NOLOAD or promotion has all its dependencies loaded, and these have theirs. -/
theorem dlopen_spec (pick : Pick) (st : Setup) (fs : Fs) (fuel : Nat) (r r' : Repo) (file : Str) (caller : Obj) (i : Nat)
    (hd : ∀ i ∈ r.done, i < r.objs.length ∧ Satisfied r i)
    (h : dlopen pick st fs fuel r file false false caller = some (.ok (some i, r'))) :
    Satisfied r' i ∧ ∀ j ∈ r'.queue, Satisfied r' j := by
  unfold dlopen at h
  have hp : ((findLoaded pick r.objs (baseOf file)).bind fun i => r.objs[i]?.bind fun o => if (!o.isGlobal && false) = true then some (i, o) else none) = none := by
    cases findLoaded pick r.objs (baseOf file) with
    | none => rfl
    | some i => cases hq : r.objs[i]? <;> simp [hq]
  dsimp only at h
  rw [hp] at h
  simp only [Bool.false_eq_true, if_false] at h
  have fin : ∀ (j : Nat) (objs : List Obj) (res : Except Err Nat), (if 47 ∈ file then Res.ok (atPath fs r.objs file [] false)
      else withName pick st fs r.objs file [] caller false) = .ok (res, objs) → ∃ l, objs = r.objs ++ l := by
    intro j objs res hx
    split at hx
    · rcases atPath_cases (Res.ok.inj hx) with h | ⟨o, h, _⟩
      · exact ⟨[], by simp [h]⟩
      · exact ⟨[o], h⟩
    · rcases withName_cases hx with ⟨_, _, h⟩ | ⟨_, _, _, h, _⟩ | ⟨q, _, h, _⟩
      · exact ⟨[], by simp [h]⟩
      · exact ⟨[], by simp [h]⟩
      · exact ⟨[q], h⟩
  generalize (if 47 ∈ file then Res.ok (atPath fs r.objs file [] false) else withName pick st fs r.objs file [] caller false) = q at h fin
  cases q with
  | ub => cases h
  | panic => cases h
  | ok q =>
    obtain ⟨res, objs⟩ := q
    cases res with
    | error e => cases h
    | ok j =>
      obtain ⟨l, hl⟩ := fin j objs _ rfl
      dsimp only at h
      cases hdi : discover pick st fs j { r with objs := objs } with
      | ub => rw [hdi] at h; cases h
      | panic => rw [hdi] at h; cases h
      | ok r1 =>
        rw [hdi] at h
        dsimp only at h
        obtain ⟨g1, f1, hlt, hs⟩ := discover_spec pick st fs j _ r1 hdi
        cases hdr : drain pick st fs fuel 0 r1 with
        | none => rw [hdr] at h; cases h
        | some x =>
          rw [hdr] at h
          cases x with
          | ub => cases h
          | panic => cases h
          | ok r2 =>
            cases h
            have g0 : Grows r { r with objs := objs } := ⟨⟨l, hl⟩, ⟨[], by simp⟩, rfl⟩
            have g01 := g0.trans g1
            obtain ⟨⟨a, ha⟩, ⟨b, hb⟩, _, hsat⟩ := drain_spec pick st fs fuel 0 r1 r' hdr (by
              intro x hx
              obtain ⟨⟨l1, hl1⟩, _, hdone⟩ := id g01
              rw [hdone] at hx
              have ⟨h1, h2⟩ := hd x hx
              exact ⟨by rw [hl1]; simp; omega, Satisfied.grow g01 h1 h2⟩) (fun j i hj => absurd hj (by omega))
            refine ⟨?_, hsat⟩
            obtain ⟨⟨l1, hl1⟩, _⟩ := g1
            intro o ho n hn
            have hlt1 : i < r1.objs.length := by rw [hl1]; simp; dsimp only at hlt; omega
            rw [ha, List.getElem?_append_left hlt1] at ho
            obtain ⟨j, q, h1, h2, h3⟩ := hs o ho n hn
            refine ⟨j, q, by rw [hb]; exact List.mem_append_left _ h1, ?_, h3⟩
            rw [ha, List.getElem?_append_left (List.getElem?_eq_some_iff.mp h2).1]
            exact h2

/-! ### What does not work -/

def t (s : String) : Str := s.toList.map Char.toNat

/-- The first object with the name. -/
def first : Pick where
  get n l := l.findIdx? (fun o => o.name == n)
  found n l i h := by
    rw [List.findIdx?_eq_some_iff_getElem] at h
    obtain ⟨hi, ho, _⟩ := h
    exact ⟨l[i], List.getElem?_eq_getElem hi, by simpa using ho⟩
  missing n l h o ho := by
    rw [List.findIdx?_eq_none_iff] at h
    simpa using h o ho

/-- The handle and the paths of the objects, for comparison. -/
def view : Res (Except Err Nat × List Obj) → Option (Option Nat × List Str)
  | .ok (.ok i, l) => some (some i, l.map (·.path))
  | .ok (.error _, l) => some (none, l.map (·.path))
  | _ => none

def viewRepo : Option (Res Repo) → Option (List Str)
  | some (.ok r) => some (r.objs.map (·.path))
  | _ => none

def isUb {α : Type} : Res α → Bool
  | .ub => true
  | _ => false

/-- A program with an RPATH of $ORIGIN/../lib and /opt. -/
def prog : Obj := { name := t "/usr/bin/prog", path := t "/usr/bin/prog", isMain := true, isGlobal := true, runPath := some (t "$ORIGIN/../lib:/opt/") }

/-- There is a file for another machine in the first directory, and the right one in the second. -/
def files : Fs := fun p =>
  if p = t "/usr/bin/../lib/liba.so" then some ⟨some (1, 10), .error .wrongElfType⟩
  else if p = t "/opt/liba.so" then some ⟨some (1, 11), .ok { soname := some (t "liba.so.1") }⟩
  else if p = t "/lib/liba.so" then some ⟨some (1, 12), .ok {}⟩
  else none

example : view (withName first (setup false (some (t "/lib/:")) none (t "/usr/lib")) files [prog] (t "liba.so") [] prog true) =
    some (some 1, [t "/usr/bin/prog", t "/opt/liba.so"]) := by decide +kernel

example : Dirs [58, 59] (t "/lib/:") [t "/lib"] :=
  ⟨[t "/lib/", []], .more (t "/lib/") (by decide) 58 (by decide) [] _ (.one [] (by simp)), .cons ⟨⟨1, rfl⟩, by decide⟩ .nil⟩

example : PathDirs prog.path (some (t "$ORIGIN/../lib:/opt/")) (some [t "/usr/bin/../lib", t "/opt/"]) :=
  .inr ⟨_, [t "$ORIGIN/../lib", t "/opt/"], _, rfl, .more (t "$ORIGIN/../lib") (by decide) 58 (by decide) _ _ (.one (t "/opt/") (by decide)),
    .cons (.dir (t "/../lib") (t "/usr/bin") (t "prog") (by decide) (.inr rfl) (by decide) (by decide) (by decide)) (.cons (.plain _ (by decide) (by decide)) .nil), rfl⟩

example : ∀ o ∈ [prog], ¬ Known o (t "liba.so") := by
  intro o ho
  rw [List.mem_singleton.mp ho]
  unfold Known
  decide

/-- A library that comes with a program and one in LD_LIBRARY_PATH: the ELF standard wants LD_LIBRARY_PATH to be searched before DT_RUNPATH. -/
theorem order_violated : ∃ (fs : Fs) (origin : Obj), origin.runPath = runPathOf [(true, t "/opt")] false none ∧
    order none (some [t "/opt"]) [t "/mine"] [t "/lib"] = t "/mine" :: [t "/opt", t "/lib"] ∧
    (∃ f d, fs (fileIn (t "liba.so") (t "/mine")) = some f ∧ f.load = .ok d) ∧
    view (withName first (setup false (some (t "/mine")) none (t "/lib")) fs [origin] (t "liba.so") [] origin true) = some (some 1, [t "/bin/prog", t "/opt/liba.so"]) := by
  refine ⟨fun p => if p = t "/opt/liba.so" ∨ p = t "/mine/liba.so" then some ⟨none, .ok {}⟩ else none, { name := t "/bin/prog", path := t "/bin/prog", runPath := some (t "/opt") }, ?_⟩
  refine ⟨by decide +kernel, by decide +kernel, ⟨⟨none, .ok {}⟩, {}, by simp [fileIn, t], rfl⟩, by decide +kernel⟩

/-- An empty entry in a RUNPATH (the current directory, for other linkers), and $ORIGIN for an object in the root directory, make the linker read in front of
an empty string. -/
theorem empty_violated : isUb (withName first ⟨[], []⟩ (fun _ => none) [] (t "liba.so") [] { prog with runPath := some (t "/opt:") } true) = true ∧
    isUb (withName first ⟨[], []⟩ (fun _ => none) [] (t "liba.so") [] { prog with path := t "/prog", runPath := some (t "$ORIGIN") } true) = true := by
  constructor <;> decide +kernel

/-- A DT_NEEDED entry with a slash is a path, says the ELF standard; here it is searched for in directories. -/
theorem slash_violated : ∃ fs : Fs, (∃ f d, fs (t "/opt/liba.so") = some f ∧ f.load = .ok d) ∧
    view (withName first (setup false none none (t "/lib")) fs [prog] (t "/opt/liba.so") [] { prog with runPath := none } true) = some (none, [t "/usr/bin/prog"]) := by
  refine ⟨fun p => if p = t "/opt/liba.so" then some ⟨none, .ok {}⟩ else none, ⟨⟨none, .ok {}⟩, {}, by simp, rfl⟩, by decide +kernel⟩

/-- The same file is loaded twice if it is needed first by its SONAME and then by another name (a link): here libz.so and libz.so.1 are the file (1, 7). -/
theorem twice_violated : ∃ fs : Fs, (∀ p f, fs p = some f → f.id = some (1, 7)) ∧
    viewRepo (drain first ⟨[t "/lib"], []⟩ fs 9 0 { objs := [{ prog with runPath := none, needed := [t "libz.so.1", t "libz.so"] }], queue := [0] }) =
      some [t "/usr/bin/prog", t "/lib/libz.so.1", t "/lib/libz.so"] := by
  refine ⟨fun p => if p = t "/lib/libz.so" ∨ p = t "/lib/libz.so.1" then some ⟨some (1, 7), .ok { soname := some (t "libz.so.1") }⟩ else none, ?_, by decide +kernel⟩
  intro p f h
  dsimp only at h
  split at h
  · cases h; rfl
  · cases h

/-- LD_PRELOAD with two libraries: the first one gets the whole rest of the variable as its name and is not recognised when the program needs it. -/
theorem preload_violated : ∃ fs : Fs, (∀ p f, fs p = some f → f.load = .ok {}) ∧
    viewRepo (drain first (setup false none (some (t "liba.so:libb.so")) (t "/lib")) fs 9 0 { objs := [{ prog with runPath := none, needed := [t "liba.so"] }], queue := [0] }) =
      some [t "/usr/bin/prog", t "/lib/liba.so", t "/lib/libb.so", t "/lib/liba.so"] := by
  refine ⟨fun p => if p = t "/lib/liba.so" ∨ p = t "/lib/libb.so" then some ⟨none, .ok {}⟩ else none, ?_, by decide +kernel⟩
  intro p f h
  dsimp only at h
  split at h
  · cases h; rfl
  · cases h

/-- dlopen of a path gives another file that happens to have that SONAME (or, with RTLD_GLOBAL, just that name). -/
theorem path_violated : ∃ fs : Fs, ∃ o : Obj, o.path = t "/a/libx.so" ∧ o.fileId = some (1, 1) ∧ (∃ f d, fs (t "/b/libx.so") = some f ∧ f.id = some (1, 2) ∧ f.load = .ok d) ∧
    view (.ok (atPath fs [o] (t "/b/libx.so") [] false)) = some (some 0, [t "/a/libx.so"]) := by
  refine ⟨fun p => if p = t "/b/libx.so" then some ⟨some (1, 2), .ok {}⟩ else none,
    { name := t "libx.so", path := t "/a/libx.so", soname := some (t "libx.so"), fileId := some (1, 1) }, rfl, rfl, ⟨⟨some (1, 2), .ok {}⟩, {}, by simp, rfl, rfl⟩, by decide +kernel⟩

def handle : Option (Res (Option Nat × Repo)) → Option (Option Nat)
  | some (.ok (i, _)) => some i
  | _ => none

/-- RTLD_NOLOAD does not find a library that a plain dlopen of the same path finds, since the identity of the file is not looked at. -/
theorem noload_violated : ∃ (fs : Fs) (r : Repo),
    handle (dlopen first ⟨[], []⟩ fs 9 r (t "/lib/link.so") false false prog) = some (some 0) ∧
    handle (dlopen first ⟨[], []⟩ fs 9 r (t "/lib/link.so") false true prog) = some none := by
  refine ⟨fun p => if p = t "/lib/link.so" then some ⟨some (1, 1), .ok {}⟩ else none,
    { objs := [{ name := t "libx.so", path := t "/lib/libx.so", fileId := some (1, 1) }] }, by decide +kernel, by decide +kernel⟩

/-- A program that needs liba, which needs libb. -/
example : viewRepo (drain first ⟨[t "/lib"], []⟩ (fun p => if p = t "/lib/liba.so" then some ⟨none, .ok { needed := [t "libb.so"] }⟩
    else if p = t "/lib/libb.so" then some ⟨none, .ok {}⟩ else none) 9 0 { objs := [{ prog with runPath := none, needed := [t "liba.so"] }], queue := List.range 1 }) =
      some [t "/usr/bin/prog", t "/lib/liba.so", t "/lib/libb.so"] := by decide +kernel

end Mlibc.Find
