import Verif.Base

/-
ftw and nftw (options/posix/generic/ftw.cpp). Paths and names are lists of bytes without the final zero. The file system does not
change during the walk: what stat, lstat, open and reading a directory give is a function of the path. A failing stat leaves the
structure as it was. Property C78.
-/
namespace Mlibc.Ftw
open Mlibc

/-! ## The file system and the callback -/

inductive Err where
  | acces | noent | nameTooLong | other (n : Nat)
  deriving DecidableEq, Repr

inductive Kind where
  | dir | link | other
  deriving DecidableEq, Repr

/-- The parts of `struct stat` that count here. -/
structure Stat where
  kind : Kind
  dev : Nat
  ino : Nat
  deriving DecidableEq, Repr

/-- What the file system answers. -/
structure World where
  stat : List Nat → Except Err Stat
  lstat : List Nat → Except Err Stat
  /-- `none`: the directory can be opened. -/
  openErr : List Nat → Option Err
  /-- What readdir gives, or the error of fdopendir. -/
  entries : List Nat → Except Err (List (List Nat))

/-- FTW_F, FTW_D, FTW_DNR, FTW_NS, FTW_SL, FTW_DP, FTW_SLN -/
inductive Ty where
  | f | d | dnr | ns | sl | dp | sln
  deriving DecidableEq, Repr

/-- A call of the program's function: path, device and inode, type, level and base. -/
structure Call where
  path : List Nat
  dev : Nat
  ino : Nat
  type : Ty
  level : Nat
  base : Nat
  deriving DecidableEq, Repr

structure Flags where
  phys : Bool
  mount : Bool
  depth : Bool

/-- The program's function: what it returns may depend on all earlier calls. -/
abbrev Fn := List Call → Call → Int

/-- What nftw returns: what the function returned (or 0), or -1 with an error. -/
inductive Ret where
  | val (r : Int)
  | fail (e : Err)
  deriving DecidableEq, Repr

/-! ## Model -/

/-- `struct history`, with the chain as a list. ftw.cpp L19-25 -/
structure Hist where
  dev : Nat
  ino : Nat
  level : Nat
  base : Nat

/-- The path buffer, the calls made so far, the number of descriptors open and its maximum. -/
structure S where
  path : List Nat
  log : List Call
  fds : Nat
  peak : Nat
  deriving DecidableEq, Repr

/-- `open` / `close` of a descriptor -/
def S.opened (s : S) : S := { s with fds := s.fds + 1, peak := max s.peak (s.fds + 1) }
def S.closed (s : S) : S := { s with fds := s.fds - 1 }

/-- L44-63: the type before the directory is opened, and the structure. -/
def statType (w : World) (f : Flags) (path : List Nat) : Except Err (Ty × Nat × Nat) :=
  match (if f.phys then w.lstat path else w.stat path) with
  | .error e =>
    if !f.phys && e == .noent then
      match w.lstat path with
      | .ok st => .ok (.sln, st.dev, st.ino)
      | .error e => if e ≠ .acces then .error e else .ok (.ns, 0, 0)
    else if e ≠ .acces then .error e else .ok (.ns, 0, 0)
  | .ok st => match st.kind with
    | .dir => .ok (if f.depth then .dp else .d, st.dev, st.ino)
    | .link => .ok (if f.phys then .sl else .sln, st.dev, st.ino)
    | .other => .ok (.f, st.dev, st.ino)

/-- `for (k = j; k && path[k] == '/'; k--)` L79-80 -/
def skipSlashes (path : List Nat) : Nat → Nat
  | 0 => 0
  | k + 1 => if path.getD (k + 1) 0 = 47 then skipSlashes path k else k + 1

/-- `for (; k && path[k - 1] != '/'; k--)` L81-82 -/
def skipName (path : List Nat) : Nat → Nat
  | 0 => 0
  | k + 1 => if path.getD k 0 ≠ 47 then skipName path k else k + 1

/-- L110-112: "." or ".." -/
def isDots (n : List Nat) : Bool :=
  n.getD 0 0 = 46 && (n.getD 1 0 = 0 || (n.getD 1 0 = 46 && n.getD 2 0 = 0))

/-- The loop over the directory; `rec` walks one entry. L109-124. PATH_MAX is 4096. -/
def loop (rec : S → Res (Ret × S)) (l j : Nat) : List (List Nat) → S → Res (Ret × S)
  | [], s => .ok (.val 0, s)
  | n :: ns, s =>
    if isDots n then loop rec l j ns s
    else if n.length ≥ 4096 - l then .ok (.fail .nameTooLong, s)
    else if j + 1 + n.length > 4096 then .ub
    else (rec { s with path := s.path.take j ++ 47 :: n }).bind fun r =>
      if r.1 ≠ .val 0 then .ok r else loop rec l j ns r.2

/-- `j`: the length of the path without a final slash. ftw.cpp L32 -/
def jOf (p : List Nat) : Nat := if p.length ≠ 0 ∧ p.getD (p.length - 1) 0 = 47 then p.length - 1 else p.length

/-- FTW_MOUNT and another device. L65-66 -/
def crosses (f : Flags) (type : Ty) (dev : Nat) (h : List Hist) : Bool := match h with
  | [] => false
  | p :: _ => f.mount && type ≠ .ns && dev ≠ p.dev

/-- `n.level` L71 -/
def levelOf (h : List Hist) : Nat := match h with
  | [] => 0
  | p :: _ => p.level + 1

/-- `lev.base` L74-84 -/
def baseOf (path : List Nat) (h : List Hist) : Nat := match h with
  | [] => skipName path (skipSlashes path (jOf path))
  | p :: _ => p.base

/-- The descriptor of a directory: opened, and closed at once if the limit is reached. L86-93 -/
def openDir (w : World) (last : Bool) (type : Ty) (s : S) : S :=
  if (type = .d ∨ type = .dp) ∧ w.openErr s.path = none then
    if last then s.opened.closed else s.opened
  else s

/-- Into the directory; `rec` is the recursive call with one descriptor less, absent if none is left. L102-130 -/
def enter (w : World) (rec : Option (S → List Hist → Res (Ret × S))) (h : List Hist) (call : Call) (s : S) : Res (Ret × S) :=
  match rec with
  | none => .ok (.val 0, s)
  | some rec =>
    if call.type = .d ∨ call.type = .dp then
      match w.openErr call.path with
      | some e => .ok (.fail e, s)
      | none => match w.entries call.path with
        | .ok names =>
          (loop (fun s => rec s (⟨call.dev, call.ino, call.level, jOf call.path + 1⟩ :: h)) call.path.length (jOf call.path) names s).bind
            fun r => .ok (r.1, r.2.closed)
        | .error e => .ok (.fail e, s.closed)
    else .ok (.val 0, s)

/-- The end: `path[l] = 0` and, with FTW_DEPTH, the call. L132-136 -/
def finish (fn : Fn) (f : Flags) (call : Call) (s : S) : Res (Ret × S) :=
  let s := { s with path := s.path.take call.path.length }
  if f.depth then
    .ok (.val (fn s.log { call with path := s.path }), { s with log := s.log ++ [{ call with path := s.path }] })
  else .ok (.val 0, s)

/-- The call before, if not FTW_DEPTH, the look for the directory among those above, its contents, and the end. L95-136 -/
def rest (w : World) (fn : Fn) (f : Flags) (rec : Option (S → List Hist → Res (Ret × S))) (h : List Hist) (call : Call) (s : S) : Res (Ret × S) :=
  let r := if f.depth then 0 else fn s.log call
  let s := if f.depth then s else { s with log := s.log ++ [call] }
  if r ≠ 0 then .ok (.val r, s)
  else if h.any (fun p => p.dev = call.dev && p.ino = call.ino) then .ok (.val 0, s)
  else (enter w rec h call s).bind fun r => if r.1 ≠ .val 0 then .ok r else finish fn f call r.2

/-- `do_nftw`. ftw.cpp L31-136 -/
def body (w : World) (fn : Fn) (f : Flags) (rec : Option (S → List Hist → Res (Ret × S))) (s : S) (h : List Hist) : Res (Ret × S) :=
  match statType w f s.path with
  | .error e => .ok (.fail e, s)
  | .ok (type, dev, ino) =>
    if crosses f type dev h then .ok (.val 0, s)
    else
      let type' := if (type = .d ∨ type = .dp) ∧ w.openErr s.path = some .acces then .dnr else type
      rest w fn f rec h ⟨s.path, dev, ino, type', levelOf h, baseOf s.path h⟩ (openDir w rec.isNone type s)

/-- `do_nftw` with `fd_limit`. ftw.cpp L31-136 -/
def doNftw (w : World) (fn : Fn) (f : Flags) : Nat → S → List Hist → Res (Ret × S)
  | 0 => body w fn f none
  | limit + 1 => body w fn f (some (doNftw w fn f limit))

/-- `nftw`. ftw.cpp L171-197 -/
def nftw (w : World) (fn : Fn) (f : Flags) (path : List Nat) (limit : Int) : Res (Ret × S) :=
  if limit ≤ 0 then .ok (.val 0, ⟨path, [], 0, 0⟩)
  else if path.length > 4096 then .ok (.fail .nameTooLong, ⟨path, [], 0, 0⟩)
  else doNftw w fn f limit.toNat ⟨path, [], 0, 0⟩ []

/-- `ftw`: no flags (what the function of ftw sees less is not modelled). ftw.cpp L140-169 -/
def ftw (w : World) (fn : Fn) (path : List Nat) (limit : Int) : Res (Ret × S) := nftw w fn ⟨false, false, false⟩ path limit

/-! ## Specification -/
namespace Spec

/-- The path of an entry of a directory. -/
def join (dir name : List Nat) : List Nat := (if dir.getLast? = some '/'.toNat then dir.dropLast else dir) ++ '/'.toNat :: name

/-- The path of what is reached from the start by these names. -/
def pathOf (root : List Nat) (rel : List (List Nat)) : List Nat := rel.foldl join root

/-- What a path is: an error, or an object that is a directory, and so on. -/
inductive What where
  | err (e : Err)
  | noStat
  | obj (type : Ty) (dev ino : Nat)

/-- Without FTW_PHYS links are followed, and a link to nothing is FTW_SLN; what must not be looked at is FTW_NS; other errors end the walk. -/
def what (w : World) (f : Flags) (p : List Nat) : What :=
  let failed (e : Err) : What := if e = .acces then .noStat else .err e
  if f.phys then match w.lstat p with
    | .ok ⟨.dir, d, i⟩ => .obj .d d i
    | .ok ⟨.link, d, i⟩ => .obj .sl d i
    | .ok ⟨.other, d, i⟩ => .obj .f d i
    | .error e => failed e
  else match w.stat p with
    | .ok ⟨.dir, d, i⟩ => .obj .d d i
    | .ok ⟨.link, d, i⟩ => .obj .sln d i
    | .ok ⟨.other, d, i⟩ => .obj .f d i
    | .error .noent => (match w.lstat p with
      | .ok s => .obj .sln s.dev s.ino
      | .error e => failed e)
    | .error e => failed e

/-- Where the file name begins in a path that may end in slashes. -/
def nameStart (p : List Nat) : Nat :=
  let q := (p.reverse.dropWhile (· = '/'.toNat))
  q.length - (q.takeWhile (· ≠ '/'.toNat)).length

section
variable (w : World) (f : Flags) (root : List Nat)

/-- What stands at `rel`. -/
def whatAt (rel : List (List Nat)) : What := what w f (pathOf root rel)

/-- Device and inode. -/
def devIno (rel : List (List Nat)) : Nat × Nat := match whatAt w f root rel with
  | .obj _ d i => (d, i)
  | _ => (0, 0)

/-- With FTW_MOUNT: on another device than its directory. -/
def otherDevice (rel : List (List Nat)) : Prop :=
  f.mount = true ∧ rel ≠ [] ∧ (∃ t d i, whatAt w f root rel = .obj t d i) ∧ (devIno w f root rel).1 ≠ (devIno w f root rel.dropLast).1

/-- The same object as one of the directories above it. -/
def ownAncestor (rel : List (List Nat)) : Prop := ∃ k, k < rel.length ∧ devIno w f root (rel.take k) = devIno w f root rel

/-- The call for `rel`. -/
def describe (rel : List (List Nat)) : Call :=
  { path := pathOf root rel
    dev := (devIno w f root rel).1
    ino := (devIno w f root rel).2
    type := match whatAt w f root rel with
      | .obj .d _ _ => if w.openErr (pathOf root rel) = some .acces then .dnr else if f.depth then .dp else .d
      | .obj t _ _ => t
      | _ => .ns
    level := rel.length
    base := match rel.getLast? with
      | none => nameStart root
      | some name => (pathOf root rel).length - name.length }

/-- One after the other, up to the first error. -/
def inTurn (g : List Nat → List (List (List Nat)) × Option Err) : List (List Nat) → List (List (List Nat)) × Option Err
  | [] => ([], none)
  | n :: ns => match g n with
    | (l, some e) => (l, some e)
    | (l, none) => (l ++ (inTurn g ns).1, (inTurn g ns).2)

/-- A directory and what is in it, or, with FTW_DEPTH, what is in it and the directory. -/
def around (rel : List (List Nat)) (inside : List (List (List Nat)) × Option Err) : List (List (List Nat)) × Option Err :=
  match f.depth, inside with
  | false, (l, e) => (rel :: l, e)
  | true, (l, some e) => (l, some e)
  | true, (l, none) => (l ++ [rel], none)

open Classical in
/-- A visit of `rel`, given what is inside. A directory that is below itself
is not entered (with FTW_DEPTH not visited either). An error ends the walk. -/
noncomputable def visit (rel : List (List Nat)) (inside : List (List (List Nat)) × Option Err) : List (List (List Nat)) × Option Err :=
  match whatAt w f root rel with
  | .err e => ([], some e)
  | _ =>
    if otherDevice w f root rel then ([], none)
    else if ownAncestor w f root rel then (if f.depth then [] else [rel], none)
    else around f rel inside

/-- What is inside a directory, in the order in which it is read; `below` walks an entry. -/
def contents (rel : List (List Nat)) (below : List (List Nat) → List (List (List Nat)) × Option Err) : List (List (List Nat)) × Option Err :=
  match whatAt w f root rel with
  | .obj .d _ _ =>
    (match w.openErr (pathOf root rel), w.entries (pathOf root rel) with
    | some .acces, _ => ([], none)
    | some e, _ => ([], some e)
    | none, .error e => ([], some e)
    | none, .ok names => inTurn (fun n => if (pathOf root rel).length + 1 + n.length > 4096 then ([], some .nameTooLong) else below (rel ++ [n]))
        (names.filter (fun n => n ≠ ['.'.toNat] ∧ n ≠ ['.'.toNat, '.'.toNat])))
  | _ => ([], none)

/-- What is visited from `rel` on, entering directories up to `depth` levels deep, and the error that ends the walk, if any. -/
noncomputable def walk : Nat → List (List Nat) → List (List (List Nat)) × Option Err
  | 0, rel => visit w f root rel ([], none)
  | depth + 1, rel => visit w f root rel (contents w f root rel (walk depth))
/-- `rel` is a directory that is entered, and `n` one of its entries. -/
def EntryOf (rel : List (List Nat)) (n : List Nat) : Prop :=
  ¬ otherDevice w f root rel ∧ ¬ ownAncestor w f root rel ∧ (∃ d i, whatAt w f root rel = .obj .d d i) ∧ w.openErr (pathOf root rel) = none ∧
  ∃ names, w.entries (pathOf root rel) = .ok names ∧ n ∈ names ∧ n ≠ ['.'.toNat] ∧ n ≠ ['.'.toNat, '.'.toNat]

/-- `rel` is reached from the start through directories that are entered. -/
def Reached (rel : List (List Nat)) : Prop := ∀ k n, rel[k]? = some n → EntryOf w f root (rel.take k) n

end

/-- Calling the program's function for these, up to the first result that is not 0. -/
def run (fn : Fn) (log : List Call) : List Call → Option Err → Ret × List Call
  | [], none => (.val 0, log)
  | [], some e => (.fail e, log)
  | c :: cs, e => if fn log c ≠ 0 then (.val (fn log c), log ++ [c]) else run fn (log ++ [c]) cs e

/-- Names are not empty and contain neither slashes nor zeros. -/
def Names (w : World) : Prop := ∀ p names, w.entries p = .ok names → ∀ n ∈ names, n ≠ [] ∧ ∀ c ∈ n, c ≠ '/'.toNat ∧ c ≠ 0

end Spec
open Spec

/-! ## Proof -/

theorem pathOf_snoc (root : List Nat) (rel : List (List Nat)) (n : List Nat) : pathOf root (rel ++ [n]) = join (pathOf root rel) n := by
  unfold pathOf; rw [List.foldl_append]; rfl

theorem isDots_eq (n : List Nat) (h : n ≠ [] ∧ ∀ c ∈ n, c ≠ 47 ∧ c ≠ 0) : isDots n = true ↔ n = [46] ∨ n = [46, 46] := by
  match n, h with
  | [a], h => simp [isDots]
  | [a, b], h =>
    have := (h.2 b (by simp)).2
    simp [isDots, this]
  | a :: b :: c :: n, h =>
    have h1 := (h.2 b (by simp)).2
    have h2 := (h.2 c (by simp)).2
    simp [isDots, h1, h2]

theorem run_append (fn : Fn) (log : List Call) (a b : List Call) (e : Option Err) :
    run fn log (a ++ b) e = (if (run fn log a none).1 = .val 0 then run fn (run fn log a none).2 b e else run fn log a none) := by
  induction a generalizing log with
  | nil => simp [run]
  | cons c a ih =>
    simp only [List.cons_append, run]
    by_cases h : fn log c = 0
    · simp only [h, ne_eq, not_true_eq_false, if_false]
      exact ih _
    · simp only [h, ne_eq, not_false_eq_true, if_true]
      rw [if_neg]
      intro h'
      injection h' with h'
      exact h h'

theorem run_err (fn : Fn) (log : List Call) (a : List Call) (e : Err) (h : (run fn log a none).1 ≠ .val 0) : run fn log a (some e) = run fn log a none := by
  have := run_append fn log a [] (some e)
  rw [List.append_nil, if_neg h] at this
  exact this

theorem run_some_ne (fn : Fn) (log : List Call) (a : List Call) (e : Err) : (run fn log a (some e)).1 ≠ .val 0 := by
  induction a generalizing log with
  | nil => simp [run]
  | cons c a ih =>
    simp only [run]
    split
    · rename_i h
      intro h'
      injection h' with h'
      exact h h'
    · exact ih _

theorem jOf_le (p : List Nat) : jOf p ≤ p.length := by unfold jOf; split <;> omega

theorem jOf_cases (p : List Nat) : (jOf p = p.length ∧ p.getLast? ≠ some 47) ∨ (∃ q, p = q ++ [47] ∧ jOf p = q.length) := by
  rcases List.eq_nil_or_concat p with h | ⟨q, a, h⟩
  · subst h; left; simp [jOf]
  · subst h
    rw [List.concat_eq_append]
    have hl : (q ++ [a]).length = q.length + 1 := by simp
    have hg : (q ++ [a]).getD ((q ++ [a]).length - 1) 0 = a := by simp
    unfold jOf
    rw [hg]
    by_cases h47 : a = 47
    · subst h47
      right
      exact ⟨q, rfl, by rw [if_pos ⟨by omega, rfl⟩]; omega⟩
    · left
      rw [if_neg (fun h => h47 h.2)]
      exact ⟨rfl, by simp [h47]⟩

theorem join_eq (p n : List Nat) : join p n = p.take (jOf p) ++ 47 :: n := by
  unfold join
  show (if p.getLast? = some 47 then p.dropLast else p) ++ 47 :: n = _
  rcases jOf_cases p with ⟨h1, h2⟩ | ⟨q, h1, h2⟩
  · rw [if_neg h2, h1, List.take_length]
  · subst h1
    rw [if_pos (by simp), h2]
    simp

theorem join_take (p n : List Nat) : (join p n).take p.length = p := by
  rw [join_eq]
  rcases jOf_cases p with ⟨h1, h2⟩ | ⟨q, h1, h2⟩
  · rw [h1, List.take_length, List.take_left]
  · subst h1
    rw [h2, List.take_left]
    rw [show q ++ 47 :: n = (q ++ [47]) ++ n by simp, List.take_left]

theorem join_len (p n : List Nat) : (join p n).length = jOf p + 1 + n.length := by
  rw [join_eq, List.length_append, List.length_take, Nat.min_eq_left (jOf_le p), List.length_cons]
  omega

theorem statType_eq (w : World) (f : Flags) (p : List Nat) : statType w f p = (match what w f p with
    | .err e => .error e
    | .noStat => .ok (.ns, 0, 0)
    | .obj .d d i => .ok (if f.depth then .dp else .d, d, i)
    | .obj t d i => .ok (t, d, i)) := by
  unfold statType what
  cases hph : f.phys
  · simp only [Bool.false_eq_true, if_false, Bool.not_false, Bool.true_and]
    cases hs : w.stat p with
    | ok st =>
      obtain ⟨k, d, i⟩ := st
      cases k <;> rfl
    | error e =>
      simp only []
      cases e with
      | noent =>
        simp only [beq_self_eq_true, if_true]
        cases hl : w.lstat p with
        | ok st => rfl
        | error e =>
          simp only []
          cases e <;> simp
      | acces => simp
      | nameTooLong => simp
      | other n => simp
  · simp only [if_true, Bool.not_true, Bool.false_and, Bool.false_eq_true, if_false]
    cases hs : w.lstat p with
    | ok st =>
      obtain ⟨k, d, i⟩ := st
      cases k <;> rfl
    | error e =>
      simp only []
      cases e <;> simp

theorem what_types {w : World} {f : Flags} {p : List Nat} {t : Ty} {d i : Nat} (h : what w f p = .obj t d i) : t = .d ∨ t = .sl ∨ t = .f ∨ t = .sln := by
  have fe : ∀ e : Err, (if e = .acces then What.noStat else What.err e) ≠ .obj t d i := by intro e; split <;> simp
  unfold what at h
  simp only [] at h
  split at h
  · split at h
    all_goals first
      | (injection h with h; subst h; simp; done)
      | exact absurd h (fe _)
  · split at h
    all_goals try first
      | (injection h with h; subst h; simp; done)
      | exact absurd h (fe _)
    split at h
    all_goals first
      | (injection h with h; subst h; simp; done)
      | exact absurd h (fe _)

/-! ### The history -/

section
variable (w : World) (f : Flags) (root : List Nat)

def hist (rel : List (List Nat)) : Hist := ⟨(devIno w f root rel).1, (devIno w f root rel).2, rel.length, jOf (pathOf root rel) + 1⟩

def hists (rel : List (List Nat)) : List Hist := ((List.range rel.length).reverse).map (fun k => hist w f root (rel.take k))

theorem hists_snoc (rel : List (List Nat)) (n : List Nat) : hists w f root (rel ++ [n]) = hist w f root rel :: hists w f root rel := by
  unfold hists
  rw [List.length_append, List.length_singleton, List.range_succ, List.reverse_append]
  simp only [List.reverse_singleton, List.singleton_append, List.map_cons, List.take_left, List.cons.injEq, true_and]
  apply List.map_congr_left
  intro k hk
  rw [List.mem_reverse, List.mem_range] at hk
  rw [List.take_append_of_le_length (by omega)]

theorem hists_any (rel : List (List Nat)) : ((hists w f root rel).any (fun p => p.dev = (devIno w f root rel).1 && p.ino = (devIno w f root rel).2)) = true ↔
    ownAncestor w f root rel := by
  unfold hists ownAncestor
  rw [List.any_eq_true]
  constructor
  · rintro ⟨p, hp, h⟩
    rw [List.mem_map] at hp
    obtain ⟨k, hk, rfl⟩ := hp
    rw [List.mem_reverse, List.mem_range] at hk
    simp only [Bool.and_eq_true, decide_eq_true_eq] at h
    exact ⟨k, hk, Prod.ext h.1 h.2⟩
  · rintro ⟨k, hk, h⟩
    refine ⟨hist w f root (rel.take k), List.mem_map.2 ⟨k, by simpa using hk, rfl⟩, ?_⟩
    simp only [Bool.and_eq_true, decide_eq_true_eq]
    exact ⟨by show (devIno w f root (rel.take k)).1 = _; rw [h], by show (devIno w f root (rel.take k)).2 = _; rw [h]⟩

end

/-! ### The base -/

theorem skipName_spec (p : List Nat) (k : Nat) (hk : k ≤ p.length) : skipName p k = k - ((p.take k).reverse.takeWhile (· ≠ 47)).length := by
  induction k with
  | zero => rfl
  | succ k ih =>
    have ht : (p.take (k + 1)).reverse = p[k] :: (p.take k).reverse := by
      rw [List.take_succ_eq_append_getElem (by omega), List.reverse_append]; rfl
    have hg : p.getD k 0 = p[k] := by rw [List.getD_eq_getElem?_getD, List.getElem?_eq_getElem (by omega)]; rfl
    simp only [skipName]
    rw [ht, hg]
    by_cases h : p[k] = 47
    · simp [h]
    · rw [if_pos h, ih (by omega), List.takeWhile_cons_of_pos (by simpa using h), List.length_cons]
      omega

theorem nameStart_slash (p : List Nat) : nameStart (p ++ [47]) = nameStart p := by
  unfold nameStart
  rw [List.reverse_append]
  rfl

theorem nameStart_other (p : List Nat) (c : Nat) (h : c ≠ 47) : nameStart (p ++ [c]) = p.length - (p.reverse.takeWhile (· ≠ 47)).length := by
  unfold nameStart
  rw [List.reverse_append, List.reverse_singleton, List.singleton_append, List.dropWhile_cons_of_neg (by simpa using h)]
  show (c :: p.reverse).length - ((c :: p.reverse).takeWhile (· ≠ 47)).length = _
  rw [List.takeWhile_cons_of_pos (by simpa using h)]
  simp

theorem skip_spec (p : List Nat) (k : Nat) (hk : k < p.length) : skipName p (skipSlashes p k) = nameStart (p.take (k + 1)) := by
  induction k with
  | zero =>
    rw [List.take_succ_eq_append_getElem hk]
    simp only [skipSlashes, skipName, List.take_zero]
    by_cases h : p[0] = 47
    · rw [h, nameStart_slash]; rfl
    · rw [nameStart_other _ _ h]; rfl
  | succ k ih =>
    rw [List.take_succ_eq_append_getElem hk]
    have hg : p.getD (k + 1) 0 = p[k + 1] := by rw [List.getD_eq_getElem?_getD, List.getElem?_eq_getElem hk]; rfl
    simp only [skipSlashes]
    rw [hg]
    by_cases h : p[k + 1] = 47
    · rw [if_pos h, h, nameStart_slash]
      exact ih (by omega)
    · rw [if_neg h, nameStart_other _ _ h, skipName_spec p (k + 1) (by omega), List.length_take, Nat.min_eq_left (by omega)]

theorem base_spec (p : List Nat) : skipName p (skipSlashes p (jOf p)) = nameStart p := by
  rcases jOf_cases p with ⟨h1, h2⟩ | ⟨q, h1, h2⟩
  · rcases List.eq_nil_or_concat p with h | ⟨q, a, h⟩
    · subst h; rfl
    · rw [List.concat_eq_append] at h
      subst h
      have ha : a ≠ 47 := by simpa using h2
      have hsk : skipSlashes (q ++ [a]) (q.length + 1) = q.length + 1 := by
        simp only [skipSlashes]
        rw [if_neg]
        simp
      rw [h1, show (q ++ [a]).length = q.length + 1 by simp, hsk, skipName_spec _ _ (by simp), nameStart_other _ _ ha,
        List.take_of_length_le (by simp), List.reverse_append, List.reverse_singleton, List.singleton_append, List.takeWhile_cons_of_pos (by simpa using ha), List.length_cons]
      omega
  · subst h1
    rw [h2, skip_spec _ _ (by simp), List.take_of_length_le (by simp)]

/-! ### The walk -/

/-- What a call does to the descriptors: at most `k` more at once, and none left open, except if the function ends the walk
at a directory before its contents. -/
def Fds (f : Flags) (o k : Nat) (r : Ret) (s s' : S) : Prop :=
  s'.peak ≤ max s.peak (s.fds - o + k) ∧ (s'.fds + o = s.fds ∨ (f.depth = false ∧ s'.fds + o = s.fds + 1 ∧ ∃ v, v ≠ 0 ∧ r = .val v))

theorem Fds.refl (f : Flags) (k : Nat) (r : Ret) (s s' : S) (h1 : s'.peak = s.peak) (h2 : s'.fds = s.fds) : Fds f 0 k r s s' :=
  ⟨by omega, Or.inl (by omega)⟩

theorem loop_spec (f : Flags) (nc : Prop) (nc' : List Nat → Prop) (k : Nat) (fn : Fn) (P : List Nat) (D : List (List Nat) → Call) (rec : S → Res (Ret × S)) (g : List Nat → List (List (List Nat)) × Option Err)
    (hP : P.length ≤ 4096)
    (hrec : ∀ n (s : S), n ≠ [] → (∀ c ∈ n, c ≠ 47 ∧ c ≠ 0) → s.path = join P n → s.path.length ≤ 4096 →
      ∃ r s', rec s = .ok (r, s') ∧ (r, s'.log) = run fn s.log ((g n).1.map D) (g n).2 ∧ (r = .val 0 → s'.path = s.path) ∧ (nc' n → Fds f 0 k r s s'))
    (names : List (List Nat)) (hnc : nc → ∀ n ∈ names, n ≠ [46] → n ≠ [46, 46] → nc' n) (hn : ∀ n ∈ names, n ≠ [] ∧ ∀ c ∈ n, c ≠ 47 ∧ c ≠ 0) (s : S) (hs : s.path.take P.length = P) :
    ∃ r s', loop rec P.length (jOf P) names s = .ok (r, s') ∧
      (r, s'.log) = run fn s.log ((inTurn (fun n => if P.length + 1 + n.length > 4096 then ([], some .nameTooLong) else g n) (names.filter (fun n => n ≠ [46] ∧ n ≠ [46, 46]))).1.map D)
        (inTurn (fun n => if P.length + 1 + n.length > 4096 then ([], some .nameTooLong) else g n) (names.filter (fun n => n ≠ [46] ∧ n ≠ [46, 46]))).2 ∧
      (r = .val 0 → s'.path.take P.length = P) ∧ (nc → Fds f 0 k r s s') := by
  induction names generalizing s with
  | nil => exact ⟨_, _, rfl, rfl, fun _ => hs, fun _ => Fds.refl _ _ _ _ _ rfl rfl⟩
  | cons n ns ih =>
    have hn1 := hn n (by simp)
    have hns := fun m hm => hn m (List.mem_cons_of_mem _ hm)
    have ih := ih (fun h m hm => hnc h m (List.mem_cons_of_mem _ hm))
    simp only [loop]
    by_cases hd : isDots n = true
    · rw [if_pos hd, List.filter_cons_of_neg (by
        have := (isDots_eq n hn1).1 hd
        rw [decide_eq_true_eq]
        rintro ⟨h1, h2⟩
        exact this.elim h1 h2)]
      exact ih hns s hs
    · rw [if_neg hd, List.filter_cons_of_pos (by
        rw [decide_eq_true_eq]
        exact ⟨fun h => hd ((isDots_eq n hn1).2 (Or.inl h)), fun h => hd ((isDots_eq n hn1).2 (Or.inr h))⟩)]
      by_cases hlong : P.length + 1 + n.length > 4096
      · rw [if_pos (by omega)]
        simp only [inTurn]
        rw [if_pos hlong]
        exact ⟨_, _, rfl, rfl, (fun h => by cases h), fun _ => Fds.refl _ _ _ _ _ rfl rfl⟩
      · have hj := jOf_le P
        rw [if_neg (by omega), if_neg (by omega)]
        simp only [inTurn]
        rw [if_neg hlong]
        have hjoin : s.path.take (jOf P) ++ 47 :: n = join P n := by
          have h2 : P.take (jOf P) = s.path.take (jOf P) := by
            have h3 := congrArg (List.take (jOf P)) hs
            rw [List.take_take, Nat.min_eq_left hj] at h3
            exact h3.symm
          rw [join_eq, h2]
        rw [hjoin]
        obtain ⟨r, s', hr, hrun, hpath, hfd'⟩ := hrec n { s with path := join P n } hn1.1 hn1.2 rfl (by show (join P n).length ≤ 4096; rw [join_len]; omega)
        have hfd : nc → Fds f 0 k r s s' := fun h => hfd' (hnc h n (by simp) (fun h => hd ((isDots_eq n hn1).2 (Or.inl h))) (fun h => hd ((isDots_eq n hn1).2 (Or.inr h))))
        rw [hr]
        simp only [Res.bind]
        simp only at hrun
        have hr1 : r = (run fn s.log ((g n).1.map D) (g n).2).1 := by rw [← hrun]
        have hr2 : s'.log = (run fn s.log ((g n).1.map D) (g n).2).2 := by rw [← hrun]
        cases hg : (g n).2 with
        | some e =>
          rw [hg] at hr1 hr2 hrun
          have hne : r ≠ .val 0 := by rw [hr1]; exact run_some_ne _ _ _ _
          rw [if_pos hne]
          have hgn : g n = ((g n).1, some e) := by rw [← hg]
          rw [hgn]
          exact ⟨_, _, rfl, hrun, fun h => absurd h hne, hfd⟩
        | none =>
          rw [hg] at hr1 hr2 hrun
          have hgn : g n = ((g n).1, none) := by rw [← hg]
          rw [hgn]
          simp only [List.map_append]
          rw [run_append, ← hr1]
          by_cases h0 : r = .val 0
          · rw [if_neg (by simpa using h0), if_pos h0]
            have := ih hns s' (by rw [hpath h0]; exact join_take P n)
            rw [hr2] at this
            obtain ⟨r2, s2, e1, e2, e3, e4⟩ := this
            refine ⟨r2, s2, e1, e2, e3, ?_⟩
            intro hnc
            obtain ⟨f1, f2⟩ := hfd hnc
            obtain ⟨g1, g2⟩ := e4 hnc
            have f3 : s'.fds = s.fds := by
              rcases f2 with f2 | ⟨_, _, v, hv, hv'⟩
              · exact f2
              · rw [h0] at hv'
                injection hv' with hv'
                exact absurd hv'.symm hv
            rw [f3] at g1 g2
            exact ⟨Nat.le_trans g1 (Nat.max_le.2 ⟨f1, Nat.le_max_right _ _⟩), g2⟩
          · rw [if_pos h0, if_neg h0]
            exact ⟨_, _, rfl, hrun, fun h => absurd h h0, hfd⟩

theorem openDir_log (w : World) (b : Bool) (t : Ty) (s : S) : (openDir w b t s).log = s.log ∧ (openDir w b t s).path = s.path := by
  unfold openDir
  split
  · split <;> exact ⟨rfl, rfl⟩
  · exact ⟨rfl, rfl⟩

theorem fd_arith (a p s d : Nat) (h : a ≤ max (max p (s + 1)) (s + (d + 1))) : a ≤ max p (s + (d + 1)) := by omega

theorem openDir_open (w : World) (rec : Option (S → List Hist → Res (Ret × S))) (hr : rec.isSome) (t : Ty) (ht : t = .d ∨ t = .dp) (s : S) (ho : w.openErr s.path = none) :
    openDir w rec.isNone t s = s.opened := by
  unfold openDir
  rw [if_pos ⟨ht, ho⟩]
  cases rec with
  | none => cases hr
  | some g => rfl

theorem openDir_last (w : World) (t : Ty) (ht : t = .d ∨ t = .dp) (s : S) (ho : w.openErr s.path = none) :
    openDir w (none : Option (S → List Hist → Res (Ret × S))).isNone t s = s.opened.closed := by
  unfold openDir
  rw [if_pos ⟨ht, ho⟩]
  rfl

/-- The rest of do_nftw, given what entering the directory does. -/
theorem rest_spec (w : World) (fn : Fn) (f : Flags) (rec : Option (S → List Hist → Res (Ret × S))) (h : List Hist) (call : Call) (s : S)
    (D : List (List Nat) → Call) (rel : List (List Nat)) (hD : D rel = call) (hp : s.path = call.path)
    (nc : Prop) (o k : Nat) (ho1 : o ≤ 1) (hof : o ≤ s.fds) (cyc : Prop) [Decidable cyc] (hnc : nc → ¬ cyc) (hcyc : h.any (fun p => p.dev = call.dev && p.ino = call.ino) = true ↔ cyc)
    (ins : List (List (List Nat)) × Option Err)
    (hins : ¬ cyc → ∀ s : S, s.path = call.path → o ≤ s.fds → ∃ r s', enter w rec h call s = .ok (r, s') ∧ (r, s'.log) = run fn s.log (ins.1.map D) ins.2 ∧
      (r = .val 0 → s'.path.take call.path.length = call.path) ∧ (nc → Fds f o k r s s')) :
    ∃ r s', rest w fn f rec h call s = .ok (r, s') ∧
      (r, s'.log) = (let v : List (List (List Nat)) × Option Err := (if cyc then (if f.depth then [] else [rel], none)
        else around f rel ins)
        run fn s.log (v.1.map D) v.2) ∧ (r = .val 0 → s'.path = s.path) ∧ (nc → Fds f o k r s s') := by
  subst hD
  unfold rest
  obtain ⟨l, e⟩ := ins
  cases hd : f.depth
  · simp only [Bool.false_eq_true, if_false]
    by_cases hr : fn s.log (D rel) = 0
    · rw [if_neg (by simpa using hr)]
      by_cases hc : cyc
      · rw [if_pos (hcyc.2 hc), if_pos hc]
        refine ⟨_, _, rfl, ?_, fun _ => rfl, fun h => absurd hc (hnc h)⟩
        simp [run, hr]
      · rw [if_neg (fun h => hc (hcyc.1 h)), if_neg hc]
        obtain ⟨r, s', h1, h2, h3, h4⟩ := hins hc { s with log := s.log ++ [D rel] } hp hof
        rw [h1]
        unfold around
        rw [hd]
        simp only [Res.bind, List.map_cons, run]
        rw [if_neg (show ¬ (fn s.log (D rel) ≠ 0) by simpa using hr), ← h2]
        by_cases h0 : r = .val 0
        · rw [if_neg (by simpa using h0)]
          unfold finish
          simp only [hd, Bool.false_eq_true, if_false]
          exact ⟨_, _, rfl, by rw [h0], fun _ => by rw [hp]; exact h3 h0, fun h => by subst h0; exact h4 h⟩
        · rw [if_pos h0]
          exact ⟨_, _, rfl, rfl, fun h => absurd h h0, h4⟩
    · rw [if_pos hr]
      refine ⟨_, _, rfl, ?_, fun _ => rfl, ?_⟩
      rotate_left
      · intro _
        refine ⟨Nat.le_max_left _ _, ?_⟩
        rcases Nat.le_one_iff_eq_zero_or_eq_one.1 ho1 with h | h
        · exact Or.inl (by rw [h]; rfl)
        · exact Or.inr ⟨hd, by rw [h], _, hr, rfl⟩
      by_cases hc : cyc
      · rw [if_pos hc]
        simp [run, hr]
      · rw [if_neg hc]
        simp [run, hr, around, hd]
  · simp only [if_true, ne_eq, not_true_eq_false, if_false]
    by_cases hc : cyc
    · rw [if_pos (hcyc.2 hc), if_pos hc]
      exact ⟨_, _, rfl, rfl, fun _ => rfl, fun h => absurd hc (hnc h)⟩
    · rw [if_neg (fun h => hc (hcyc.1 h)), if_neg hc]
      obtain ⟨r, s', h1, h2, h3, h4⟩ := hins hc s hp hof
      rw [h1]
      simp only [Res.bind]
      have hr1 : r = (run fn s.log (l.map D) e).1 := by rw [← h2]
      have hr2 : s'.log = (run fn s.log (l.map D) e).2 := by rw [← h2]
      unfold around
      rw [hd]
      cases e with
      | some e =>
        have h0 : r ≠ .val 0 := by rw [hr1]; exact run_some_ne _ _ _ _
        rw [if_pos h0]
        exact ⟨_, _, rfl, h2, fun h => absurd h h0, h4⟩
      | none =>
        simp only [List.map_append]
        rw [run_append]
        rw [← hr1]
        by_cases h0 : r = .val 0
        · rw [if_neg (by simpa using h0), if_pos h0]
          unfold finish
          simp only [hd, if_true]
          refine ⟨_, _, rfl, ?_, fun _ => by rw [hp]; exact h3 h0, ?_⟩
          rotate_left
          · intro h
            obtain ⟨f1, f2⟩ := h4 h
            refine ⟨f1, ?_⟩
            rcases f2 with f2 | ⟨f2, _⟩
            · exact Or.inl f2
            · rw [hd] at f2; cases f2
          rw [← hr2]
          simp only []
          rw [h3 h0]
          simp only [List.map_cons, List.map_nil, run]
          split
          · rfl
          · rename_i h5
            simp only [Decidable.not_not] at h5
            rw [h5]
        · rw [if_pos h0, if_neg h0]
          exact ⟨_, _, rfl, h2, fun h => absurd h h0, h4⟩

section
variable (w : World) (f : Flags) (root : List Nat)

theorem hists_cases (rel : List (List Nat)) : (rel = [] ∧ hists w f root rel = []) ∨
    ∃ q n, rel = q ++ [n] ∧ hists w f root rel = hist w f root q :: hists w f root q := by
  rcases List.eq_nil_or_concat rel with h | ⟨q, n, h⟩
  · subst h; left; exact ⟨rfl, rfl⟩
  · rw [List.concat_eq_append] at h
    subst h
    right
    exact ⟨q, n, rfl, hists_snoc w f root q n⟩

theorem level_spec (rel : List (List Nat)) : levelOf (hists w f root rel) = rel.length := by
  rcases hists_cases w f root rel with ⟨h1, h2⟩ | ⟨q, n, h1, h2⟩
  · rw [h2, h1]; rfl
  · rw [h2, h1]
    simp [levelOf, hist]

theorem base_eq (rel : List (List Nat)) : baseOf (pathOf root rel) (hists w f root rel) = (describe w f root rel).base := by
  rcases hists_cases w f root rel with ⟨h1, h2⟩ | ⟨q, n, h1, h2⟩
  · rw [h2, h1]
    exact base_spec root
  · rw [h2, h1]
    show jOf (pathOf root q) + 1 = (match (q ++ [n]).getLast? with
      | none => nameStart root
      | some name => (pathOf root (q ++ [n])).length - name.length)
    rw [List.getLast?_append]
    simp only [List.getLast?_singleton, Option.or_some]
    show _ = (pathOf root (q ++ [n])).length - n.length
    rw [pathOf_snoc, join_len]
    omega

theorem crosses_eq (rel : List (List Nat)) (type : Ty) (ht : type ≠ .ns ↔ ∃ t d i, whatAt w f root rel = .obj t d i) :
    crosses f type (devIno w f root rel).1 (hists w f root rel) = true ↔ otherDevice w f root rel := by
  unfold otherDevice
  rcases hists_cases w f root rel with ⟨h1, h2⟩ | ⟨q, n, h1, h2⟩
  · rw [h2]
    simp [crosses, h1]
  · rw [h2, ← ht]
    simp only [crosses, Bool.and_eq_true, decide_eq_true_eq, h1, List.dropLast_concat]
    simp [hist, and_assoc]

/-- One level of the walk. -/
theorem body_spec (fn : Fn) (hw : Names w) (nc : List (List Nat) → Prop) (hnc : ∀ rel, nc rel → ¬ ownAncestor w f root rel) (hstep : ∀ rel n, nc rel → EntryOf w f root rel n → nc (rel ++ [n])) (rec : Option (S → List Hist → Res (Ret × S))) (depth : Nat)
    (hrec : (rec = none ∧ depth = 0) ∨ ∃ d g, depth = d + 1 ∧ rec = some g ∧ ∀ (rel : List (List Nat)) (s : S), s.path = pathOf root rel → s.path.length ≤ 4096 →
      ∃ r s', g s (hists w f root rel) = .ok (r, s') ∧
        (r, s'.log) = run fn s.log ((walk w f root d rel).1.map (describe w f root)) (walk w f root d rel).2 ∧ (r = .val 0 → s'.path = s.path) ∧ (nc rel → Fds f 0 (d + 1) r s s'))
    (ins : List (List Nat) → List (List (List Nat)) × Option Err)
    (hins0 : depth = 0 → ∀ rel, ins rel = ([], none)) (hins1 : ∀ d, depth = d + 1 → ∀ rel, ins rel = contents w f root rel (walk w f root d))
    (rel : List (List Nat)) (s : S) (hp : s.path = pathOf root rel) (hlen : s.path.length ≤ 4096) :
    ∃ r s', body w fn f rec s (hists w f root rel) = .ok (r, s') ∧
      (r, s'.log) = run fn s.log ((visit w f root rel (ins rel)).1.map (describe w f root)) (visit w f root rel (ins rel)).2 ∧ (r = .val 0 → s'.path = s.path) ∧ (nc rel → Fds f 0 (depth + 1) r s s') := by
  classical
  unfold body
  rw [hp, statType_eq]
  cases hwhat : whatAt w f root rel with
  | err e =>
    have hw' : what w f (pathOf root rel) = .err e := hwhat
    rw [hw']
    unfold visit
    rw [hwhat]
    exact ⟨_, _, rfl, rfl, (fun h => by cases h), fun _ => Fds.refl _ _ _ _ _ rfl rfl⟩
  | noStat =>
    have hw' : what w f (pathOf root rel) = .noStat := hwhat
    rw [hw']
    have hdev : devIno w f root rel = (0, 0) := by unfold devIno; rw [hwhat]
    have hi : ins rel = ([], none) := by
      rcases hrec with ⟨h1, h2⟩ | ⟨dd, g, h1, h2, hg⟩
      · rw [hins0 h2]
      · rw [hins1 _ h1]
        unfold contents; rw [hwhat]
    rw [hi]
    unfold visit
    rw [hwhat]
    simp only []
    have hx := crosses_eq w f root rel .ns (by rw [hwhat]; simp)
    rw [hdev] at hx
    by_cases ho : otherDevice w f root rel
    · rw [if_pos (hx.2 ho), if_pos ho]
      exact ⟨_, _, rfl, rfl, (fun _ => by rw [hp]), fun _ => Fds.refl _ _ _ _ _ rfl rfl⟩
    · rw [if_neg (fun h => ho (hx.1 h)), if_neg ho]
      have hlp := openDir_log w rec.isNone .ns s
      have hop : openDir w rec.isNone .ns s = s := by unfold openDir; rw [if_neg (by simp)]
      have hspec := rest_spec w fn f rec (hists w f root rel) ⟨pathOf root rel, 0, 0, .ns, levelOf (hists w f root rel), baseOf (pathOf root rel) (hists w f root rel)⟩
        (openDir w rec.isNone .ns s) (describe w f root) rel (by
          rw [level_spec, base_eq]
          unfold describe
          rw [hwhat, hdev]) (by rw [hlp.2]; exact hp) (nc rel) 0 (depth + 1) (Nat.zero_le _) (Nat.zero_le _) (ownAncestor w f root rel) (fun h => hnc rel h) (by
          have := hists_any w f root rel
          rw [hdev] at this
          exact this) ([], none) (by
          intro _ s hs _
          refine ⟨_, s, ?_, rfl, (fun _ => by rw [hs, List.take_length]), fun _ => Fds.refl _ _ _ _ _ rfl rfl⟩
          unfold enter
          cases rec <;> rfl)
      rw [hlp.1, hlp.2, hp, hop] at hspec
      rw [hop]
      exact hspec
  | obj t d i =>
    have hw' : what w f (pathOf root rel) = .obj t d i := hwhat
    have hdev : devIno w f root rel = (d, i) := by unfold devIno; rw [hwhat]
    have ht := what_types hw'
    rw [hw']
    by_cases htd : t = .d
    · subst htd
      simp only []
      generalize hty : (if f.depth then Ty.dp else Ty.d) = ty
      have hisd : ty = .d ∨ ty = .dp := by rw [← hty]; split <;> simp
      have hns : ty ≠ .ns := by rcases hisd with h | h <;> rw [h] <;> decide
      unfold visit
      rw [hwhat]
      simp only []
      have hx := crosses_eq w f root rel ty ⟨fun _ => ⟨_, _, _, hwhat⟩, fun _ => hns⟩
      rw [hdev] at hx
      by_cases ho : otherDevice w f root rel
      · rw [if_pos (hx.2 ho), if_pos ho]
        exact ⟨_, _, rfl, rfl, (fun _ => by rw [hp]), fun _ => Fds.refl _ _ _ _ _ rfl rfl⟩
      · rw [if_neg (fun h => ho (hx.1 h)), if_neg ho]
        have hlp := openDir_log w rec.isNone ty s
        have hspec := rest_spec w fn f rec (hists w f root rel) ⟨pathOf root rel, d, i, (if (ty = .d ∨ ty = .dp) ∧ w.openErr (pathOf root rel) = some .acces then .dnr else ty),
            levelOf (hists w f root rel), baseOf (pathOf root rel) (hists w f root rel)⟩
          (openDir w rec.isNone ty s) (describe w f root) rel (by
            rw [level_spec, base_eq]
            unfold describe
            rw [hwhat, hdev]
            simp only [hisd, true_and, hty]) (by rw [hlp.2]; exact hp) (nc rel) (if rec.isSome ∧ w.openErr (pathOf root rel) = none then 1 else 0) (depth + 1) (by split <;> omega) (by
            split
            · rename_i h
              rw [openDir_open w rec h.1 ty hisd s (by rw [hp]; exact h.2)]
              show 1 ≤ s.fds + 1
              omega
            · omega) (ownAncestor w f root rel) (fun h => hnc rel h) (by
            have := hists_any w f root rel
            rw [hdev] at this
            exact this) (ins rel) (by
            intro hcy s hs hofd
            unfold enter
            rcases hrec with ⟨h1, h2⟩ | ⟨dd, g, h1, h2, hg⟩
            · subst h1
              rw [hins0 h2]
              exact ⟨_, s, rfl, rfl, (fun _ => by rw [hs, List.take_length]), fun _ => by simp; exact Fds.refl _ _ _ _ _ rfl rfl⟩
            · subst h2
              rw [hins1 _ h1]
              simp only [hisd, true_and]
              unfold contents
              rw [hwhat]
              simp only []
              by_cases hacc : w.openErr (pathOf root rel) = some .acces
              · rw [hacc]
                simp only [if_true]
                exact ⟨_, s, rfl, rfl, (fun _ => by rw [hs, List.take_length]), fun _ => by simp; exact Fds.refl _ _ _ _ _ rfl rfl⟩
              · rw [if_neg hacc, if_pos hisd]
                cases hop : w.openErr (pathOf root rel) with
                | some e =>
                  have he : e ≠ .acces := fun h => hacc (by rw [hop, h])
                  simp only []
                  refine ⟨_, s, rfl, ?_, (fun h => by cases h), fun _ => by simp; exact Fds.refl _ _ _ _ _ rfl rfl⟩
                  cases e <;> first | rfl | exact absurd rfl he
                | none =>
                  simp only []
                  have hone : (if (some g).isSome = true ∧ w.openErr (pathOf root rel) = none then 1 else 0) = 1 := if_pos ⟨rfl, hop⟩
                  rw [hop] at hone
                  rw [hop, hone] at hofd
                  rw [show (if (some g).isSome = true ∧ True then 1 else 0) = 1 from rfl]
                  cases hen : w.entries (pathOf root rel) with
                  | error e => 
                    refine ⟨_, s.closed, rfl, rfl, (fun h => by cases h), fun _ => ⟨Nat.le_max_left _ _, Or.inl ?_⟩⟩
                    show s.fds - 1 + 1 = s.fds
                    omega
                  | ok names =>
                    simp only []
                    have hh : (⟨d, i, levelOf (hists w f root rel), jOf (pathOf root rel) + 1⟩ : Hist) = hist w f root rel := by
                      unfold hist
                      rw [level_spec, hdev]
                    rw [hh]
                    obtain ⟨r, s', e1, h2, h3, h4⟩ := loop_spec f (nc rel) (fun n => nc (rel ++ [n])) (dd + 1) fn (pathOf root rel) (describe w f root) (fun s => g s (hist w f root rel :: hists w f root rel))
                      (fun n => walk w f root dd (rel ++ [n])) (by rw [← hp]; exact hlen) (by
                        intro n s _ _ hs hl
                        have := hg (rel ++ [n]) s (by rw [pathOf_snoc]; exact hs) hl
                        rw [hists_snoc] at this
                        exact this) names (fun h n hn h1 h2 => hstep rel n h ⟨ho, hcy, ⟨d, i, hwhat⟩, hop, names, hen, hn, h1, h2⟩) (hw _ _ hen) s (by rw [hs]; exact List.take_length)
                    rw [e1]
                    refine ⟨r, s'.closed, rfl, h2, h3, ?_⟩
                    intro hn
                    obtain ⟨f1, f2⟩ := h4 hn
                    subst h1
                    refine ⟨?_, ?_⟩
                    · show s'.peak ≤ _
                      refine Nat.le_trans f1 (Nat.max_le.2 ⟨Nat.le_max_left _ _, Nat.le_trans ?_ (Nat.le_max_right _ _)⟩)
                      omega
                    · show s'.fds - 1 + 1 = s.fds ∨ _
                      rcases f2 with f2 | ⟨f2, f3, f4⟩
                      · left; omega
                      · right
                        refine ⟨f2, ?_, f4⟩
                        show s'.fds - 1 + 1 = s.fds + 1
                        omega)
        rw [hlp.1, hlp.2, hp] at hspec
        obtain ⟨r, s', e1, e2, e3, e4⟩ := hspec
        refine ⟨r, s', e1, e2, e3, ?_⟩
        intro hn
        have hF := e4 hn
        by_cases hopen : w.openErr (pathOf root rel) = none
        · cases hrc : rec with
          | none =>
            rw [hrc, openDir_last w ty hisd s (by rw [hp]; exact hopen)] at hF
            obtain ⟨g1, g2⟩ := hF
            simp at g1 g2
            have p1 : s.opened.closed.peak = max s.peak (s.fds + 1) := rfl
            have p2 : s.opened.closed.fds = s.fds := rfl
            rw [p1, p2] at g1
            rw [p2] at g2
            exact ⟨fd_arith _ _ _ _ g1, g2⟩
          | some g =>
            rw [openDir_open w rec (by rw [hrc]; rfl) ty hisd s (by rw [hp]; exact hopen), if_pos ⟨by rw [hrc]; rfl, hopen⟩] at hF
            obtain ⟨g1, g2⟩ := hF
            have p1 : s.opened.peak = max s.peak (s.fds + 1) := rfl
            have p2 : s.opened.fds = s.fds + 1 := rfl
            rw [p1, p2] at g1
            rw [p2] at g2
            refine ⟨fd_arith _ _ _ _ g1, ?_⟩
            rcases g2 with g2 | ⟨g2, g3, g4⟩
            · exact Or.inl (by omega)
            · exact Or.inr ⟨g2, by omega, g4⟩
        · rw [if_neg (fun h => hopen h.2)] at hF
          have hsame : openDir w rec.isNone ty s = s := by unfold openDir; rw [if_neg (fun h => hopen (by rw [← hp]; exact h.2))]
          rw [hsame] at hF
          exact hF
    · have hmatch : (match What.obj t d i with
          | .err e => (Except.error e : Except Err (Ty × Nat × Nat))
          | .noStat => .ok (.ns, 0, 0)
          | .obj .d d i => .ok (if f.depth then .dp else .d, d, i)
          | .obj t d i => .ok (t, d, i)) = .ok (t, d, i) := by
        cases t <;> first | rfl | exact absurd rfl htd
      rw [hmatch]
      have hi : ins rel = ([], none) := by
        rcases hrec with ⟨h1, h2⟩ | ⟨dd, g, h1, h2, hg⟩
        · rw [hins0 h2]
        · rw [hins1 _ h1]
          unfold contents; rw [hwhat]
          cases t <;> first | rfl | exact absurd rfl htd
      rw [hi]
      have hnd : ¬ (t = .d ∨ t = .dp) := by rcases ht with h | h | h | h <;> subst h <;> simp at htd ⊢
      have hns : t ≠ .ns := by rcases ht with h | h | h | h <;> subst h <;> decide
      unfold visit
      rw [hwhat]
      simp only []
      have hx := crosses_eq w f root rel t ⟨fun _ => ⟨_, _, _, hwhat⟩, fun _ => hns⟩
      rw [hdev] at hx
      by_cases ho : otherDevice w f root rel
      · rw [if_pos (hx.2 ho), if_pos ho]
        exact ⟨_, _, rfl, rfl, (fun _ => by rw [hp]), fun _ => Fds.refl _ _ _ _ _ rfl rfl⟩
      · rw [if_neg (fun h => ho (hx.1 h)), if_neg ho]
        simp only [hnd, false_and, if_false]
        have hlp := openDir_log w rec.isNone t s
        have hop : openDir w rec.isNone t s = s := by unfold openDir; rw [if_neg (fun h => hnd h.1)]
        have hspec := rest_spec w fn f rec (hists w f root rel) ⟨pathOf root rel, d, i, t, levelOf (hists w f root rel), baseOf (pathOf root rel) (hists w f root rel)⟩
          (openDir w rec.isNone t s) (describe w f root) rel (by
            rw [level_spec, base_eq]
            unfold describe
            rw [hwhat, hdev]
            cases t <;> first | rfl | exact absurd rfl htd) (by rw [hlp.2]; exact hp) (nc rel) 0 (depth + 1) (Nat.zero_le _) (Nat.zero_le _) (ownAncestor w f root rel) (fun h => hnc rel h) (by
            have := hists_any w f root rel
            rw [hdev] at this
            exact this) ([], none) (by
            intro _ s hs _
            refine ⟨_, s, ?_, rfl, (fun _ => by rw [hs, List.take_length]), fun _ => Fds.refl _ _ _ _ _ rfl rfl⟩
            unfold enter
            cases rec
            · rfl
            · simp only []
              rw [if_neg hnd])
        rw [hlp.1, hlp.2, hp, hop] at hspec
        rw [hop]
        exact hspec

theorem reached_snoc {rel : List (List Nat)} {n : List Nat} (h : Reached w f root rel) (he : EntryOf w f root rel n) : Reached w f root (rel ++ [n]) := by
  intro k m hk
  by_cases hlt : k < rel.length
  · rw [List.getElem?_append_left hlt] at hk
    rw [List.take_append_of_le_length (by omega)]
    exact h k m hk
  · have hk2 : k = rel.length := by
      have := (List.getElem?_eq_some_iff.1 hk).1
      simp at this
      omega
    subst hk2
    simp at hk
    subst hk
    rw [List.take_left]
    exact he

theorem doNftw_spec (fn : Fn) (hw : Names w) (limit : Nat) (rel : List (List Nat)) (s : S) (hp : s.path = pathOf root rel) (hlen : s.path.length ≤ 4096) :
    ∃ r s', doNftw w fn f limit s (hists w f root rel) = .ok (r, s') ∧
      (r, s'.log) = run fn s.log ((walk w f root limit rel).1.map (describe w f root)) (walk w f root limit rel).2 ∧ (r = .val 0 → s'.path = s.path) ∧
      ((∀ rel, Reached w f root rel → ¬ ownAncestor w f root rel) → Reached w f root rel → Fds f 0 (limit + 1) r s s') := by
  suffices H : ∃ r s', doNftw w fn f limit s (hists w f root rel) = .ok (r, s') ∧
      (r, s'.log) = run fn s.log ((walk w f root limit rel).1.map (describe w f root)) (walk w f root limit rel).2 ∧ (r = .val 0 → s'.path = s.path) ∧
      ((Reached w f root rel ∧ ∀ rel, Reached w f root rel → ¬ ownAncestor w f root rel) → Fds f 0 (limit + 1) r s s') by
    obtain ⟨r, s', h1, h2, h3, h4⟩ := H
    exact ⟨r, s', h1, h2, h3, fun h h' => h4 ⟨h', h⟩⟩
  induction limit generalizing rel s with
  | zero =>
    exact body_spec w f root fn hw (fun rel => Reached w f root rel ∧ ∀ rel, Reached w f root rel → ¬ ownAncestor w f root rel) (fun rel h => h.2 rel h.1)
      (fun rel n h he => ⟨reached_snoc w f root h.1 he, h.2⟩) none 0 (Or.inl ⟨rfl, rfl⟩) (fun _ => ([], none)) (fun _ _ => rfl) (fun _ h => by omega) rel s hp hlen
  | succ n ih =>
    exact body_spec w f root fn hw (fun rel => Reached w f root rel ∧ ∀ rel, Reached w f root rel → ¬ ownAncestor w f root rel) (fun rel h => h.2 rel h.1)
      (fun rel n h he => ⟨reached_snoc w f root h.1 he, h.2⟩) (some (doNftw w fn f n)) (n + 1) (Or.inr ⟨n, _, rfl, rfl, fun rel s h1 h2 => ih rel s h1 h2⟩)
      (fun rel => contents w f root rel (walk w f root n)) (fun h => by omega) (fun d h rel => by rw [show d = n by omega]) rel s hp hlen

end

/-! ### What the walk visits -/

section
variable (w : World) (f : Flags) (root : List Nat)

theorem inTurn_mem (g : List Nat → List (List (List Nat)) × Option Err) (names : List (List Nat)) (h : (inTurn g names).2 = none) (x : List (List Nat)) :
    x ∈ (inTurn g names).1 ↔ ∃ n ∈ names, x ∈ (g n).1 ∧ (g n).2 = none := by
  induction names with
  | nil => simp [inTurn]
  | cons n ns ih =>
    simp only [inTurn] at h ⊢
    cases hg : g n with
    | mk l e =>
      rw [hg] at h
      cases e with
      | some e => simp at h
      | none =>
        simp only [] at h ⊢
        rw [List.mem_append, ih h]
        constructor
        · rintro (h1 | ⟨m, hm, h1⟩)
          · exact ⟨n, by simp, by rw [hg]; exact h1, by rw [hg]⟩
          · exact ⟨m, by simp [hm], h1⟩
        · rintro ⟨m, hm, h1⟩
          rcases List.mem_cons.1 hm with rfl | hm
          · rw [hg] at h1; exact Or.inl h1.1
          · exact Or.inr ⟨m, hm, h1⟩

theorem inTurn_all (g : List Nat → List (List (List Nat)) × Option Err) (names : List (List Nat)) (h : (inTurn g names).2 = none) :
    ∀ n ∈ names, (g n).2 = none := by
  induction names with
  | nil => simp
  | cons n ns ih =>
    simp only [inTurn] at h
    cases hg : g n with
    | mk l e =>
      rw [hg] at h
      cases e with
      | some e => simp at h
      | none =>
        intro m hm
        rcases List.mem_cons.1 hm with rfl | hm
        · rw [hg]
        · exact ih h m hm

theorem visit_mem (rel : List (List Nat)) (ins : List (List (List Nat)) × Option Err) (h : (visit w f root rel ins).2 = none) :
    (otherDevice w f root rel ∧ (visit w f root rel ins).1 = []) ∨
    (¬ otherDevice w f root rel ∧ ownAncestor w f root rel ∧ (visit w f root rel ins).1 = if f.depth then [] else [rel]) ∨
    (¬ otherDevice w f root rel ∧ ¬ ownAncestor w f root rel ∧ ins.2 = none ∧ (∀ x, x ∈ (visit w f root rel ins).1 ↔ x = rel ∨ x ∈ ins.1)) := by
  unfold visit at h ⊢
  cases hwhat : whatAt w f root rel with
  | err e => rw [hwhat] at h; simp at h
  | noStat =>
    rw [hwhat] at h
    simp only [] at h ⊢
    by_cases ho : otherDevice w f root rel
    · rw [if_pos ho]; exact Or.inl ⟨ho, rfl⟩
    · rw [if_neg ho] at h ⊢
      by_cases hc : ownAncestor w f root rel
      · rw [if_pos hc]; exact Or.inr (Or.inl ⟨ho, hc, rfl⟩)
      · rw [if_neg hc] at h ⊢
        refine Or.inr (Or.inr ⟨ho, hc, ?_, ?_⟩) <;> obtain ⟨l, e⟩ := ins <;> cases hd : f.depth <;> cases e <;> simp [around, hd] at h ⊢
        intro x; exact or_comm
  | obj t d i =>
    rw [hwhat] at h
    simp only [] at h ⊢
    by_cases ho : otherDevice w f root rel
    · rw [if_pos ho]; exact Or.inl ⟨ho, rfl⟩
    · rw [if_neg ho] at h ⊢
      by_cases hc : ownAncestor w f root rel
      · rw [if_pos hc]; exact Or.inr (Or.inl ⟨ho, hc, rfl⟩)
      · rw [if_neg hc] at h ⊢
        refine Or.inr (Or.inr ⟨ho, hc, ?_, ?_⟩) <;> obtain ⟨l, e⟩ := ins <;> cases hd : f.depth <;> cases e <;> simp [around, hd] at h ⊢
        intro x; exact or_comm

/-- What is inside a directory. -/
theorem contents_mem (rel : List (List Nat)) (ho : ¬ otherDevice w f root rel) (hc : ¬ ownAncestor w f root rel)
    (below : List (List Nat) → List (List (List Nat)) × Option Err) (h : (contents w f root rel below).2 = none) (x : List (List Nat)) :
    x ∈ (contents w f root rel below).1 ↔ ∃ n, EntryOf w f root rel n ∧ x ∈ (below (rel ++ [n])).1 ∧ (below (rel ++ [n])).2 = none := by
  have hempty : (¬ ∃ n, EntryOf w f root rel n) → (contents w f root rel below).1 = [] →
      (x ∈ (contents w f root rel below).1 ↔ ∃ n, EntryOf w f root rel n ∧ x ∈ (below (rel ++ [n])).1 ∧ (below (rel ++ [n])).2 = none) := by
    intro h1 h2
    rw [h2]
    constructor
    · intro h; simp at h
    · rintro ⟨n, hn, _⟩; exact absurd ⟨n, hn⟩ h1
  by_cases hdir : ∃ d i, whatAt w f root rel = .obj .d d i
  · obtain ⟨d, i, hw⟩ := hdir
    cases hop : w.openErr (pathOf root rel) with
    | some e =>
      refine hempty ?_ ?_
      · rintro ⟨n, hn⟩
        have := hn.2.2.2.1
        rw [hop] at this
        cases this
      · unfold contents
        rw [hw, hop]
        cases e <;> rfl
    | none =>
      cases hen : w.entries (pathOf root rel) with
      | error e =>
        unfold contents at h
        rw [hw, hop, hen] at h
        simp at h
      | ok names =>
        unfold contents at h ⊢
        rw [hw, hop, hen] at h ⊢
        simp only [] at h ⊢
        rw [inTurn_mem _ _ h]
        have hall := inTurn_all _ _ h
        constructor
        · rintro ⟨n, hn, h1, h2⟩
          have hn' := List.mem_filter.1 hn
          have hlong : ¬ ((pathOf root rel).length + 1 + n.length > 4096) := by
            intro hl
            rw [if_pos hl] at h2
            cases h2
          rw [if_neg hlong] at h1 h2
          have h3 : n ≠ ['.'.toNat] ∧ n ≠ ['.'.toNat, '.'.toNat] := by simpa using hn'.2
          exact ⟨n, ⟨ho, hc, ⟨d, i, hw⟩, hop, names, hen, hn'.1, h3.1, h3.2⟩, h1, h2⟩
        · rintro ⟨n, ⟨_, _, _, _, names', hen', hn, hn1, hn2⟩, h1, h2⟩
          rw [hen] at hen'
          injection hen' with hen'
          subst hen'
          have hm : n ∈ names.filter (fun n => n ≠ ['.'.toNat] ∧ n ≠ ['.'.toNat, '.'.toNat]) := List.mem_filter.2 ⟨hn, by simpa using ⟨hn1, hn2⟩⟩
          have hn3 := hall n hm
          have hlong : ¬ ((pathOf root rel).length + 1 + n.length > 4096) := by
            intro hl
            rw [if_pos hl] at hn3
            cases hn3
          exact ⟨n, hm, by rw [if_neg hlong]; exact h1, by rw [if_neg hlong]; exact h2⟩
  · refine hempty ?_ ?_
    · rintro ⟨n, hn⟩
      exact hdir hn.2.2.1
    · unfold contents
      cases hw : whatAt w f root rel with
      | err e => rfl
      | noStat => rfl
      | obj t d i =>
        cases t <;> first | rfl | exact absurd ⟨d, i, hw⟩ hdir

theorem contents_err (rel : List (List Nat)) (below : List (List Nat) → List (List (List Nat)) × Option Err) (h : (contents w f root rel below).2 = none) (n : List Nat)
    (hn : EntryOf w f root rel n) : (below (rel ++ [n])).2 = none := by
  obtain ⟨_, _, ⟨d, i, hw⟩, hop, names, hen, hn0, hn1, hn2⟩ := hn
  unfold contents at h
  rw [hw, hop, hen] at h
  simp only [] at h
  have hn3 := inTurn_all _ _ h n (List.mem_filter.2 ⟨hn0, by simpa using ⟨hn1, hn2⟩⟩)
  split at hn3
  · cases hn3
  · exact hn3

/-- A walk without error visits exactly what is reached through directories that are entered. -/
theorem walk_mem (depth : Nat) (rel : List (List Nat)) (h : (walk w f root depth rel).2 = none) (x : List (List Nat)) :
    x ∈ (walk w f root depth rel).1 ↔ ∃ t, x = rel ++ t ∧ (∀ k n, t[k]? = some n → k < depth ∧ EntryOf w f root (rel ++ t.take k) n) ∧
      ¬ otherDevice w f root x ∧ ¬ (f.depth = true ∧ ownAncestor w f root x) := by
  induction depth generalizing rel x with
  | zero =>
    simp only [walk] at h ⊢
    have ht : (∃ t, x = rel ++ t ∧ (∀ k n, t[k]? = some n → k < 0 ∧ EntryOf w f root (rel ++ t.take k) n) ∧
      ¬ otherDevice w f root x ∧ ¬ (f.depth = true ∧ ownAncestor w f root x)) ↔ x = rel ∧ ¬ otherDevice w f root x ∧ ¬ (f.depth = true ∧ ownAncestor w f root x) := by
      constructor
      · rintro ⟨t, h1, h2, h3⟩
        cases t with
        | nil => simp at h1; exact ⟨h1, h3⟩
        | cons n t => exact absurd (h2 0 n rfl).1 (by omega)
      · rintro ⟨h1, h3⟩
        exact ⟨[], by simp [h1], by simp, h3⟩
    rw [ht]
    rcases visit_mem w f root rel _ h with ⟨h1, h2⟩ | ⟨h1, h2, h3⟩ | ⟨h1, h2, h3, h4⟩
    · rw [h2]
      constructor
      · intro h; simp at h
      · rintro ⟨rfl, h, _⟩; exact absurd h1 h
    · rw [h3]
      cases hd : f.depth
      · simp only [Bool.false_eq_true, if_false, List.mem_singleton, false_and, not_false_eq_true, and_true]
        constructor
        · intro h; subst h; exact ⟨rfl, h1⟩
        · exact fun h => h.1
      · constructor
        · intro h; simp at h
        · rintro ⟨rfl, _, h⟩; exact absurd ⟨rfl, h2⟩ h
    · rw [h4]
      constructor
      · rintro (h | h)
        · subst h; exact ⟨rfl, h1, fun h => h2 h.2⟩
        · simp at h
      · exact fun h => Or.inl h.1
  | succ depth ih =>
    simp only [walk] at h ⊢
    rcases visit_mem w f root rel _ h with ⟨h1, h2⟩ | ⟨h1, h2, h3⟩ | ⟨h1, h2, h3, h4⟩
    · rw [h2]
      constructor
      · intro h; simp at h
      · rintro ⟨t, hx, ht, ho, _⟩
        cases t with
        | nil => simp at hx; subst hx; exact absurd h1 ho
        | cons n t =>
          have := (ht 0 n rfl).2
          simp only [List.take_zero, List.append_nil] at this
          exact absurd h1 this.1
    · rw [h3]
      have hno : ∀ n t, ¬ (∀ k m, (n :: t)[k]? = some m → k < depth + 1 ∧ EntryOf w f root (rel ++ (n :: t).take k) m) := by
        intro n t ht
        have := (ht 0 n rfl).2
        simp only [List.take_zero, List.append_nil] at this
        exact absurd h2 this.2.1
      constructor
      · intro hx
        cases hd : f.depth
        · rw [hd] at hx
          simp at hx
          subst hx
          exact ⟨[], by simp, by simp, h1, by simp⟩
        · rw [hd] at hx; simp at hx
      · rintro ⟨t, hx, ht, ho, hdp⟩
        cases t with
        | nil =>
          simp at hx
          subst hx
          cases hd : f.depth
          · simp
          · exact absurd ⟨hd, h2⟩ hdp
        | cons n t => exact absurd ht (hno n t)
    · rw [h4, contents_mem w f root rel h1 h2 _ h3]
      constructor
      · rintro (hx | ⟨n, hn, hx, hx2⟩)
        · subst hx; exact ⟨[], by simp, by simp, h1, fun h => h2 h.2⟩
        · obtain ⟨t, ht1, ht2, ht3⟩ := (ih _ hx2 x).1 hx
          refine ⟨n :: t, by rw [ht1]; simp, ?_, ht3⟩
          intro k m hk
          cases k with
          | zero =>
            simp at hk
            subst hk
            exact ⟨by omega, by simpa using hn⟩
          | succ k =>
            have := ht2 k m (by simpa using hk)
            refine ⟨by omega, ?_⟩
            simpa using this.2
      · rintro ⟨t, hx, ht, ho, hdp⟩
        cases t with
        | nil => left; simpa using hx
        | cons n t =>
          right
          have hn := (ht 0 n rfl).2
          simp only [List.take_zero, List.append_nil] at hn
          have hx2 : (walk w f root depth (rel ++ [n])).2 = none := by
            have hmem := contents_err w f root rel (walk w f root depth) h3 n hn
            exact hmem
          refine ⟨n, hn, (ih _ hx2 x).2 ⟨t, by rw [hx]; simp, ?_, ho, hdp⟩, hx2⟩
          intro k m hk
          have := ht (k + 1) m (by simpa using hk)
          refine ⟨by omega, ?_⟩
          simpa using this.2

theorem inTurn_sub (g : List Nat → List (List (List Nat)) × Option Err) (names : List (List Nat)) (x : List (List Nat)) (h : x ∈ (inTurn g names).1) :
    ∃ n ∈ names, x ∈ (g n).1 := by
  induction names with
  | nil => simp [inTurn] at h
  | cons n ns ih =>
    simp only [inTurn] at h
    cases hg : g n with
    | mk l e =>
      rw [hg] at h
      cases e with
      | some e => exact ⟨n, by simp, by rw [hg]; exact h⟩
      | none =>
        rcases List.mem_append.1 h with h | h
        · exact ⟨n, by simp, by rw [hg]; exact h⟩
        · obtain ⟨m, hm, h⟩ := ih h
          exact ⟨m, by simp [hm], h⟩

theorem inTurn_pairwise (R : List (List Nat) → List (List Nat) → Prop) (g : List Nat → List (List (List Nat)) × Option Err) (names : List (List Nat))
    (h1 : ∀ n ∈ names, (g n).1.Pairwise R) (h2 : ∀ n m, n ≠ m → ∀ x ∈ (g n).1, ∀ y ∈ (g m).1, R x y) (hn : names.Nodup) : (inTurn g names).1.Pairwise R := by
  induction names with
  | nil => simp [inTurn]
  | cons n ns ih =>
    rw [List.nodup_cons] at hn
    simp only [inTurn]
    have hp := h1 n (by simp)
    cases hg : g n with
    | mk l e =>
      rw [hg] at hp
      cases e with
      | some e => exact hp
      | none =>
        simp only []
        rw [List.pairwise_append]
        refine ⟨hp, ih (fun m hm => h1 m (by simp [hm])) hn.2, ?_⟩
        intro x hx y hy
        obtain ⟨m, hm, hy⟩ := inTurn_sub g ns y hy
        exact h2 n m (fun h => hn.1 (h ▸ hm)) x (by rw [hg]; exact hx) y hy

/-- What a visit consists of, error or not. -/
theorem visit_sub (rel : List (List Nat)) (ins : List (List (List Nat)) × Option Err) :
    (visit w f root rel ins).1 = [] ∨ (visit w f root rel ins).1 = [rel] ∨ (f.depth = false ∧ (visit w f root rel ins).1 = rel :: ins.1) ∨
    (f.depth = true ∧ ((visit w f root rel ins).1 = ins.1 ∨ (visit w f root rel ins).1 = ins.1 ++ [rel])) := by
  have key : (around f rel ins).1 = [] ∨ (around f rel ins).1 = [rel] ∨ (f.depth = false ∧ (around f rel ins).1 = rel :: ins.1) ∨
      (f.depth = true ∧ ((around f rel ins).1 = ins.1 ∨ (around f rel ins).1 = ins.1 ++ [rel])) := by
    obtain ⟨l, e⟩ := ins
    cases hd : f.depth <;> cases e <;> simp [around, hd]
  unfold visit
  split
  · exact Or.inl rfl
  · split
    · exact Or.inl rfl
    · split
      · cases f.depth
        · exact Or.inr (Or.inl rfl)
        · exact Or.inl rfl
      · exact key

theorem contents_sub (rel : List (List Nat)) (below : List (List Nat) → List (List (List Nat)) × Option Err) (x : List (List Nat))
    (h : x ∈ (contents w f root rel below).1) : ∃ n, x ∈ (below (rel ++ [n])).1 := by
  unfold contents at h
  split at h
  · split at h
    · simp at h
    · simp at h
    · simp at h
    · obtain ⟨n, _, h⟩ := inTurn_sub _ _ _ h
      split at h
      · simp at h
      · exact ⟨n, h⟩
  · simp at h

theorem walk_prefix (depth : Nat) (rel x : List (List Nat)) (h : x ∈ (walk w f root depth rel).1) : rel <+: x := by
  induction depth generalizing rel with
  | zero =>
    simp only [walk] at h
    rcases visit_sub w f root rel ([], none) with h1 | h1 | ⟨_, h1⟩ | ⟨_, h1 | h1⟩ <;> rw [h1] at h <;> simp at h <;> subst h <;> exact List.prefix_refl _
  | succ depth ih =>
    simp only [walk] at h
    have hin : x ∈ (contents w f root rel (walk w f root depth)).1 → rel <+: x := by
      intro hx
      obtain ⟨n, hx⟩ := contents_sub w f root rel _ x hx
      exact (List.prefix_append rel [n]).trans (ih _ hx)
    rcases visit_sub w f root rel (contents w f root rel (walk w f root depth)) with h1 | h1 | ⟨_, h1⟩ | ⟨_, h1 | h1⟩ <;> rw [h1] at h
    · simp at h
    · simp at h; subst h; exact List.prefix_refl _
    · rcases List.mem_cons.1 h with h | h
      · subst h; exact List.prefix_refl _
      · exact hin h
    · exact hin h
    · rcases List.mem_append.1 h with h | h
      · exact hin h
      · simp at h; subst h; exact List.prefix_refl _

theorem sibling {rel x y : List (List Nat)} {n m : List Nat} (h : n ≠ m) (hx : rel ++ [n] <+: x) (hy : rel ++ [m] <+: y) : ¬ x <+: y := by
  intro hxy
  have h1 := hx.trans hxy
  obtain ⟨a, ha⟩ := h1
  obtain ⟨b, hb⟩ := hy
  rw [← hb] at ha
  simp at ha
  exact h ha.1

theorem contents_pairwise (R : List (List Nat) → List (List Nat) → Prop) (hR : ∀ a b, ¬ a <+: b → ¬ b <+: a → R a b)
    (hnd : ∀ p names, w.entries p = .ok names → names.Nodup) (depth : Nat) (rel : List (List Nat)) (ih : ∀ rel, (walk w f root depth rel).1.Pairwise R) :
    (contents w f root rel (walk w f root depth)).1.Pairwise R := by
  unfold contents
  split
  · split
    · simp
    · simp
    · simp
    · rename_i hen
      refine inTurn_pairwise _ _ _ ?_ ?_ ((hnd _ _ hen).filter _)
      · intro n _
        split
        · simp
        · exact ih _
      · intro n m hnm x hx y hy
        split at hx
        · simp at hx
        · split at hy
          · simp at hy
          · have h1 := walk_prefix w f root _ _ _ hx
            have h2 := walk_prefix w f root _ _ _ hy
            exact hR _ _ (sibling hnm h1 h2) (sibling (Ne.symm hnm) h2 h1)
  · simp

/-- The order of a walk: nothing is visited twice, and a directory comes before what is in it, with FTW_DEPTH after. -/
theorem walk_order (hnd : ∀ p names, w.entries p = .ok names → names.Nodup) (depth : Nat) (rel : List (List Nat)) :
    (walk w f root depth rel).1.Pairwise (fun a b => if f.depth then ¬ a <+: b else ¬ b <+: a) := by
  induction depth generalizing rel with
  | zero =>
    simp only [walk]
    rcases visit_sub w f root rel ([], none) with h1 | h1 | ⟨_, h1⟩ | ⟨_, h1 | h1⟩ <;> rw [h1] <;> simp
  | succ depth ih =>
    simp only [walk]
    have hin := contents_pairwise w f root (fun a b => if f.depth then ¬ a <+: b else ¬ b <+: a) (by
      intro a b h1 h2
      split
      · exact h1
      · exact h2) hnd depth rel ih
    have hlong : ∀ x ∈ (contents w f root rel (walk w f root depth)).1, ¬ x <+: rel := by
      intro x hx hpre
      obtain ⟨n, hx⟩ := contents_sub w f root rel _ x hx
      have h1 := (walk_prefix w f root _ _ _ hx).length_le
      have h2 := hpre.length_le
      rw [List.length_append, List.length_singleton] at h1
      omega
    rcases visit_sub w f root rel (contents w f root rel (walk w f root depth)) with h1 | h1 | ⟨hd, h1⟩ | ⟨hd, h1 | h1⟩ <;> rw [h1]
    · simp
    · simp
    · rw [List.pairwise_cons]
      refine ⟨?_, hin⟩
      intro x hx
      rw [hd]
      simpa using hlong x hx
    · exact hin
    · rw [List.pairwise_append]
      refine ⟨hin, by simp, ?_⟩
      intro x hx y hy
      rw [List.mem_singleton] at hy
      subst hy
      rw [hd]
      simpa using hlong x hx

end

/-! ## C78 -/

/-- nftw calls the program's function for what a walk visits, in its order, until it returns something other than 0, and returns that; or it
returns -1 with the error that ended the walk; or 0. It never writes outside its path buffer. Partial: directories are entered only `limit`
levels deep. -/
theorem nftw_partial (w : World) (hw : Names w) (fn : Fn) (f : Flags) (path : List Nat) (limit : Int) (hl : 0 < limit) (hp : path.length ≤ 4096) :
    ∃ r s, nftw w fn f path limit = .ok (r, s) ∧
      (r, s.log) = run fn [] ((walk w f path limit.toNat []).1.map (describe w f path)) (walk w f path limit.toNat []).2 := by
  obtain ⟨r, s, h1, h2, _⟩ := doNftw_spec w f path fn hw limit.toNat [] ⟨path, [], 0, 0⟩ rfl hp
  refine ⟨r, s, ?_, h2⟩
  unfold nftw
  rw [if_neg (by omega), if_neg (by omega)]
  exact h1

theorem inTurn_congr (g g' : List Nat → List (List (List Nat)) × Option Err) (names : List (List Nat)) (h : ∀ n ∈ names, g n = g' n) :
    inTurn g names = inTurn g' names := by
  induction names with
  | nil => rfl
  | cons n ns ih =>
    simp only [inTurn]
    rw [h n (by simp), ih (fun m hm => h m (by simp [hm]))]

/-- If no directory is that deep, the limit does not matter: the walk is the same for every greater one. -/
theorem walk_stable (w : World) (f : Flags) (root : List Nat) (depth more : Nat) (rel : List (List Nat))
    (h : ∀ t, t.length = depth → (∀ k n, t[k]? = some n → EntryOf w f root (rel ++ t.take k) n) → ¬ ∃ d i, whatAt w f root (rel ++ t) = .obj .d d i) :
    walk w f root (depth + more) rel = walk w f root depth rel := by
  induction depth generalizing rel with
  | zero =>
    have h0 := h [] rfl (by simp)
    rw [List.append_nil] at h0
    cases more with
    | zero => rfl
    | succ m =>
      rw [Nat.zero_add]
      simp only [walk]
      have : contents w f root rel (walk w f root m) = ([], none) := by
        unfold contents
        cases hw : whatAt w f root rel with
        | err e => rfl
        | noStat => rfl
        | obj t d i => cases t <;> first | rfl | exact absurd ⟨d, i, hw⟩ h0
      rw [this]
  | succ depth ih =>
    rw [show depth + 1 + more = (depth + more) + 1 by omega]
    simp only [walk]
    by_cases ho : otherDevice w f root rel
    · unfold visit
      split
      · rfl
      · rw [if_pos ho, if_pos ho]
    · by_cases hc : ownAncestor w f root rel
      · unfold visit
        split
        · rfl
        · rw [if_neg ho, if_neg ho, if_pos hc, if_pos hc]
      · congr 1
        unfold contents
        split
        · rename_i d i hw
          split
          · rfl
          · rfl
          · rfl
          · rename_i names hop hen
            apply inTurn_congr
            intro n hn
            have hn' := List.mem_filter.1 hn
            have h3 : n ≠ ['.'.toNat] ∧ n ≠ ['.'.toNat, '.'.toNat] := by simpa using hn'.2
            split
            · rfl
            · apply ih
              intro t ht hent
              have := h (n :: t) (by simp [ht]) (by
                intro k m hk
                cases k with
                | zero =>
                  simp at hk
                  subst hk
                  simp only [List.take_zero, List.append_nil]
                  exact ⟨ho, hc, ⟨d, i, hw⟩, hop, names, hen, hn'.1, h3.1, h3.2⟩
                | succ k =>
                  have := hent k m (by simpa using hk)
                  simpa using this)
              simpa using this
        · rfl

/-- What nftw visits when nothing goes wrong and the function always returns 0: each object that is reached through directories that can be
read, without crossing devices with FTW_MOUNT, once; a directory before what is in it, or after with FTW_DEPTH. -/
theorem nftw_visits (w : World) (hw : Names w) (hnd : ∀ p names, w.entries p = .ok names → names.Nodup) (fn : Fn) (hfn : ∀ l c, fn l c = 0) (f : Flags)
    (path : List Nat) (limit : Int) (hl : 0 < limit) (hp : path.length ≤ 4096) (s : S) (hok : nftw w fn f path limit = .ok (.val 0, s)) :
    ∃ order : List (List (List Nat)), s.log = order.map (describe w f path) ∧
      order.Pairwise (fun a b => if f.depth then ¬ a <+: b else ¬ b <+: a) ∧
      ∀ rel, rel ∈ order ↔ (∀ k n, rel[k]? = some n → k < limit.toNat ∧ EntryOf w f path (rel.take k) n) ∧
        ¬ otherDevice w f path rel ∧ ¬ (f.depth = true ∧ ownAncestor w f path rel) := by
  obtain ⟨r, s', h1, h2⟩ := nftw_partial w hw fn f path limit hl hp
  rw [hok] at h1
  injection h1 with h1
  injection h1 with hr hs
  subst hs hr
  have hrun : ∀ (cs : List Call) (log : List Call) e, run fn log cs e = ((match e with | none => Ret.val 0 | some e => .fail e), log ++ cs) := by
    intro cs
    induction cs with
    | nil => intro log e; cases e <;> simp [run]
    | cons c cs ih =>
      intro log e
      simp only [run]
      rw [if_neg (by rw [hfn]; simp), ih]
      simp
  rw [hrun] at h2
  have herr : (walk w f path limit.toNat []).2 = none := by
    cases he : (walk w f path limit.toNat []).2 with
    | none => rfl
    | some e =>
      rw [he] at h2
      have := congrArg Prod.fst h2
      cases this
  refine ⟨(walk w f path limit.toNat []).1, ?_, walk_order w f path hnd _ _, ?_⟩
  · have := congrArg Prod.snd h2
    simpa using this
  · intro rel
    rw [walk_mem w f path _ _ herr]
    constructor
    · rintro ⟨t, ht, h3, h4⟩
      simp only [List.nil_append] at ht h3
      subst ht
      exact ⟨h3, h4⟩
    · rintro ⟨h3, h4⟩
      exact ⟨rel, rfl, by simpa using h3, h4⟩

/-- Descriptors: if no directory is below itself, nftw uses at most one more than the limit at once, and closes all of them, unless the function
ends the walk. -/
theorem descriptors_partial (w : World) (hw : Names w) (fn : Fn) (f : Flags) (path : List Nat) (limit : Int) (hl : 0 < limit) (hp : path.length ≤ 4096)
    (hc : ∀ rel, Reached w f path rel → ¬ ownAncestor w f path rel) (r : Ret) (s : S) (h : nftw w fn f path limit = .ok (r, s)) :
    s.peak ≤ limit.toNat + 1 ∧ ((f.depth = true ∨ (∀ v, r = .val v → v = 0)) → s.fds = 0) := by
  obtain ⟨r', s', h1, _, _, h2⟩ := doNftw_spec w f path fn hw limit.toNat [] ⟨path, [], 0, 0⟩ rfl hp
  unfold nftw at h
  rw [if_neg (by omega), if_neg (by omega)] at h
  have he : (.ok (r', s') : Res (Ret × S)) = .ok (r, s) := h1.symm.trans h
  injection he with he
  injection he with he1 he2
  subst he1 he2
  obtain ⟨g1, g2⟩ := h2 hc (fun k n h => by simp at h)
  refine ⟨by simpa using g1, ?_⟩
  intro hor
  rcases g2 with g2 | ⟨g2, g3, v, hv, hv'⟩
  · exact g2
  · rcases hor with h | h
    · rw [g2] at h; cases h
    · exact absurd (h v hv') hv

/-- A limit that is not positive, and paths that are too long. -/
theorem nftw_trivial (w : World) (fn : Fn) (f : Flags) (path : List Nat) (limit : Int) :
    (limit ≤ 0 → nftw w fn f path limit = .ok (.val 0, ⟨path, [], 0, 0⟩)) ∧
    (0 < limit → 4096 < path.length → nftw w fn f path limit = .ok (.fail .nameTooLong, ⟨path, [], 0, 0⟩)) := by
  unfold nftw
  constructor
  · intro h; rw [if_pos h]
  · intro h1 h2; rw [if_neg (by omega), if_pos h2]

/-! ### Examples and where the code differs -/

/-- "r" with "r/a" (a directory with the file "r/a/x") and the file "r/b"; "r/l" is a link to "r", "r/n" a link to nothing. -/
def exWorld : World where
  stat p :=
    if p = [114] ∨ p = [114, 47, 108] then .ok ⟨.dir, 1, 1⟩
    else if p = [114, 47, 97] then .ok ⟨.dir, 1, 2⟩
    else if p = [114, 47, 98] then .ok ⟨.other, 1, 3⟩
    else if p = [114, 47, 97, 47, 120] then .ok ⟨.other, 1, 4⟩
    else .error .noent
  lstat p :=
    if p = [114] then .ok ⟨.dir, 1, 1⟩
    else if p = [114, 47, 97] then .ok ⟨.dir, 1, 2⟩
    else if p = [114, 47, 98] then .ok ⟨.other, 1, 3⟩
    else if p = [114, 47, 97, 47, 120] then .ok ⟨.other, 1, 4⟩
    else if p = [114, 47, 108] then .ok ⟨.link, 1, 5⟩
    else if p = [114, 47, 110] then .ok ⟨.link, 1, 6⟩
    else .error .noent
  openErr _ := none
  entries p :=
    if p = [114] then .ok [[46], [46, 46], [97], [98], [108], [110]]
    else if p = [114, 47, 97] then .ok [[46], [46, 46], [120]]
    else .ok []

example : Names exWorld := by
  intro p names h n hn
  unfold exWorld at h
  simp only at h
  split at h
  · injection h with h
    subst h
    revert n
    decide
  · split at h
    · injection h with h
      subst h
      revert n
      decide
    · injection h with h
      subst h
      simp at hn

/-- A call without device and inode. -/
structure Short where
  path : List Nat
  type : Ty
  level : Nat
  base : Nat
  deriving DecidableEq

/-- Result, calls, descriptors left open, maximum. -/
structure Shown where
  ret : Ret
  calls : List Short
  fds : Nat
  peak : Nat
  deriving DecidableEq

def shown (r : Res (Ret × S)) : Res Shown :=
  r.bind fun r => .ok ⟨r.1, r.2.log.map (fun c => ⟨c.path, c.type, c.level, c.base⟩), r.2.fds, r.2.peak⟩

example : shown (nftw exWorld (fun _ _ => 0) ⟨true, false, false⟩ [114] 5) = .ok ⟨.val 0,
    [⟨[114], .d, 0, 0⟩, ⟨[114, 47, 97], .d, 1, 2⟩, ⟨[114, 47, 97, 47, 120], .f, 2, 4⟩, ⟨[114, 47, 98], .f, 1, 2⟩, ⟨[114, 47, 108], .sl, 1, 2⟩,
     ⟨[114, 47, 110], .sl, 1, 2⟩], 0, 2⟩ := by decide +kernel

example : shown (nftw exWorld (fun _ c => if c.path = [114, 47, 98] then 7 else 0) ⟨true, false, true⟩ [114] 5) = .ok ⟨.val 7,
    [⟨[114, 47, 97, 47, 120], .f, 2, 4⟩, ⟨[114, 47, 97], .dp, 1, 2⟩, ⟨[114, 47, 98], .f, 1, 2⟩], 0, 2⟩ := by decide +kernel

/-- With the links followed a directory below itself is met (and, with FTW_DEPTH, not reported): its descriptor stays open. -/
theorem cycle_violated : shown (nftw exWorld (fun _ _ => 0) ⟨false, false, true⟩ [114] 5) = .ok ⟨.val 0,
    [⟨[114, 47, 97, 47, 120], .f, 2, 4⟩, ⟨[114, 47, 97], .dp, 1, 2⟩, ⟨[114, 47, 98], .f, 1, 2⟩, ⟨[114, 47, 110], .sln, 1, 2⟩, ⟨[114], .dp, 0, 0⟩], 1, 2⟩ := by
  decide +kernel

/-- With one descriptor, "r/a" is not entered, and two are used. -/
theorem limit_violated : shown (nftw exWorld (fun _ _ => 0) ⟨true, false, false⟩ [114] 1) = .ok ⟨.val 0,
    [⟨[114], .d, 0, 0⟩, ⟨[114, 47, 97], .d, 1, 2⟩, ⟨[114, 47, 98], .f, 1, 2⟩, ⟨[114, 47, 108], .sl, 1, 2⟩, ⟨[114, 47, 110], .sl, 1, 2⟩], 0, 2⟩ := by decide +kernel

/-- A function that ends the walk at a directory leaves its descriptor open. -/
theorem stop_violated : shown (nftw exWorld (fun _ _ => 1) ⟨true, false, false⟩ [114] 5) = .ok ⟨.val 1, [⟨[114], .d, 0, 0⟩], 1, 1⟩ := by decide +kernel

/-- A directory "d" with a file "d/f": nothing is below itself, and nothing is deeper than one level. -/
def flat : World where
  stat p := if p = [100] then .ok ⟨.dir, 1, 1⟩ else if p = [100, 47, 102] then .ok ⟨.other, 1, 2⟩ else .error .noent
  lstat p := if p = [100] then .ok ⟨.dir, 1, 1⟩ else if p = [100, 47, 102] then .ok ⟨.other, 1, 2⟩ else .error .noent
  openErr _ := none
  entries p := if p = [100] then .ok [[46], [102]] else .ok []

theorem flat_reached (rel : List (List Nat)) (h : Reached flat ⟨true, false, false⟩ [100] rel) : rel = [] ∨ rel = [[102]] := by
  match rel with
  | [] => exact Or.inl rfl
  | [a] =>
    right
    obtain ⟨_, _, _, _, names, h1, h2, h3, _⟩ := h 0 a rfl
    have : names = [[46], [102]] := by
      have e : flat.entries (pathOf [100] (List.take 0 [a])) = .ok [[46], [102]] := rfl
      rw [e] at h1
      injection h1 with h1
      exact h1.symm
    subst this
    simp at h2
    rcases h2 with h2 | h2
    · subst h2; exact absurd rfl h3
    · rw [h2]
  | a :: b :: rel =>
    exfalso
    obtain ⟨_, _, _, _, names, h1, h2, h3, _⟩ := h 0 a rfl
    have : names = [[46], [102]] := by
      have e : flat.entries (pathOf [100] (List.take 0 (a :: b :: rel))) = .ok [[46], [102]] := rfl
      rw [e] at h1
      injection h1 with h1
      exact h1.symm
    subst this
    simp at h2
    rcases h2 with h2 | h2
    · subst h2; exact h3 rfl
    · subst h2
      obtain ⟨_, _, ⟨d, i, hd⟩, _⟩ := h 1 b rfl
      have : whatAt flat ⟨true, false, false⟩ [100] [[102]] = .obj .f 1 2 := rfl
      simp only [List.take_succ_cons, List.take_zero] at hd
      rw [this] at hd
      injection hd with hd
      cases hd

example : ∀ rel, Reached flat ⟨true, false, false⟩ [100] rel → ¬ ownAncestor flat ⟨true, false, false⟩ [100] rel := by
  intro rel h
  rcases flat_reached rel h with h | h
  · subst h; rintro ⟨k, hk, _⟩; simp at hk
  · subst h
    rintro ⟨k, hk, h⟩
    have : k = 0 := by simpa using hk
    subst this
    have e1 : devIno flat ⟨true, false, false⟩ [100] ([[102]].take 0) = (1, 1) := rfl
    have e2 : devIno flat ⟨true, false, false⟩ [100] [[102]] = (1, 2) := rfl
    rw [e1, e2] at h
    cases h

end Mlibc.Ftw
