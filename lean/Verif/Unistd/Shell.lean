import Verif.Base

/-
C92: `popen`, `pclose`, `system`, `dup2`: what the command's process looks like and what the caller keeps.

Code: options/posix/generic/posix_stdio.cpp L42-158, options/ansi/generic/stdlib.cpp L250-309, options/posix/generic/unistd.cpp L1246-1264,
sysdeps/linux/generic/sysdeps.cpp L587-593, L640-656, L725-730.
The kernel is a parameter: which numbers `pipe` picks, whether and how `pipe`, `fork`, `execve` and `waitpid` fail.
Not modelled: the buffer of the stream and its allocation (C20 and others), the TCB's cached thread id (C67), other threads.
-/
namespace Mlibc.Shell

/-- What a descriptor refers to: an end of a pipe, or something else. -/
inductive Obj where
  | other (n : Nat)
  | rd (pipe : Nat)
  | wr (pipe : Nat)
  deriving DecidableEq, Repr

/-- The objects of a process, and FD_CLOEXEC. -/
abbrev Tab := Nat → Option (Obj × Bool)

/-- What the functions change in a process. `int`, `quit`: the dispositions of SIGINT and SIGQUIT, 0 for SIG_DFL, 1 for SIG_IGN,
others are handlers; `mask`: the blocked signals. -/
structure Proc where
  fds : Tab
  int : Nat
  quit : Nat
  mask : Nat → Bool

/-- A process image as `execve` makes it. -/
structure Image where
  path : List Nat
  argv : List (List Nat)
  files : Nat → Option Obj
  int : Nat
  quit : Nat
  mask : Nat → Bool

/-- What becomes of the child. -/
inductive Child where
  | exec (i : Image)
  | exited (status : Nat)

/-! ### The kernel -/

def set (t : Tab) (fd : Nat) (v : Option (Obj × Bool)) : Tab := fun f => if f = fd then v else t f

/-- `close`: the error for a closed number is not looked at by the callers. sysdeps.cpp -/
def close (t : Tab) (fd : Nat) : Tab := set t fd none

/-- The `Dup2` of a port, with flags 0. `same`: whether it accepts equal numbers. Linux makes it `dup3`, which refuses them with
EINVAL = 22; EBADF = 9. sysdeps/linux/generic/sysdeps.cpp L725-730 -/
def sysDup2 (same : Bool) (t : Tab) (old new : Nat) : Except Nat Tab :=
  match t old with
  | none => .error 9
  | some (o, _) => if old = new then (if same then .ok t else .error 22) else .ok (set t new (some (o, false)))

/-- A handler cannot survive `execve`, SIG_DFL and SIG_IGN do. -/
def afterExec (d : Nat) : Nat := if d = 1 then 1 else 0

/-- `execve`: FD_CLOEXEC descriptors are closed. -/
def execve (p : Proc) (path : List Nat) (argv : List (List Nat)) : Image :=
  ⟨path, argv, fun f => match p.fds f with | some (o, false) => some o | _ => none, afterExec p.int, afterExec p.quit, p.mask⟩

def txt (s : String) : List Nat := s.toList.map Char.toNat

/-! ### The functions -/

/-- `dup2`. unistd.cpp L1246-1252 -/
def dup2 (same : Bool) (t : Tab) (fd newfd : Nat) : Tab × Int × Nat :=
  match sysDup2 same t fd newfd with
  | .error e => (t, -1, e)
  | .ok t' => (t', newfd, 0)

/-- The first part of `popen` and `system`: SIGINT and SIGQUIT ignored, SIGCHLD = 17 blocked. posix_stdio.cpp L94-106, stdlib.cpp L264-272 -/
def shield (p : Proc) : Proc :=
  { p with int := 1, quit := 1, mask := fun s => if s = 17 then true else p.mask s }

/-- Dispositions and mask back to those of `old`. posix_stdio.cpp L120-122, L152-154, stdlib.cpp L281-283, L304-306 -/
def restore (old p : Proc) : Proc := { p with int := old.int, quit := old.quit, mask := old.mask }

/-- The child of `popen`. L115-137 -/
def popenChild (same execOk : Bool) (old p : Proc) (mine theirs std : Nat) (command : List Nat) : Res Child :=
  let p := restore old p
  let t := close p.fds mine
  match sysDup2 same t theirs std with
  | .error _ => .panic
  | .ok t =>
    let t := close t theirs
    if execOk then .ok (.exec (execve { p with fds := t } (txt "/bin/sh") [txt "sh", txt "-c", command])) else .ok (.exited 127)

/-- The `popen_file`: its descriptor and the process. L18-33 -/
structure Stream where
  fd : Nat
  pid : Nat
  deriving DecidableEq, Repr

/-- What `popen` leaves: the caller, the stream or errno, and the child. -/
structure Out where
  proc : Proc
  ret : Except Nat Stream
  child : Option (Res Child)

/-- `popen`. `strstr` with a string of one character is membership. `pipe`, `fork`: errno, or the numbers of the ends and of the child; `id`
names the pipe. L60-157 -/
def popen (same execOk : Bool) (id : Nat) (pipe : Except Nat (Nat × Nat)) (fork : Except Nat Nat) (command : List Nat) (type : Option (List Nat))
    (p : Proc) : Out :=
  match type with
  | none => ⟨p, .error 22, none⟩
  | some t =>
    if t.contains 119 ∨ t.contains 114 then
      let isWrite := t.contains 119
      let cloexec := t.contains 101
      match pipe with
      | .error e => ⟨p, .error e, none⟩
      | .ok (r, w) =>
        let p1 := shield { p with fds := set (set p.fds r (some (.rd id, false))) w (some (.wr id, false)) }
        let mine := if isWrite then w else r
        let theirs := if isWrite then r else w
        match fork with
        | .error e => ⟨restore p { p1 with fds := close (close p1.fds r) w }, .error e, none⟩
        | .ok pid =>
          let t1 := close p1.fds theirs
          let t2 := if cloexec then (match t1 mine with | some (o, _) => set t1 mine (some (o, true)) | none => t1) else t1
          ⟨restore p { p1 with fds := t2 }, .ok ⟨mine, pid⟩,
            some (popenChild same execOk p p1 mine theirs (if isWrite then 0 else 1) command)⟩
    else ⟨p, .error 22, none⟩

/-- `pclose`: the table, and the status, or ECHILD = 10. `wait` is the result of `waitpid` for the process of the stream. L42-57 -/
def pclose (s : Stream) (wait : Nat → Except Nat Nat) (p : Proc) : Proc × Except Nat Nat :=
  match wait s.pid with
  | .error _ => ({ p with fds := close p.fds s.fd }, .error 10)
  | .ok status => ({ p with fds := close p.fds s.fd }, .ok status)

/-- The loop of `system`. `w`: error and status of each `waitpid`; the result is the status and errno. L295-301 -/
def waitLoop (w : Nat → Int × Int) : (fuel i : Nat) → (errno : Nat) → Option (Int × Nat)
  | 0, _, _ => none
  | fuel + 1, i, errno =>
    if (w i).1 < 0 then
      if (w i).1 = 4 then waitLoop w fuel (i + 1) errno else waitLoop w fuel (i + 1) (w i).1.toNat
    else some (if (w i).1 = 0 then (w i).2 else -1, errno)

/-- `system`: the caller, the result and errno, and the child. What `waitpid` gives may depend on the state of the caller while it waits.
stdlib.cpp L250-309 -/
def system (execOk : Bool) (fork : Except Nat Nat) (w : Proc → Nat → Int × Int) (fuel errno : Nat) (command : Option (List Nat)) (p : Proc) :
    Option (Proc × Int × Nat × Option Child) :=
  match command with
  | none => some (p, 1, errno, none)
  | some c =>
    let p1 := shield p
    match fork with
    | .error e => some (restore p p1, -1, e, none)
    | .ok _ =>
      let child := if execOk then Child.exec (execve (restore p p1) (txt "/bin/sh") [txt "sh", txt "-c", txt "--", c]) else .exited 127
      match waitLoop (w p1) fuel 0 errno with
      | none => none
      | some (status, errno) => some (restore p p1, status, errno, some child)

/-! ### One call -/

/-- The disposition of a signal after the start of a program, in the words of the standard: ignored stays ignored, everything else is the default. -/
def Inherits (caller program : Nat) : Prop := program = if caller = 1 then 1 else 0

theorem inherits_afterExec (d : Nat) : Inherits d (afterExec d) := rfl

/-- The program `sh -c command` was started with the descriptors `files`, and with the caller's signals. -/
def Runs (p : Proc) (path : List Nat) (argv : List (List Nat)) (files : Nat → Option Obj) (im : Image) : Prop :=
  im.path = path ∧ im.argv = argv ∧ im.files = files ∧ Inherits p.int im.int ∧ Inherits p.quit im.quit ∧ im.mask = p.mask

/-- The descriptors a program started by `p` inherits. -/
def inherited (t : Tab) (f : Nat) : Option Obj := match t f with | some (o, false) => some o | _ => none

/-- **popen, missing: callers whose standard input (for "w") or output (for "r") is closed, see `popen_closed_violated` and
`popen_closed_panics`; that descriptors of earlier streams are closed in the child, see `popen_earlier_violated`.**
The caller has one end of the pipe, on a number that was free, with FD_CLOEXEC if the mode has an `e`; all else in the caller is as before.
The command has the other end as its standard input or output, everything else as inherited from the caller, the pipe on no other number,
and the signal dispositions and mask the caller had. -/
theorem popen_partial (same : Bool) (id r w pid : Nat) (command t : List Nat) (p : Proc) (hr : p.fds r = none) (hw : p.fds w = none) (hne : r ≠ w)
    (ht : 119 ∈ t ∨ 114 ∈ t) (hstd : if 119 ∈ t then r ≠ 0 else w ≠ 1) :
    let o := popen same true id (.ok (r, w)) (.ok pid) command (some t) p
    let mine := if 119 ∈ t then w else r
    o.ret = .ok ⟨mine, pid⟩ ∧
    o.proc = { p with fds := fun f => if f = mine then some (if 119 ∈ t then .wr id else .rd id, decide (101 ∈ t)) else p.fds f } ∧
    ∃ im, o.child = some (.ok (.exec im)) ∧
      Runs p ("/bin/sh".toList.map Char.toNat) ["sh".toList.map Char.toNat, "-c".toList.map Char.toNat, command]
        (fun f => if 119 ∈ t then (if f = 0 then some (.rd id) else inherited p.fds f) else if f = 1 then some (.wr id) else inherited p.fds f) im := by
  have hne' : w ≠ r := fun h => hne h.symm
  have hm : t.contains 119 = decide (119 ∈ t) := by simp
  have he : t.contains 101 = decide (101 ∈ t) := by simp
  have hc : (t.contains 119 = true ∨ t.contains 114 = true) := by simpa using ht
  unfold popen
  dsimp only
  rw [if_pos hc, hm, he]
  by_cases h9 : 119 ∈ t
  · simp only [h9, if_true] at hstd ⊢
    simp only [decide_true, if_true, shield, restore, close, popenChild]
    have hd : sysDup2 same (set (set (set p.fds r (some (.rd id, false))) w (some (.wr id, false))) w none) r 0 =
        .ok (set (set (set (set p.fds r (some (.rd id, false))) w (some (.wr id, false))) w none) 0 (some (.rd id, false))) := by
      simp [sysDup2, set, hne, hstd]
    rw [hd]
    refine ⟨trivial, ?_, _, rfl, rfl, rfl, ?_, rfl, rfl, rfl⟩
    · congr 1; funext f
      by_cases h1 : 101 ∈ t
      all_goals
        simp only [set, h1, decide_true, decide_false, if_true, if_false, hne', Bool.false_eq_true]
        by_cases ha : f = w
        · simp [ha, hne']
        · by_cases hb : f = r
          · subst hb; simp [hr, ha]
          · simp [ha, hb]
    · funext f
      simp only [execve, inherited, set]
      by_cases h0 : f = 0
      · subst h0; rw [if_neg (fun h : 0 = r => hstd h.symm)]; rfl
      · by_cases ha : f = w
        · subst ha; simp [h0, hw, hne']
        · by_cases hb : f = r
          · subst hb; simp [h0, hr]
          · simp [h0, ha, hb]
  · simp only [h9, if_false] at hstd ⊢
    simp only [decide_false, if_false, shield, restore, close, popenChild, Bool.false_eq_true]
    have hd : sysDup2 same (set (set (set p.fds r (some (.rd id, false))) w (some (.wr id, false))) r none) w 1 =
        .ok (set (set (set (set p.fds r (some (.rd id, false))) w (some (.wr id, false))) r none) 1 (some (.wr id, false))) := by
      simp [sysDup2, set, hne', hstd]
    rw [hd]
    refine ⟨trivial, ?_, _, rfl, rfl, rfl, ?_, rfl, rfl, rfl⟩
    · congr 1; funext f
      by_cases h1 : 101 ∈ t
      all_goals
        simp only [set, h1, decide_true, decide_false, if_true, if_false, hne, Bool.false_eq_true]
        by_cases ha : f = r
        · simp [ha, hne]
        · by_cases hb : f = w
          · subst hb; simp [hw, ha]
          · simp [ha, hb]
    · funext f
      simp only [execve, inherited, set]
      by_cases h0 : f = 1
      · subst h0; rw [if_neg (fun h : 1 = w => hstd h.symm)]; rfl
      · by_cases ha : f = r
        · subst ha; simp [h0, hr, hne]
        · by_cases hb : f = w
          · subst hb; simp [h0, hw]
          · simp [h0, ha, hb]

/-- A process with its three standard descriptors, a private file, a handler for SIGINT, and SIGQUIT ignored. -/
def caller : Proc := ⟨fun f => if f < 3 then some (.other f, false) else if f = 3 then some (.other 3, true) else none, 4096, 1, fun s => s == 10⟩

example : caller.fds 4 = none ∧ caller.fds 5 = none ∧ (119 ∈ txt "we" ∨ 114 ∈ txt "we") ∧ (if 119 ∈ txt "we" then (4 : Nat) ≠ 0 else (5 : Nat) ≠ 1) := by
  decide +kernel

example : (popen false true 0 (.ok (4, 5)) (.ok 77) [108, 115] (some (txt "r")) caller).ret = .ok ⟨4, 77⟩ := by rfl

/-- **A failed popen changes nothing** in the caller, starts nothing and gives the reason: EINVAL for a mode without `r` and `w`, or the
error of `pipe` or `fork`. -/
theorem popen_fails (same execOk : Bool) (id : Nat) (pipe : Except Nat (Nat × Nat)) (fork : Except Nat Nat) (command : List Nat) (type : Option (List Nat))
    (p : Proc) (hfree : ∀ r w, pipe = .ok (r, w) → p.fds r = none ∧ p.fds w = none) (e : Nat)
    (hfail : (popen same execOk id pipe fork command type p).ret = .error e) :
    let o := popen same execOk id pipe fork command type p
    o.proc = p ∧ o.child = none ∧
      ((e = 22 ∧ ∀ t, type = some t → 119 ∉ t ∧ 114 ∉ t) ∨ pipe = .error e ∨ ∃ rw, pipe = .ok rw ∧ fork = .error e) := by
  cases type with
  | none =>
    have : (22 : Nat) = e := by simpa [popen] using hfail
    exact ⟨rfl, rfl, .inl ⟨this.symm, by simp⟩⟩
  | some t =>
    by_cases hc : (t.contains 119 = true ∨ t.contains 114 = true)
    · have hc' : 119 ∈ t ∨ 114 ∈ t := by simpa using hc
      cases pipe with
      | error e' =>
        have : e' = e := by simpa [popen, hc'] using hfail
        subst this
        simp only [popen, hc, if_true]
        exact ⟨trivial, trivial, .inr (.inl trivial)⟩
      | ok rw =>
        obtain ⟨r, w⟩ := rw
        obtain ⟨hr, hw⟩ := hfree r w rfl
        cases fork with
        | ok pid => simp [popen, hc'] at hfail
        | error e' =>
          have : e' = e := by simpa [popen, hc'] using hfail
          subst this
          simp only [popen, hc, if_true]
          refine ⟨?_, trivial, .inr (.inr ⟨_, rfl, trivial⟩)⟩
          simp only [restore, shield]
          have : close (close (set (set p.fds r (some (.rd id, false))) w (some (.wr id, false))) r) w = p.fds := by
            funext f
            simp only [close, set]
            by_cases ha : f = w
            · simp [ha, hw]
            · by_cases hb : f = r
              · simp [hb, hr]
              · simp [ha, hb]
          rw [this]
    · have hc' : ¬ (119 ∈ t ∨ 114 ∈ t) := by simpa using hc
      have h22 : (22 : Nat) = e := by simpa [popen, hc'] using hfail
      simp only [popen, hc, if_false]
      refine ⟨trivial, trivial, .inl ⟨h22.symm, ?_⟩⟩
      intro t' ht'
      obtain rfl : t = t' := by simpa using ht'
      exact not_or.mp hc'

example : (popen false true 0 (.ok (4, 5)) (.error 11) [108, 115] (some (txt "r")) caller).ret = .error 11 := by rfl

/-- **Violation**: popen(…, "r") by a caller without standard output, where `pipe` gives the free number 1 to the write end, starts a
command that has no standard output at all: `dup2` did nothing and the descriptor is closed after it. The text of the command never arrives. -/
theorem popen_closed_violated : ∃ (p : Proc) (im : Image), p.fds 0 ≠ none ∧ p.fds 1 = none ∧ p.fds 3 = none ∧
    (popen true true 0 (.ok (3, 1)) (.ok 77) [108, 115] (some (txt "r")) p).child = some (.ok (.exec im)) ∧ im.files 1 = none :=
  ⟨⟨fun f => if f = 0 ∨ f = 2 then some (.other f, false) else none, 0, 0, fun _ => false⟩, _, by decide, by decide, by decide, rfl, by decide⟩

/-- **Violation**: on Linux, where the `Dup2` of the port refuses equal numbers, the child of the same call panics. -/
theorem popen_closed_panics : ∃ p : Proc, p.fds 0 = none ∧ p.fds 3 = none ∧
    (popen false true 0 (.ok (0, 3)) (.ok 77) [108, 115] (some (txt "w")) p).child = some .panic :=
  ⟨⟨fun f => if f = 1 ∨ f = 2 then some (.other f, false) else none, 0, 0, fun _ => false⟩, by decide, by decide, rfl⟩

/-- **dup2** for different numbers: the new number is another one for the same object, without FD_CLOEXEC; nothing else changes. For a closed
number the call fails with EBADF and changes nothing. -/
theorem dup2_partial (same : Bool) (t : Tab) (a b : Nat) (hne : a ≠ b) :
    (∀ o c, t a = some (o, c) → (dup2 same t a b).2.1 = b ∧ (dup2 same t a b).1 = fun f => if f = b then some (o, false) else t f) ∧
    (t a = none → dup2 same t a b = (t, -1, 9)) := by
  constructor
  · intro o c h
    simp [dup2, sysDup2, h, hne]
    rfl
  · intro h
    simp [dup2, sysDup2, h]

example : caller.fds 3 = some (.other 3, true) := by decide

/-- **Violation**: on Linux dup2(fd, fd) of an open descriptor must return fd, and fails with EINVAL. -/
theorem dup2_self_violated (t : Tab) (a : Nat) (h : t a ≠ none) : dup2 false t a a = (t, -1, 22) := by
  cases h' : t a with
  | none => exact absurd h' h
  | some v => simp [dup2, sysDup2, h']

example : caller.fds 1 ≠ none := by decide

/-- **pclose, missing: a wait that is interrupted, see `pclose_interrupted_violated`.** It closes the stream's descriptor and nothing else, and returns the
status of the very process that popen started. -/
theorem pclose_partial (s : Stream) (wait : Nat → Except Nat Nat) (p : Proc) (status : Nat) (h : wait s.pid = .ok status) :
    pclose s wait p = ({ p with fds := fun f => if f = s.fd then none else p.fds f }, .ok status) := by
  simp [pclose, h]
  rfl

/-- When `waitpid` fails the result is -1 with ECHILD, and the descriptor is closed all the same. -/
theorem pclose_fails (s : Stream) (wait : Nat → Except Nat Nat) (p : Proc) (e : Nat) (h : wait s.pid = .error e) :
    pclose s wait p = ({ p with fds := fun f => if f = s.fd then none else p.fds f }, .error 10) := by
  simp [pclose, h]
  rfl

/-- **Violation**: pclose must not return before the process has ended, and says ECHILD when another call has taken the status. Interrupted by a
signal (EINTR = 4) it returns at once with ECHILD, with the command still running. -/
theorem pclose_interrupted_violated : ∃ (s : Stream) (wait : Nat → Except Nat Nat), wait s.pid = .error 4 ∧ (pclose s wait caller).2 = .error 10 :=
  ⟨⟨4, 77⟩, fun _ => .error 4, rfl, rfl⟩

/-- The state in which `system` has to wait: SIGINT and SIGQUIT ignored, SIGCHLD blocked, and nothing else changed. -/
def Waiting (p q : Proc) : Prop :=
  q.int = 1 ∧ q.quit = 1 ∧ q.mask 17 = true ∧ (∀ s, s ≠ 17 → q.mask s = p.mask s) ∧ q.fds = p.fds

theorem shield_waiting (p : Proc) : Waiting p (shield p) :=
  ⟨rfl, rfl, by simp [shield], fun s h => by simp [shield, h], rfl⟩

/-- **system, missing: interrupted waits, see `system_interrupted_violated`.** The command runs with all the caller's descriptors that have no
FD_CLOEXEC and with its signals; the caller waits with SIGINT and SIGQUIT ignored and SIGCHLD blocked, and is then as it was; the result is the status
`waitpid` gave. -/
theorem system_partial (pid fuel errno : Nat) (w : Proc → Nat → Int × Int) (c : List Nat) (p : Proc) (hw : ∀ q, Waiting p q → (w q 0).1 = 0) :
    ∃ im q, Waiting p q ∧ system true (.ok pid) w (fuel + 1) errno (some c) p = some (p, (w q 0).2, errno, some (.exec im)) ∧
      Runs p ("/bin/sh".toList.map Char.toNat)
        ["sh".toList.map Char.toNat, "-c".toList.map Char.toNat, "--".toList.map Char.toNat, c] (inherited p.fds) im := by
  refine ⟨execve (restore p (shield p)) (txt "/bin/sh") [txt "sh", txt "-c", txt "--", c], shield p, shield_waiting p, ?_, rfl, rfl, rfl, rfl, rfl, rfl⟩
  simp only [system, waitLoop, hw _ (shield_waiting p)]
  rfl

example : ∀ q, Waiting caller q → ((fun _ _ => (0, 256) : Proc → Nat → Int × Int) q 0).1 = 0 := fun _ _ => rfl

/-- A shell that cannot be started gives status 127 to the wait; a process that cannot be made gives -1 and the reason; no command asks whether there is a shell.
In every case the caller is unchanged. -/
theorem system_other (fork : Except Nat Nat) (execOk : Bool) (w : Proc → Nat → Int × Int) (fuel errno : Nat) (command : Option (List Nat)) (p : Proc)
    (hw : ∀ q i, Waiting p q → 0 ≤ (w q i).1) :
    ∃ r e ch, system execOk fork w (fuel + 1) errno command p = some (p, r, e, ch) ∧
      (command = none → r = 1 ∧ ch = none) ∧
      (∀ c x, command = some c → fork = .error x → r = -1 ∧ e = x ∧ ch = none) ∧
      (∀ c pid, command = some c → fork = .ok pid → execOk = false → ch = some (.exited 127)) := by
  cases command with
  | none => exact ⟨1, errno, none, rfl, by simp, by simp, by simp⟩
  | some c =>
    cases fork with
    | error x =>
      refine ⟨-1, x, none, rfl, by simp, ?_, by simp⟩
      intro _ y _ h
      simp at h
      exact ⟨rfl, h, rfl⟩
    | ok pid =>
      have h0 : ¬ (w (shield p) 0).1 < 0 := by have := hw _ 0 (shield_waiting p); omega
      simp only [system, waitLoop, h0, if_false]
      refine ⟨_, _, _, rfl, by simp, by simp, ?_⟩
      intro _ _ _ _ hx
      simp [hx]

example : ∀ (q : Proc) (i : Nat), Waiting caller q → 0 ≤ ((fun _ _ => (4, 0) : Proc → Nat → Int × Int) q i).1 := fun _ _ _ => (by decide : (0 : Int) ≤ 4)

/-- **Violation**: `system` is to wait until the command has ended. The loop tests for negative results, and the errors of `waitpid` are positive:
interrupted by a signal (EINTR = 4) it returns -1 after a single wait, whatever the later waits would give, and errno is not set. -/
theorem system_interrupted_violated (pid fuel errno : Nat) (w : Proc → Nat → Int × Int) (c : List Nat) (p : Proc) (hw : ∀ q, Waiting p q → (w q 0).1 = 4) :
    ∃ ch, system true (.ok pid) w (fuel + 1) errno (some c) p = some (p, -1, errno, some ch) := by
  simp only [system, waitLoop, hw _ (shield_waiting p)]
  exact ⟨_, rfl⟩

/-! ### Histories -/

/-- A stream the program has open: its pipe and the direction. -/
structure Live where
  stream : Stream
  pipe : Nat
  write : Bool
  cloexec : Bool

/-- A child: the pipe and the direction of its stream. -/
structure Kid where
  pipe : Nat
  write : Bool
  child : Res Child

structure World where
  proc : Proc
  /-- pipes made so far -/
  pipes : Nat
  live : List Live
  kids : List Kid

inductive Op where
  | popen (pipe : Except Nat (Nat × Nat)) (fork : Except Nat Nat) (command : List Nat) (type : Option (List Nat))
  /-- of the i-th stream -/
  | pclose (i : Nat) (wait : Nat → Except Nat Nat)
  /-- the program opens or closes some other descriptor -/
  | other (fd : Nat) (v : Option (Nat × Bool))

/-- A program that calls popen and pclose. posix_stdio.cpp L42-157 -/
def step (same : Bool) (s : World) : Op → World
  | .popen pipe fork command type =>
    let o := popen same true s.pipes pipe fork command type s.proc
    let write := (type.getD []).contains 119
    match o.ret, o.child with
    | .ok st, some ch => ⟨o.proc, s.pipes + 1, s.live ++ [⟨st, s.pipes, write, (type.getD []).contains 101⟩], s.kids ++ [⟨s.pipes, write, ch⟩]⟩
    | _, _ => ⟨o.proc, s.pipes + 1, s.live, s.kids⟩
  | .pclose i wait =>
    match s.live[i]? with
    | none => s
    | some l => ⟨(pclose l.stream wait s.proc).1, s.pipes, s.live.eraseIdx i, s.kids⟩
  | .other fd v => { s with proc := { s.proc with fds := set s.proc.fds fd (v.map fun x => (.other x.1, x.2)) } }

/-- The kernel gives free numbers that are not those of standard input and output; the program leaves the descriptors of its streams alone. -/
def Good (s : World) : Op → Prop
  | .popen pipe _ _ _ => ∀ r w, pipe = .ok (r, w) → s.proc.fds r = none ∧ s.proc.fds w = none ∧ r ≠ w ∧ 1 < r ∧ 1 < w
  | .pclose _ _ => True
  | .other fd _ => ∀ l ∈ s.live, l.stream.fd ≠ fd

/-- Every popen in the history had an `e` in its mode. -/
def AllE : List Op → Prop
  | [] => True
  | .popen _ _ _ (some t) :: ops => 101 ∈ t ∧ AllE ops
  | _ :: ops => AllE ops

/-- The histories of a program that starts as `p`, with the operations that led there, last first. -/
inductive Reach (same : Bool) (p : Proc) : List Op → World → Prop where
  | init : Reach same p [] ⟨p, 0, [], []⟩
  | step {ops s} (op : Op) : Reach same p ops s → Good s op → Reach same p (op :: ops) (step same s op)

/-- The end of the pipe the caller has. -/
def mineOf (write : Bool) (pipe : Nat) : Obj := if write then .wr pipe else .rd pipe
/-- The end of the pipe the command has. -/
def theirsOf (write : Bool) (pipe : Nat) : Obj := if write then .rd pipe else .wr pipe

/-- The object is an end of a pipe. -/
def IsPipe (o : Obj) : Prop := ∀ n, o ≠ .other n

/-- The descriptors of the program without those of its streams: what it had and what it opened and closed itself. -/
def own (p : Proc) : List Op → Tab
  | [] => p.fds
  | .other fd v :: ops => fun f => if f = fd then v.map (fun x => (.other x.1, x.2)) else own p ops f
  | _ :: ops => own p ops

structure Inv (p : Proc) (ops : List Op) (s : World) : Prop where
  int : s.proc.int = p.int
  quit : s.proc.quit = p.quit
  mask : s.proc.mask = p.mask
  live : ∀ l ∈ s.live, s.proc.fds l.stream.fd = some (mineOf l.write l.pipe, l.cloexec)
  rest : ∀ f, (∀ l ∈ s.live, l.stream.fd ≠ f) → s.proc.fds f = own p ops f
  free : ∀ l ∈ s.live, own p ops l.stream.fd = none
  fresh : ∀ l ∈ s.live, l.pipe < s.pipes
  distinct : s.live.Pairwise (fun a b => a.stream.fd ≠ b.stream.fd ∧ a.pipe ≠ b.pipe)
  files : ∀ f o c, own p ops f = some (o, c) → ¬ IsPipe o
  ex : AllE ops → ∀ l ∈ s.live, l.cloexec = true
  kids : ∀ k ∈ s.kids, ∃ im, k.child = .ok (.exec im) ∧ im.files (if k.write then 0 else 1) = some (theirsOf k.write k.pipe) ∧
    Inherits p.int im.int ∧ Inherits p.quit im.quit ∧ im.mask = p.mask ∧
    (AllE ops → ∀ f o, im.files f = some o → IsPipe o → f = if k.write then 0 else 1)

theorem allE_tail {op : Op} {ops : List Op} (h : AllE (op :: ops)) : AllE ops := by
  cases op with
  | popen _ _ _ t => cases t with
    | none => exact h
    | some t => exact h.2
  | pclose => exact h
  | other => exact h

theorem inv_popen_fail {same : Bool} {p : Proc} {ops : List Op} {s : World} (h : Inv p ops s) (pipe fork command type)
    (hp : (popen same true s.pipes pipe fork command type s.proc).proc = s.proc) :
    Inv p (.popen pipe fork command type :: ops) ⟨(popen same true s.pipes pipe fork command type s.proc).proc, s.pipes + 1, s.live, s.kids⟩ := by
  rw [hp]
  exact ⟨h.int, h.quit, h.mask, h.live, h.rest, h.free, fun l hl => Nat.lt_succ_of_lt (h.fresh l hl), h.distinct, h.files,
    fun he => h.ex (allE_tail he), fun k hk => by
      obtain ⟨im, h1, h2, h3, h4, h5, h6⟩ := h.kids k hk
      exact ⟨im, h1, h2, h3, h4, h5, fun he => h6 (allE_tail he)⟩⟩

theorem inv_step {same : Bool} {p : Proc} {ops : List Op} {s : World} (h : Inv p ops s) (op : Op) (hg : Good s op) :
    Inv p (op :: ops) (step same s op) := by
  cases op with
  | popen pipe fork command type =>
    have hg' : ∀ r w, pipe = .ok (r, w) → s.proc.fds r = none ∧ s.proc.fds w = none ∧ r ≠ w ∧ 1 < r ∧ 1 < w := hg
    cases hret : (popen same true s.pipes pipe fork command type s.proc).ret with
    | error e =>
      have hf := popen_fails same true s.pipes pipe fork command type s.proc (fun r w h => ⟨(hg' r w h).1, (hg' r w h).2.1⟩) e hret
      simp only [step, hret]
      exact inv_popen_fail h pipe fork command type hf.1
    | ok st =>
      -- a successful call
      cases type with
      | none => simp [popen] at hret
      | some t =>
        have hc : 119 ∈ t ∨ 114 ∈ t := by
          false_or_by_contra
          next hc =>
          simp [popen, hc] at hret
        cases pipe with
        | error e => simp [popen, hc] at hret
        | ok rw =>
          obtain ⟨r, w⟩ := rw
          cases fork with
          | error e => simp [popen, hc] at hret
          | ok pid =>
            obtain ⟨hr, hw, hne, h1r, h1w⟩ := hg' r w rfl
            have hstd : if 119 ∈ t then r ≠ 0 else w ≠ 1 := by split <;> omega
            obtain ⟨q1, q2, im, q3, q4⟩ := popen_partial same s.pipes r w pid command t s.proc hr hw hne hc hstd
            have hm : t.contains 119 = decide (119 ∈ t) := by simp
            have he : t.contains 101 = decide (101 ∈ t) := by simp
            simp only [step, q1, q3, q2, Option.getD_some, hm, he]
            generalize hmine : (if 119 ∈ t then w else r) = mine at *
            have hmfree : s.proc.fds mine = none := by rw [← hmine]; split <;> assumption
            have hm1 : 1 < mine := by rw [← hmine]; split <;> assumption
            have hnl : ∀ l ∈ s.live, l.stream.fd ≠ mine := by
              intro l hl hx
              have := h.live l hl
              rw [hx, hmfree] at this
              cases this
            obtain ⟨i1, i2, i3, i4, i5, i6⟩ := q4
            refine ⟨h.int, h.quit, h.mask, ?_, ?_, ?_, ?_, ?_, h.files, ?_, ?_⟩
            · intro l hl
              rcases List.mem_append.mp hl with hl | hl
              · dsimp only
                rw [if_neg (hnl l hl)]
                exact h.live l hl
              · obtain rfl := List.mem_singleton.mp hl
                by_cases h9 : 119 ∈ t <;> simp [mineOf, h9]
            · intro f hf
              have hfm : f ≠ mine := fun hx => hf _ (List.mem_append_right _ (List.mem_singleton.mpr rfl)) hx.symm
              dsimp only
              rw [if_neg hfm]
              exact h.rest f (fun l hl => hf l (List.mem_append_left _ hl))
            · intro l hl
              rcases List.mem_append.mp hl with hl | hl
              · exact h.free l hl
              · obtain rfl := List.mem_singleton.mp hl
                have := h.rest mine hnl
                rw [hmfree] at this
                exact this.symm
            · intro l hl
              rcases List.mem_append.mp hl with hl | hl
              · exact Nat.lt_succ_of_lt (h.fresh l hl)
              · obtain rfl := List.mem_singleton.mp hl
                exact Nat.lt_succ_self _
            · refine List.pairwise_append.mpr ⟨h.distinct, List.pairwise_singleton _ _, ?_⟩
              intro a ha b hb
              obtain rfl := List.mem_singleton.mp hb
              exact ⟨hnl a ha, Nat.ne_of_lt (h.fresh a ha)⟩
            · intro hall l hl
              rcases List.mem_append.mp hl with hl | hl
              · exact h.ex hall.2 l hl
              · obtain rfl := List.mem_singleton.mp hl
                simp [hall.1]
            · intro k hk
              rcases List.mem_append.mp hk with hk | hk
              · obtain ⟨im, h1, h2, h3, h4, h5, h6⟩ := h.kids k hk
                exact ⟨im, h1, h2, h3, h4, h5, fun he => h6 he.2⟩
              · obtain rfl := List.mem_singleton.mp hk
                refine ⟨im, rfl, ?_, by rw [← h.int]; exact i4, by rw [← h.quit]; exact i5, by rw [← h.mask]; exact i6, ?_⟩
                · rw [i3]
                  by_cases h9 : 119 ∈ t <;> simp [theirsOf, h9]
                · intro hall f o hfo hpipe
                  rw [i3] at hfo
                  -- anything inherited is not a pipe
                  have hno : inherited s.proc.fds f ≠ some o := by
                    intro hx
                    unfold inherited at hx
                    split at hx
                    · next o' hfd =>
                      obtain rfl : o' = o := by simpa using hx
                      by_cases hlive : ∀ l ∈ s.live, l.stream.fd ≠ f
                      · rw [h.rest f hlive] at hfd
                        exact h.files _ _ _ hfd hpipe
                      · have : ∃ l ∈ s.live, l.stream.fd = f := by
                          false_or_by_contra
                          next hn =>
                          exact hlive fun l hl hx => hn ⟨l, hl, hx⟩
                        obtain ⟨l, hl, rfl⟩ := this
                        have h1 := h.live l hl
                        rw [h.ex hall.2 l hl, hfd] at h1
                        simp at h1
                    · cases hx
                  by_cases h9 : 119 ∈ t
                  · simp only [h9, if_true] at hfo
                    by_cases h0 : f = 0
                    · simp [h9, h0]
                    · rw [if_neg h0] at hfo
                      exact absurd hfo hno
                  · simp only [h9, if_false] at hfo
                    by_cases h0 : f = 1
                    · simp [h9, h0]
                    · rw [if_neg h0] at hfo
                      exact absurd hfo hno
  | pclose i wait =>
    cases hi : s.live[i]? with
    | none =>
      simp only [step, hi]
      exact ⟨h.int, h.quit, h.mask, h.live, h.rest, h.free, h.fresh, h.distinct, h.files, fun he => h.ex (allE_tail he), fun k hk => by
        obtain ⟨im, h1, h2, h3, h4, h5, h6⟩ := h.kids k hk
        exact ⟨im, h1, h2, h3, h4, h5, fun he => h6 (allE_tail he)⟩⟩
    | some l =>
      have hpc : (pclose l.stream wait s.proc).1 = { s.proc with fds := fun f => if f = l.stream.fd then none else s.proc.fds f } := by
        unfold pclose
        split <;> rfl
      simp only [step, hi, hpc]
      have hlm : l ∈ s.live := List.mem_of_getElem? hi
      have hlt : i < s.live.length := (List.getElem?_eq_some_iff.mp hi).1
      have hli : s.live[i] = l := (List.getElem?_eq_some_iff.mp hi).2
      have hdist : ∀ b ∈ s.live.eraseIdx i, b.stream.fd ≠ l.stream.fd := by
        intro b hb
        obtain ⟨j, hj, hji, hbj⟩ := List.mem_eraseIdx_iff_getElem.mp hb
        have hp := List.pairwise_iff_getElem.mp h.distinct
        rcases Nat.lt_or_gt_of_ne hji with hlt' | hgt
        · have := (hp j i hj hlt hlt').1
          rw [hbj, hli] at this
          exact this
        · have := (hp i j hlt hj hgt).1
          rw [hbj, hli] at this
          exact fun hx => this hx.symm
      have hsub : ∀ b ∈ s.live.eraseIdx i, b ∈ s.live := fun b hb => List.mem_of_mem_eraseIdx hb
      refine ⟨h.int, h.quit, h.mask, ?_, ?_, ?_, ?_, ?_, h.files, ?_, ?_⟩
      · intro b hb
        dsimp only
        rw [if_neg (hdist b hb)]
        exact h.live b (hsub b hb)
      · intro f hf
        dsimp only
        by_cases hx : f = l.stream.fd
        · rw [if_pos hx, hx]
          exact (h.free l hlm).symm
        · rw [if_neg hx]
          refine h.rest f fun b hb => ?_
          obtain ⟨j, hj, hbj⟩ := List.mem_iff_getElem.mp hb
          by_cases hji : j = i
          · subst hji
            rw [hli] at hbj
            rw [← hbj]
            exact fun h => hx h.symm
          · exact hf b (List.mem_eraseIdx_iff_getElem.mpr ⟨j, hj, hji, hbj⟩)
      · exact fun b hb => h.free b (hsub b hb)
      · exact fun b hb => h.fresh b (hsub b hb)
      · exact h.distinct.sublist (List.eraseIdx_sublist _ _)
      · exact fun he b hb => h.ex (allE_tail he) b (hsub b hb)
      · intro k hk
        obtain ⟨im, h1, h2, h3, h4, h5, h6⟩ := h.kids k hk
        exact ⟨im, h1, h2, h3, h4, h5, fun he => h6 (allE_tail he)⟩
  | other fd v =>
    have hg' : ∀ l ∈ s.live, l.stream.fd ≠ fd := hg
    simp only [step]
    refine ⟨h.int, h.quit, h.mask, ?_, ?_, ?_, h.fresh, h.distinct, ?_, fun he => h.ex (allE_tail he), ?_⟩
    · intro l hl
      dsimp only [set]
      rw [if_neg (hg' l hl)]
      exact h.live l hl
    · intro f hf
      dsimp only [set, own]
      by_cases hx : f = fd
      · rw [if_pos hx, if_pos hx]
      · rw [if_neg hx, if_neg hx]
        exact h.rest f hf
    · intro l hl
      dsimp only [own]
      rw [if_neg (hg' l hl)]
      exact h.free l hl
    · intro f o c hfo
      dsimp only [own] at hfo
      by_cases hx : f = fd
      · rw [if_pos hx] at hfo
        cases v with
        | none => simp at hfo
        | some v =>
          simp at hfo
          intro hp
          exact hp v.1 hfo.1.symm
      · rw [if_neg hx] at hfo
        exact h.files f o c hfo
    · intro k hk
      obtain ⟨im, h1, h2, h3, h4, h5, h6⟩ := h.kids k hk
      exact ⟨im, h1, h2, h3, h4, h5, fun he => h6 (allE_tail he)⟩

theorem inv_reach {same : Bool} {p : Proc} (hp : ∀ f o c, p.fds f = some (o, c) → ¬ IsPipe o) {ops : List Op} {s : World}
    (h : Reach same p ops s) : Inv p ops s := by
  induction h with
  | init => exact ⟨rfl, rfl, rfl, by simp, fun _ _ => rfl, by simp, by simp, List.Pairwise.nil, hp, by simp, by simp⟩
  | step op _ hg ih => exact inv_step ih op hg

/-- **Streams, missing: as in `popen_partial`.** After any history of popen, pclose and other opens and closes, the descriptors of the caller are its own and,
for each stream that is open, the caller's end of that stream's pipe: nothing is left over from failed calls and closed streams, and no two streams share a
number or a pipe. The caller's signals are those it began with. -/
theorem history_partial {same : Bool} {p : Proc} (hp : ∀ f o c, p.fds f = some (o, c) → ¬ IsPipe o) {ops : List Op} {s : World} (h : Reach same p ops s) :
    (∀ l ∈ s.live, s.proc.fds l.stream.fd = some (if l.write then .wr l.pipe else .rd l.pipe, l.cloexec)) ∧
    (∀ f, (∀ l ∈ s.live, l.stream.fd ≠ f) → s.proc.fds f = own p ops f) ∧
    s.live.Pairwise (fun a b => a.stream.fd ≠ b.stream.fd ∧ a.pipe ≠ b.pipe) ∧
    s.proc.int = p.int ∧ s.proc.quit = p.quit ∧ s.proc.mask = p.mask :=
  let i := inv_reach hp h
  ⟨i.live, i.rest, i.distinct, i.int, i.quit, i.mask⟩

/-- **Commands**: each command has its end of its own pipe as standard input ("w") or output ("r"), and the signals the caller began with. -/
theorem kids_partial {same : Bool} {p : Proc} (hp : ∀ f o c, p.fds f = some (o, c) → ¬ IsPipe o) {ops : List Op} {s : World} (h : Reach same p ops s) :
    ∀ k ∈ s.kids, ∃ im, k.child = .ok (.exec im) ∧
      (k.write = true → im.files 0 = some (.rd k.pipe)) ∧ (k.write = false → im.files 1 = some (.wr k.pipe)) ∧
      Inherits p.int im.int ∧ Inherits p.quit im.quit ∧ im.mask = p.mask := by
  intro k hk
  obtain ⟨im, h1, h2, h3, h4, h5, _⟩ := (inv_reach hp h).kids k hk
  refine ⟨im, h1, ?_, ?_, h3, h4, h5⟩
  · intro hw
    simpa [hw, theirsOf] using h2
  · intro hw
    simpa [hw, theirsOf] using h2

/-- **Earlier streams, missing: histories with a mode without `e`, see `popen_earlier_violated`.** No command has an end of any pipe but
its own, on its standard input or output: closing a stream gives its command the end of file. -/
theorem earlier_partial {same : Bool} {p : Proc} (hp : ∀ f o c, p.fds f = some (o, c) → ¬ IsPipe o) {ops : List Op} {s : World} (h : Reach same p ops s)
    (he : AllE ops) : ∀ k ∈ s.kids, ∃ im, k.child = .ok (.exec im) ∧
      ∀ f o, im.files f = some o → (∃ i, o = .rd i ∨ o = .wr i) →
        (k.write = true ∧ f = 0 ∧ o = .rd k.pipe) ∨ (k.write = false ∧ f = 1 ∧ o = .wr k.pipe) := by
  intro k hk
  obtain ⟨im, h1, h2, h3, h4, h5, h6⟩ := (inv_reach hp h).kids k hk
  refine ⟨im, h1, ?_⟩
  rintro f o hf ⟨i, ho⟩
  have hpipe : IsPipe o := by
    intro n hn
    rcases ho with rfl | rfl <;> cases hn
  have hff := h6 he f o hf hpipe
  rw [← hff, hf] at h2
  have h2 : o = theirsOf k.write k.pipe := by simpa using h2
  cases hw : k.write with
  | true => exact .inl ⟨rfl, by simpa [hw] using hff, by simpa [hw, theirsOf] using h2⟩
  | false => exact .inr ⟨rfl, by simpa [hw] using hff, by simpa [hw, theirsOf] using h2⟩

/-! A history with three streams, of which the first is closed. -/

def three : List Op :=
  [.popen (.ok (7, 8)) (.ok 79) [97] (some (txt "re")), .pclose 0 (fun _ => .ok 0), .other 9 (some (3, false)),
   .popen (.ok (5, 6)) (.ok 78) [98] (some (txt "we")), .popen (.ok (4, 5)) (.ok 77) [99] (some (txt "re"))]

example : ∃ s, Reach false caller three s ∧ AllE three ∧ s.live.map (fun l => (l.stream.fd, l.write)) = [(6, true), (7, false)] ∧ s.kids.length = 3 := by
  refine ⟨_, .step _ (.step _ (.step _ (.step _ (.step _ .init ?_) ?_) ?_) ?_) ?_, ?_, ?_, ?_⟩
  · intro r w h; cases h; decide +kernel
  · intro r w h; cases h; decide +kernel
  · show ∀ l ∈ _, _
    decide +kernel
  · trivial
  · intro r w h; cases h; decide +kernel
  · exact ⟨by decide, by decide, by decide, trivial⟩
  · decide +kernel
  · decide +kernel

theorem caller_files : ∀ f o c, caller.fds f = some (o, c) → ¬ IsPipe o := by
  intro f o c h hp
  simp only [caller] at h
  split at h
  · cases h; exact hp _ rfl
  · split at h
    · cases h; exact hp _ rfl
    · cases h

/-- **Violation**: streams of earlier calls that are still open must be closed in a new command. After two popen(…, "w") the second command has the
writing end of the first pipe: when the caller closes the first stream, the first command does not see the end of its input while the second one runs,
and pclose waits for it. -/
theorem popen_earlier_violated : ∃ ops s k im f, Reach false caller ops s ∧ ops.length = 2 ∧ k ∈ s.kids ∧ k.pipe = 1 ∧ k.child = .ok (.exec im) ∧
    im.files f = some (.wr 0) := by
  refine ⟨[.popen (.ok (4, 6)) (.ok 78) [98] (some (txt "w")), .popen (.ok (4, 5)) (.ok 77) [99] (some (txt "w"))], _, ⟨1, true, _⟩, _, 5,
    .step _ (.step _ .init ?_) ?_, rfl, List.mem_append_right _ (List.mem_singleton.mpr rfl), rfl, rfl, ?_⟩
  · intro r w h; cases h; decide +kernel
  · intro r w h; cases h; decide +kernel
  · decide +kernel

end Mlibc.Shell
