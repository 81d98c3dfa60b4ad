import Verif.Base

/-!
# Duplicated descriptors and pseudo-terminals

`dup`, `dup2` and `dup3`, options/posix/generic/unistd.cpp L1237-1264, with sysdeps/linux/generic/sysdeps.cpp L716-730; `openpty`,
`login_tty` and `forkpty`, options/bsd/generic/pty.cpp, on the table of descriptors of the process.

The kernel may let every call fail that can fail.  Not modelled: the attributes and the size of the window given to `openpty`, the
memory for the name.
-/

namespace Mlibc.Dup

/-- The open file and whether it is closed on exec. -/
abbrev Table := Nat → Option (Nat × Bool)

/-! ## Specification -/

/-- What a number stands for. -/
def Open (T : Table) (fd : Int) (f : Nat × Bool) : Prop := 0 ≤ fd ∧ T fd.toNat = some f

def Closed (T : Table) (fd : Int) : Prop := ∀ f, ¬ Open T fd f

/-- The tables are the same except at the numbers given. -/
def SameBut (fds : List Nat) (T T' : Table) : Prop := ∀ k, k ∉ fds → T' k = T k

/-- The lowest number that is not in use. -/
def Lowest (T : Table) (n : Nat) : Prop := T n = none ∧ ∀ k, k < n → T k ≠ none

/-- The answer of a call: a number, or -1 with errno. -/
inductive Ans
  | ret (n : Nat)
  | err (e : Nat)
deriving DecidableEq, Repr

/-- `dup` as POSIX has it, where `lim` descriptors are allowed; EBADF is 9, EMFILE is 24. -/
def DupSpec (lim : Nat) (T : Table) (fd : Int) (a : Ans) (T' : Table) : Prop :=
  (Closed T fd → a = .err 9 ∧ T' = T) ∧
  ∀ f, Open T fd f →
    (∃ n, n < lim ∧ Lowest T n ∧ a = .ret n ∧ T' n = some (f.1, false) ∧ SameBut [n] T T') ∨
    ((∀ n, n < lim → T n ≠ none) ∧ a = .err 24 ∧ T' = T)

/-- `dup2` as POSIX has it. -/
def Dup2Spec (lim : Nat) (T : Table) (fd newfd : Int) (a : Ans) (T' : Table) : Prop :=
  (Closed T fd ∨ newfd < 0 ∨ (lim : Int) ≤ newfd → a = .err 9 ∧ T' = T) ∧
  ∀ f, Open T fd f → 0 ≤ newfd → newfd < lim →
    (fd = newfd → a = .ret newfd.toNat ∧ T' = T) ∧
    (fd ≠ newfd → a = .ret newfd.toNat ∧ T' newfd.toNat = some (f.1, false) ∧ SameBut [newfd.toNat] T T')

/-- `dup3`: `cloexec` is whether the flags are O_CLOEXEC, and not 0. -/
def Dup3Spec (lim : Nat) (T : Table) (fd newfd : Int) (cloexec : Bool) (a : Ans) (T' : Table) : Prop :=
  (fd = newfd → a = .err 22 ∧ T' = T) ∧
  (fd ≠ newfd → (Closed T fd ∨ newfd < 0 ∨ (lim : Int) ≤ newfd → a = .err 9 ∧ T' = T) ∧
    ∀ f, Open T fd f → 0 ≤ newfd → newfd < lim →
      a = .ret newfd.toNat ∧ T' newfd.toNat = some (f.1, cloexec) ∧ SameBut [newfd.toNat] T T')

/-- The terminal `f` is the three standard descriptors, none of them closed on exec. -/
def Standard (T : Table) (f : Nat) : Prop := T 0 = some (f, false) ∧ T 1 = some (f, false) ∧ T 2 = some (f, false)

/-! ## The kernel -/

def put (T : Table) (n : Nat) (v : Option (Nat × Bool)) : Table := fun k => if k = n then v else T k

def look (T : Table) (fd : Int) : Option (Nat × Bool) := if fd < 0 then none else T fd.toNat

/-- The number of a new descriptor. -/
def alloc (lim : Nat) (T : Table) : Option Nat := (List.range lim).find? (fun n => (T n).isNone)

/-- SYS_dup -/
def sysDup (lim : Nat) (T : Table) (fd : Int) : Ans × Table :=
  match look T fd with
  | none => (.err 9, T)
  | some f => match alloc lim T with
    | none => (.err 24, T)
    | some n => (.ret n, put T n (some (f.1, false)))

/-- SYS_dup3: as the manual page of Linux has it; O_CLOEXEC is 0o2000000. -/
def sysDup3 (lim : Nat) (T : Table) (fd newfd : Int) (flags : Nat) : Ans × Table :=
  if flags ≠ 0 ∧ flags ≠ 0o2000000 then (.err 22, T)
  else if fd = newfd then (.err 22, T)
  else if newfd < 0 ∨ (lim : Int) ≤ newfd then (.err 9, T)
  else match look T fd with
    | none => (.err 9, T)
    | some f => (.ret newfd.toNat, put T newfd.toNat (some (f.1, flags ≠ 0)))

/-- SYS_open of a file -/
def sysOpen (lim : Nat) (T : Table) : Except Nat Nat → Ans × Table
  | .error e => (.err e, T)
  | .ok f => match alloc lim T with
    | none => (.err 24, T)
    | some n => (.ret n, put T n (some (f, false)))

/-- SYS_close -/
def sysClose (T : Table) (n : Nat) : Table := put T n none

/-! ## The code -/

/-- unistd.cpp L1237-1244, sysdeps.cpp L716-723 -/
def dup (lim : Nat) (T : Table) (fd : Int) : Ans × Table := sysDup lim T fd

/-- unistd.cpp L1246-1252, sysdeps.cpp L725-730 -/
def dup2 (lim : Nat) (T : Table) (fd newfd : Int) : Ans × Table := sysDup3 lim T fd newfd 0

/-- unistd.cpp L1254-1264, sysdeps.cpp L725-730 -/
def dup3 (lim : Nat) (T : Table) (fd newfd : Int) (flags : Nat) : Ans × Table :=
  if fd = newfd then (.err 22, T) else sysDup3 lim T fd newfd flags

/-- pty.cpp L60-85 `login_tty`; `fail` is the error of `setsid` or of the `ioctl`. -/
def loginTty (lim : Nat) (fail : Option Nat) (T : Table) (fd : Nat) : Ans × Table :=
  match fail with
  | some e => (.err e, T)                                                         -- L61-64
  | none =>
    match sysDup3 lim T fd 0 0 with                                               -- L67-70
    | (.err e, T) => (.err e, T)
    | (.ret _, T) =>
      match sysDup3 lim T fd 1 0 with                                             -- L71-74
      | (.err e, T) => (.err e, T)
      | (.ret _, T) =>
        match sysDup3 lim T fd 2 0 with                                           -- L75-78
        | (.err e, T) => (.err e, T)
        | (.ret _, T) => (.ret 0, sysClose T fd)                                  -- L80-84

/-- What the kernel does in `openpty`: the files or the errors. -/
structure Pty where
  master : Except Nat Nat
  name : Option Nat
  slave : Except Nat Nat

/-- The result of `openpty`: the descriptors, or -1 and errno (`none`: as it was). -/
inductive Opened
  | ok (m s : Nat)
  | fail (e : Option Nat)
deriving DecidableEq, Repr

/-- pty.cpp L16-58 `openpty`, without the sysdep of the same name -/
def openpty (lim : Nat) (w : Pty) (T : Table) : Opened × Table :=
  match sysOpen lim T w.master with                                               -- L26-29
  | (.err e, T) => (.fail (some e), T)
  | (.ret m, T) =>
    match w.name with                                                             -- L34-35; posix_stdlib.cpp L444-446
    | some _ => (.fail none, sysClose T m)                                        -- L53-54
    | none =>
      match sysOpen lim T w.slave with                                            -- L39-42
      | (.err e, T) => (.fail (some e), sysClose T m)
      | (.ret s, T) => (.ok m s, T)                                               -- L50-52

/-- What is left after `forkpty`: -1 in the only process, or the parent and the child; the child may have ended itself. -/
inductive Forked
  | failed (e : Option Nat) (T : Table)
  | both (m : Nat) (parent : Table) (child : Option Table)

/-- pty.cpp L87-115 `forkpty`; `forkErr`, `loginErr` are the errors of the kernel. -/
def forkpty (lim : Nat) (w : Pty) (forkErr loginErr : Option Nat) (T : Table) : Forked :=
  match openpty lim w T with                                                      -- L88-90
  | (.fail e, T) => .failed e T
  | (.ok m s, T) =>
    match forkErr with                                                            -- L92-96
    | some e => .failed (some e) T
    | none =>
      .both m (sysClose T s)                                                      -- L106-109
        (match loginTty lim loginErr T s with                                     -- L98-104
         | (.err _, _) => none
         | (.ret _, T) => some T)

/-! ## Proofs -/

theorem look_some {T : Table} {fd : Int} {f : Nat × Bool} (h : Open T fd f) : look T fd = some f := by
  unfold look; rw [if_neg (by have := h.1; omega)]; exact h.2

theorem look_none {T : Table} {fd : Int} (h : Closed T fd) : look T fd = none := by
  unfold look
  split
  · rfl
  · next hn =>
    cases e : T fd.toNat with
    | none => rfl
    | some f => exact absurd ⟨by omega, e⟩ (h f)

theorem alloc_some {lim : Nat} {T : Table} {n : Nat} (h : alloc lim T = some n) : n < lim ∧ Lowest T n := by
  unfold alloc at h
  rw [List.find?_eq_some_iff_append] at h
  obtain ⟨h1, as, bs, h2, h3⟩ := h
  have hl : as.length = n := by
    have := congrArg (fun l => l[as.length]?) h2
    simp at this
    have hlt : as.length < lim := by
      have := congrArg List.length h2
      simp at this
      omega
    simp [hlt] at this
    exact this
  have hlt : n < lim := by
    have := congrArg List.length h2
    simp at this
    omega
  refine ⟨hlt, by simpa using h1, fun k hk => ?_⟩
  have hm : k ∈ as := by
    have : as[k]? = some k := by
      have := congrArg (fun l => l[k]?) h2
      rw [List.getElem?_append_left (by omega)] at this
      rw [← this, List.getElem?_range (by omega)]
    exact List.mem_of_getElem? this
  have := h3 k hm
  intro e
  simp [e] at this

theorem alloc_none {lim : Nat} {T : Table} (h : alloc lim T = none) : ∀ n, n < lim → T n ≠ none := by
  intro n hn
  unfold alloc at h
  rw [List.find?_eq_none] at h
  have := h n (by simpa using hn)
  simpa using this

theorem put_eq (T : Table) (n : Nat) (v : Option (Nat × Bool)) : put T n v n = v := by simp [put]

theorem put_same (T : Table) (n : Nat) (v : Option (Nat × Bool)) : SameBut [n] T (put T n v) := by
  intro k hk
  simp at hk
  simp [put, hk]

/-! ## Theorems: descriptors -/

/-- **C125.** `dup` is as POSIX has it, for every table and every argument. -/
theorem dup_spec (lim : Nat) (T : Table) (fd : Int) : DupSpec lim T fd (dup lim T fd).1 (dup lim T fd).2 := by
  unfold dup sysDup
  refine ⟨fun h => by rw [look_none h]; exact ⟨rfl, rfl⟩, fun f h => ?_⟩
  rw [look_some h]
  dsimp only
  cases e : alloc lim T with
  | none => exact Or.inr ⟨alloc_none e, rfl, rfl⟩
  | some n => exact Or.inl ⟨n, (alloc_some e).1, (alloc_some e).2, rfl, put_eq _ _ _, put_same _ _ _⟩

theorem sysDup3_ok {lim : Nat} {T : Table} {fd newfd : Int} {f : Nat × Bool} (h : Open T fd f) (hn : fd ≠ newfd) (h0 : 0 ≤ newfd)
    (hl : newfd < lim) (c : Bool) : sysDup3 lim T fd newfd (if c then 0o2000000 else 0) =
      (.ret newfd.toNat, put T newfd.toNat (some (f.1, c))) := by
  unfold sysDup3
  rw [if_neg (by cases c <;> simp), if_neg hn, if_neg (by omega), look_some h]
  cases c <;> rfl

theorem sysDup3_bad {lim : Nat} {T : Table} {fd newfd : Int} (h : Closed T fd ∨ newfd < 0 ∨ (lim : Int) ≤ newfd) (hn : fd ≠ newfd)
    (c : Bool) : sysDup3 lim T fd newfd (if c then 0o2000000 else 0) = (.err 9, T) := by
  unfold sysDup3
  rw [if_neg (by cases c <;> simp), if_neg hn]
  split
  · rfl
  · next h2 =>
    rcases h with h | h
    · rw [look_none h]
    · exact absurd h h2

/-- **C125** (two different numbers; the full statement, also for equal ones, does not hold, see `dup2_same_violated`). `dup2` is as
    POSIX has it. -/
theorem dup2_spec_partial (lim : Nat) (T : Table) (fd newfd : Int) (hn : fd ≠ newfd) :
    Dup2Spec lim T fd newfd (dup2 lim T fd newfd).1 (dup2 lim T fd newfd).2 := by
  refine ⟨fun h => ?_, fun f h h0 hl => ⟨fun e => absurd e hn, fun _ => ?_⟩⟩
  · have := sysDup3_bad (lim := lim) h hn false
    simp only [Bool.false_eq_true, if_false] at this
    unfold dup2
    rw [this]
    exact ⟨rfl, rfl⟩
  · have := sysDup3_ok (lim := lim) h hn h0 hl false
    simp only [Bool.false_eq_true, if_false] at this
    unfold dup2
    rw [this]
    exact ⟨rfl, put_eq _ _ _, put_same _ _ _⟩

/-- **C125 does not hold in full**: `dup2(3, 3)` fails although descriptor 3 is open. -/
theorem dup2_same_violated : let T : Table := fun k => if k = 3 then some (7, false) else none
    ¬ Dup2Spec 1024 T 3 3 (dup2 1024 T 3 3).1 (dup2 1024 T 3 3).2 ∧ (dup2 1024 T 3 3).1 = .err 22 := by
  refine ⟨fun h => ?_, by decide⟩
  have := ((h.2 (7, false) ⟨by decide, by decide⟩ (by decide) (by decide)).1 rfl).1
  exact absurd this (by decide)

/-- **C125.** `dup3` is as documented. -/
theorem dup3_spec (lim : Nat) (T : Table) (fd newfd : Int) (c : Bool) : Dup3Spec lim T fd newfd c
    (dup3 lim T fd newfd (if c then 0o2000000 else 0)).1 (dup3 lim T fd newfd (if c then 0o2000000 else 0)).2 := by
  unfold dup3
  by_cases hn : fd = newfd
  · rw [if_pos hn]
    exact ⟨fun _ => ⟨rfl, rfl⟩, fun x => absurd hn x⟩
  · rw [if_neg hn]
    refine ⟨fun x => absurd x hn, fun _ => ⟨fun h => ?_, fun f h h0 hl => ?_⟩⟩
    · rw [sysDup3_bad h hn c]; exact ⟨rfl, rfl⟩
    · rw [sysDup3_ok h hn h0 hl c]; exact ⟨rfl, put_eq _ _ _, put_same _ _ _⟩

/-- Open and closed descriptors. -/
example : let T : Table := fun k => if k = 3 then some (7, true) else none
    Open T 3 (7, true) ∧ Closed T 4 ∧ Closed T (-1) ∧ (dup 8 T 3).1 = .ret 0 ∧ (dup2 8 T 3 5).2 5 = some (7, false) := by
  refine ⟨⟨by decide, by decide⟩, fun f h => ?_, fun f h => absurd h.1 (by decide), by decide, by decide⟩
  have := h.2
  simp at this

/-! ## Theorems: pseudo-terminals -/

theorem login_eq {lim : Nat} (hl : 3 ≤ lim) {T : Table} {fd : Nat} {f : Nat × Bool} (h : T fd = some f) (h3 : 3 ≤ fd) :
    loginTty lim none T fd = (.ret 0, sysClose (put (put (put T 0 (some (f.1, false))) 1 (some (f.1, false))) 2 (some (f.1, false))) fd) := by
  have dupTo : ∀ (T : Table) (n : Nat), n < 3 → T fd = some f →
      sysDup3 lim T fd (n : Int) 0 = (.ret n, put T n (some (f.1, false))) := by
    intro T n hn hT
    have := sysDup3_ok (lim := lim) (T := T) (fd := fd) (newfd := n) (f := f) ⟨by omega, by simpa using hT⟩ (by omega) (by omega)
      (by omega) false
    simpa using this
  have keep : ∀ (T : Table) (n : Nat) (v : Option (Nat × Bool)), n < 3 → T fd = some f → put T n v fd = some f := by
    intro T n v hn hT
    simp only [put]; rw [if_neg (by omega)]; exact hT
  have d0 := dupTo T 0 (by omega) h
  have k0 := keep T 0 (some (f.1, false)) (by omega) h
  have d1 := dupTo _ 1 (by omega) k0
  have k1 := keep _ 1 (some (f.1, false)) (by omega) k0
  have d2 := dupTo _ 2 (by omega) k1
  simp only [Int.natCast_zero, Int.natCast_one, Int.cast_ofNat_Int] at d0 d1 d2
  unfold loginTty
  simp only [d0, d1, d2]

/-- **C125** (a terminal that is not itself a standard descriptor). After `login_tty` the terminal is the three standard
    descriptors, its old number is closed and the other descriptors are as before. -/
theorem login_tty_partial (lim : Nat) (hl : 3 ≤ lim) (T : Table) (fd : Nat) (f : Nat × Bool) (h : T fd = some f) (h3 : 3 ≤ fd) :
    (loginTty lim none T fd).1 = .ret 0 ∧ Standard (loginTty lim none T fd).2 f.1 ∧ (loginTty lim none T fd).2 fd = none ∧
    SameBut [0, 1, 2, fd] T (loginTty lim none T fd).2 := by
  rw [login_eq hl h h3]
  refine ⟨rfl, ⟨?_, ?_, ?_⟩, ?_, ?_⟩
  · simp only [sysClose, put]; rw [if_neg (by omega)]; rfl
  · simp only [sysClose, put]; rw [if_neg (by omega)]; rfl
  · simp only [sysClose, put]; rw [if_neg (by omega)]; rfl
  · simp [sysClose, put]
  · intro k hk
    simp at hk
    simp [sysClose, put, hk]

/-- **C125 does not hold in full**: `login_tty(0)` fails for a terminal that is the standard input. -/
theorem login_tty_violated : let T : Table := fun k => if k = 0 then some (7, false) else none
    (loginTty 1024 none T 0).1 = .err 22 := by decide

/-- **C125** (the kernel gives the name of the terminal). `openpty` gives two new descriptors, the master and the slave; when it
    fails, the descriptors are as before, and errno is the error of the kernel. -/
theorem openpty_spec_partial (lim : Nat) (w : Pty) (T : Table) (hn : w.name = none) :
    (∃ m s fm fs, (openpty lim w T).1 = .ok m s ∧ w.master = .ok fm ∧ w.slave = .ok fs ∧ m ≠ s ∧ m < lim ∧ s < lim ∧
      T m = none ∧ T s = none ∧ (openpty lim w T).2 m = some (fm, false) ∧ (openpty lim w T).2 s = some (fs, false) ∧
      SameBut [m, s] T (openpty lim w T).2) ∨
    (∃ e, (openpty lim w T).1 = .fail (some e) ∧ (openpty lim w T).2 = T ∧ (w.master = .error e ∨ w.slave = .error e ∨ e = 24)) := by
  unfold openpty
  cases hm : w.master with
  | error e => exact Or.inr ⟨e, rfl, rfl, Or.inl rfl⟩
  | ok fm =>
    simp only [sysOpen]
    cases ha : alloc lim T with
    | none => exact Or.inr ⟨24, rfl, rfl, Or.inr (Or.inr rfl)⟩
    | some m =>
      obtain ⟨ml, mf, -⟩ := alloc_some ha
      simp only [hn]
      have back : sysClose (put T m (some (fm, false))) m = T := by
        funext k
        simp only [sysClose, put]
        by_cases hk : k = m
        · simp [hk, mf]
        · simp [hk]
      cases hs : w.slave with
      | error e => exact Or.inr ⟨e, rfl, back, Or.inr (Or.inl rfl)⟩
      | ok fs =>
        dsimp only
        cases hb : alloc lim (put T m (some (fm, false))) with
        | none => exact Or.inr ⟨24, rfl, back, Or.inr (Or.inr rfl)⟩
        | some s =>
          obtain ⟨sl, sf, -⟩ := alloc_some hb
          have hne : m ≠ s := by
            intro e
            subst e
            rw [put_eq] at sf
            cases sf
          have hs0 : T s = none := by simpa [put, hne.symm] using sf
          refine Or.inl ⟨m, s, fm, fs, rfl, rfl, rfl, hne, ml, sl, mf, hs0, ?_, put_eq _ _ _, ?_⟩
          · simp [put, hne]
          · intro k hk
            simp at hk
            simp [put, hk]

/-- A pseudo-terminal. -/
example : (openpty 1024 ⟨.ok 5, none, .ok 6⟩ (fun k => if k < 3 then some (0, false) else none)).1 = .ok 3 4 := by decide +kernel

/-- **C125 does not hold in full**: if the terminal has no name, `openpty` fails without setting errno. -/
theorem openpty_errno_violated : (openpty 1024 ⟨.ok 5, some 25, .ok 6⟩ (fun _ => none)).1 = .fail none := by decide +kernel

/-- **C125** (standard descriptors open, no error). After `forkpty` the parent has the master as its only new descriptor; the
    child has the slave as its three standard descriptors, and besides them what the parent had and the master. -/
theorem forkpty_spec_partial (lim : Nat) (hl : 3 ≤ lim) (w : Pty) (T : Table) (hn : w.name = none) (h3 : ∀ k, k < 3 → T k ≠ none)
    (m : Nat) (P : Table) (C : Option Table) (h : forkpty lim w none none T = .both m P C) :
    ∃ fm fs C', w.master = .ok fm ∧ w.slave = .ok fs ∧ T m = none ∧ P m = some (fm, false) ∧ SameBut [m] T P ∧ C = some C' ∧
      Standard C' fs ∧ C' m = some (fm, false) ∧ SameBut [0, 1, 2, m] T C' := by
  rcases openpty_spec_partial lim w T hn with ⟨m', s, fm, fs, ho, hm, hs, hne, -, -, hTm, hTs, hm2, hs2, same⟩ | ⟨e, ho, -⟩
  · have pair : openpty lim w T = (.ok m' s, (openpty lim w T).2) := by rw [← ho]
    unfold forkpty at h
    rw [pair] at h
    simp only [Forked.both.injEq] at h
    obtain ⟨h1, h2, h4⟩ := h
    subst h1
    have hm3 : 3 ≤ m' := Nat.le_of_not_lt fun x => h3 m' x hTm
    have hs3 : 3 ≤ s := Nat.le_of_not_lt fun x => h3 s x hTs
    have lg := login_tty_partial lim hl _ s (fs, false) hs2 hs3
    have lp : loginTty lim none (openpty lim w T).2 s = (.ret 0, (loginTty lim none (openpty lim w T).2 s).2) := by rw [← lg.1]
    rw [lp] at h4
    refine ⟨fm, fs, (loginTty lim none (openpty lim w T).2 s).2, hm, hs, hTm, ?_, ?_, h4.symm, lg.2.1, ?_, ?_⟩
    · rw [← h2]; simp only [sysClose, put]; rw [if_neg hne]; exact hm2
    · intro k hk
      simp at hk
      rw [← h2]
      simp only [sysClose, put]
      by_cases hks : k = s
      · rw [if_pos hks, hks, hTs]
      · rw [if_neg hks]; exact same k (by simp [hk, hks])
    · rw [lg.2.2.2 m' (by simp; omega)]; exact hm2
    · intro k hk
      simp at hk
      by_cases hks : k = s
      · rw [hks, lg.2.2.1, hTs]
      · rw [lg.2.2.2 k (by simp [hk, hks])]
        exact same k (by simp [hk, hks])
  · have pair : openpty lim w T = (.fail (some e), (openpty lim w T).2) := by rw [← ho]
    unfold forkpty at h
    rw [pair] at h
    simp at h

/-- **C125 does not hold in full**: if `fork` fails, `forkpty` leaves both descriptors of the terminal open. -/
theorem forkpty_leak_violated : let T : Table := fun k => if k < 3 then some (0, false) else none
    ∃ T', forkpty 8 ⟨.ok 5, none, .ok 6⟩ (some 11) none T = .failed (some 11) T' ∧ T 3 = none ∧ T' 3 = some (5, false) ∧
      T' 4 = some (6, false) := by
  refine ⟨_, rfl, by decide, ?_, ?_⟩ <;> decide +kernel

/-- **C125 does not hold in full**: the child keeps the master open, so it is never told that the terminal has hung up. -/
theorem forkpty_child_violated : let T : Table := fun k => if k < 3 then some (0, false) else none
    ∃ P C, forkpty 8 ⟨.ok 5, none, .ok 6⟩ none none T = .both 3 P (some C) ∧ C 0 = some (6, false) ∧ C 3 = some (5, false) := by
  refine ⟨_, _, rfl, ?_, ?_⟩ <;> decide +kernel

end Mlibc.Dup
