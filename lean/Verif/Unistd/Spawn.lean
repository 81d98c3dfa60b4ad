import Verif.Base

/-
posix_spawn (options/posix/generic/spawn.cpp L61-300, L430-490). A file descriptor table maps numbers to an open file and the
close-on-exec flag. Files, paths, directories and signal masks are opaque numbers. The calls that the attributes ask for (session,
process group, scheduling, ids, dispositions) are one step that succeeds or fails. Interrupted writes to the pipe are
repeated until they succeed; the parent's read is not interrupted, since signals are blocked. Property C76.
-/
namespace Mlibc.Spawn
open Mlibc

/-! ## Model -/

structure File where
  obj : Nat
  cloexec : Bool
  deriving DecidableEq, Repr

abbrev Table := Nat → Option File

def Table.set (t : Table) (fd : Nat) (f : Option File) : Table := fun x => if x = fd then f else t x

/-- What a program finds open after exec. -/
def Table.visible (t : Table) : Nat → Option Nat := fun fd =>
  match t fd with
  | some f => if f.cloexec then none else some f.obj
  | none => none

/-- The system: the number that the next new descriptor gets, what opening and changing directories lead to (or the errno), what exec
does in a directory and with descriptors (`none`: it succeeds), errors of pipe2, fork and the calls for the attributes. -/
structure Kernel where
  alloc : Table → Nat
  openF : Nat → Nat → Except Nat Nat
  chdir : Nat → Nat → Except Nat Nat
  fchdir : Nat → Except Nat Nat
  exec : Nat → (Nat → Option Nat) → Option Nat
  pipe : Option Nat
  fork : Option Nat
  attr : Option Nat

/-- The file actions; `open` has the close-on-exec bit of its flags. L430-485 -/
inductive Op where
  | close (fd : Nat)
  | dup2 (src fd : Nat)
  | openAt (fd path : Nat) (cloexec : Bool)
  | chdir (path : Nat)
  | fchdir (fd : Nat)
  deriving DecidableEq, Repr

/-- `op.fd`; -1 for chdir. L430-485 -/
def Op.fd : Op → Option Nat
  | .close fd => some fd
  | .dup2 _ fd => some fd
  | .openAt fd _ _ => some fd
  | .chdir _ => none
  | .fchdir fd => some fd

/-- State of the child while it carries out the actions: table, directory, descriptor of the pipe. -/
structure Child where
  table : Table
  cwd : Nat
  p : Nat

/-- Moving the pipe out of the way. L151-160 -/
def relocate (k : Kernel) (fd : Option Nat) (c : Child) : Child :=
  if fd = some c.p then
    let n := k.alloc c.table
    let t := match c.table c.p with
      | some f => c.table.set n (some ⟨f.obj, false⟩)
      | none => c.table
    { c with table := t.set c.p none, p := n }
  else c

/-- One action, with the pipe out of the way. EBADF is 9. L161-217 -/
def action (k : Kernel) (op : Op) (c : Child) : Except Nat Child :=
  match op with
  | .close fd => .ok { c with table := c.table.set fd none }
  | .dup2 src fd =>
    if src = c.p then .error 9
    else if src ≠ fd then
      match c.table src with
      | none => .error 9
      | some f => .ok { c with table := c.table.set fd (some ⟨f.obj, false⟩) }
    else
      match c.table src with
      | none => .error 9
      | some f => .ok { c with table := c.table.set src (some ⟨f.obj, false⟩) }
  | .openAt fd path cloexec =>
    match k.openF c.cwd path with
    | .error e => .error e
    | .ok obj =>
      let n := k.alloc c.table
      let t := c.table.set n (some ⟨obj, cloexec⟩)
      if n ≠ fd then .ok { c with table := (t.set fd (some ⟨obj, false⟩)).set n none } else .ok { c with table := t }
  | .chdir path => match k.chdir c.cwd path with
    | .error e => .error e
    | .ok d => .ok { c with cwd := d }
  | .fchdir fd => match c.table fd with
    | none => .error 9
    | some f => match k.fchdir f.obj with
      | .error e => .error e
      | .ok d => .ok { c with cwd := d }

/-- The loop over the actions. L146-219 -/
def actions (k : Kernel) : List Op → Child → Except Nat Child
  | [], c => .ok c
  | op :: ops, c => match action k op (relocate k op.fd c) with
    | .error e => .error e
    | .ok c => actions k ops c

/-- What the new program starts with. -/
structure Image where
  files : Nat → Option Nat
  cwd : Nat
  mask : Nat

/-- `child`: the error written to the pipe, or the new program. L61-244 -/
def child (k : Kernel) (ops : List Op) (mask : Option Nat) (oldmask : Nat) (p0 : Nat) (c : Child) : Except Nat Image :=
  let c := { c with table := c.table.set p0 none }
  match k.attr with
  | some e => .error e
  | none => match actions k ops c with
    | .error e => .error e
    | .ok c =>
      let t := match c.table c.p with
        | some f => c.table.set c.p (some ⟨f.obj, true⟩)
        | none => c.table
      match k.exec c.cwd t.visible with
      | some e => .error e
      | none => .ok ⟨t.visible, c.cwd, mask.getD oldmask⟩

/-- State of the parent after the call. -/
structure Parent where
  table : Table
  mask : Nat
  cancel : Nat
  zombie : Bool

/-- `posix_spawn_impl`: return value, whether the child runs, the new program, the parent. `w` is the pipe. L246-300 -/
def posixSpawn (k : Kernel) (ops : List Op) (attrMask : Option Nat) (w : Nat) (t : Table) (cwd mask cancel : Nat) : Nat × Option Image × Parent :=
  let oldmask := mask
  match k.pipe with
  | some e => (e, none, ⟨t, oldmask, cancel, false⟩)
  | none =>
    let p0 := k.alloc t
    let t1 := t.set p0 (some ⟨w, true⟩)
    let p1 := k.alloc t1
    let t2 := t1.set p1 (some ⟨w, true⟩)
    match k.fork with
    | some e => (e, none, ⟨t2, oldmask, cancel, false⟩)
    | none =>
      let r := child k ops attrMask oldmask p0 ⟨t2, cwd, p1⟩
      let t3 := (t2.set p1 none).set p0 none
      match r with
      | .error e => (if e = 0 then 0 else e, none, ⟨t3, oldmask, cancel, decide (e = 0)⟩)
      | .ok im => (0, some im, ⟨t3, oldmask, cancel, false⟩)

/-- `posix_spawn_file_actions_addclose`, `_adddup2`, `_addopen`, `_addfchdir`: EBADF for negative numbers. L430-485 -/
def add (ops : List Op) (fds : List Int) (op : Op) : Nat × List Op := if ∃ x ∈ fds, x < 0 then (9, ops) else (0, ops ++ [op])

/-! ## Specification -/
namespace Spec

/-- A table and a directory, and one action on them: as the functions close, dup2, open, chdir and fchdir would do it, except that dup2
onto itself clears close-on-exec, and open gives exactly the wanted number. -/
def step (k : Kernel) (op : Op) (s : Table × Nat) : Except Nat (Table × Nat) :=
  match op with
  | .close fd => .ok (fun x => if x = fd then none else s.1 x, s.2)
  | .dup2 src fd => match s.1 src with
    | none => .error 9
    | some f => .ok (fun x => if x = fd then some ⟨f.obj, false⟩ else s.1 x, s.2)
  | .openAt fd path cloexec => match k.openF s.2 path with
    | .error e => .error e
    | .ok obj => .ok (fun x => if x = fd then some ⟨obj, cloexec⟩ else s.1 x, s.2)
  | .chdir path => (k.chdir s.2 path).map fun d => (s.1, d)
  | .fchdir fd => match s.1 fd with
    | none => .error 9
    | some f => (k.fchdir f.obj).map fun d => (s.1, d)

def steps (k : Kernel) : List Op → Table × Nat → Except Nat (Table × Nat)
  | [], s => .ok s
  | op :: ops, s => match step k op s with
    | .error e => .error e
    | .ok s => steps k ops s

/-- The new program, or the error: attributes, actions on the caller's descriptors, exec. -/
def spawn (k : Kernel) (ops : List Op) (attrMask : Option Nat) (t : Table) (cwd mask : Nat) : Except Nat Image :=
  match k.attr with
  | some e => .error e
  | none => match steps k ops (t, cwd) with
    | .error e => .error e
    | .ok s => match k.exec s.2 s.1.visible with
      | some e => .error e
      | none => .ok ⟨s.1.visible, s.2, attrMask.getD mask⟩

/-- Finitely many descriptors are open. -/
def Finite (t : Table) : Prop := ∃ n, ∀ fd, n ≤ fd → t fd = none

/-- The system gives out numbers that are free. -/
def Fresh (k : Kernel) : Prop := ∀ t : Table, Finite t → t (k.alloc t) = none

/-- Errors are not zero. -/
structure Errors (k : Kernel) : Prop where
  openF : ∀ d p, k.openF d p ≠ .error 0
  chdir : ∀ d p, k.chdir d p ≠ .error 0
  fchdir : ∀ d, k.fchdir d ≠ .error 0
  exec : ∀ d f, k.exec d f ≠ some 0
  attr : k.attr ≠ some 0

/-- No file is opened with O_CLOEXEC. -/
def Plain (ops : List Op) : Prop := ∀ fd path c, Op.openAt fd path c ∈ ops → c = false

end Spec
open Spec

/-! ## Proof -/

/-- The child's state stands for a table and a directory: the pipe is hidden in a number that is free. -/
structure Sim (c : Child) (s : Table × Nat) : Prop where
  other : ∀ fd, fd ≠ c.p → c.table fd = s.1 fd
  hidden : s.1 c.p = none
  pipe : ∃ f, c.table c.p = some f
  cwd : c.cwd = s.2
  fin : Finite c.table

theorem Spec.Finite.set {t : Table} (h : Finite t) (fd : Nat) (f : Option File) : Finite (t.set fd f) := by
  obtain ⟨n, hn⟩ := h
  refine ⟨n + fd + 1, fun x hx => ?_⟩
  unfold Table.set
  rw [if_neg (by omega)]
  exact hn x (by omega)

theorem relocate_sim {k : Kernel} (hk : Fresh k) {c : Child} {s : Table × Nat} (h : Sim c s) (fd : Option Nat) :
    Sim (relocate k fd c) s ∧ fd ≠ some (relocate k fd c).p := by
  unfold relocate
  by_cases hfd : fd = some c.p
  · rw [if_pos hfd]
    obtain ⟨f, hf⟩ := h.pipe
    have hn := hk c.table h.fin
    have hne : k.alloc c.table ≠ c.p := by intro e; rw [e, hf] at hn; cases hn
    simp only [hf]
    refine ⟨⟨?_, ?_, ?_, h.cwd, Finite.set (Finite.set h.fin _ _) _ _⟩, ?_⟩
    · intro x hx
      simp only [Table.set]
      by_cases h1 : x = c.p
      · rw [if_pos h1, h1, h.hidden]
      · rw [if_neg h1, if_neg hx]
        exact h.other x h1
    · show s.1 (k.alloc c.table) = none
      rw [← h.other _ hne]
      exact hn
    · refine ⟨⟨f.obj, false⟩, ?_⟩
      simp only [Table.set]
      rw [if_neg hne, if_pos trivial]
    · rw [hfd]
      intro e
      injection e with e
      exact hne e.symm
  · rw [if_neg hfd]
    exact ⟨h, hfd⟩

theorem action_sim {k : Kernel} (hk : Fresh k) {c : Child} {s : Table × Nat} (h : Sim c s) (op : Op) (hfd : op.fd ≠ some c.p)
    (hplain : ∀ fd path x, op = .openAt fd path x → x = false) :
    match action k op c with
    | .error e => step k op s = .error e
    | .ok c' => ∃ s', step k op s = .ok s' ∧ Sim c' s' := by
  obtain ⟨f, hf⟩ := h.pipe
  cases op with
  | close fd =>
    have hne : fd ≠ c.p := fun e => hfd (by rw [e]; rfl)
    refine ⟨_, rfl, ?_, ?_, ?_, h.cwd, Finite.set h.fin _ _⟩
    · intro x hx
      simp only [Table.set]
      split
      · rfl
      · exact h.other x hx
    · show (if c.p = fd then none else s.1 c.p) = none
      rw [h.hidden]; split <;> rfl
    · refine ⟨f, ?_⟩
      simp only [Table.set]
      rw [if_neg (fun e => hne e.symm), hf]
  | dup2 src fd =>
    have hne : fd ≠ c.p := fun e => hfd (by rw [e]; rfl)
    have hsim : ∀ g : File, Sim { c with table := c.table.set fd (some ⟨g.obj, false⟩) } (fun x => if x = fd then some ⟨g.obj, false⟩ else s.1 x, s.2) := by
      intro g
      refine ⟨?_, ?_, ?_, h.cwd, Finite.set h.fin _ _⟩
      · intro x hx
        simp only [Table.set]
        split
        · rfl
        · exact h.other x hx
      · show (if c.p = fd then _ else s.1 c.p) = none
        rw [if_neg (fun e => hne e.symm), h.hidden]
      · refine ⟨f, ?_⟩
        simp only [Table.set]
        rw [if_neg (fun e => hne e.symm), hf]
    simp only [action]
    by_cases hp : src = c.p
    · rw [if_pos hp]
      simp only [step]
      rw [hp, h.hidden]
    · rw [if_neg hp]
      have ho := h.other src hp
      by_cases he : src ≠ fd
      · rw [if_pos he]
        simp only [step]
        rw [← ho]
        cases c.table src with
        | none => rfl
        | some g => exact ⟨_, rfl, hsim g⟩
      · rw [if_neg he]
        have he : src = fd := Classical.not_not.1 he
        subst he
        simp only [step]
        rw [← ho]
        cases c.table src with
        | none => rfl
        | some g => exact ⟨_, rfl, hsim g⟩
  | openAt fd path x =>
    have hne : fd ≠ c.p := fun e => hfd (by rw [e]; rfl)
    have hx := hplain fd path x rfl
    subst hx
    simp only [action, step]
    rw [h.cwd]
    cases k.openF s.2 path with
    | error e => rfl
    | ok obj =>
      simp only []
      have hn := hk c.table h.fin
      have hnp : k.alloc c.table ≠ c.p := by intro e; rw [e, hf] at hn; cases hn
      by_cases he : k.alloc c.table ≠ fd
      · rw [if_pos he]
        refine ⟨_, rfl, ?_, ?_, ?_, rfl, Finite.set (Finite.set (Finite.set h.fin _ _) _ _) _ _⟩
        · intro y hy
          simp only [Table.set]
          by_cases h1 : y = k.alloc c.table
          · rw [if_pos h1, h1, if_neg he, ← h.other _ hnp, hn]
          · rw [if_neg h1]
            split
            · rfl
            · exact h.other y hy
        · show (if c.p = fd then _ else s.1 c.p) = none
          rw [if_neg (fun e => hne e.symm), h.hidden]
        · refine ⟨f, ?_⟩
          simp only [Table.set]
          rw [if_neg (fun e => hnp e.symm), if_neg (fun e => hne e.symm), if_neg (fun e => hnp e.symm), hf]
      · rw [if_neg he]
        have he : k.alloc c.table = fd := Classical.not_not.1 he
        refine ⟨_, rfl, ?_, ?_, ?_, rfl, Finite.set h.fin _ _⟩
        · intro y hy
          simp only [Table.set]
          rw [he]
          split
          · rfl
          · exact h.other y hy
        · show (if c.p = fd then _ else s.1 c.p) = none
          rw [if_neg (fun e => hne e.symm), h.hidden]
        · refine ⟨f, ?_⟩
          simp only [Table.set]
          rw [if_neg (fun e => hnp e.symm), hf]
  | chdir path =>
    simp only [action, step]
    rw [h.cwd]
    cases k.chdir s.2 path with
    | error e => rfl
    | ok d => exact ⟨_, rfl, h.other, h.hidden, h.pipe, rfl, h.fin⟩
  | fchdir fd =>
    have hne : fd ≠ c.p := fun e => hfd (by rw [e]; rfl)
    simp only [action, step]
    rw [← h.other fd hne]
    cases c.table fd with
    | none => rfl
    | some g =>
      simp only []
      cases k.fchdir g.obj with
      | error e => rfl
      | ok d => exact ⟨_, rfl, h.other, h.hidden, h.pipe, rfl, h.fin⟩

theorem actions_sim {k : Kernel} (hk : Fresh k) (ops : List Op) (hplain : Plain ops) {c : Child} {s : Table × Nat} (h : Sim c s) :
    match actions k ops c with
    | .error e => steps k ops s = .error e
    | .ok c' => ∃ s', steps k ops s = .ok s' ∧ Sim c' s' := by
  induction ops generalizing c s with
  | nil => exact ⟨s, rfl, h⟩
  | cons op ops ih =>
    obtain ⟨h1, h2⟩ := relocate_sim hk h op.fd
    have ha := action_sim hk h1 op h2 (fun fd path x hx => hplain fd path x (by rw [hx]; simp))
    simp only [actions, steps]
    generalize hr : action k op (relocate k op.fd c) = r at ha
    cases r with
    | error e =>
      simp only at ha
      simp only []
      rw [ha]
    | ok c' =>
      obtain ⟨s', hs', hsim⟩ := ha
      simp only []
      rw [hs']
      exact ih (fun fd path x hx => hplain fd path x (by simp [hx])) hsim

theorem child_spec {k : Kernel} (hk : Fresh k) (ops : List Op) (hplain : Plain ops) (attrMask : Option Nat) (mask p0 : Nat) (c : Child) (s : Table × Nat)
    (h : Sim { c with table := c.table.set p0 none } s) : child k ops attrMask mask p0 c = spawn k ops attrMask s.1 s.2 mask := by
  unfold child spawn
  cases k.attr with
  | some e => rfl
  | none =>
    simp only []
    have ha := actions_sim hk ops hplain h
    generalize hr : actions k ops { c with table := c.table.set p0 none } = r at ha
    cases r with
    | error e =>
      simp only at ha
      rw [show steps k ops (s.1, s.2) = .error e from ha]
    | ok c' =>
      obtain ⟨s', hs', hsim⟩ := ha
      rw [show steps k ops (s.1, s.2) = .ok s' from hs']
      simp only []
      obtain ⟨f, hf⟩ := hsim.pipe
      rw [hf]
      simp only []
      have hv : (c'.table.set c'.p (some ⟨f.obj, true⟩)).visible = s'.1.visible := by
        funext x
        unfold Table.visible Table.set
        by_cases hx : x = c'.p
        · subst hx
          simp [hsim.hidden]
        · rw [if_neg hx, hsim.other x hx]
      rw [hv, hsim.cwd]

theorem steps_error {k : Kernel} (he : Errors k) (ops : List Op) (s : Table × Nat) : steps k ops s ≠ .error 0 := by
  induction ops generalizing s with
  | nil => intro h; cases h
  | cons op ops ih =>
    simp only [steps]
    cases hs : step k op s with
    | ok s' => exact ih s'
    | error e =>
      simp only []
      intro h0
      injection h0 with h0
      subst h0
      cases op with
      | close fd => cases hs
      | dup2 src fd =>
        simp only [step] at hs
        split at hs <;> cases hs
      | openAt fd path x =>
        simp only [step] at hs
        cases h : k.openF s.2 path with
        | error e => rw [h] at hs; cases hs; exact he.openF _ _ h
        | ok o => rw [h] at hs; cases hs
      | chdir path =>
        simp only [step] at hs
        cases h : k.chdir s.2 path with
        | error e => rw [h] at hs; cases hs; exact he.chdir _ _ h
        | ok o => rw [h] at hs; cases hs
      | fchdir fd =>
        simp only [step] at hs
        split at hs
        · cases hs
        · rename_i f hf
          cases h : k.fchdir f.obj with
          | error e => rw [h] at hs; cases hs; exact he.fchdir _ h
          | ok o => rw [h] at hs; cases hs

theorem spawn_error {k : Kernel} (he : Errors k) (ops : List Op) (am : Option Nat) (t : Table) (cwd mask : Nat) : spawn k ops am t cwd mask ≠ .error 0 := by
  unfold spawn
  intro h
  split at h
  · rename_i e h'
    injection h with h
    exact he.attr (by rw [h', h])
  · split at h
    · rename_i e h'
      injection h with h
      exact steps_error he ops _ (by rw [h', h])
    · split at h
      · rename_i e h'
        injection h with h
        exact he.exec _ _ (by rw [h', h])
      · cases h

/-! ## C76 -/

/-- posix_spawn: if the attributes, the file actions (in order, on the caller's descriptors; the pipe that the implementation uses is
nowhere to be seen) and exec succeed, it returns 0 and the program runs with those descriptors, that directory and the wanted signal
mask; else it returns the error of the first thing that failed, and no child is left. In both cases the caller's descriptors, signal
mask and cancellation state are as before. Partial: no O_CLOEXEC in addopen. -/
theorem posix_spawn_partial (k : Kernel) (hk : Fresh k) (he : Errors k) (hpipe : k.pipe = none) (hfork : k.fork = none) (ops : List Op) (hplain : Plain ops)
    (attrMask : Option Nat) (w : Nat) (t : Table) (hfin : Finite t) (cwd mask cancel : Nat) :
    posixSpawn k ops attrMask w t cwd mask cancel =
      match spawn k ops attrMask t cwd mask with
      | .ok im => (0, some im, ⟨t, mask, cancel, false⟩)
      | .error e => (e, none, ⟨t, mask, cancel, false⟩) := by
  have h0 := hk t hfin
  have h1 := hk (t.set (k.alloc t) (some ⟨w, true⟩)) (Finite.set hfin _ _)
  have hne : k.alloc (t.set (k.alloc t) (some ⟨w, true⟩)) ≠ k.alloc t := by
    intro e
    rw [e] at h1
    simp [Table.set] at h1
  have h1t : t (k.alloc (t.set (k.alloc t) (some ⟨w, true⟩))) = none := by
    simp only [Table.set] at h1
    rw [if_neg hne] at h1
    exact h1
  unfold posixSpawn
  rw [hpipe, hfork]
  simp only []
  generalize hp0 : k.alloc t = p0 at *
  generalize hp1 : k.alloc (t.set p0 (some ⟨w, true⟩)) = p1 at *
  have hsim : Sim { ({ table := (t.set p0 (some ⟨w, true⟩)).set p1 (some ⟨w, true⟩), cwd := cwd, p := p1 } : Child) with
      table := ((t.set p0 (some ⟨w, true⟩)).set p1 (some ⟨w, true⟩)).set p0 none } (t, cwd) := by
    refine ⟨?_, h1t, ⟨⟨w, true⟩, ?_⟩, rfl, Finite.set (Finite.set (Finite.set hfin _ _) _ _) _ _⟩
    · intro x hx
      simp only [Table.set]
      by_cases hx0 : x = p0
      · rw [if_pos hx0, hx0, h0]
      · rw [if_neg hx0, if_neg hx, if_neg hx0]
    · simp only [Table.set]
      rw [if_neg hne, if_pos trivial]
  rw [child_spec hk ops hplain attrMask mask p0 _ _ hsim]
  have ht : ((((t.set p0 (some ⟨w, true⟩)).set p1 (some ⟨w, true⟩)).set p1 none).set p0 none) = t := by
    funext x
    simp only [Table.set]
    by_cases hx0 : x = p0
    · rw [if_pos hx0, hx0, h0]
    · rw [if_neg hx0]
      by_cases hx1 : x = p1
      · rw [if_pos hx1, hx1, h1t]
      · rw [if_neg hx1, if_neg hx1, if_neg hx0]
  rw [ht]
  cases hs : spawn k ops attrMask t cwd mask with
  | ok im => simp
  | error e =>
    have : e ≠ 0 := fun e0 => spawn_error he ops attrMask t cwd mask (by rw [hs, e0])
    simp [this]

/-- If there is no pipe, nothing has happened. -/
theorem posix_spawn_no_pipe (k : Kernel) (e : Nat) (h : k.pipe = some e) (ops : List Op) (attrMask : Option Nat) (w : Nat) (t : Table) (cwd mask cancel : Nat) :
    posixSpawn k ops attrMask w t cwd mask cancel = (e, none, ⟨t, mask, cancel, false⟩) := by
  unfold posixSpawn
  rw [h]

/-- Actions are added at the end; numbers that cannot be descriptors are refused. -/
theorem add_spec (ops : List Op) (fds : List Int) (op : Op) :
    ((∀ x ∈ fds, 0 ≤ x) → add ops fds op = (0, ops ++ [op])) ∧ ((∃ x ∈ fds, x < 0) → add ops fds op = (9, ops)) := by
  unfold add
  refine ⟨fun h => ?_, fun h => ?_⟩
  · rw [if_neg]
    rintro ⟨x, hx, h'⟩
    have := h x hx
    omega
  · rw [if_pos h]

/-! ### Examples and where the code differs -/

/-- The lowest free number below 100, else 100 (which is never used here). -/
def low (t : Table) : Nat := ((List.range 100).find? (fun n => (t n).isNone)).getD 100

/-- Standard input, output and error. -/
def std : Table := fun fd => if fd < 3 then some ⟨fd + 10, false⟩ else none

def sys : Kernel := ⟨low, fun _ p => if p = 7 then .ok 70 else .error 2, fun _ p => .ok p, fun o => .ok o, fun _ _ => none, none, none, none⟩

/-- The pipe is at 4; the actions open 4, close 0 and use 4 as standard input. -/
example : (posixSpawn sys [.openAt 4 7 false, .close 0, .dup2 4 0] none 99 std 1 0 0).2.1.map (fun im => [0, 4, 1, 3, 5].map im.files) =
    some [some 70, some 70, some 11, none, none] := by decide +kernel

/-- A dup2 of the number of the pipe fails. -/
example : (posixSpawn sys [.dup2 4 0] none 99 std 1 0 0).1 = 9 := by decide +kernel

/-- The hypotheses can be met. -/
example : ∃ k : Kernel, Fresh k ∧ Errors k ∧ k.pipe = none ∧ k.fork = none ∧ Finite std ∧ Plain [.openAt 4 7 false, .dup2 4 0] := by
  have hfree : ∀ t : Table, ∃ n, Finite t → t n = none := by
    intro t
    by_cases h : Finite t
    · obtain ⟨n, hn⟩ := h
      exact ⟨n, fun _ => hn n (Nat.le_refl n)⟩
    · exact ⟨0, fun h' => absurd h' h⟩
  refine ⟨{ sys with alloc := fun t => Classical.choose (hfree t) }, fun t h => Classical.choose_spec (hfree t) h, ⟨?_, ?_, ?_, ?_, ?_⟩, rfl, rfl, ⟨3, ?_⟩, ?_⟩
  · intro d p; unfold sys; simp only []; split <;> simp
  · intro d p h; cases h
  · intro d h; cases h
  · intro d f h; cases h
  · intro h; cases h
  · intro fd h; unfold std; rw [if_neg (by omega)]
  · intro fd path c h; simp at h; exact h.2.2

/-- With O_CLOEXEC it depends on which numbers are free whether the new program gets the file: at 5 it does, at 3 (where the read end of
the pipe was) it does not. -/
theorem cloexec_violated :
    (posixSpawn sys [.openAt 5 7 true] none 99 std 1 0 0).2.1.map (fun im => im.files 5) = some (some 70) ∧
    (posixSpawn sys [.openAt 3 7 true] none 99 std 1 0 0).2.1.map (fun im => im.files 3) = some none := by decide +kernel

/-- If fork fails, both ends of the pipe stay open in the caller. -/
theorem fork_failure_violated (k : Kernel) (hk : Fresh k) (hp : k.pipe = none) (e : Nat) (hf : k.fork = some e) (ops : List Op) (attrMask : Option Nat) (w : Nat)
    (t : Table) (hfin : Finite t) (cwd mask cancel : Nat) :
    ∃ a b, a ≠ b ∧ t a = none ∧ t b = none ∧ (posixSpawn k ops attrMask w t cwd mask cancel).2.2.table a = some ⟨w, true⟩ ∧
      (posixSpawn k ops attrMask w t cwd mask cancel).2.2.table b = some ⟨w, true⟩ := by
  have h1 := hk (t.set (k.alloc t) (some ⟨w, true⟩)) (Finite.set hfin _ _)
  have hne : k.alloc (t.set (k.alloc t) (some ⟨w, true⟩)) ≠ k.alloc t := by
    intro e
    rw [e] at h1
    simp [Table.set] at h1
  refine ⟨_, _, hne.symm, hk t hfin, ?_, ?_, ?_⟩
  · simp only [Table.set] at h1
    rw [if_neg hne] at h1
    exact h1
  all_goals
    unfold posixSpawn
    rw [hp, hf]
    simp only [Table.set]
  · rw [if_neg hne.symm, if_pos trivial]
  · rw [if_pos trivial]

end Mlibc.Spawn
