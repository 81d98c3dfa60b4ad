import Verif.Base

/-!
# Locks on sections of files

`lockf`, options/posix/generic/unistd.cpp L573-602, on top of the record locks of the kernel.

The kernel is a relation: for every process and byte it remembers the lock that the process has there (a read lock, a write lock,
none), it may refuse a call with any error, and F_GETLK reports any one of the locks that are in the way.  Not modelled: the end
of the locks when a file is closed, deadlock detection, positions that do not fit into `off_t`.
-/

namespace Mlibc.Lockf

/-! ## Specification -/

/-- The section of `size` bytes at the position of the file: `size` bytes from there on, up to the largest possible position if
    `size` is 0, the bytes before it if `size` is negative. -/
def Section (pos : Nat) (size : Int) (b : Nat) : Prop :=
  (0 < size ∧ pos ≤ b ∧ (b : Int) < pos + size) ∨ (size = 0 ∧ pos ≤ b) ∨ (size < 0 ∧ (pos : Int) + size ≤ b ∧ b < pos)

inductive Op
  | test | lock | tlock | ulock | other
deriving DecidableEq, Repr

/-- A call by process `pid` where the file is at position `pos`. -/
structure Call where
  pid : Nat
  op : Op
  pos : Nat
  size : Int

/-- 0, -1 with errno, or that the call waits (and is made again later). -/
inductive Answer
  | ok | err (e : Nat) | waits
deriving DecidableEq, Repr

/-- Which process has locked each byte. -/
abbrev Held := Nat → Option Nat

/-- No other process has locked a byte of the section. -/
def Free (h : Held) (c : Call) : Prop := ∀ b, Section c.pos c.size b → h b = none ∨ h b = some c.pid

/-- The bytes of the section belong to the caller now; the others to whom they belonged before. -/
def Takes (h : Held) (c : Call) (h' : Held) : Prop :=
  ∀ b, (Section c.pos c.size b → h' b = some c.pid) ∧ (¬ Section c.pos c.size b → h' b = h b)

/-- The bytes of the section do not belong to the caller any more; nothing else changes. -/
def Leaves (h : Held) (c : Call) (h' : Held) : Prop :=
  ∀ b, (Section c.pos c.size b ∧ h b = some c.pid → h' b = none) ∧
    (¬ (Section c.pos c.size b ∧ h b = some c.pid) → h' b = h b)

/-- `lockf` as POSIX has it; EACCES is 13, EAGAIN is 11, EINVAL is 22. -/
def Posix (h : Held) (c : Call) (r : Answer) (h' : Held) : Prop :=
  if c.op = .other ∨ (c.pos : Int) + c.size < 0 then r = .err 22 ∧ h' = h
  else match c.op with
    | .test => h' = h ∧ (Free h c → r = .ok) ∧ (¬ Free h c → r = .err 13)
    | .tlock => (Free h c → r = .ok ∧ Takes h c h') ∧ (¬ Free h c → (r = .err 11 ∨ r = .err 13) ∧ h' = h)
    | .lock => (Free h c → r = .ok ∧ Takes h c h') ∧ (¬ Free h c → r = .waits ∧ h' = h)
    | _ => r = .ok ∧ Leaves h c h'

/-- A history of calls of any processes: each is answered as POSIX has it, or it is refused with an error of the kernel and
    changes nothing. -/
inductive PosixRun : Held → List (Call × Option Nat × Answer) → Held → Prop
  | nil (h : Held) : PosixRun h [] h
  | call {h h' h'' : Held} {c r evs} : Posix h c r h' → PosixRun h' evs h'' → PosixRun h ((c, none, r) :: evs) h''
  | refused {h h'' : Held} {c e evs} : c.op ≠ .other → PosixRun h evs h'' → PosixRun h ((c, some e, .err e) :: evs) h''
  | unknown {h h'' : Held} {c e evs} : c.op = .other → PosixRun h evs h'' → PosixRun h ((c, some e, .err 22) :: evs) h''

/-! ## The kernel -/

inductive Kind
  | rd | wr | un
deriving DecidableEq, Repr

inductive Cmd
  | getlk | setlk | setlkw
deriving DecidableEq, Repr

/-- `struct flock` with `l_whence` SEEK_CUR. -/
structure Flock where
  type : Kind
  start : Int
  len : Int
  pid : Nat

/-- The locks: of a process, at a byte; `true` is a write lock. -/
abbrev Locks := Nat → Nat → Option Bool

/-- The lock `k` of process `q` at byte `b` is in the way of `p`. -/
def InWay (K : Locks) (p : Nat) (S : Nat → Prop) (t : Kind) (q b : Nat) (k : Bool) : Prop :=
  q ≠ p ∧ S b ∧ K q b = some k ∧ (t = .wr ∨ t = .rd ∧ k = true)

def Conflict (K : Locks) (p : Nat) (S : Nat → Prop) (t : Kind) : Prop := ∃ q b k, InWay K p S t q b k

/-- The caller's locks in the section are replaced. -/
def Put (K : Locks) (p : Nat) (S : Nat → Prop) (t : Kind) (K' : Locks) : Prop :=
  ∀ q b, (q = p ∧ S b → K' q b = match t with | .rd => some false | .wr => some true | .un => none) ∧
    (¬ (q = p ∧ S b) → K' q b = K q b)

/-- `fcntl` with a record lock: sysdeps/linux/generic/sysdeps.cpp `Sysdeps<Fcntl>`, with the meaning POSIX gives the commands.
    `fail` is an error with which the kernel refuses the call. -/
def fcntl (K : Locks) (p pos : Nat) (fail : Option Nat) (cmd : Cmd) (l : Flock) (r : Answer) (l' : Flock) (K' : Locks) : Prop :=
  let at' : Int := pos + l.start
  match fail with
  | some e => r = .err e ∧ l' = l ∧ K' = K
  | none =>
    if at' < 0 ∨ at' + l.len < 0 then r = .err 22 ∧ l' = l ∧ K' = K
    else
      let S := Section at'.toNat l.len
      match cmd with
      | .getlk =>
        r = .ok ∧ K' = K ∧
        ((∃ q b k, InWay K p S l.type q b k ∧ l' = { l with type := if k then .wr else .rd, pid := q }) ∨
         ¬ Conflict K p S l.type ∧ l' = { l with type := .un })
      | .setlk => l' = l ∧ (¬ Conflict K p S l.type → r = .ok ∧ Put K p S l.type K') ∧
          (Conflict K p S l.type → r = .err 11 ∧ K' = K)
      | .setlkw => l' = l ∧ (¬ Conflict K p S l.type → r = .ok ∧ Put K p S l.type K') ∧
          (Conflict K p S l.type → r = .waits ∧ K' = K)

/-! ## The code -/

/-- options/posix/generic/unistd.cpp L573-602 `lockf` -/
def lockf (K : Locks) (c : Call) (fail : Option Nat) (r : Answer) (K' : Locks) : Prop :=
  let l : Flock := { type := .wr, start := 0, len := c.size, pid := 0 }                              -- L574-580
  match c.op with
  | .test => ∃ r1 l1, fcntl K c.pid c.pos fail .getlk { l with type := .rd } r1 l1 K' ∧              -- L584-585
      r = if r1 ≠ .ok then r1                                                                        -- L586
          else if l1.type = .un ∨ l1.pid = c.pid then .ok else .err 13                               -- L587-590
  | .ulock => ∃ l1, fcntl K c.pid c.pos fail .setlk { l with type := .un } r l1 K'                   -- L591-595
  | .tlock => ∃ l1, fcntl K c.pid c.pos fail .setlk l r l1 K'                                        -- L594-595
  | .lock => ∃ l1, fcntl K c.pid c.pos fail .setlkw l r l1 K'                                        -- L596-597
  | .other => r = .err 22 ∧ K' = K                                                                   -- L600-601

/-- A history of calls. -/
inductive Run : Locks → List (Call × Option Nat × Answer) → Locks → Prop
  | nil (K : Locks) : Run K [] K
  | call {K K' K'' : Locks} {c f r evs} : lockf K c f r K' → Run K' evs K'' → Run K ((c, f, r) :: evs) K''

/-! ## Proofs -/

/-- Every lock of the kernel is a write lock, and is that of the process to which the byte belongs. -/
def Abs (K : Locks) (h : Held) : Prop := ∀ p b, (K p b = some true ↔ h b = some p) ∧ K p b ≠ some false

theorem free_iff {K : Locks} {h : Held} (a : Abs K h) (c : Call) (t : Kind) (ht : t ≠ .un) :
    ¬ Conflict K c.pid (Section c.pos c.size) t ↔ Free h c := by
  constructor
  · intro nc b hb
    cases e : h b with
    | none => exact Or.inl rfl
    | some q =>
      refine Or.inr ?_
      by_cases hq : q = c.pid
      · rw [hq]
      · refine absurd ⟨q, b, true, hq, hb, ((a q b).1).2 e, ?_⟩ nc
        cases t <;> simp at ht ⊢
  · rintro fr ⟨q, b, k, hq, hb, hk, -⟩
    cases k with
    | false => exact (a q b).2 hk
    | true =>
      have := ((a q b).1).1 hk
      rcases fr b hb with h1 | h1 <;> rw [this] at h1 <;> simp at h1
      exact hq h1

theorem no_conflict_un (K : Locks) (p : Nat) (S : Nat → Prop) : ¬ Conflict K p S .un := by
  rintro ⟨q, b, k, -, -, -, h⟩
  simp at h

/-- Taking a section that is free. -/
theorem abs_takes {K K' : Locks} {h : Held} (a : Abs K h) (c : Call) (fr : Free h c)
    (pt : Put K c.pid (Section c.pos c.size) .wr K') : ∃ h', Abs K' h' ∧ Takes h c h' := by
  classical
  refine ⟨fun b => if Section c.pos c.size b then some c.pid else h b, ?_, ?_⟩
  · intro p b
    by_cases hs : Section c.pos c.size b
    · by_cases hp : p = c.pid
      · rw [(pt p b).1 ⟨hp, hs⟩]; simp [hs, hp]
      · rw [(pt p b).2 (fun x => hp x.1)]
        refine ⟨?_, (a p b).2⟩
        simp only [if_pos hs]
        constructor
        · intro hk
          have := ((a p b).1).1 hk
          rcases fr b hs with h1 | h1 <;> rw [this] at h1 <;> simp at h1
          exact absurd h1 hp
        · intro e; simp at e; exact absurd e.symm hp
    · rw [(pt p b).2 (fun x => hs x.2)]
      simp only [if_neg hs]
      exact a p b
  · intro b
    exact ⟨fun hs => if_pos hs, fun hs => if_neg hs⟩

/-- Leaving a section. -/
theorem abs_leaves {K K' : Locks} {h : Held} (a : Abs K h) (c : Call)
    (pt : Put K c.pid (Section c.pos c.size) .un K') : ∃ h', Abs K' h' ∧ Leaves h c h' := by
  classical
  refine ⟨fun b => if Section c.pos c.size b ∧ h b = some c.pid then none else h b, ?_, ?_⟩
  · intro p b
    by_cases hs : Section c.pos c.size b
    · by_cases hp : p = c.pid
      · rw [(pt p b).1 ⟨hp, hs⟩]
        by_cases hh : h b = some c.pid
        · simp [hs, hh]
        · simp [hs, hp, hh]
      · rw [(pt p b).2 (fun x => hp x.1)]
        refine ⟨?_, (a p b).2⟩
        dsimp only
        by_cases hh : h b = some c.pid
        · rw [if_pos ⟨hs, hh⟩, (a p b).1, hh]
          simp
          exact fun e => hp e.symm
        · rw [if_neg (fun x => hh x.2)]
          exact (a p b).1
    · rw [(pt p b).2 (fun x => hs x.2)]
      dsimp only
      rw [if_neg (fun x => hs x.1)]
      exact a p b
  · intro b
    exact ⟨fun x => if_pos x, fun x => if_neg x⟩

/-- A call that `fcntl` refuses. -/
theorem lockf_refused {K K' : Locks} {c : Call} {f : Option Nat} {r : Answer} (e : Nat)
    (hf : ∀ cmd t r' l' K', fcntl K c.pid c.pos f cmd { type := t, start := 0, len := c.size, pid := 0 } r' l' K' →
      r' = .err e ∧ K' = K) (hl : lockf K c f r K') : K' = K ∧ r = .err (if c.op = .other then 22 else e) := by
  unfold lockf at hl
  cases ho : c.op <;> rw [ho] at hl
  · obtain ⟨r1, l1, h1, h2⟩ := hl
    obtain ⟨h3, h4⟩ := hf _ _ _ _ _ h1
    subst h3
    exact ⟨h4, by rw [h2]; simp⟩
  · obtain ⟨l1, h1⟩ := hl
    obtain ⟨h3, h4⟩ := hf _ _ _ _ _ h1
    exact ⟨h4, by rw [h3]; simp⟩
  · obtain ⟨l1, h1⟩ := hl
    obtain ⟨h3, h4⟩ := hf _ _ _ _ _ h1
    exact ⟨h4, by rw [h3]; simp⟩
  · obtain ⟨l1, h1⟩ := hl
    obtain ⟨h3, h4⟩ := hf _ _ _ _ _ h1
    exact ⟨h4, by rw [h3]; simp⟩
  · exact ⟨hl.2, by rw [hl.1]; simp⟩

/-- One call. -/
theorem lockf_step {K K' : Locks} {h : Held} {c : Call} {f : Option Nat} {r : Answer} (a : Abs K h) (hl : lockf K c f r K') :
    ∃ h', Abs K' h' ∧ (f = none → Posix h c r h') ∧
      (∀ e, f = some e → h' = h ∧ r = .err (if c.op = .other then 22 else e)) := by
  cases f with
  | some e =>
    obtain ⟨h1, h2⟩ := lockf_refused (K := K) (c := c) (f := some e) e (fun cmd t r' l' K' x => ⟨x.1, x.2.2⟩) hl
    refine ⟨h, by rw [h1]; exact a, fun x => by simp at x, fun e' he => ?_⟩
    injection he with he
    subst he
    exact ⟨rfl, h2⟩
  | none =>
    by_cases hn : (c.pos : Int) + c.size < 0
    · obtain ⟨h1, h2⟩ := lockf_refused (K := K) (c := c) (f := none) 22 (fun cmd t r' l' K' x => by
        simp only [fcntl, Int.add_zero] at x
        rw [if_pos (Or.inr hn)] at x
        exact ⟨x.1, x.2.2⟩) hl
      refine ⟨h, by rw [h1]; exact a, fun _ => ?_, fun e x => by simp at x⟩
      unfold Posix
      rw [if_pos (Or.inr hn)]
      exact ⟨by rw [h2]; simp, rfl⟩
    · have hz : ¬ ((c.pos : Int) + 0 < 0 ∨ (c.pos : Int) + 0 + c.size < 0) := by omega
      have hp : ((c.pos : Int) + 0).toNat = c.pos := by omega
      unfold lockf at hl
      cases ho : c.op <;> rw [ho] at hl
      · -- test
        obtain ⟨r1, l1, hf, hr⟩ := hl
        simp only [fcntl, if_neg hz, hp] at hf
        obtain ⟨h1, h2, h3⟩ := hf
        subst h1
        simp only [ne_eq, not_true_eq_false, if_false] at hr
        refine ⟨h, by rw [h2]; exact a, ?_, fun e x => by cases x⟩
        intro _
        simp only [Posix, ho, hn, or_false, reduceCtorEq, if_false]
        have fi := free_iff a c .rd (by decide)
        refine ⟨trivial, fun fr => ?_, fun nf => ?_⟩
        · rcases h3 with ⟨q, b, k, hw, -⟩ | ⟨-, he⟩
          · exact absurd ⟨q, b, k, hw⟩ (fi.2 fr)
          · rw [hr, he]; simp
        · rcases h3 with ⟨q, b, k, hw, he⟩ | ⟨nc, -⟩
          · have hq := hw.1
            rw [hr, he]
            cases k <;> simp [hq]
          · exact absurd (fi.1 nc) nf
      · -- lock
        obtain ⟨l1, hf⟩ := hl
        simp only [fcntl, if_neg hz, hp] at hf
        obtain ⟨-, h1, h2⟩ := hf
        have fi := free_iff a c .wr (by decide)
        by_cases fr : Free h c
        · obtain ⟨hr, pt⟩ := h1 (fi.2 fr)
          obtain ⟨h', ha, ht⟩ := abs_takes a c fr pt
          refine ⟨h', ha, fun _ => ?_, fun e x => by cases x⟩
          simp only [Posix, ho, hn, or_false, reduceCtorEq, if_false]
          exact ⟨fun _ => ⟨hr, ht⟩, fun nf => absurd fr nf⟩
        · have cf : Conflict K c.pid (Section c.pos c.size) .wr := Classical.byContradiction fun nc => fr (fi.1 nc)
          obtain ⟨hr, hk⟩ := h2 cf
          refine ⟨h, by rw [hk]; exact a, fun _ => ?_, fun e x => by cases x⟩
          simp only [Posix, ho, hn, or_false, reduceCtorEq, if_false]
          exact ⟨fun x => absurd x fr, fun _ => ⟨hr, trivial⟩⟩
      · -- tlock
        obtain ⟨l1, hf⟩ := hl
        simp only [fcntl, if_neg hz, hp] at hf
        obtain ⟨-, h1, h2⟩ := hf
        have fi := free_iff a c .wr (by decide)
        by_cases fr : Free h c
        · obtain ⟨hr, pt⟩ := h1 (fi.2 fr)
          obtain ⟨h', ha, ht⟩ := abs_takes a c fr pt
          refine ⟨h', ha, fun _ => ?_, fun e x => by cases x⟩
          simp only [Posix, ho, hn, or_false, reduceCtorEq, if_false]
          exact ⟨fun _ => ⟨hr, ht⟩, fun nf => absurd fr nf⟩
        · have cf : Conflict K c.pid (Section c.pos c.size) .wr := Classical.byContradiction fun nc => fr (fi.1 nc)
          obtain ⟨hr, hk⟩ := h2 cf
          refine ⟨h, by rw [hk]; exact a, fun _ => ?_, fun e x => by cases x⟩
          simp only [Posix, ho, hn, or_false, reduceCtorEq, if_false]
          exact ⟨fun x => absurd x fr, fun _ => ⟨Or.inl hr, trivial⟩⟩
      · -- ulock
        obtain ⟨l1, hf⟩ := hl
        simp only [fcntl, if_neg hz, hp] at hf
        obtain ⟨-, h1, -⟩ := hf
        obtain ⟨hr, pt⟩ := h1 (no_conflict_un _ _ _)
        obtain ⟨h', ha, ht⟩ := abs_leaves a c pt
        refine ⟨h', ha, fun _ => ?_, fun e x => by cases x⟩
        simp only [Posix, ho, hn, or_false, reduceCtorEq, if_false]
        exact ⟨hr, ht⟩
      · -- other
        refine ⟨h, by rw [hl.2]; exact a, fun _ => ?_, fun e x => by cases x⟩
        simp [Posix, ho, hl.1]

/-! ## Theorems -/

/-- **C123.** In every history of calls of `lockf`, by any processes, on any sections of a file, with any errors of the kernel,
    each call is answered as POSIX has it for the bytes that each process has locked. -/
theorem lockf_history (evs : List (Call × Option Nat × Answer)) (K : Locks) (hr : Run (fun _ _ => none) evs K) :
    ∃ h, PosixRun (fun _ => none) evs h ∧ ∀ p b, K p b ≠ none ↔ h b = some p := by
  have gen : ∀ (K0 K : Locks) (evs : List (Call × Option Nat × Answer)), Run K0 evs K → ∀ h0, Abs K0 h0 →
      ∃ h, PosixRun h0 evs h ∧ Abs K h := by
    intro K0 K evs hr
    induction hr with
    | nil K => intro h0 a; exact ⟨h0, .nil _, a⟩
    | @call K K' K'' c f r evs hl _ ih =>
      intro h0 a
      obtain ⟨h', ha, hp, he⟩ := lockf_step a hl
      obtain ⟨h, hrun, hab⟩ := ih h' ha
      refine ⟨h, ?_, hab⟩
      cases f with
      | none => exact .call (hp rfl) hrun
      | some e =>
        obtain ⟨h1, h2⟩ := he e rfl
        subst h1
        by_cases ho : c.op = .other
        · rw [if_pos ho] at h2; rw [h2]; exact .unknown ho hrun
        · rw [if_neg ho] at h2; rw [h2]; exact .refused ho hrun
  obtain ⟨h, hrun, ha⟩ := gen _ _ _ hr (fun _ => none) (fun p b => by simp)
  refine ⟨h, hrun, fun p b => ?_⟩
  have := ha p b
  cases e : K p b with
  | none => rw [e] at this; simp at this ⊢; exact this
  | some k =>
    cases k with
    | false => exact absurd e this.2
    | true => simp; exact this.1.1 e

/-- **C123** (exclusion). After every history no byte is locked by two processes. -/
theorem lockf_exclusive (evs : List (Call × Option Nat × Answer)) (K : Locks) (hr : Run (fun _ _ => none) evs K)
    (p q b : Nat) (hp : K p b ≠ none) (hq : K q b ≠ none) : p = q := by
  obtain ⟨h, -, ha⟩ := lockf_history evs K hr
  have h1 := (ha p b).1 hp
  rw [(ha q b).1 hq] at h1
  injection h1 with h1
  exact h1.symm

/-- Every call has an answer. -/
theorem lockf_answers (K : Locks) (c : Call) (f : Option Nat) : ∃ r K', lockf K c f r K' := by
  classical
  have put : ∀ S t, ∃ K', Put K c.pid S t K' := fun S t =>
    ⟨fun q b => if q = c.pid ∧ S b then (match t with | .rd => some false | .wr => some true | .un => none) else K q b,
      fun q b => ⟨fun x => if_pos x, fun x => if_neg x⟩⟩
  have fc : ∀ cmd l, ∃ r l' K', fcntl K c.pid c.pos f cmd l r l' K' := by
    intro cmd l
    cases f with
    | some e => exact ⟨_, _, _, rfl, rfl, rfl⟩
    | none =>
      simp only [fcntl]
      by_cases hb : (c.pos : Int) + l.start < 0 ∨ (c.pos : Int) + l.start + l.len < 0
      · exact ⟨.err 22, l, K, by rw [if_pos hb]; exact ⟨rfl, rfl, rfl⟩⟩
      · simp only [if_neg hb]
        by_cases hc : Conflict K c.pid (Section ((c.pos : Int) + l.start).toNat l.len) l.type
        · cases cmd
          · obtain ⟨q, b, k, hw⟩ := hc
            exact ⟨.ok, _, K, rfl, rfl, Or.inl ⟨q, b, k, hw, rfl⟩⟩
          · exact ⟨.err 11, l, K, rfl, fun x => absurd hc x, fun _ => ⟨rfl, rfl⟩⟩
          · exact ⟨.waits, l, K, rfl, fun x => absurd hc x, fun _ => ⟨rfl, rfl⟩⟩
        · obtain ⟨K', hk⟩ := put (Section ((c.pos : Int) + l.start).toNat l.len) l.type
          cases cmd
          · exact ⟨.ok, _, K, rfl, rfl, Or.inr ⟨hc, rfl⟩⟩
          · exact ⟨.ok, l, K', rfl, fun _ => ⟨rfl, hk⟩, fun x => absurd x hc⟩
          · exact ⟨.ok, l, K', rfl, fun _ => ⟨rfl, hk⟩, fun x => absurd x hc⟩
  unfold lockf
  cases c.op
  · obtain ⟨r, l, K', h⟩ := fc .getlk _
    exact ⟨_, K', r, l, h, rfl⟩
  · obtain ⟨r, l, K', h⟩ := fc .setlkw _
    exact ⟨r, K', l, h⟩
  · obtain ⟨r, l, K', h⟩ := fc .setlk _
    exact ⟨r, K', l, h⟩
  · obtain ⟨r, l, K', h⟩ := fc .setlk _
    exact ⟨r, K', l, h⟩
  · exact ⟨_, _, rfl, rfl⟩

/-- Histories exist: process 1 locks bytes 10 to 19; process 2 is refused bytes 15 to 24 and gets the bytes from 20 on. -/
example : ∃ K, Run (fun _ _ => none) [(⟨1, .tlock, 10, 10⟩, none, .ok), (⟨2, .tlock, 15, 10⟩, none, .err 11),
    (⟨2, .lock, 20, 0⟩, none, .ok)] K ∧ K 1 10 ≠ none ∧ K 2 20 ≠ none := by
  let K1 : Locks := fun q b => if q = 1 ∧ 10 ≤ b ∧ b < 20 then some true else none
  let K2 : Locks := fun q b => if q = 2 ∧ 20 ≤ b then some true else K1 q b
  have put1 : Put (fun _ _ => none) 1 (Section 10 10) .wr K1 := by
    intro q b
    have : Section 10 10 b ↔ 10 ≤ b ∧ b < 20 := by unfold Section; omega
    rw [this]
    exact ⟨fun x => if_pos x, fun x => if_neg x⟩
  have put2 : Put K1 2 (Section 20 0) .wr K2 := by
    intro q b
    have : Section 20 0 b ↔ 20 ≤ b := by unfold Section; omega
    rw [this]
    exact ⟨fun x => if_pos x, fun x => if_neg x⟩
  have c1 : ¬ Conflict (fun _ _ => none) 1 (Section 10 10) .wr := by rintro ⟨q, b, k, -, -, h, -⟩; cases h
  have c2 : Conflict K1 2 (Section 15 10) .wr :=
    ⟨1, 15, true, by decide, by unfold Section; omega, by simp [K1], Or.inl rfl⟩
  have c3 : ¬ Conflict K1 2 (Section 20 0) .wr := by
    rintro ⟨q, b, k, -, hs, h, -⟩
    have : ¬ (q = 1 ∧ 10 ≤ b ∧ b < 20) := by unfold Section at hs; omega
    simp only [K1, if_neg this] at h
    cases h
  refine ⟨K2, .call (K' := K1) ?_ (.call (K' := K1) ?_ (.call (K' := K2) ?_ (.nil _))), by simp [K2, K1], by simp [K2]⟩
  · exact ⟨_, rfl, fun _ => ⟨rfl, put1⟩, fun x => absurd x c1⟩
  · exact ⟨_, rfl, fun x => absurd c2 x, fun _ => ⟨rfl, rfl⟩⟩
  · exact ⟨_, rfl, fun _ => ⟨rfl, put2⟩, fun x => absurd x c3⟩

end Mlibc.Lockf
