import Verif.Conc.Base
/-
Thread cancellation: `pthread_setcanceltype`, `pthread_setcancelstate`, `pthread_testcancel`, `pthread_cancel`, `pthread_exit`, the handler
of SIGCANCEL (options/posix/generic/pthread.cpp L419-446, L497-714), `thread_exit` as far as cancellation matters, `thread_testcancel`,
`__mlibc_do_cancel` (options/internal/generic/threads.cpp L47-50, L191-231, L566-573), and the cancellable system calls of Linux
(sysdeps/linux/x86_64/cp_syscall.S, sysdeps/linux/generic/cxx-syscall.hpp L93-108, sysdeps/linux/generic/sysdeps.cpp L1636-1657).
One target thread, any number of threads that cancel it, the signal arriving between any two instructions. The thread has been started
(its enable bit is set, sysdeps/linux/generic/thread.cpp L19). Thread-local destructors and key destructors count as cleanup handlers.
Property C80.
-/
set_option linter.unusedSimpArgs false
namespace Mlibc.Conc.Cancel

/-- `cancelBits`. options/internal/include/mlibc/tcb.hpp L38-49 -/
structure Bits where
  en : Bool
  as : Bool
  trig : Bool
  canc : Bool
  exit : Bool
  deriving DecidableEq, Repr

/-- Where the target is. -/
inductive Pc where
  | user
  /-- `pthread_setcanceltype(a)`: before the load, before the compare-exchange. pthread.cpp L585, L601 -/
  | tyLoad (a : Bool)
  | tyCas (a : Bool) (old : Bits)
  /-- `pthread_setcancelstate(e)`: also before `sigprocmask`. L621, L637, L643 -/
  | stLoad (e : Bool)
  | stCas (e : Bool) (old : Bits)
  | stMask (e : Bool) (was : Bool)
  /-- `thread_testcancel`: before the load, before it returns. threads.cpp L568 -/
  | test
  | testRet
  /-- a cancellable system call: before the load of the bits, between `__mlibc_syscall_begin` and the system call, asleep in the kernel,
  at `__mlibc_syscall_end` (done, or interrupted without effect), and in `do_cp_syscall` after EINTR. -/
  | cp
  | cpBegin (v : Bits)
  | cpIn
  | cpEnd (done : Bool)
  | cpIntr
  /-- `pthread_cancel(pthread_self())`. pthread.cpp L673, L682 -/
  | scLoad
  | scCas (old : Bits)
  /-- `pthread_exit`. L424, L434 -/
  | exLoad
  | exCas (old : Bits)
  /-- `thread_exit`: before the test for the exiting bit, before setting it, before the next cleanup handler. threads.cpp L194, L197, L201 -/
  | xTest
  | xOr
  | xLoop
  /-- the thread has ended; `true`: after it has stored its result and `didExit`, so that it can be joined. L227, L195 -/
  | dead (joined : Bool)
  deriving DecidableEq, Repr

/-- The handler of SIGCANCEL, interrupting the target: before the load, before the compare-exchange. pthread.cpp L509, L542 -/
inductive Hp where
  | none
  | load
  | cas (old : Bits)
  deriving DecidableEq, Repr

/-- A thread in `pthread_cancel`. pthread.cpp L673, L682, L694, L696, L708 -/
inductive CPc where
  | out
  | load
  | cas (old : Bits)
  | kill
  | reload
  | ret
  deriving DecidableEq, Repr

inductive Lab where
  | tau
  | callType (a : Bool) | retType (was : Bool)
  | callState (e : Bool) | retState (e was : Bool)
  | callTest | retTest
  | callSys
  /-- the system call takes effect -/
  | effect
  /-- it returns: with its result, or EINTR -/
  | retSys (done : Bool)
  | callSelf | retSelf
  | callExit
  | push
  /-- the thread starts to be cancelled -/
  | cancelled
  | cleanup | cleanupRet
  | ended (joined : Bool)
  /-- another thread calls `pthread_cancel` on this one, and returns 0 or ESRCH -/
  | callCancel (c : Nat) | retCancel (c : Nat) | retEsrch (c : Nat)
  deriving DecidableEq, Repr

/-- `blocked`: SIGCANCEL is masked in the target; `handlers`: cleanup handlers pushed and not yet run. -/
structure St where
  bits : Bits
  blocked : Bool
  pending : Bool
  handlers : Nat
  pc : Pc
  hp : Hp
  cpc : Nat → CPc

/-- `tcb_async_cancelled`. tcb.hpp L54-58 -/
@[grind] def asyncCancelled (b : Bits) : Bool := b.en && b.as && b.trig

/-- `BeforeCancellableSyscall`: `begin ≤ pc ≤ end`. sysdeps.cpp L1653-1656 -/
@[grind] def inRange : Pc → Bool
  | .cpBegin _ => true
  | .cpEnd _ => true
  | _ => false

/-- What the kernel does to the interrupted thread: a sleeping call ends with EINTR. -/
@[grind] def interrupted (p : Pc) : Pc := if p = .cpIn then .cpEnd false else p

inductive Step : St → Lab → St → Prop where
  -- pthread_setcanceltype. pthread.cpp L579-613
  | callType {s} (a) : s.hp = .none → s.pc = .user → Step s (.callType a) { s with pc := .tyLoad a }
  | tyLoad {s} (a) : s.hp = .none → s.pc = .tyLoad a → Step s .tau { s with pc := .tyCas a s.bits }
  | tySame {s} (a old) : s.hp = .none → s.pc = .tyCas a old → old.as = a → Step s (.retType old.as) { s with pc := .user }
  | tyCas {s} (a old) : s.hp = .none → s.pc = .tyCas a old → old.as ≠ a → s.bits = old → asyncCancelled { old with as := a } = false →
      Step s (.retType old.as) { s with bits := { old with as := a }, pc := .user }
  | tyCancel {s} (a old) : s.hp = .none → s.pc = .tyCas a old → old.as ≠ a → s.bits = old → asyncCancelled { old with as := a } = true →
      Step s .cancelled { s with bits := { old with as := a }, pc := .xTest }
  | tyFail {s} (a old) : s.hp = .none → s.pc = .tyCas a old → old.as ≠ a → Step s .tau { s with pc := .tyCas a s.bits }
  -- pthread_setcancelstate. L615-655
  | callState {s} (e) : s.hp = .none → s.pc = .user → Step s (.callState e) { s with pc := .stLoad e }
  | stLoad {s} (e) : s.hp = .none → s.pc = .stLoad e → Step s .tau { s with pc := .stCas e s.bits }
  | stSame {s} (e old) : s.hp = .none → s.pc = .stCas e old → old.en = e → Step s (.retState e old.en) { s with pc := .user }
  | stCas {s} (e old) : s.hp = .none → s.pc = .stCas e old → old.en ≠ e → s.bits = old → asyncCancelled { old with en := e } = false →
      Step s .tau { s with bits := { old with en := e }, pc := .stMask e old.en }
  | stCancel {s} (e old) : s.hp = .none → s.pc = .stCas e old → old.en ≠ e → s.bits = old → asyncCancelled { old with en := e } = true →
      Step s .cancelled { s with bits := { old with en := e }, pc := .xTest }
  | stFail {s} (e old) : s.hp = .none → s.pc = .stCas e old → old.en ≠ e → Step s .tau { s with pc := .stCas e s.bits }
  | stMask {s} (e was) : s.hp = .none → s.pc = .stMask e was → Step s (.retState e was) { s with blocked := !e, pc := .user }
  -- thread_testcancel. threads.cpp L566-573
  | callTest {s} : s.hp = .none → s.pc = .user → Step s .callTest { s with pc := .test }
  | testYes {s} : s.hp = .none → s.pc = .test → s.bits.en = true → s.bits.trig = true → Step s .cancelled { s with pc := .xTest }
  | testNo {s} : s.hp = .none → s.pc = .test → ¬ (s.bits.en = true ∧ s.bits.trig = true) → Step s .tau { s with pc := .testRet }
  | testRet {s} : s.hp = .none → s.pc = .testRet → Step s .retTest { s with pc := .user }
  -- a cancellable system call. cp_syscall.S L7-26, cxx-syscall.hpp L93-108
  | callSys {s} : s.hp = .none → s.pc = .user → Step s .callSys { s with pc := .cp }
  | cpLoad {s} : s.hp = .none → s.pc = .cp → Step s .tau { s with pc := .cpBegin s.bits }
  | cpCancel {s} (v) : s.hp = .none → s.pc = .cpBegin v → v.en = true → v.trig = true → Step s .cancelled { s with pc := .xTest }
  | cpEnter {s} (v) : s.hp = .none → s.pc = .cpBegin v → ¬ (v.en = true ∧ v.trig = true) → Step s .tau { s with pc := .cpIn }
  | effect {s} : s.hp = .none → s.pc = .cpIn → Step s .effect { s with pc := .cpEnd true }
  /-- interrupted by some other signal -/
  | eintr {s} : s.hp = .none → s.pc = .cpIn → Step s .tau { s with pc := .cpEnd false }
  | cpDone {s} : s.hp = .none → s.pc = .cpEnd true → Step s (.retSys true) { s with pc := .user }
  | cpIntr {s} : s.hp = .none → s.pc = .cpEnd false → Step s .tau { s with pc := .cpIntr }
  | intrCancel {s} : s.hp = .none → s.pc = .cpIntr → s.bits.en = true → s.bits.trig = true → Step s .cancelled { s with pc := .xTest }
  | intrRet {s} : s.hp = .none → s.pc = .cpIntr → ¬ (s.bits.en = true ∧ s.bits.trig = true) → Step s (.retSys false) { s with pc := .user }
  -- pthread_cancel on itself. pthread.cpp L672-690
  | callSelf {s} : s.hp = .none → s.pc = .user → Step s .callSelf { s with pc := .scLoad }
  | scLoad {s} : s.hp = .none → s.pc = .scLoad → Step s .tau { s with pc := .scCas s.bits }
  | scSame {s} (old) : s.hp = .none → s.pc = .scCas old → old.trig = true → Step s .retSelf { s with pc := .user }
  | scCas {s} (old) : s.hp = .none → s.pc = .scCas old → old.trig = false → s.bits = old → (old.en && old.as) = false →
      Step s .retSelf { s with bits := { old with trig := true }, pc := .user }
  | scCancel {s} (old) : s.hp = .none → s.pc = .scCas old → old.trig = false → s.bits = old → (old.en && old.as) = true →
      Step s .cancelled { s with bits := { old with trig := true }, pc := .exLoad }
  | scFail {s} (old) : s.hp = .none → s.pc = .scCas old → old.trig = false → Step s .tau { s with pc := .scCas s.bits }
  -- pthread_exit. L419-446
  | callExit {s} : s.hp = .none → s.pc = .user → Step s .callExit { s with pc := .exLoad }
  | exLoad {s} : s.hp = .none → s.pc = .exLoad → Step s .tau { s with pc := .exCas s.bits }
  | exSame {s} (old) : s.hp = .none → s.pc = .exCas old → old.en = false → old.as = false → Step s .tau { s with pc := .xTest }
  | exCas {s} (old) : s.hp = .none → s.pc = .exCas old → (old.en || old.as) = true → s.bits = old →
      Step s .tau { s with bits := { old with en := false, as := false }, pc := .xTest }
  | exFail {s} (old) : s.hp = .none → s.pc = .exCas old → (old.en || old.as) = true → Step s .tau { s with pc := .exCas s.bits }
  -- thread_exit. threads.cpp L191-231
  | xAgain {s} : s.hp = .none → s.pc = .xTest → s.bits.exit = true → Step s (.ended false) { s with pc := .dead false }
  | xTest {s} : s.hp = .none → s.pc = .xTest → s.bits.exit = false → Step s .tau { s with pc := .xOr }
  | xOr {s} : s.hp = .none → s.pc = .xOr → Step s .tau { s with bits := { s.bits with exit := true }, pc := .xLoop }
  | push {s} : s.hp = .none → s.pc = .user → Step s .push { s with handlers := s.handlers + 1 }
  | cleanup {s} (n) : s.hp = .none → s.pc = .xLoop → s.handlers = n + 1 → Step s .cleanup { s with handlers := n, pc := .user }
  | cleanupRet {s} : s.hp = .none → s.pc = .user → s.bits.exit = true → Step s .cleanupRet { s with pc := .xLoop }
  | ended {s} : s.hp = .none → s.pc = .xLoop → s.handlers = 0 → Step s (.ended true) { s with pc := .dead true }
  -- the signal arrives. SIGCANCEL is blocked while its handler runs
  | deliver {s} : s.hp = .none → (∀ j, s.pc ≠ .dead j) → s.pending = true → s.blocked = false →
      Step s .tau { s with pending := false, blocked := true, pc := interrupted s.pc, hp := .load }
  -- the handler. pthread.cpp L500-553
  | hSkip {s} : s.hp = .load → s.bits.as = false → inRange s.pc = false → Step s .tau { s with blocked := false, hp := .none }
  | hLoad {s} : s.hp = .load → ¬ (s.bits.as = false ∧ inRange s.pc = false) → Step s .tau { s with hp := .cas s.bits }
  | hLate {s} (old) : s.hp = .cas old → (old.trig = true ∧ old.canc = true) ∨ old.exit = true → Step s .tau { s with blocked := false, hp := .none }
  /-- the thread stays in the handler's context, with the signal blocked -/
  | hCancel {s} (old) : s.hp = .cas old → ¬ ((old.trig = true ∧ old.canc = true) ∨ old.exit = true) → s.bits = old →
      Step s .cancelled { s with bits := { old with trig := true, canc := true }, pc := .xTest, hp := .none }
  | hFail {s} (old) : s.hp = .cas old → ¬ ((old.trig = true ∧ old.canc = true) ∨ old.exit = true) → Step s .tau { s with hp := .cas s.bits }
  -- pthread_cancel by another thread. L662-714
  | callCancel {s} (c) : s.cpc c = .out → Step s (.callCancel c) { s with cpc := upd s.cpc c .load }
  | caLoad {s} (c) : s.cpc c = .load → Step s .tau { s with cpc := upd s.cpc c (.cas s.bits) }
  | caSame {s} (c old) : s.cpc c = .cas old → old.trig = true → Step s .tau { s with cpc := upd s.cpc c .ret }
  | caCas {s} (c old) : s.cpc c = .cas old → old.trig = false → s.bits = old →
      Step s .tau { s with bits := { old with trig := true }, cpc := upd s.cpc c (if old.en then .kill else .ret) }
  | caFail {s} (c old) : s.cpc c = .cas old → old.trig = false → Step s .tau { s with cpc := upd s.cpc c (.cas s.bits) }
  | kill {s} (c) : s.cpc c = .kill → (∀ j, s.pc ≠ .dead j) → Step s .tau { s with pending := true, cpc := upd s.cpc c .ret }
  | killDead {s} (c j) : s.cpc c = .kill → s.pc = .dead j → Step s .tau { s with cpc := upd s.cpc c .reload }
  | reload {s} (c) : s.cpc c = .reload → s.bits.exit = true → Step s .tau { s with cpc := upd s.cpc c .ret }
  | esrch {s} (c) : s.cpc c = .reload → s.bits.exit = false → Step s (.retEsrch c) { s with cpc := upd s.cpc c .out }
  | caRet {s} (c) : s.cpc c = .ret → Step s (.retCancel c) { s with cpc := upd s.cpc c .out }

/-- A started thread; `masked`: it was created by a thread that had SIGCANCEL blocked, whose mask it inherits. -/
def Init (masked : Bool) (s : St) : Prop :=
  s.bits = ⟨true, false, false, false, false⟩ ∧ s.blocked = masked ∧ s.pending = false ∧ s.handlers = 0 ∧ s.pc = .user ∧ s.hp = .none ∧
  ∀ c, s.cpc c = .out

/-- An execution and what can be observed of it. -/
inductive Exec (masked : Bool) : List Lab → St → Prop where
  | init {s} : Init masked s → Exec masked [] s
  | step {tr s l s'} : Exec masked tr s → Step s l s' → Exec masked (tr ++ [l]) s'

/-! ### Specification -/
namespace Spec

/-- Somebody has asked for the thread to be cancelled. -/
def Asked (tr : List Lab) : Prop := .callSelf ∈ tr ∨ ∃ c, .callCancel c ∈ tr

/-- Some other thread's pthread_cancel has returned 0. -/
def Requested (tr : List Lab) : Prop := ∃ c, .retCancel c ∈ tr

/-- Neither cancelled nor in pthread_exit. -/
def Alive (tr : List Lab) : Prop := .cancelled ∉ tr ∧ .callExit ∉ tr

/-- The state set last: enabled at first. -/
def stateOf (tr : List Lab) : Bool := tr.foldl (fun v l => match l with | .retState e _ => e | _ => v) true

/-- The type set last: deferred at first (`true`: asynchronous). The argument is in the call. -/
def types (tr : List Lab) : Bool × Bool :=
  tr.foldl (fun v l => match l with | .callType a => (v.1, a) | .retType _ => (v.2, v.2) | _ => v) (false, false)
def typeOf (tr : List Lab) : Bool := (types tr).1

/-- The function the thread is in. -/
inductive Call where | none | type | state | test | sys | self | exit
  deriving DecidableEq

def callOf (tr : List Lab) : Call := tr.foldl (fun v l => match l with
  | .callType _ => .type | .callState _ => .state | .callTest => .test | .callSys => .sys | .callSelf => .self | .callExit => .exit
  | .retType _ => .none | .retState _ _ => .none | .retTest => .none | .retSys _ => .none | .retSelf => .none | .cleanup => .none
  | _ => v) .none

/-- The pthread_cancel of some other thread returned before the thread's last call of a function. -/
def requests (tr : List Lab) : Bool × Bool := tr.foldl (fun v l => match l with
  | .retCancel _ => (true, v.2)
  | .callType _ => (v.1, v.1) | .callState _ => (v.1, v.1) | .callTest => (v.1, v.1) | .callSys => (v.1, v.1) | .callSelf => (v.1, v.1)
  | .callExit => (v.1, v.1)
  | _ => v) (false, false)
def requestedBefore (tr : List Lab) : Bool := (requests tr).2

end Spec
open Spec

/-! ### Executions -/

theorem exec_split {m : Bool} {a b : List Lab} {l : Lab} {s : St} (h : Exec m (a ++ l :: b) s) : ∃ s1 s2, Exec m a s1 ∧ Step s1 l s2 := by
  generalize htr : a ++ l :: b = tr at h
  induction h generalizing b with
  | init => simp at htr
  | step hx hs ih =>
    rcases List.eq_nil_or_concat b with rfl | ⟨b', x, rfl⟩
    · have : a ++ l :: [] = a ++ [l] := rfl
      rw [this] at htr
      obtain ⟨rfl, h2⟩ := List.append_inj' htr rfl
      simp at h2
      subst h2
      exact ⟨_, _, hx, hs⟩
    · rw [List.concat_eq_append, ← List.cons_append, ← List.append_assoc] at htr
      obtain ⟨h1, h2⟩ := List.append_inj' htr rfl
      exact ih h1

/-! ### Invariants -/

/-- A value read by the target agrees with the bits only it changes. -/
@[grind] def Same (old b : Bits) : Prop := old.en = b.en ∧ old.as = b.as ∧ old.canc = b.canc ∧ old.exit = b.exit ∧ (old.trig = true → b.trig = true)

theorem upd_pc (s : St) (t u : Tid) (x : CPc) : upd s.cpc t x u = if u = t then x else s.cpc u := rfl
grind_pattern upd_pc => upd s.cpc t x, s.cpc u

structure Inv1 (s : St) : Prop where
  begin : ∀ v, s.pc = .cpBegin v → Same v s.bits
  ty : ∀ a v, s.pc = .tyCas a v → Same v s.bits
  st : ∀ a v, s.pc = .stCas a v → Same v s.bits
  sc : ∀ v, s.pc = .scCas v → Same v s.bits
  ex : ∀ v, s.pc = .exCas v → Same v s.bits
  h : ∀ v, s.hp = .cas v → Same v s.bits
  ca : ∀ c v, s.cpc c = .cas v → v.trig = true → s.bits.trig = true
  pend : s.pending = true → s.bits.trig = true
  kill : ∀ c, s.cpc c = .kill → s.bits.trig = true
  ret : ∀ c, s.cpc c = .ret → s.bits.trig = true
  rel : ∀ c, s.cpc c = .reload → s.bits.trig = true ∧ s.bits.exit = true
  hp : s.hp ≠ .none → s.bits.trig = true
  hpIn : s.hp ≠ .none → s.pc ≠ .cpIn
  dead : ∀ j, s.pc = .dead j → s.bits.exit = true ∧ s.hp = .none
  loop : s.pc = .xLoop → s.bits.exit = true

theorem inv1_init {m : Bool} {s : St} (h : Init m s) : Inv1 s := by
  obtain ⟨h1, h2, h3, h4, h5, h6, h7⟩ := h
  constructor <;> simp [h1, h2, h3, h4, h5, h6, h7]

set_option maxHeartbeats 1000000 in
theorem inv1_step {s s' : St} {l : Lab} (h : Inv1 s) (hs : Step s l s') : Inv1 s' := by
  obtain ⟨i1, i2, i3, i4, i5, i6, i7, i8, i9, i10, i11, i12, i13, i14, i15⟩ := h
  cases hs <;> constructor <;> grind

/-- On the way out. -/
@[grind] def leaving : Pc → Bool
  | .exLoad => true
  | .exCas _ => true
  | .xTest => true
  | .xOr => true
  | .xLoop => true
  | .dead _ => true
  | _ => false

@[grind] def masking : Pc → Bool
  | .stMask _ _ => true
  | _ => false

/-- The signal has been sent, or is about to be. -/
def SentP (p : Bool) (f : Nat → CPc) : Prop := p = true ∨ ∃ c, f c = .kill

theorem sent_upd {p : Bool} {f : Nat → CPc} {c : Nat} {x : CPc} (h : SentP p f) (hc : f c ≠ .kill) : SentP p (upd f c x) := by
  rcases h with h | ⟨d, hd⟩
  · exact Or.inl h
  · refine Or.inr ⟨d, ?_⟩
    rw [upd_apply, if_neg (by rintro rfl; exact hc hd)]
    exact hd

theorem sent_kill {p : Bool} {f : Nat → CPc} {c : Nat} : SentP p (upd f c .kill) := Or.inr ⟨c, by simp⟩
theorem sent_true {f : Nat → CPc} : SentP true f := Or.inl rfl

grind_pattern sent_upd => SentP p (upd f c x)
grind_pattern sent_kill => SentP p (upd f c .kill)
grind_pattern sent_true => SentP true f

structure Inv2 (m : Bool) (s : St) : Prop where
  canc : s.bits.canc = true → s.bits.exit = true ∨ s.pc = .xTest ∨ s.pc = .xOr
  mask : ∀ e w, s.pc = .stMask e w → s.bits.en = e
  dis : s.bits.exit = false → leaving s.pc = false → masking s.pc = false → s.bits.en = false → s.blocked = true ∧ s.hp = .none
  enb : m = false → s.hp = .none → s.bits.exit = false → leaving s.pc = false → masking s.pc = false → s.bits.en = true → s.blocked = false
  async : s.hp = .none → s.bits.exit = false → leaving s.pc = false → s.bits.en = true → s.bits.as = true → s.bits.trig = true → SentP s.pending s.cpc
  sys : s.hp = .none → s.bits.exit = false → s.bits.en = true → s.bits.trig = true →
    (s.pc = .cpIn ∨ ∃ v, s.pc = .cpBegin v ∧ v.trig = false) → SentP s.pending s.cpc

theorem inv2_init {m : Bool} {s : St} (h : Init m s) : Inv2 m s := by
  obtain ⟨h1, h2, h3, h4, h5, h6, h7⟩ := h
  constructor <;> simp [h1, h2, h3, h4, h5, h6, h7]
  intro h _ _; exact h

set_option maxHeartbeats 1000000 in
theorem inv2_step {m : Bool} {s s' : St} {l : Lab} (h1 : Inv1 s) (h : Inv2 m s) (hs : Step s l s') : Inv2 m s' := by
  obtain ⟨i1, i2, i3, i4, i5, i6, i7, i8, i9, i10, i11, i12, i13, i14, i15⟩ := h1
  obtain ⟨j1, j2, j3, j4, j5, j6⟩ := h
  cases hs <;> constructor <;> grind

theorem inv12 {m : Bool} {tr : List Lab} {s : St} (h : Exec m tr s) : Inv1 s ∧ Inv2 m s := by
  induction h with
  | init h => exact ⟨inv1_init h, inv2_init h⟩
  | step _ hs ih => exact ⟨inv1_step ih.1 hs, inv2_step ih.1 ih.2 hs⟩

/-! ### What is observed -/

theorem stateOf_snoc (tr : List Lab) (l : Lab) : stateOf (tr ++ [l]) = match l with | .retState e _ => e | _ => stateOf tr := by
  simp only [stateOf, List.foldl_append, List.foldl_cons, List.foldl_nil]

theorem types_snoc (tr : List Lab) (l : Lab) : types (tr ++ [l]) =
    match l with | .callType a => ((types tr).1, a) | .retType _ => ((types tr).2, (types tr).2) | _ => types tr := by
  simp only [types, List.foldl_append, List.foldl_cons, List.foldl_nil]

theorem callOf_snoc (tr : List Lab) (l : Lab) : callOf (tr ++ [l]) = match l with
    | .callType _ => .type | .callState _ => .state | .callTest => .test | .callSys => .sys | .callSelf => .self | .callExit => .exit
    | .retType _ => .none | .retState _ _ => .none | .retTest => .none | .retSys _ => .none | .retSelf => .none | .cleanup => .none
    | _ => callOf tr := by
  simp only [callOf, List.foldl_append, List.foldl_cons, List.foldl_nil]

theorem requests_snoc (tr : List Lab) (l : Lab) : requests (tr ++ [l]) = match l with
    | .retCancel _ => (true, (requests tr).2)
    | .callType _ => ((requests tr).1, (requests tr).1) | .callState _ => ((requests tr).1, (requests tr).1)
    | .callTest => ((requests tr).1, (requests tr).1) | .callSys => ((requests tr).1, (requests tr).1)
    | .callSelf => ((requests tr).1, (requests tr).1) | .callExit => ((requests tr).1, (requests tr).1)
    | _ => requests tr := by
  simp only [requests, List.foldl_append, List.foldl_cons, List.foldl_nil]

theorem asked_snoc (tr : List Lab) (l : Lab) : Asked (tr ++ [l]) ↔ Asked tr ∨ l = .callSelf ∨ ∃ c, l = .callCancel c := by
  unfold Asked
  constructor
  · rintro (h | ⟨c, h⟩)
    · rcases List.mem_append.1 h with h | h
      · exact Or.inl (Or.inl h)
      · exact Or.inr (Or.inl (List.mem_singleton.1 h).symm)
    · rcases List.mem_append.1 h with h | h
      · exact Or.inl (Or.inr ⟨c, h⟩)
      · exact Or.inr (Or.inr ⟨c, (List.mem_singleton.1 h).symm⟩)
  · rintro ((h | ⟨c, h⟩) | rfl | ⟨c, rfl⟩)
    · exact Or.inl (by simp [h])
    · exact Or.inr ⟨c, by simp [h]⟩
    · exact Or.inl (by simp)
    · exact Or.inr ⟨c, by simp⟩

theorem alive_snoc (tr : List Lab) (l : Lab) : Alive (tr ++ [l]) ↔ Alive tr ∧ l ≠ .cancelled ∧ l ≠ .callExit := by
  simp only [Alive, List.mem_append, List.mem_singleton, not_or]
  constructor
  · rintro ⟨⟨a, b⟩, c, d⟩; exact ⟨⟨a, c⟩, fun h => b h.symm, fun h => d h.symm⟩
  · rintro ⟨⟨a, b⟩, c, d⟩; exact ⟨⟨a, fun h => c h.symm⟩, b, fun h => d h.symm⟩

structure Inv3 (tr : List Lab) (s : St) : Prop where
  ask : s.bits.trig = true → Asked tr
  askC : ∀ c, s.cpc c ≠ .out → Asked tr
  askS : s.pc = .scLoad ∨ (∃ v, s.pc = .scCas v) → Asked tr
  req : (requests tr).1 = true → s.bits.trig = true
  reqs : (requests tr).2 = true → (requests tr).1 = true
  bef : s.bits.en = true → s.pc = .testRet ∨ s.pc = .cpIn ∨ s.pc = .cpIntr ∨ (∃ d, s.pc = .cpEnd d) ∨ (∃ v, s.pc = .cpBegin v ∧ v.trig = false) →
    (requests tr).2 = false

theorem inv3_init {m : Bool} {s : St} (h : Init m s) : Inv3 [] s := by
  obtain ⟨h1, h2, h3, h4, h5, h6, h7⟩ := h
  constructor <;> simp [h1, h2, h3, h4, h5, h6, h7, requests]

set_option maxHeartbeats 1000000 in
theorem inv3_step {tr : List Lab} {s s' : St} {l : Lab} (h1 : Inv1 s) (h : Inv3 tr s) (hs : Step s l s') : Inv3 (tr ++ [l]) s' := by
  obtain ⟨i1, i2, i3, i4, i5, i6, i7, i8, i9, i10, i11, i12, i13, i14, i15⟩ := h1
  obtain ⟨j1, j2, j3, j4, j5, j6⟩ := h
  cases hs <;> constructor <;> simp only [asked_snoc, requests_snoc] <;> grind

end Mlibc.Conc.Cancel
