import Verif.Conc.Base
/-
Mutexes: `thread_mutex_timedlock`, `thread_mutex_lock`, `thread_mutex_trylock`, `thread_mutex_unlock`
(options/internal/generic/threads.cpp L267-390), called by any number of threads in any interleaving.
Properties C34, C35, C36.
-/
namespace Mlibc.Conc.Mutex

/-- Mutex types. threads.cpp L242-248 -/
inductive Kind where
  | normal | recursive | errorCheck
  deriving DecidableEq, Repr

/-- Where a thread is. The number `n` is not part of the program: it counts how many of the thread's lock calls have
succeeded without a matching unlock call. -/
inductive Pc where
  /-- outside any call, not holding the mutex -/
  | out
  /-- outside any call, between a successful lock and its unlock -/
  | inn (n : Nat)
  /-- in the loop of `timedlock` with this value of `expected`. L270-327 -/
  | lock (n : Nat) (timed : Bool) (exp : Word)
  /-- the compare-exchange of `timedlock` or (`tr`) of `trylock` succeeded. L276-278, L342-344 -/
  | took (tr : Bool)
  /-- asleep in `sys_futex_wait`. L304, L309 -/
  | sleep (timed : Bool)
  /-- `trylock`, before the load. L336 -/
  | try_ (n : Nat)
  /-- `trylock`, before the compare-exchange. L339 -/
  | tryCas (n : Nat)
  /-- `unlock`, before the test of the recursion level. L361 -/
  | unl (n : Nat)
  /-- `unlock`, before the exchange. L368 -/
  | unl2
  /-- `unlock`, before `sys_futex_wake`. L385 -/
  | wake
  /-- an assertion failed -/
  | crashed
  deriving DecidableEq, Repr

/-- Return values. -/
inductive Ret where
  | ok | edeadlk | ebusy | etimedout | eperm
  deriving DecidableEq, Repr

/-- What an outside observer sees of a step. -/
inductive Lab where
  | tau
  | callLock | callTry | callUnlock
  | retLock (r : Ret) | retTry (r : Ret) | retUnlock (r : Ret)
  deriving DecidableEq, Repr

/-- The lock word, the recursion level (an `unsigned int` in the code; here unbounded, so a thread that nests 2^32
locks is outside the model) and where each thread is. -/
structure St where
  word : Word
  recursion : Nat
  pc : Tid → Pc

/-- Outside any call, with `n` locks held. -/
def rest : Nat → Pc
  | 0 => .out
  | n + 1 => .inn (n + 1)

/-- Threads asleep go back to trying. -/
def wakeAll (pc : Tid → Pc) : Tid → Pc := fun u =>
  match pc u with
  | .sleep timed => .lock 0 timed none
  | p => p

/-- One step of thread `t` on a mutex of this kind. With `misuse`, threads may call unlock without holding the
mutex. -/
inductive Step (kind : Kind) (misuse : Bool) (t : Tid) : St → Lab → St → Prop where
  -- timedlock. L267-328 (`lock` is `timedlock` without a deadline, L330-332)
  | callLock {s} (n timed) : s.pc t = rest n →
      Step kind misuse t s .callLock { s with pc := upd s.pc t (.lock n timed none) }
  | cas {s n timed} : s.pc t = .lock n timed none → s.word = none →
      Step kind misuse t s .tau { s with word := some (t, true), pc := upd s.pc t (.took false) }
  | casFail {s n timed o w} : s.pc t = .lock n timed none → s.word = some (o, w) →
      Step kind misuse t s .tau { s with pc := upd s.pc t (.lock n timed (some (o, w))) }
  | relockRecursive {s n timed w} : s.pc t = .lock n timed (some (t, w)) → kind = .recursive →
      Step kind misuse t s (.retLock .ok) { s with recursion := s.recursion + 1, pc := upd s.pc t (.inn (n + 1)) }
  | relock {s n timed w} : s.pc t = .lock n timed (some (t, w)) → kind ≠ .recursive →
      Step kind misuse t s (.retLock .edeadlk) { s with pc := upd s.pc t (rest n) }
  | setWaiters {s n timed o} : s.pc t = .lock n timed (some (o, false)) → o ≠ t → s.word = some (o, false) →
      Step kind misuse t s .tau
        { s with word := some (o, true), pc := upd s.pc t (.lock n timed (some (o, true))) }
  | setWaitersFail {s n timed o} : s.pc t = .lock n timed (some (o, false)) → o ≠ t → s.word ≠ some (o, false) →
      Step kind misuse t s .tau { s with pc := upd s.pc t (.lock n timed s.word) }
  | futexSleep {s n timed o} : s.pc t = .lock n timed (some (o, true)) → o ≠ t → s.word = some (o, true) →
      Step kind misuse t s .tau { s with pc := upd s.pc t (.sleep timed) }
  | futexAgain {s n timed o} : s.pc t = .lock n timed (some (o, true)) → o ≠ t → s.word ≠ some (o, true) →
      Step kind misuse t s .tau { s with pc := upd s.pc t (.lock n timed none) }
  | expired {s n o} : s.pc t = .lock n true (some (o, true)) → o ≠ t →
      Step kind misuse t s (.retLock .etimedout) { s with pc := upd s.pc t (rest n) }
  | spurious {s timed} : s.pc t = .sleep timed →
      Step kind misuse t s .tau { s with pc := upd s.pc t (.lock 0 timed none) }
  | timeout {s} : s.pc t = .sleep true →
      Step kind misuse t s (.retLock .etimedout) { s with pc := upd s.pc t .out }
  | took {s tr} : s.pc t = .took tr → s.recursion = 0 →
      Step kind misuse t s (if tr then .retTry .ok else .retLock .ok)
        { s with recursion := 1, pc := upd s.pc t (.inn 1) }
  | tookBad {s tr} : s.pc t = .took tr → s.recursion ≠ 0 →
      Step kind misuse t s .tau { s with pc := upd s.pc t .crashed }
  -- trylock. L334-357
  | callTry {s} (n) : s.pc t = rest n →
      Step kind misuse t s .callTry { s with pc := upd s.pc t (.try_ n) }
  | tryFree {s n} : s.pc t = .try_ n → s.word = none →
      Step kind misuse t s .tau { s with pc := upd s.pc t (.tryCas n) }
  | tryRecursive {s n w} : s.pc t = .try_ n → s.word = some (t, w) → kind = .recursive →
      Step kind misuse t s (.retTry .ok) { s with recursion := s.recursion + 1, pc := upd s.pc t (.inn (n + 1)) }
  | tryOwn {s n w} : s.pc t = .try_ n → s.word = some (t, w) → kind ≠ .recursive →
      Step kind misuse t s (.retTry .ebusy) { s with pc := upd s.pc t (rest n) }
  | tryBusy {s n o w} : s.pc t = .try_ n → s.word = some (o, w) → o ≠ t →
      Step kind misuse t s (.retTry .ebusy) { s with pc := upd s.pc t (rest n) }
  | tryCas {s n} : s.pc t = .tryCas n → s.word = none →
      Step kind misuse t s .tau { s with word := some (t, false), pc := upd s.pc t (.took true) }
  | tryCasFail {s n o w} : s.pc t = .tryCas n → s.word = some (o, w) →
      Step kind misuse t s (.retTry .ebusy) { s with pc := upd s.pc t (rest n) }
  -- unlock. L359-390
  | callUnlock {s n} : s.pc t = rest n → (n ≠ 0 ∨ misuse = true) →
      Step kind misuse t s .callUnlock { s with pc := upd s.pc t (.unl n) }
  | unlBad {s n} : s.pc t = .unl n → s.recursion = 0 →
      Step kind misuse t s .tau { s with pc := upd s.pc t .crashed }
  | unlNested {s n} : s.pc t = .unl n → 1 < s.recursion →
      Step kind misuse t s (.retUnlock .ok)
        { s with recursion := s.recursion - 1, pc := upd s.pc t (rest (n - 1)) }
  | unlLast {s n} : s.pc t = .unl n → s.recursion = 1 →
      Step kind misuse t s .tau { s with recursion := 0, pc := upd s.pc t .unl2 }
  | exchange {s} : s.pc t = .unl2 → s.word = some (t, false) →
      Step kind misuse t s (.retUnlock .ok) { s with word := none, pc := upd s.pc t .out }
  | exchangeWake {s} : s.pc t = .unl2 → s.word = some (t, true) →
      Step kind misuse t s .tau { s with word := none, pc := upd s.pc t .wake }
  | exchangeEperm {s} : s.pc t = .unl2 → s.word.owner ≠ some t → kind = .errorCheck →
      Step kind misuse t s (.retUnlock .eperm) { s with word := none, pc := upd s.pc t .out }
  | exchangeBad {s} : s.pc t = .unl2 → s.word.owner ≠ some t → kind ≠ .errorCheck →
      Step kind misuse t s .tau { s with word := none, pc := upd s.pc t .crashed }
  | wake {s} : s.pc t = .wake →
      Step kind misuse t s (.retUnlock .ok) { s with pc := upd (wakeAll s.pc) t .out }

/-- A fresh mutex (`__mlibc_mutex()`, threads.cpp L240), no thread in a call. -/
def Init (s : St) : Prop := s.word = none ∧ s.recursion = 0 ∧ ∀ t, s.pc t = .out

/-- A step of any thread. -/
def Sys (kind : Kind) (misuse : Bool) (s : St) (e : Tid × Lab) (s' : St) : Prop := Step kind misuse e.1 s e.2 s'

/-- States reachable by any number of threads in any interleaving. -/
def Reachable (kind : Kind) (misuse : Bool) : St → Prop :=
  Reach Init (fun s s' => ∃ e, Sys kind misuse s e s')

/-! ## Invariant -/

/-- The thread is the owner recorded in the lock word. -/
def Pc.owning : Pc → Bool
  | .inn _ | .took _ | .unl2 | .unl _ => true
  | .lock n _ _ | .try_ n | .tryCas n => decide (n ≠ 0)
  | _ => false

/-- The number of locks a thread in this place has, as far as the recursion level counts them. -/
def Pc.depth : Pc → Nat
  | .inn n | .unl n | .lock n _ _ | .try_ n | .tryCas n => n
  | _ => 0

structure Inv (kind : Kind) (s : St) : Prop where
  /-- a thread inside the mutex is the recorded owner -/
  owns : ∀ t, (s.pc t).owning = true → s.word.owner = some t
  /-- the recorded owner is inside the mutex -/
  owned : ∀ t w, s.word = some (t, w) → (s.pc t).owning = true
  /-- the recursion level counts the owner's locks -/
  depth : ∀ t, (s.pc t).owning = true → s.recursion = (s.pc t).depth
  free : s.word = none → s.recursion = 0
  simple : kind ≠ .recursive → s.recursion ≤ 1
  innPos : ∀ t n, s.pc t = .inn n ∨ s.pc t = .unl n → n ≠ 0
  /-- what a thread has read of the lock word about itself is right -/
  expSelf : ∀ t n timed w, s.pc t = .lock n timed (some (t, w)) → n ≠ 0
  expOther : ∀ t n timed o w, s.pc t = .lock n timed (some (o, w)) → o ≠ t → n = 0
  tryFree : ∀ t n, s.pc t = .tryCas n → n = 0
  /-- while a thread sleeps, the waiters bit is set or the wake-up is about to be issued -/
  sleepers : ∀ t timed, s.pc t = .sleep timed → (∃ o, s.word = some (o, true)) ∨ ∃ u, s.pc u = .wake
  noCrash : ∀ t, s.pc t ≠ .crashed

theorem rest_owning (n : Nat) : (rest n).owning = decide (n ≠ 0) := by cases n <;> rfl
theorem rest_depth (n : Nat) : (rest n).depth = n := by cases n <;> rfl

theorem rest_cases (n : Nat) : (n = 0 ∧ rest n = .out) ∨ (n ≠ 0 ∧ rest n = .inn n) := by cases n <;> simp [rest]
grind_pattern rest_cases => rest n

theorem upd_pc (s : St) (t u : Tid) (x : Pc) : upd s.pc t x u = if u = t then x else s.pc u := rfl
grind_pattern upd_pc => upd s.pc t x, s.pc u

theorem inv_init (kind : Kind) (s : St) (h : Init s) : Inv kind s := by
  obtain ⟨h1, h2, h3⟩ := h
  constructor <;> simp [h1, h2, h3, Pc.owning]

set_option maxHeartbeats 2000000 in
theorem inv_step (kind : Kind) (s s' : St) (h : Inv kind s) (t : Tid) (l : Lab) (hs : Step kind false t s l s') :
    Inv kind s' := by
  obtain ⟨h1, h2, h3, h4, h5, h6, h7, h8, h9, h10, h11⟩ := h
  cases hs <;> constructor <;>
    (simp only; intros; grind [Pc.owning, Pc.depth, wakeAll])

theorem inv_reach {kind : Kind} {s : St} (h : Reachable kind false s) : Inv kind s :=
  h.invariant (inv_init kind) (fun _ _ h ⟨_, hs⟩ => inv_step _ _ _ h _ _ hs)

end Mlibc.Conc.Mutex
