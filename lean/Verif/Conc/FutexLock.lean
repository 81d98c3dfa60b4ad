import Verif.Conc.Base
/-
The library's internal lock `FutexLockImpl<Recursive>` (options/internal/include/mlibc/lock.hpp L16-121), used with
`Recursive = true` by `flockfile`, `ftrylockfile` and `funlockfile` (options/ansi/generic/stdio.cpp L2417-2432).
Property C42.
-/
set_option linter.unusedSimpArgs false
namespace Mlibc.Conc.FutexLock

/-- Where a thread is. `n` counts, outside the program, how many of its lock calls have succeeded without an unlock. -/
inductive Pc where
  /-- outside any call -/
  | out
  /-- outside any call, between a successful lock and its unlock -/
  | inn (n : Nat)
  /-- in the loop of `lock` with this value of `expected`. L30-71 -/
  | lock (n : Nat) (exp : Word)
  /-- the compare-exchange of `lock` succeeded. L35-39 -/
  | took
  /-- the compare-exchange of `try_lock` succeeded. L82-84 -/
  | tryTook
  /-- asleep in `FutexWait`. L52 -/
  | sleep
  /-- `try_lock`, before the load. L76 -/
  | try_ (n : Nat)
  /-- `try_lock`, before the compare-exchange. L80 -/
  | tryCas (n : Nat)
  /-- `unlock`, before the decrement of the recursion level. L104 -/
  | unl (n : Nat)
  /-- `unlock`, before the exchange. L111 -/
  | unl2
  /-- `unlock`, before `FutexWake`. L117 -/
  | wake
  /-- an assertion failed, or the deadlock detector fired -/
  | crashed
  deriving DecidableEq, Repr

/-- What an outside observer sees of a step. -/
inductive Lab where
  | tau | callLock | callTry | callUnlock
  | retLock | retTry (success : Bool) | retUnlock
  deriving DecidableEq, Repr

/-- The lock word, the recursion level (a `uint32_t` in the code, here unbounded) and where each thread is. -/
structure St where
  word : Word
  recursion : Nat
  pc : Tid → Pc

/-- Outside any call, with `n` locks held. -/
def rest : Nat → Pc
  | 0 => .out
  | n + 1 => .inn (n + 1)

/-- Threads asleep go back to trying. -/
def wakeAll (pc : Tid → Pc) : Tid → Pc := fun u =>
  match pc u with
  | .sleep => .lock 0 none
  | p => p

/-- One step of thread `t`. `recursive` is the template parameter. Threads unlock only what they hold and do not lock a
non-recursive lock they hold; with `ownTry = false` they do not call `try_lock` on a recursive lock they hold. -/
inductive Step (recursive ownTry : Bool) (t : Tid) : St → Lab → St → Prop where
  -- lock. L26-72
  | callLock {s} (n) : s.pc t = rest n → (n = 0 ∨ recursive = true) →
      Step recursive ownTry t s .callLock { s with pc := upd s.pc t (.lock n none) }
  | cas {s n} : s.pc t = .lock n none → s.word = none →
      Step recursive ownTry t s .tau { s with word := some (t, false), pc := upd s.pc t .took }
  | casFail {s n o w} : s.pc t = .lock n none → s.word = some (o, w) →
      Step recursive ownTry t s .tau { s with pc := upd s.pc t (.lock n (some (o, w))) }
  | relock {s n w} : s.pc t = .lock n (some (t, w)) → recursive = true →
      Step recursive ownTry t s .retLock { s with recursion := s.recursion + 1, pc := upd s.pc t (.inn (n + 1)) }
  | deadlock {s n w} : s.pc t = .lock n (some (t, w)) → recursive = false →
      Step recursive ownTry t s .tau { s with pc := upd s.pc t .crashed }
  | setWaiters {s n o} : s.pc t = .lock n (some (o, false)) → o ≠ t → s.word = some (o, false) →
      Step recursive ownTry t s .tau { s with word := some (o, true), pc := upd s.pc t (.lock n (some (o, true))) }
  | setWaitersFail {s n o} : s.pc t = .lock n (some (o, false)) → o ≠ t → s.word ≠ some (o, false) →
      Step recursive ownTry t s .tau { s with pc := upd s.pc t (.lock n s.word) }
  | futexSleep {s n o} : s.pc t = .lock n (some (o, true)) → o ≠ t → s.word = some (o, true) →
      Step recursive ownTry t s .tau { s with pc := upd s.pc t .sleep }
  | futexAgain {s n o} : s.pc t = .lock n (some (o, true)) → o ≠ t → s.word ≠ some (o, true) →
      Step recursive ownTry t s .tau { s with pc := upd s.pc t (.lock n none) }
  | spurious {s} : s.pc t = .sleep →
      Step recursive ownTry t s .tau { s with pc := upd s.pc t (.lock 0 none) }
  | took {s} : s.pc t = .took → (recursive = true → s.recursion = 0) →
      Step recursive ownTry t s .retLock
        { s with recursion := if recursive then 1 else s.recursion, pc := upd s.pc t (.inn 1) }
  | tookBad {s} : s.pc t = .took → recursive = true → s.recursion ≠ 0 →
      Step recursive ownTry t s .tau { s with pc := upd s.pc t .crashed }
  -- try_lock. L74-100
  | callTry {s} (n) : s.pc t = rest n → (n = 0 ∨ recursive = false ∨ ownTry = true) →
      Step recursive ownTry t s .callTry { s with pc := upd s.pc t (.try_ n) }
  | tryFree {s n} : s.pc t = .try_ n → s.word = none →
      Step recursive ownTry t s .tau { s with pc := upd s.pc t (.tryCas n) }
  | tryCas {s n} : s.pc t = .tryCas n → s.word = none →
      Step recursive ownTry t s .tau { s with word := some (t, false), pc := upd s.pc t .tryTook }
  | tryTook {s} : s.pc t = .tryTook →
      Step recursive ownTry t s (.retTry true)
        { s with recursion := if recursive then 1 else s.recursion, pc := upd s.pc t (.inn 1) }
  | tryCasFail {s n o w} : s.pc t = .tryCas n → s.word = some (o, w) →
      Step recursive ownTry t s (.retTry false) { s with pc := upd s.pc t (rest n) }
  | tryOwnRecursive {s n w} : s.pc t = .try_ n → s.word = some (t, w) → recursive = true → s.recursion = 0 →
      Step recursive ownTry t s (.retTry true)
        { s with recursion := s.recursion + 1, pc := upd s.pc t (.inn (n + 1)) }
  | tryOwnBad {s n w} : s.pc t = .try_ n → s.word = some (t, w) → recursive = true → s.recursion ≠ 0 →
      Step recursive ownTry t s .tau { s with pc := upd s.pc t .crashed }
  | tryOwn {s n w} : s.pc t = .try_ n → s.word = some (t, w) → recursive = false →
      Step recursive ownTry t s (.retTry false) { s with pc := upd s.pc t (rest n) }
  | tryBusy {s n o w} : s.pc t = .try_ n → s.word = some (o, w) → o ≠ t →
      Step recursive ownTry t s (.retTry false) { s with pc := upd s.pc t (rest n) }
  -- unlock. L102-120
  | callUnlock {s n} : s.pc t = .inn n →
      Step recursive ownTry t s .callUnlock { s with pc := upd s.pc t (.unl n) }
  | unlPlain {s n} : s.pc t = .unl n → recursive = false →
      Step recursive ownTry t s .tau { s with pc := upd s.pc t .unl2 }
  | unlBad {s n} : s.pc t = .unl n → recursive = true → s.recursion = 0 →
      Step recursive ownTry t s .tau { s with pc := upd s.pc t .crashed }
  | unlNested {s n} : s.pc t = .unl n → recursive = true → 1 < s.recursion →
      Step recursive ownTry t s .retUnlock { s with recursion := s.recursion - 1, pc := upd s.pc t (rest (n - 1)) }
  | unlLast {s n} : s.pc t = .unl n → recursive = true → s.recursion = 1 →
      Step recursive ownTry t s .tau { s with recursion := 0, pc := upd s.pc t .unl2 }
  | exchange {s} : s.pc t = .unl2 → s.word = some (t, false) →
      Step recursive ownTry t s .retUnlock { s with word := none, pc := upd s.pc t .out }
  | exchangeWake {s} : s.pc t = .unl2 → s.word = some (t, true) →
      Step recursive ownTry t s .tau { s with word := none, pc := upd s.pc t .wake }
  | exchangeBad {s} : s.pc t = .unl2 → s.word.owner ≠ some t →
      Step recursive ownTry t s .tau { s with word := none, pc := upd s.pc t .crashed }
  | wake {s} : s.pc t = .wake →
      Step recursive ownTry t s .retUnlock { s with pc := upd (wakeAll s.pc) t .out }

/-- A fresh lock. lock.hpp L17 -/
def Init (s : St) : Prop := s.word = none ∧ s.recursion = 0 ∧ ∀ t, s.pc t = .out

/-- A step of any thread. -/
def Sys (recursive ownTry : Bool) (s : St) (e : Tid × Lab) (s' : St) : Prop := Step recursive ownTry e.1 s e.2 s'

/-- States reachable by any number of threads in any interleaving. -/
def Reachable (recursive ownTry : Bool) : St → Prop := Reach Init (fun s s' => ∃ e, Sys recursive ownTry s e s')

/-! ## Invariant -/

/-- The thread is the owner recorded in the lock word. -/
def Pc.owning : Pc → Bool
  | .inn _ | .took | .tryTook | .unl2 | .unl _ => true
  | .lock n _ | .try_ n | .tryCas n => decide (n ≠ 0)
  | _ => false

/-- Locks a thread in this place has. -/
def Pc.depth : Pc → Nat
  | .inn n | .unl n | .lock n _ | .try_ n | .tryCas n => n
  | _ => 0

structure Inv (recursive : Bool) (s : St) : Prop where
  owns : ∀ t, (s.pc t).owning = true → s.word.owner = some t
  owned : ∀ t w, s.word = some (t, w) → (s.pc t).owning = true
  depth : recursive = true → ∀ t, (s.pc t).owning = true → s.recursion = (s.pc t).depth
  depth1 : recursive = false → ∀ t, (s.pc t).depth ≤ 1
  lock0 : recursive = false → ∀ t n w, s.pc t = .lock n w → n = 0
  free : s.word = none → s.recursion = 0
  innPos : ∀ t n, s.pc t = .inn n ∨ s.pc t = .unl n → n ≠ 0
  expSelf : ∀ t n w, s.pc t = .lock n (some (t, w)) → n ≠ 0
  expOther : ∀ t n o w, s.pc t = .lock n (some (o, w)) → o ≠ t → n = 0
  tryFree : ∀ t n, s.pc t = .tryCas n → n = 0
  try0 : recursive = true → ∀ t n, s.pc t = .try_ n → n = 0
  flat : recursive = false → s.recursion = 0
  sleepers : ∀ t, s.pc t = .sleep → (∃ o, s.word = some (o, true)) ∨ ∃ u, s.pc u = .wake
  noCrash : ∀ t, s.pc t ≠ .crashed

theorem rest_cases (n : Nat) : (n = 0 ∧ rest n = .out) ∨ (n ≠ 0 ∧ rest n = .inn n) := by cases n <;> simp [rest]
grind_pattern rest_cases => rest n

theorem upd_pc (s : St) (t u : Tid) (x : Pc) : upd s.pc t x u = if u = t then x else s.pc u := rfl
grind_pattern upd_pc => upd s.pc t x, s.pc u

theorem inv_init (recursive : Bool) (s : St) (h : Init s) : Inv recursive s := by
  obtain ⟨h1, h2, h3⟩ := h
  constructor <;> simp [h1, h2, h3, Pc.owning, Pc.depth]

set_option maxHeartbeats 4000000 in
theorem inv_step (recursive : Bool) (s s' : St) (h : Inv recursive s) (t : Tid) (l : Lab)
    (hs : Step recursive false t s l s') : Inv recursive s' := by
  obtain ⟨h1, h2, h3, h4, h5, h6, h7, h8, h9, h10, h11, h12, h13, h14⟩ := h
  cases hs <;> constructor <;>
    (simp only; intros; grind [Pc.owning, Pc.depth, wakeAll])

theorem inv_reach {recursive : Bool} {s : St} (h : Reachable recursive false s) : Inv recursive s :=
  h.invariant (inv_init recursive) (fun _ _ h ⟨_, hs⟩ => inv_step _ _ _ h _ _ hs)

end Mlibc.Conc.FutexLock
