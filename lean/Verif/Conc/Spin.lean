import Verif.Conc.Base
/-
POSIX spin locks: `pthread_spin_lock`, `pthread_spin_trylock`, `pthread_spin_unlock`
(options/posix/generic/pthread.cpp L1494-1535). Property C42.
-/
set_option linter.unusedSimpArgs false
namespace Mlibc.Conc.Spin

/-- Where a thread is. `own` says whether the thread held the lock when it made the call (not part of the program). -/
inductive Pc where
  | out
  | inn
  /-- before the compare-exchange. L1500 -/
  | cas (own : Bool)
  /-- in the inner loop. L1507 -/
  | spin
  /-- `trylock`, before the compare-exchange. L1520 -/
  | try_ (own : Bool)
  /-- `unlock`, before the load. L1530 -/
  | unl (own : Bool)
  /-- `unlock`, before the store. L1533 -/
  | store
  deriving DecidableEq, Repr

inductive Ret where
  | ok | edeadlk | ebusy | eperm
  deriving DecidableEq, Repr

inductive Lab where
  | tau | callLock | callTry | callUnlock
  | retLock (r : Ret) | retTry (r : Ret) | retUnlock (r : Ret)
  deriving DecidableEq, Repr

/-- The lock word (`none` for zero, else the owner's thread id) and where each thread is. -/
structure St where
  word : Option Tid
  pc : Tid → Pc

/-- Outside any call. -/
def rest (own : Bool) : Pc := if own then .inn else .out

/-- One step of thread `t`. Calls may come from any thread at any time, also an unlock from a thread that does not hold
the lock. -/
inductive Step (t : Tid) : St → Lab → St → Prop where
  -- pthread_spin_lock. L1494-1513
  | callLock {s} (own) : s.pc t = rest own → Step t s .callLock { s with pc := upd s.pc t (.cas own) }
  | casOk {s own} : s.pc t = .cas own → s.word = none →
      Step t s (.retLock .ok) { word := some t, pc := upd s.pc t .inn }
  /-- the weak compare-exchange fails although the word is zero -/
  | casWeak {s own} : s.pc t = .cas own → s.word = none → Step t s .tau { s with pc := upd s.pc t .spin }
  | casSelf {s own} : s.pc t = .cas own → s.word = some t →
      Step t s (.retLock .edeadlk) { s with pc := upd s.pc t (rest own) }
  | casOther {s own o} : s.pc t = .cas own → s.word = some o → o ≠ t →
      Step t s .tau { s with pc := upd s.pc t .spin }
  | spin {s o} : s.pc t = .spin → s.word = some o → Step t s .tau s
  | spinEnd {s} : s.pc t = .spin → s.word = none → Step t s .tau { s with pc := upd s.pc t (.cas false) }
  -- pthread_spin_trylock. L1515-1526
  | callTry {s} (own) : s.pc t = rest own → Step t s .callTry { s with pc := upd s.pc t (.try_ own) }
  | tryOk {s own} : s.pc t = .try_ own → s.word = none →
      Step t s (.retTry .ok) { word := some t, pc := upd s.pc t .inn }
  | tryBusy {s own o} : s.pc t = .try_ own → s.word = some o →
      Step t s (.retTry .ebusy) { s with pc := upd s.pc t (rest own) }
  -- pthread_spin_unlock. L1528-1535
  | callUnlock {s} (own) : s.pc t = rest own → Step t s .callUnlock { s with pc := upd s.pc t (.unl own) }
  | unlEperm {s own} : s.pc t = .unl own → s.word ≠ some t →
      Step t s (.retUnlock .eperm) { s with pc := upd s.pc t (rest own) }
  | unlOwn {s own} : s.pc t = .unl own → s.word = some t → Step t s .tau { s with pc := upd s.pc t .store }
  | store {s} : s.pc t = .store → Step t s (.retUnlock .ok) { word := none, pc := upd s.pc t .out }

/-- A fresh lock. L1484-1488 -/
def Init (s : St) : Prop := s.word = none ∧ ∀ t, s.pc t = .out

/-- A step of any thread. -/
def Sys (s : St) (e : Tid × Lab) (s' : St) : Prop := Step e.1 s e.2 s'

/-- The thread is the owner. -/
def Pc.owning : Pc → Bool
  | .inn | .store => true
  | .cas own | .try_ own | .unl own => own
  | _ => false

def Inv (s : St) : Prop := ∀ t, (s.pc t).owning = true ↔ s.word = some t

theorem upd_pc (s : St) (t u : Tid) (x : Pc) : upd s.pc t x u = if u = t then x else s.pc u := rfl
grind_pattern upd_pc => upd s.pc t x, s.pc u

theorem inv_init (s : St) (h : Init s) : Inv s := by
  intro t; rw [h.2, h.1]; simp [Pc.owning]

theorem inv_step (s s' : St) (h : Inv s) (e : Tid × Lab) (hs : Sys s e s') : Inv s' := by
  obtain ⟨t, l⟩ := e
  intro u
  have h1 := h u
  have h2 := h t
  simp only [Sys] at hs
  cases hs <;> (try simp only) <;> grind [Pc.owning, rest]

/-! ## Specification -/

/-- Successful lock and trylock calls of thread `t`. -/
def acquired (tr : List (Tid × Lab)) (t : Tid) : Nat :=
  tr.countP (fun e => e.1 = t ∧ (e.2 = .retLock .ok ∨ e.2 = .retTry .ok))

/-- Successful unlock calls of thread `t`. -/
def released (tr : List (Tid × Lab)) (t : Tid) : Nat :=
  tr.countP (fun e => e.1 = t ∧ e.2 = .retUnlock .ok)

/-- Thread `t` is between a successful lock and the return of its unlock. -/
def Holds (tr : List (Tid × Lab)) (t : Tid) : Prop := released tr t < acquired tr t

/-- 1 for the owner, 0 for others. -/
def Pc.held (p : Pc) : Nat := if p.owning then 1 else 0

theorem held_step {s s' : St} {e : Tid × Lab} (h : Inv s) (hs : Sys s e s') (u : Tid) :
    acquired [e] u + (s.pc u).held = released [e] u + (s'.pc u).held := by
  obtain ⟨t, l⟩ := e
  have h1 := h u
  have h2 := h t
  simp only [Sys] at hs
  simp only [acquired, released, List.countP_singleton]
  cases hs <;> (try simp only) <;> grind [Pc.held, Pc.owning, rest]

theorem held_run {s s' : St} {tr : List (Tid × Lab)} (h : Inv s) (hr : Run Sys s tr s')
    (u : Tid) : Inv s' ∧ acquired tr u + (s.pc u).held = released tr u + (s'.pc u).held := by
  induction hr with
  | nil s => exact ⟨h, by simp [acquired, released]⟩
  | @cons s e s1 tr s2 hs _ ih =>
    have h1 := held_step h hs u
    obtain ⟨h2, h3⟩ := ih (inv_step _ _ h _ hs)
    refine ⟨h2, ?_⟩
    have a1 : acquired (e :: tr) u = acquired [e] u + acquired tr u := by
      simp only [acquired]; rw [← List.countP_append]; rfl
    have a2 : released (e :: tr) u = released [e] u + released tr u := by
      simp only [released]; rw [← List.countP_append]; rfl
    omega

/-- **C42** (spin locks): in every execution by any number of threads, even ones that unlock what they do not hold, at
most one thread is between a successful lock and the return of its successful unlock; that thread, and only it, is
the owner recorded in the lock. -/
theorem spin_exclusion {s0 s : St} {tr : List (Tid × Lab)} (h0 : Init s0) (hr : Run Sys s0 tr s) :
    (∀ t, Holds tr t ↔ s.word = some t) ∧ ∀ t u, Holds tr t → Holds tr u → t = u := by
  have key : ∀ t, Holds tr t ↔ s.word = some t := by
    intro t
    obtain ⟨hi, h1⟩ := held_run (inv_init _ h0) hr t
    have e1 : (s0.pc t).held = 0 := by rw [h0.2]; rfl
    rw [← hi t]
    simp only [Holds, Pc.held] at *
    split at h1 <;> (try split at h1) <;> simp_all <;> omega
  refine ⟨key, fun t u ht hu => ?_⟩
  have h1 := (key t).1 ht
  have h2 := (key u).1 hu
  rw [h1] at h2; cases h2; rfl

/-- **C42** (spin locks): what each call returns, given who holds the lock at that moment: a lock call succeeds only
when nobody holds it and reports `EDEADLK` only to the holder, trylock reports `EBUSY` only if it is held, unlock
reports `EPERM` only to a thread that does not hold it; failed calls change nothing. -/
theorem spin_returns {s0 s s' : St} {tr : List (Tid × Lab)} (h0 : Init s0) (hr : Run Sys s0 tr s) {t : Tid} {l : Lab}
    (hs : Sys s (t, l) s') :
    (l = .retLock .ok ∨ l = .retTry .ok → ∀ u, ¬ Holds tr u) ∧
    (l = .retLock .edeadlk → Holds tr t ∧ s'.word = s.word) ∧
    (l = .retTry .ebusy → (∃ u, Holds tr u) ∧ s'.word = s.word) ∧
    (l = .retUnlock .eperm → ¬ Holds tr t ∧ s'.word = s.word) ∧
    (l = .retUnlock .ok → Holds tr t ∧ s'.word = none) := by
  have key := (spin_exclusion h0 hr).1
  have hi := (held_run (inv_init _ h0) hr t).1
  have h1 := hi t
  simp only [Sys] at hs
  simp only [key]
  cases hs <;> simp_all [Pc.owning]

/-- A fresh lock. -/
def fresh : St := ⟨none, fun _ => .out⟩

/-- One more step in front of a run. -/
theorem Sys.then {s s1 s2 : St} {t : Tid} {l : Lab} {tr : List (Tid × Lab)}
    (h : Step t s l s1) (hr : Run Sys s1 tr s2) : Run Sys s ((t, l) :: tr) s2 := .cons (l := (t, l)) h hr

/-- Thread 1 locks, thread 2 spins and its unlock attempt would fail, thread 1 unlocks, thread 2 gets the lock. -/
example : Init fresh ∧ ∃ tr s, Run Sys fresh tr s ∧ Holds tr 2 ∧ ¬ Holds tr 1 := by
  refine ⟨⟨rfl, fun _ => rfl⟩, _, _,
    Sys.then (t := 1) (.callLock false rfl) <| Sys.then (t := 1) (.casOk (own := false) rfl rfl) <|
    Sys.then (t := 2) (.callUnlock false rfl) <|
    Sys.then (t := 2) (.unlEperm (own := false) rfl (by decide)) <|
    Sys.then (t := 2) (.callLock false rfl) <|
    Sys.then (t := 2) (.casOther (own := false) (o := 1) rfl rfl (by decide)) <|
    Sys.then (t := 2) (.spin (o := 1) rfl rfl) <|
    Sys.then (t := 1) (.callUnlock true rfl) <| Sys.then (t := 1) (.unlOwn (own := true) rfl rfl) <|
    Sys.then (t := 1) (.store rfl) <| Sys.then (t := 2) (.spinEnd rfl rfl) <|
    Sys.then (t := 2) (.casOk (own := false) rfl rfl) <| .nil _, ?_, ?_⟩ <;> (unfold Holds; decide)

end Mlibc.Conc.Spin
