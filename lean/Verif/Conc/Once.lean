import Verif.Conc.Base
/-
One-time initialisation: `thread_once` (options/internal/generic/threads.cpp L64-96), behind `pthread_once` and
`call_once`, called by any number of threads in any interleaving. Property C37.
-/
set_option linter.unusedSimpArgs false
namespace Mlibc.Conc.Once

/-- Values of the control: 0, `onceLocked`, `onceComplete`. options/internal/include/mlibc/thread-types.hpp -/
inductive Val where
  | zero | locked | complete
  deriving DecidableEq, Repr

inductive Pc where
  | out
  /-- before the first load. L65 -/
  | load
  /-- at the head of the loop with this value of `expected`. L68 -/
  | loop (exp : Val)
  /-- about to call the routine. L77 -/
  | call
  /-- inside the routine -/
  | running
  /-- before the exchange. L80 -/
  | exch
  /-- before `FutexWake`. L81 -/
  | wake
  /-- asleep. L90 -/
  | sleep
  /-- back from `FutexWait`, before the reload. L92 -/
  | reload
  deriving DecidableEq, Repr

inductive Lab where
  | tau | call | runBegin | runEnd | ret
  deriving DecidableEq, Repr

structure St where
  val : Val
  pc : Tid → Pc

/-- Sleeping threads return from `FutexWait`. -/
def wakeAll (pc : Tid → Pc) : Tid → Pc := fun u => if pc u = .sleep then .reload else pc u

inductive Step (t : Tid) : St → Lab → St → Prop where
  | call {s} : s.pc t = .out → Step t s .call { s with pc := upd s.pc t .load }
  | load {s} : s.pc t = .load → Step t s .tau { s with pc := upd s.pc t (.loop s.val) }
  | done {s} : s.pc t = .loop .complete → Step t s .ret { s with pc := upd s.pc t .out }
  | cas {s} : s.pc t = .loop .zero → s.val = .zero → Step t s .tau { val := .locked, pc := upd s.pc t .call }
  /-- the weak compare-exchange fails; `expected` becomes the value read -/
  | casFail {s} : s.pc t = .loop .zero → Step t s .tau { s with pc := upd s.pc t (.loop s.val) }
  | begin_ {s} : s.pc t = .call → Step t s .runBegin { s with pc := upd s.pc t .running }
  | end_ {s} : s.pc t = .running → Step t s .runEnd { s with pc := upd s.pc t .exch }
  | exch {s} : s.pc t = .exch → Step t s .tau { val := .complete, pc := upd s.pc t .wake }
  | wake {s} : s.pc t = .wake → Step t s .ret { s with pc := upd (wakeAll s.pc) t .out }
  | futexSleep {s} : s.pc t = .loop .locked → s.val = .locked → Step t s .tau { s with pc := upd s.pc t .sleep }
  | futexAgain {s} : s.pc t = .loop .locked → s.val ≠ .locked → Step t s .tau { s with pc := upd s.pc t .reload }
  | spurious {s} : s.pc t = .sleep → Step t s .tau { s with pc := upd s.pc t .reload }
  | reload {s} : s.pc t = .reload → Step t s .tau { s with pc := upd s.pc t (.loop s.val) }

/-- A control initialised with `PTHREAD_ONCE_INIT`. -/
def Init (s : St) : Prop := s.val = .zero ∧ ∀ t, s.pc t = .out

/-- A step of any thread. -/
def Sys (s : St) (e : Tid × Lab) (s' : St) : Prop := Step e.1 s e.2 s'

/-! ## Specification over what an observer sees -/

/-- How often the routine was started. -/
def begun (tr : List (Tid × Lab)) : Nat := tr.countP (fun e => e.2 = .runBegin)

/-- How often the routine was completed. -/
def ended (tr : List (Tid × Lab)) : Nat := tr.countP (fun e => e.2 = .runEnd)

/-- How often a call returned. -/
def returned (tr : List (Tid × Lab)) : Nat := tr.countP (fun e => e.2 = .ret)

/-- The places between taking the control and marking it complete. -/
def Pc.busy : Pc → Bool
  | .call | .running | .exch => true
  | _ => false

/-- The invariant links the state to what was observed. -/
structure Inv (tr : List (Tid × Lab)) (s : St) : Prop where
  zero : s.val = .zero → begun tr = 0 ∧ ended tr = 0 ∧ ∀ t, (s.pc t).busy = false
  locked : s.val = .locked → ∃ t, (s.pc t).busy = true
  one : ∀ t u, (s.pc t).busy = true → (s.pc u).busy = true → t = u
  call : ∀ t, s.pc t = .call → s.val = .locked ∧ begun tr = 0 ∧ ended tr = 0
  running : ∀ t, s.pc t = .running → s.val = .locked ∧ begun tr = 1 ∧ ended tr = 0
  exch : ∀ t, s.pc t = .exch → s.val = .locked ∧ begun tr = 1 ∧ ended tr = 1
  complete : s.val = .complete → begun tr = 1 ∧ ended tr = 1 ∧ ∀ t, (s.pc t).busy = false
  seen : ∀ t, s.pc t = .loop .complete ∨ s.pc t = .wake → s.val = .complete
  sleep : ∀ t, s.pc t = .sleep → s.val = .locked ∨ ∃ u, s.pc u = .wake
  ret : returned tr ≠ 0 → s.val = .complete

theorem upd_pc (s : St) (t u : Tid) (x : Pc) : upd s.pc t x u = if u = t then x else s.pc u := rfl
grind_pattern upd_pc => upd s.pc t x, s.pc u

theorem inv_init (s : St) (h : Init s) : Inv [] s := by
  obtain ⟨h1, h2⟩ := h
  constructor <;> simp [h1, h2, Pc.busy, begun, ended, returned]

theorem begun_snoc (tr : List (Tid × Lab)) (e : Tid × Lab) :
    begun (tr ++ [e]) = begun tr + if e.2 = .runBegin then 1 else 0 := by
  simp [begun, List.countP_append, List.countP_singleton]

theorem ended_snoc (tr : List (Tid × Lab)) (e : Tid × Lab) :
    ended (tr ++ [e]) = ended tr + if e.2 = .runEnd then 1 else 0 := by
  simp [ended, List.countP_append, List.countP_singleton]

theorem returned_snoc (tr : List (Tid × Lab)) (e : Tid × Lab) :
    returned (tr ++ [e]) = returned tr + if e.2 = .ret then 1 else 0 := by
  simp [returned, List.countP_append, List.countP_singleton]

set_option maxHeartbeats 1000000 in
theorem inv_step {tr : List (Tid × Lab)} {s s' : St} {e : Tid × Lab} (h : Inv tr s) (hs : Sys s e s') :
    Inv (tr ++ [e]) s' := by
  obtain ⟨t, l⟩ := e
  obtain ⟨h1, h2, h3, h4, h5, h6, h7, h8, h9, h10⟩ := h
  simp only [Sys] at hs
  cases hs <;> constructor <;>
    first
    | (refine fun hv => Exists.imp (fun w hw => ?_) (h2 hv); grind [Pc.busy, wakeAll])
    | (refine fun hv => ⟨t, ?_⟩; simp [Pc.busy]; done)
    | (simp only [begun_snoc, ended_snoc, returned_snoc]; grind [Pc.busy, wakeAll])

theorem inv_run {tr tr' : List (Tid × Lab)} {s s' : St} (h : Inv tr s) (hr : Run Sys s tr' s') : Inv (tr ++ tr') s' := by
  induction hr generalizing tr with
  | nil => simpa using h
  | @cons s e s1 tr2 s2 hs _ ih => simpa using ih (inv_step h hs)

/-- **C37**: in every execution by any number of threads the routine is started at most once; once any call has
returned, it has been started exactly once and has completed. -/
theorem once_exactly_once {s0 s : St} {tr : List (Tid × Lab)} (h0 : Init s0) (hr : Run Sys s0 tr s) :
    begun tr ≤ 1 ∧ (returned tr ≠ 0 → begun tr = 1 ∧ ended tr = 1) := by
  have hi := inv_run (inv_init _ h0) hr
  simp only [List.nil_append] at hi
  refine ⟨?_, fun h => ⟨(hi.complete (hi.ret h)).1, (hi.complete (hi.ret h)).2.1⟩⟩
  cases hv : s.val with
  | zero => have := (hi.zero hv).1; omega
  | complete => have := (hi.complete hv).1; omega
  | locked =>
    obtain ⟨t, ht⟩ := hi.locked hv
    cases hp : s.pc t <;> simp [hp, Pc.busy] at ht
    · have := (hi.call t hp).2.1; omega
    · have := (hi.running t hp).2.1; omega
    · have := (hi.exch t hp).2.1; omega

/-- **C37**: no caller sleeps for ever: if a thread is asleep, then some other thread is running the routine or is on
its way to or from it; when the routine is not running and no thread is in the library awake, nobody is asleep. -/
theorem once_no_lost_wakeup {s0 s : St} {tr : List (Tid × Lab)} (h0 : Init s0) (hr : Run Sys s0 tr s) {t : Tid}
    (ht : s.pc t = .sleep) : ∃ u, (s.pc u).busy = true ∨ s.pc u = .wake := by
  have hi := inv_run (inv_init _ h0) hr
  rcases hi.sleep t ht with h | ⟨u, h⟩
  · obtain ⟨u, h⟩ := hi.locked h; exact ⟨u, .inl h⟩
  · exact ⟨u, .inr h⟩

/-- The call that ran the routine wakes every sleeper before it returns. -/
theorem once_wakes {s s' : St} {t : Tid} (hs : Sys s (t, .ret) s') (ht : s.pc t = .wake) (u : Tid) :
    s'.pc u ≠ .sleep := by
  simp only [Sys] at hs
  generalize hl : Lab.ret = l at hs
  cases hs <;> grind [wakeAll]

/-- **C37**: after completion a call returns without running or waiting: it loads, sees the mark and returns. -/
theorem once_after {s0 s s' : St} {tr : List (Tid × Lab)} (h0 : Init s0) (hr : Run Sys s0 tr s)
    (hret : returned tr ≠ 0) {t : Tid} {l : Lab} (ht : s.pc t = .load) (hs : Sys s (t, l) s') :
    s'.pc t = .loop .complete := by
  have hi := inv_run (inv_init _ h0) hr
  have := hi.ret hret
  simp only [Sys] at hs
  cases hs <;> simp_all

/-- An untouched control. -/
def fresh : St := ⟨.zero, fun _ => .out⟩

/-- One more step in front of a run. -/
theorem Sys.then {s s1 s2 : St} {t : Tid} {l : Lab} {tr : List (Tid × Lab)}
    (h : Step t s l s1) (hr : Run Sys s1 tr s2) : Run Sys s ((t, l) :: tr) s2 := .cons (l := (t, l)) h hr

/-- Thread 1 runs the routine while thread 2 sleeps; both return. -/
example : Init fresh ∧ ∃ tr s, Run Sys fresh tr s ∧ returned tr = 2 ∧ begun tr = 1 := by
  refine ⟨⟨rfl, fun _ => rfl⟩, _, _,
    Sys.then (t := 1) (.call rfl) <| Sys.then (t := 1) (.load rfl) <| Sys.then (t := 1) (.cas rfl rfl) <|
    Sys.then (t := 2) (.call rfl) <| Sys.then (t := 2) (.load rfl) <| Sys.then (t := 2) (.futexSleep rfl rfl) <|
    Sys.then (t := 1) (.begin_ rfl) <| Sys.then (t := 1) (.end_ rfl) <| Sys.then (t := 1) (.exch rfl) <|
    Sys.then (t := 1) (.wake rfl) <|
    Sys.then (t := 2) (.reload rfl) <| Sys.then (t := 2) (.done rfl) <| .nil _, ?_, ?_⟩ <;> decide

/-- A state with a sleeper is reachable. -/
example : ∃ tr s, Run Sys fresh tr s ∧ s.pc 2 = .sleep :=
  ⟨_, _,
    Sys.then (t := 1) (.call rfl) <| Sys.then (t := 1) (.load rfl) <| Sys.then (t := 1) (.cas rfl rfl) <|
    Sys.then (t := 2) (.call rfl) <| Sys.then (t := 2) (.load rfl) <| Sys.then (t := 2) (.futexSleep rfl rfl) <|
    .nil _, rfl⟩

end Mlibc.Conc.Once
