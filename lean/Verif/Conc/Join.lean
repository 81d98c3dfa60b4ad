import Verif.Conc.Base
/-
Joining and detaching one thread: `thread_join`, `thread_detach`, and the end of `thread_exit`
(options/internal/generic/threads.cpp L141-181, L222-227), the first two called by any number of threads, any number of
times, in any interleaving with the exit of the target. Cancellation of the joining thread is not modelled.
Property C46.
-/
set_option linter.unusedSimpArgs false
namespace Mlibc.Conc.Join

/-- Where a caller is. -/
inductive Pc where
  | out
  /-- `thread_join`, before the second check of `isJoinable`. L149 -/
  | join2
  /-- before loading `didExit`. L154 -/
  | loop
  /-- before `FutexWait(didExit, 0)`. L155 -/
  | fut
  | sleep
  /-- before reading the return value. L159 -/
  | read
  /-- `thread_detach`, before the compare-exchange. L176 -/
  | detCas
  deriving DecidableEq, Repr

/-- Where the target thread is in `thread_exit`. -/
inductive Target where
  /-- has not reached L222 -/
  | live
  /-- has stored its return value, before the store to `didExit`. L224 -/
  | stored
  /-- before `FutexWake`. L225 -/
  | flagged
  | gone
  deriving DecidableEq, Repr

inductive Lab where
  | tau
  | callJoin
  /-- `pthread_join` returned 0 with this exit value -/
  | joined (v : Nat)
  /-- `pthread_join` returned `EINVAL` -/
  | joinFail
  | callDetach | detached | detachFail
  /-- the target calls `pthread_exit(v)` or returns `v` -/
  | exit (v : Nat)
  deriving DecidableEq, Repr

structure St where
  joinable : Bool
  didExit : Bool
  value : Nat
  target : Target
  pc : Tid → Pc

def wakeAll (pc : Tid → Pc) : Tid → Pc := fun u =>
  match pc u with
  | .sleep => .loop
  | p => p

/-- Steps: of caller `t`, or of the target. -/
inductive Step (t : Tid) : St → Lab → St → Prop where
  -- thread_join. L141-167
  | joinCheck {s} : s.pc t = .out → s.joinable = true → Step t s .callJoin { s with pc := upd s.pc t .join2 }
  /-- the first check and the call are one step -/
  | joinNo {s} : s.pc t = .out → s.joinable = false → Step t s .joinFail s
  | join2 {s} : s.pc t = .join2 → s.joinable = true → Step t s .tau { s with pc := upd s.pc t .loop }
  | join2No {s} : s.pc t = .join2 → s.joinable = false → Step t s .joinFail { s with pc := upd s.pc t .out }
  | exited {s} : s.pc t = .loop → s.didExit = true → Step t s .tau { s with pc := upd s.pc t .read }
  | notExited {s} : s.pc t = .loop → s.didExit = false → Step t s .tau { s with pc := upd s.pc t .fut }
  | sleep {s} : s.pc t = .fut → s.didExit = false → Step t s .tau { s with pc := upd s.pc t .sleep }
  | again {s} : s.pc t = .fut → s.didExit = true → Step t s .tau { s with pc := upd s.pc t .loop }
  | spurious {s} : s.pc t = .sleep → Step t s .tau { s with pc := upd s.pc t .loop }
  | read {s} : s.pc t = .read → Step t s (.joined s.value) { s with pc := upd s.pc t .out }
  -- thread_detach. L169-181
  | detCheck {s} : s.pc t = .out → s.joinable = true → Step t s .callDetach { s with pc := upd s.pc t .detCas }
  | detNo {s} : s.pc t = .out → s.joinable = false → Step t s .detachFail s
  | det {s} : s.pc t = .detCas → s.joinable = true →
      Step t s .detached { s with joinable := false, pc := upd s.pc t .out }
  | detFail {s} : s.pc t = .detCas → s.joinable = false → Step t s .detachFail { s with pc := upd s.pc t .out }
  -- the target. L222-225
  | store {s} (v) : s.target = .live → Step t s (.exit v) { s with value := v, target := .stored }
  | flag {s} : s.target = .stored → Step t s .tau { s with didExit := true, target := .flagged }
  | wake {s} : s.target = .flagged → Step t s .tau { s with target := .gone, pc := wakeAll s.pc }

/-- A new thread, created joinable or detached. L130 -/
def Init (j : Bool) (s : St) : Prop :=
  s.joinable = j ∧ s.didExit = false ∧ s.target = .live ∧ ∀ t, s.pc t = .out

def Sys (s : St) (e : Tid × Lab) (s' : St) : Prop := Step e.1 s e.2 s'

/-! ## Specification -/

/-- Successful detaches. -/
def detaches (tr : List (Tid × Lab)) : Nat := tr.countP (fun e => e.2 = .detached)

/-- The thread has exited with value `v`. -/
def ExitedWith (tr : List (Tid × Lab)) (v : Nat) : Prop := ∃ t, (t, Lab.exit v) ∈ tr

structure Inv (j : Bool) (tr : List (Tid × Lab)) (s : St) : Prop where
  det : detaches tr + s.joinable.toNat = j.toNat
  flag : s.didExit = true ↔ s.target = .flagged ∨ s.target = .gone
  val : s.target ≠ .live → ExitedWith tr s.value
  one : ∀ v, ExitedWith tr v → v = s.value ∧ s.target ≠ .live
  rd : ∀ t, s.pc t = .read → s.didExit = true
  joined : ∀ t v, (t, Lab.joined v) ∈ tr → s.didExit = true ∧ v = s.value
  slp : ∀ t, s.pc t = .sleep → s.target ≠ .gone

theorem upd_pc (s : St) (t u : Tid) (x : Pc) : upd s.pc t x u = if u = t then x else s.pc u := rfl
grind_pattern upd_pc => upd s.pc t x, s.pc u

theorem inv_init {j : Bool} (s : St) (h : Init j s) : Inv j [] s := by
  obtain ⟨h1, h2, h3, h4⟩ := h
  constructor <;> simp [h1, h2, h3, h4, detaches, ExitedWith]

theorem detaches_snoc (tr : List (Tid × Lab)) (e : Tid × Lab) :
    detaches (tr ++ [e]) = detaches tr + if e.2 = .detached then 1 else 0 := by
  simp [detaches, List.countP_append, List.countP_singleton]

theorem exited_snoc (tr : List (Tid × Lab)) (e : Tid × Lab) (v : Nat) :
    ExitedWith (tr ++ [e]) v ↔ ExitedWith tr v ∨ e.2 = .exit v := by
  obtain ⟨u, l⟩ := e
  unfold ExitedWith
  constructor
  · rintro ⟨t, ht⟩
    simp only [List.mem_append, List.mem_singleton] at ht
    rcases ht with h | h
    · exact .inl ⟨t, h⟩
    · cases h; exact .inr rfl
  · rintro (⟨t, h⟩ | h)
    · exact ⟨t, by simp [h]⟩
    · exact ⟨u, by simp only at h; simp [h]⟩

theorem inv_step {j : Bool} {tr : List (Tid × Lab)} {s s' : St} {e : Tid × Lab} (h : Inv j tr s) (hs : Sys s e s') :
    Inv j (tr ++ [e]) s' := by
  obtain ⟨t, l⟩ := e
  obtain ⟨h1, h2, h3, h4, h5, h6, h7⟩ := h
  simp only [Sys] at hs
  cases hs <;> constructor <;>
    (try simp only [detaches_snoc, exited_snoc, List.mem_append, List.mem_singleton, Prod.mk.injEq]) <;> intros <;>
    grind [wakeAll]

theorem inv_run {j : Bool} {tr tr' : List (Tid × Lab)} {s s' : St} (h : Inv j tr s)
    (hr : Run Sys s tr' s') : Inv j (tr ++ tr') s' := by
  induction hr generalizing tr with
  | nil => simpa using h
  | cons hs _ ih => simpa using ih (inv_step h hs)

/-- **C46**: in every execution, a `pthread_join` that has returned 0 returned after the thread exited, with its exit
value. -/
theorem join_value {j : Bool} {s0 s : St} {tr : List (Tid × Lab)} (h0 : Init j s0) (hr : Run Sys s0 tr s) {t : Tid}
    {v : Nat} (ht : (t, Lab.joined v) ∈ tr) : ExitedWith tr v ∧ ∀ v', ExitedWith tr v' → v' = v := by
  have hi := inv_run (inv_init _ h0) hr
  simp only [List.nil_append] at hi
  obtain ⟨h1, h2⟩ := hi.joined t v ht
  subst h2
  refine ⟨hi.val ?_, fun v' hv => (hi.one v' hv).1⟩
  rcases hi.flag.1 h1 with h | h <;> rw [h] <;> simp

/-- **C46** (partial): in every execution, at most one `pthread_detach` succeeds, and none if the thread was created
detached; once one has succeeded, every join or detach called afterwards fails.
Missing from the full property: joins do not exclude each other nor a detach (`join_twice_violated`). -/
theorem detach_once_partial {j : Bool} {s0 s s' : St} {tr : List (Tid × Lab)} (h0 : Init j s0) (hr : Run Sys s0 tr s) :
    detaches tr ≤ j.toNat ∧
    (detaches tr = 1 → ∀ t l, s.pc t = .out → Sys s (t, l) s' → s.target = s'.target → l = .joinFail ∨ l = .detachFail) := by
  have hi := inv_run (inv_init _ h0) hr
  simp only [List.nil_append] at hi
  have hd := hi.det
  refine ⟨by omega, fun h1 t l ht hs htg => ?_⟩
  have hj : s.joinable = false := by
    cases hjj : s.joinable
    · rfl
    · rw [hjj] at hd; cases j <;> simp at hd <;> omega
  simp only [Sys] at hs
  cases hs <;> simp_all

/-- **C46** (no lost wakeup): a joining thread sleeps only while the target has not yet issued its wake call, which wakes
every sleeper. -/
theorem join_no_lost_wakeup {j : Bool} {s0 s : St} {tr : List (Tid × Lab)} (h0 : Init j s0) (hr : Run Sys s0 tr s)
    {t : Tid} (ht : s.pc t = .sleep) : s.target ≠ .gone := (inv_run (inv_init _ h0) hr).slp t ht

/-! ### Executions -/

def start (j : Bool) : St := ⟨j, false, 0, .live, fun _ => .out⟩

theorem start_init (j : Bool) : Init j (start j) := ⟨rfl, rfl, rfl, fun _ => rfl⟩

theorem Sys.then {s s1 s2 : St} {t : Tid} {l : Lab} {tr : List (Tid × Lab)}
    (h : Step t s l s1) (hr : Run Sys s1 tr s2) : Run Sys s ((t, l) :: tr) s2 := .cons (l := (t, l)) h hr

/-- Thread 1 sleeps in a join, the target exits with 7 and wakes it, and the join yields 7. -/
example : ∃ s tr, Run Sys (start true) tr s ∧ (1, Lab.joined 7) ∈ tr := by
  refine ⟨_, _, Sys.then (t := 1) (.joinCheck rfl rfl) <| Sys.then (t := 1) (.join2 rfl rfl) <|
    Sys.then (t := 1) (.notExited rfl rfl) <| Sys.then (t := 1) (.sleep rfl rfl) <|
    Sys.then (t := 9) (.store 7 rfl) <| Sys.then (t := 9) (.flag rfl) <| Sys.then (t := 9) (.wake rfl) <|
    Sys.then (t := 1) (.exited rfl rfl) <| Sys.then (t := 1) (.read rfl) <| .nil _, ?_⟩
  decide

/-- A detach succeeds. -/
example : ∃ s tr, Run Sys (start true) tr s ∧ detaches tr = 1 := by
  refine ⟨_, _, Sys.then (t := 1) (.detCheck rfl rfl) <| Sys.then (t := 1) (.det rfl rfl) <| .nil _, ?_⟩
  decide

/-- **C46** violated: two joins and a detach of the same thread all succeed, one after the other: a successful join
leaves the thread joinable. threads.cpp L164 -/
theorem join_twice_violated : ∃ s tr, Run Sys (start true) tr s ∧ (1, Lab.joined 7) ∈ tr ∧ (2, Lab.joined 7) ∈ tr ∧
    detaches tr = 1 := by
  refine ⟨_, _, Sys.then (t := 9) (.store 7 rfl) <| Sys.then (t := 9) (.flag rfl) <| Sys.then (t := 9) (.wake rfl) <|
    Sys.then (t := 1) (.joinCheck rfl rfl) <| Sys.then (t := 1) (.join2 rfl rfl) <|
    Sys.then (t := 1) (.exited rfl rfl) <| Sys.then (t := 1) (.read rfl) <|
    Sys.then (t := 2) (.joinCheck rfl rfl) <| Sys.then (t := 2) (.join2 rfl rfl) <|
    Sys.then (t := 2) (.exited rfl rfl) <| Sys.then (t := 2) (.read rfl) <|
    Sys.then (t := 3) (.detCheck rfl rfl) <| Sys.then (t := 3) (.det rfl rfl) <| .nil _, ?_⟩
  decide

end Mlibc.Conc.Join
