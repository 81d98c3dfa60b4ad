import Verif.Thread.Keys
/-
Thread exit: `__cxa_thread_atexit_impl`, `run_thread_local_destructors`, `pthread_cleanup_push` and the part of
`thread_exit` that runs handlers (options/internal/generic/threads.cpp L35-45, L54-62, L191-220;
options/posix/generic/pthread.cpp L457-465). Handlers and destructors are arbitrary: what a callback does is any
sequence of registrations and key operations, chosen from everything that has happened so far. A callback that does not
return (a second `pthread_exit`, an exception) is not modelled. Property C44.
-/
namespace Mlibc.ThreadExit
open Mlibc

/-- What is called. Thread-local destructors and cleanup handlers are named by a number (function and argument). -/
inductive Callee where
  | tl (h : Nat)
  | cleanup (h : Nat)
  /-- the destructor `d` of key `k`, called with the value `v` -/
  | dtor (k d v : Nat)
  deriving DecidableEq, Repr

/-- What a callback may do. -/
inductive Act where
  /-- register a thread-local destructor -/
  | regTl (h : Nat)
  /-- `pthread_cleanup_push` -/
  | push (h : Nat)
  /-- a key operation, by this or (in between) another thread -/
  | key (op : Keys.Op)
  deriving DecidableEq, Repr

/-- What happened, in order. -/
inductive Ev where
  | call (c : Callee)
  | regTl (h : Nat)
  | push (h : Nat)
  | key (op : Keys.Op) (r : Keys.Ret)
  deriving DecidableEq, Repr

/-- `tl` is the list `cxaThreadExitHandlers`, `cleanup` the list `cleanupHandlers` from its back, `trace` what happened
since `thread_exit` was called. -/
structure W where
  keys : Keys.St
  tl : List Nat
  cleanup : List Nat
  trace : List Ev

/-- Callbacks: what each does, given everything so far. -/
abbrev Beh := List Ev → Callee → List Act

def act (w : W) : Act → W
  -- threads.cpp L35-45
  | .regTl h => { w with tl := h :: w.tl, trace := w.trace ++ [.regTl h] }
  -- pthread.cpp L457-465
  | .push h => { w with cleanup := h :: w.cleanup, trace := w.trace ++ [.push h] }
  | .key op => { w with keys := (Keys.exec w.keys op).2, trace := w.trace ++ [.key op (Keys.exec w.keys op).1] }

def acts (w : W) (as : List Act) : W := as.foldl act w

/-- Calling a function. -/
def call (beh : Beh) (w : W) (c : Callee) : W :=
  acts { w with trace := w.trace ++ [.call c] } (beh (w.trace ++ [.call c]) c)

/-- `run_thread_local_destructors`. The loop may run for ever; `fuel` bounds it, `none` is out of fuel. L54-62 -/
def runTl (beh : Beh) : Nat → W → Option W
  | 0, _ => none
  | n + 1, w =>
    match w.tl with
    | [] => some w
    | h :: rest => runTl beh n (call beh { w with tl := rest } (.tl h))

/-- The loop over `cleanupHandlers`. L201-205 -/
def runCleanup (beh : Beh) : Nat → W → Option W
  | 0, _ => none
  | n + 1, w =>
    match w.cleanup with
    | [] => some w
    | h :: rest => runCleanup beh n (call beh { w with cleanup := rest } (.cleanup h))

/-- The body of the loops over keys, for thread `t`. L209-218 -/
def keyStep (beh : Beh) (t : Nat) (w : W) (i : Nat) : W :=
  let v := (Keys.get w.keys t i).1
  let w := { w with keys := (Keys.get w.keys t i).2 }
  let d := (w.keys.globals i).dtor
  if v ≠ 0 ∧ d ≠ 0 then
    let w := call beh w (.dtor i d v)
    { w with keys := Keys.setL w.keys t i { w.keys.locals t i with value := 0 } }
  else w

/-- One iteration over all keys. L208 -/
def keyRound (beh : Beh) (t : Nat) (w : W) : W := (List.range Keys.maxKeys).foldl (keyStep beh t) w

/-- `__MLIBC_THREAD_DESTRUCTOR_ITERATIONS` iterations. L207; options/internal/include/bits/threads.h L34 -/
def keyRounds (beh : Beh) (t : Nat) : Nat → W → W
  | 0, w => w
  | n + 1, w => keyRounds beh t n (keyRound beh t w)

def iterations : Nat := 8

/-- The handlers run by `thread_exit`. L199-220 -/
def threadExit (beh : Beh) (t fuel : Nat) (w : W) : Option W :=
  match runTl beh fuel w with
  | none => none
  | some w =>
    match runCleanup beh fuel w with
    | none => none
    | some w => some (keyRounds beh t iterations w)

/-! ## Specification -/

/-- Replay on a stack: registering pushes, calling must take the most recently registered handler that has not been
called. `none`: the history is not last-in-first-out. -/
def replayTl : List Nat → List Ev → Option (List Nat)
  | st, [] => some st
  | st, .regTl h :: es => replayTl (h :: st) es
  | h' :: st, .call (.tl h) :: es => if h = h' then replayTl st es else none
  | [], .call (.tl _) :: _ => none
  | st, .call (.cleanup _) :: es | st, .call (.dtor _ _ _) :: es | st, .push _ :: es | st, .key _ _ :: es =>
    replayTl st es

def replayCleanup : List Nat → List Ev → Option (List Nat)
  | st, [] => some st
  | st, .push h :: es => replayCleanup (h :: st) es
  | h' :: st, .call (.cleanup h) :: es => if h = h' then replayCleanup st es else none
  | [], .call (.cleanup _) :: _ => none
  | st, .call (.tl _) :: es | st, .call (.dtor _ _ _) :: es | st, .regTl _ :: es | st, .key _ _ :: es =>
    replayCleanup st es

/-- How often the destructor of key `k` was called. -/
def dtorCalls (k : Nat) (es : List Ev) : Nat :=
  es.countP (fun e => match e with | .call (.dtor k' _ _) => k' = k | _ => false)

/-! ## Thread-local destructors and cleanup handlers -/

theorem replayTl_append (st : List Nat) (a b : List Ev) :
    replayTl st (a ++ b) = (replayTl st a).bind (fun st => replayTl st b) := by
  induction a generalizing st with
  | nil => simp [replayTl]
  | cons e a ih =>
    cases e with
    | call c =>
      cases c with
      | tl h =>
        cases st with
        | nil => simp [replayTl]
        | cons h' st => simp only [List.cons_append, replayTl]; split <;> simp [ih]
      | _ => simp [replayTl, ih]
    | _ => simp [replayTl, ih]

theorem replayCleanup_append (st : List Nat) (a b : List Ev) :
    replayCleanup st (a ++ b) = (replayCleanup st a).bind (fun st => replayCleanup st b) := by
  induction a generalizing st with
  | nil => simp [replayCleanup]
  | cons e a ih =>
    cases e with
    | call c =>
      cases c with
      | cleanup h =>
        cases st with
        | nil => simp [replayCleanup]
        | cons h' st => simp only [List.cons_append, replayCleanup]; split <;> simp [ih]
      | _ => simp [replayCleanup, ih]
    | _ => simp [replayCleanup, ih]

/-- The stacks agree with the trace. -/
def Tracks (tl0 cl0 : List Nat) (w : W) : Prop :=
  replayTl tl0 w.trace = some w.tl ∧ replayCleanup cl0 w.trace = some w.cleanup

theorem act_tracks {tl0 cl0 : List Nat} {w : W} (h : Tracks tl0 cl0 w) (a : Act) : Tracks tl0 cl0 (act w a) := by
  obtain ⟨h1, h2⟩ := h
  cases a <;> simp [Tracks, act, replayTl_append, replayCleanup_append, h1, h2, replayTl, replayCleanup]

theorem acts_tracks {tl0 cl0 : List Nat} {w : W} (h : Tracks tl0 cl0 w) (as : List Act) : Tracks tl0 cl0 (acts w as) := by
  unfold acts
  induction as generalizing w with
  | nil => exact h
  | cons a as ih => exact ih (act_tracks h a)

theorem runTl_tracks {beh : Beh} {tl0 cl0 : List Nat} {n : Nat} {w w' : W} (h : Tracks tl0 cl0 w)
    (hr : runTl beh n w = some w') : Tracks tl0 cl0 w' ∧ w'.tl = [] := by
  induction n generalizing w with
  | zero => simp [runTl] at hr
  | succ n ih =>
    rw [runTl] at hr
    split at hr
    · cases hr; exact ⟨h, by assumption⟩
    · rename_i h' rest htl
      refine ih ?_ hr
      apply acts_tracks
      obtain ⟨h1, h2⟩ := h
      rw [htl] at h1
      simp [Tracks, replayTl_append, replayCleanup_append, h1, h2, replayTl, replayCleanup]

theorem runCleanup_tracks {beh : Beh} {tl0 cl0 : List Nat} {n : Nat} {w w' : W} (h : Tracks tl0 cl0 w)
    (hr : runCleanup beh n w = some w') : Tracks tl0 cl0 w' ∧ w'.cleanup = [] := by
  induction n generalizing w with
  | zero => simp [runCleanup] at hr
  | succ n ih =>
    rw [runCleanup] at hr
    split at hr
    · cases hr; exact ⟨h, by assumption⟩
    · rename_i h' rest htl
      refine ih ?_ hr
      apply acts_tracks
      obtain ⟨h1, h2⟩ := h
      rw [htl] at h2
      simp [Tracks, replayTl_append, replayCleanup_append, h1, h2, replayTl, replayCleanup]

theorem keyStep_tracks {beh : Beh} {tl0 cl0 : List Nat} {t : Nat} {w : W} (h : Tracks tl0 cl0 w) (i : Nat) :
    Tracks tl0 cl0 (keyStep beh t w i) := by
  simp only [keyStep]
  split
  · have := @acts_tracks tl0 cl0 { w with keys := (Keys.get w.keys t i).2, trace := w.trace ++ [.call (.dtor i ((Keys.get w.keys t i).2.globals i).dtor (Keys.get w.keys t i).1)] }
      (by obtain ⟨h1, h2⟩ := h
          simp [Tracks, replayTl_append, replayCleanup_append, h1, h2, replayTl, replayCleanup])
      (beh (w.trace ++ [.call (.dtor i ((Keys.get w.keys t i).2.globals i).dtor (Keys.get w.keys t i).1)])
        (.dtor i ((Keys.get w.keys t i).2.globals i).dtor (Keys.get w.keys t i).1))
    exact this
  · exact h

theorem keyRounds_tracks {beh : Beh} {tl0 cl0 : List Nat} {t n : Nat} {w : W} (h : Tracks tl0 cl0 w) :
    Tracks tl0 cl0 (keyRounds beh t n w) := by
  have round : ∀ (is : List Nat) {w : W}, Tracks tl0 cl0 w → Tracks tl0 cl0 (is.foldl (keyStep beh t) w) := by
    intro is
    induction is with
    | nil => exact id
    | cons i is ih => exact fun h => ih (keyStep_tracks h i)
  induction n generalizing w with
  | zero => exact h
  | succ n ih => rw [keyRounds]; apply ih; unfold keyRound; exact round _ h

/-- **C44** (order): in every thread exit that comes to an end, whatever the callbacks do, thread-local destructors are
called in last-in-first-out order and so are cleanup handlers; no handler is called that is not registered or twice.
When the loop over thread-local destructors ends none is pending, and likewise for cleanup handlers. -/
theorem exit_lifo {beh : Beh} {t fuel : Nat} {w w' : W} (hw : w.trace = [])
    (hr : threadExit beh t fuel w = some w') :
    (∃ left, replayTl w.tl w'.trace = some left) ∧ (∃ left, replayCleanup w.cleanup w'.trace = some left) ∧
    ∃ w1 w2, runTl beh fuel w = some w1 ∧ replayTl w.tl w1.trace = some [] ∧
      runCleanup beh fuel w1 = some w2 ∧ replayCleanup w.cleanup w2.trace = some [] := by
  have h0 : Tracks w.tl w.cleanup w := by simp [Tracks, hw, replayTl, replayCleanup]
  simp only [threadExit] at hr
  split at hr
  · cases hr
  · rename_i w1 h1
    split at hr
    · cases hr
    · rename_i w2 h2
      have hr := Option.some.inj hr
      have t1 := runTl_tracks h0 h1
      have t2 := runCleanup_tracks t1.1 h2
      have t3 := keyRounds_tracks (beh := beh) (t := t) (n := iterations) t2.1
      rw [hr] at t3
      exact ⟨⟨_, t3.1⟩, ⟨_, t3.2⟩, w1, w2, h1, by rw [t1.1.1, t1.2], h2, by rw [t2.1.2, t2.2]⟩

/-- No callback registers thread-local destructors or cleanup handlers. -/
def NoRegs (beh : Beh) : Prop := ∀ es c a, a ∈ beh es c → ∃ op, a = .key op

theorem acts_noRegs {w : W} {as : List Act} (h : ∀ a, a ∈ as → ∃ op, a = Act.key op) :
    (acts w as).tl = w.tl ∧ (acts w as).cleanup = w.cleanup := by
  unfold acts
  induction as generalizing w with
  | nil => exact ⟨rfl, rfl⟩
  | cons a as ih =>
    obtain ⟨op, rfl⟩ := h a (by simp)
    exact ih (w := act w (.key op)) (fun a ha => h a (by simp [ha]))

theorem runTl_noRegs {beh : Beh} (hb : NoRegs beh) (w : W) (n : Nat) (hn : w.tl.length < n) :
    ∃ w', runTl beh n w = some w' ∧ w'.tl = [] ∧ w'.cleanup = w.cleanup := by
  induction n generalizing w with
  | zero => omega
  | succ n ih =>
    rw [runTl]
    split
    · exact ⟨w, rfl, by assumption, rfl⟩
    · rename_i h rest htl
      have := acts_noRegs (w := { w with tl := rest, trace := w.trace ++ [.call (.tl h)] })
        (hb (w.trace ++ [.call (.tl h)]) (.tl h))
      obtain ⟨w', h1, h2, h3⟩ := ih (call beh { w with tl := rest } (.tl h))
        (by simp only [call]; rw [this.1]; rw [htl] at hn; simp at hn ⊢; omega)
      exact ⟨w', h1, h2, by rw [h3]; exact this.2⟩

theorem runCleanup_noRegs {beh : Beh} (hb : NoRegs beh) (w : W) (n : Nat) (hn : w.cleanup.length < n) :
    ∃ w', runCleanup beh n w = some w' ∧ w'.cleanup = [] ∧ w'.tl = w.tl := by
  induction n generalizing w with
  | zero => omega
  | succ n ih =>
    rw [runCleanup]
    split
    · exact ⟨w, rfl, by assumption, rfl⟩
    · rename_i h rest htl
      have := acts_noRegs (w := { w with cleanup := rest, trace := w.trace ++ [.call (.cleanup h)] })
        (hb (w.trace ++ [.call (.cleanup h)]) (.cleanup h))
      obtain ⟨w', h1, h2, h3⟩ := ih (call beh { w with cleanup := rest } (.cleanup h))
        (by simp only [call]; rw [this.2]; rw [htl] at hn; simp at hn ⊢; omega)
      exact ⟨w', h1, h2, by rw [h3]; exact this.1⟩

theorem keyStep_noRegs {beh : Beh} (hb : NoRegs beh) (t : Nat) (w : W) (i : Nat) :
    (keyStep beh t w i).tl = w.tl ∧ (keyStep beh t w i).cleanup = w.cleanup := by
  simp only [keyStep]
  split
  · exact acts_noRegs (hb _ _)
  · exact ⟨rfl, rfl⟩

theorem keyRounds_noRegs {beh : Beh} (hb : NoRegs beh) (t n : Nat) (w : W) :
    (keyRounds beh t n w).tl = w.tl ∧ (keyRounds beh t n w).cleanup = w.cleanup := by
  have round : ∀ (is : List Nat) (w : W), (is.foldl (keyStep beh t) w).tl = w.tl ∧
      (is.foldl (keyStep beh t) w).cleanup = w.cleanup := by
    intro is
    induction is with
    | nil => exact fun w => ⟨rfl, rfl⟩
    | cons i is ih =>
      intro w
      have h1 := ih (keyStep beh t w i)
      have h2 := keyStep_noRegs hb t w i
      exact ⟨h1.1.trans h2.1, h1.2.trans h2.2⟩
  induction n generalizing w with
  | zero => exact ⟨rfl, rfl⟩
  | succ n ih =>
    have h1 := ih (keyRound beh t w)
    have h2 : (keyRound beh t w).tl = w.tl ∧ (keyRound beh t w).cleanup = w.cleanup := by
      unfold keyRound; exact round _ w
    rw [keyRounds]
    exact ⟨h1.1.trans h2.1, h1.2.trans h2.2⟩

/-- **C44** (partial): when callbacks register no further handlers, thread exit ends, and every thread-local destructor
and every cleanup handler registered before it has been called exactly once, each kind in reverse order of registration.
Missing from the full property: a thread-local destructor registered by a cleanup handler is never called
(`exit_tl_lost_violated`). -/
theorem exit_calls_all_partial {beh : Beh} (hb : NoRegs beh) (t : Nat) (w : W) (hw : w.trace = []) :
    ∃ fuel w', threadExit beh t fuel w = some w' ∧ replayTl w.tl w'.trace = some [] ∧
      replayCleanup w.cleanup w'.trace = some [] := by
  obtain ⟨w1, h1, h2, h3⟩ := runTl_noRegs hb w (w.tl.length + w.cleanup.length + 1) (by omega)
  obtain ⟨w2, h4, h5, h6⟩ := runCleanup_noRegs hb w1 (w.tl.length + w.cleanup.length + 1) (by rw [h3]; omega)
  have h0 : Tracks w.tl w.cleanup w := by simp [Tracks, hw, replayTl, replayCleanup]
  have t1 := runTl_tracks h0 h1
  have t2 := runCleanup_tracks t1.1 h4
  have t3 := keyRounds_tracks (beh := beh) (t := t) (n := iterations) t2.1
  have nr := keyRounds_noRegs hb t iterations w2
  refine ⟨_, _, by rw [threadExit, h1]; simp only; rw [h4], ?_, ?_⟩
  · rw [t3.1, nr.1, h6, h2]
  · rw [t3.2, nr.2, h5]

/-! ## Key destructors -/

theorem dtorCalls_append (k : Nat) (a b : List Ev) : dtorCalls k (a ++ b) = dtorCalls k a + dtorCalls k b :=
  List.countP_append

theorem act_dtorCalls (k : Nat) (w : W) (a : Act) : dtorCalls k (act w a).trace = dtorCalls k w.trace := by
  cases a <;> simp [act, dtorCalls_append] <;> rfl

theorem acts_dtorCalls (k : Nat) (w : W) (as : List Act) : dtorCalls k (acts w as).trace = dtorCalls k w.trace := by
  unfold acts
  induction as generalizing w with
  | nil => rfl
  | cons a as ih => exact (ih (act w a)).trans (act_dtorCalls k w a)

theorem keyStep_dtorCalls (beh : Beh) (t : Nat) (w : W) (i k : Nat) :
    dtorCalls k (keyStep beh t w i).trace ≤ dtorCalls k w.trace + (if i = k then 1 else 0) := by
  simp only [keyStep]
  split
  · simp only [call, acts_dtorCalls, dtorCalls_append]
    simp [dtorCalls]
  · simp

theorem keyRound_dtorCalls (beh : Beh) (t : Nat) (w : W) (k : Nat) :
    dtorCalls k (keyRound beh t w).trace ≤ dtorCalls k w.trace + 1 := by
  have gen : ∀ n (w : W), dtorCalls k ((List.range n).foldl (keyStep beh t) w).trace ≤
      dtorCalls k w.trace + (if k < n then 1 else 0) := by
    intro n
    induction n with
    | zero => simp
    | succ n ih =>
      intro w
      rw [List.range_succ, List.foldl_append]
      have h1 := ih w
      have h2 := keyStep_dtorCalls beh t ((List.range n).foldl (keyStep beh t) w) n k
      simp only [List.foldl_cons, List.foldl_nil]
      split at h1 <;> split at h2 <;> split <;> omega
  have := gen Keys.maxKeys w
  unfold keyRound
  split at this <;> omega

/-- **C44**: whatever destructors do, each key's destructor is called at most `PTHREAD_DESTRUCTOR_ITERATIONS` times. -/
theorem dtor_calls_bounded (beh : Beh) (t : Nat) (w : W) (k : Nat) :
    dtorCalls k (keyRounds beh t iterations w).trace ≤ dtorCalls k w.trace + iterations := by
  have gen : ∀ n (w : W), dtorCalls k (keyRounds beh t n w).trace ≤ dtorCalls k w.trace + n := by
    intro n
    induction n with
    | zero => simp [keyRounds]
    | succ n ih =>
      intro w
      have h1 := ih (keyRound beh t w)
      have h2 := keyRound_dtorCalls beh t w k
      rw [keyRounds]
      omega
  exact gen _ w

/-- The value thread `t` has for key `i`, as `pthread_getspecific` would return it. -/
def valueOf (t : Nat) (s : Keys.St) (i : Nat) : Nat := (Keys.get s t i).1

theorem get_valueOf (t : Nat) (s : Keys.St) (i j : Nat) : valueOf t (Keys.get s t i).2 j = valueOf t s j := by
  simp only [valueOf, Keys.get, Keys.setL]
  repeat' split
  all_goals simp_all
  all_goals grind

theorem get_globals (t : Nat) (s : Keys.St) (i : Nat) : (Keys.get s t i).2.globals = s.globals := by
  simp only [Keys.get, Keys.setL]
  repeat' split
  all_goals rfl

/-- Clearing the value of key `i`. L216 -/
theorem clear_valueOf (t : Nat) (s : Keys.St) (i j : Nat) :
    valueOf t (Keys.setL s t i { s.locals t i with value := 0 }) j = if j = i then 0 else valueOf t s j := by
  simp only [valueOf, Keys.get, Keys.setL]
  repeat' split
  all_goals simp_all

/-- Destructors that do nothing to handlers and keys. -/
def QuietDtors (beh : Beh) : Prop := ∀ es k d v, beh es (.dtor k d v) = []

/-- The call a key needs at thread exit. -/
def dtorEv (t : Nat) (s : Keys.St) (i : Nat) : Option Ev :=
  if valueOf t s i ≠ 0 ∧ (s.globals i).dtor ≠ 0 then some (.call (.dtor i (s.globals i).dtor (valueOf t s i))) else none

theorem keyStep_quiet {beh : Beh} (hb : QuietDtors beh) (t : Nat) (w : W) (i : Nat) :
    (keyStep beh t w i).trace = w.trace ++ (dtorEv t w.keys i).toList ∧
    (keyStep beh t w i).keys.globals = w.keys.globals ∧
    ∀ j, valueOf t (keyStep beh t w i).keys j =
      if j = i ∧ (w.keys.globals i).dtor ≠ 0 then 0 else valueOf t w.keys j := by
  have hg := get_globals t w.keys i
  have hv : (Keys.get w.keys t i).1 = valueOf t w.keys i := rfl
  simp only [keyStep, dtorEv, hg, hv]
  by_cases h : valueOf t w.keys i ≠ 0 ∧ (w.keys.globals i).dtor ≠ 0
  · rw [if_pos h, if_pos h]
    unfold QuietDtors at hb
    simp only [call, hb, acts, List.foldl_nil]
    refine ⟨rfl, hg, fun j => ?_⟩
    rw [clear_valueOf, get_valueOf]
    simp [h.2]
  · rw [if_neg h, if_neg h]
    refine ⟨by simp, hg, fun j => ?_⟩
    simp only [get_valueOf]
    split
    · rename_i hj
      obtain ⟨rfl, hd⟩ := hj
      by_cases hv : valueOf t w.keys j = 0
      · exact hv
      · exact absurd ⟨hv, hd⟩ h
    · rfl

theorem keyRound_quiet {beh : Beh} (hb : QuietDtors beh) (t : Nat) (w : W) :
    (keyRound beh t w).trace = w.trace ++ (List.range Keys.maxKeys).filterMap (dtorEv t w.keys) ∧
    (keyRound beh t w).keys.globals = w.keys.globals ∧
    ∀ j, valueOf t (keyRound beh t w).keys j =
      if j < Keys.maxKeys ∧ (w.keys.globals j).dtor ≠ 0 then 0 else valueOf t w.keys j := by
  have gen : ∀ n (w : W), ((List.range n).foldl (keyStep beh t) w).trace =
        w.trace ++ (List.range n).filterMap (dtorEv t w.keys) ∧
      ((List.range n).foldl (keyStep beh t) w).keys.globals = w.keys.globals ∧
      ∀ j, valueOf t ((List.range n).foldl (keyStep beh t) w).keys j =
        if j < n ∧ (w.keys.globals j).dtor ≠ 0 then 0 else valueOf t w.keys j := by
    intro n w
    induction n with
    | zero => simp
    | succ n ih =>
      obtain ⟨h1, h2, h3⟩ := ih
      rw [List.range_succ, List.foldl_append, List.filterMap_append]
      simp only [List.foldl_cons, List.foldl_nil, List.filterMap_cons, List.filterMap_nil]
      obtain ⟨k1, k2, k3⟩ := keyStep_quiet hb t ((List.range n).foldl (keyStep beh t) w) n
      have he : dtorEv t ((List.range n).foldl (keyStep beh t) w).keys n = dtorEv t w.keys n := by
        simp only [dtorEv, h2]
        rw [h3 n]
        simp
      refine ⟨?_, k2.trans h2, fun j => ?_⟩
      · rw [k1, h1, he, List.append_assoc]
        congr 2
      · rw [k3, h3, h2]
        by_cases hj : j = n
        · subst hj; simp
        · by_cases hl : j < n
          · simp [hj, hl, Nat.lt_succ_of_lt hl]
          · simp [hj, hl, show ¬ j < n + 1 by omega]
  unfold keyRound
  exact gen _ w

/-- **C44** (partial): when key destructors do not touch keys or handlers, the key phase of thread exit calls, once and
in order of keys, exactly the destructors of those keys whose value in this thread is not NULL, each with that value;
afterwards every key with a destructor reads NULL.
Missing from the full property: the value is still set during the call, and a value a destructor sets for its own key is
lost (`exit_value_seen_violated`, `exit_reset_lost_violated`). -/
theorem key_destructors_partial {beh : Beh} (hb : QuietDtors beh) (t : Nat) (w : W) :
    (keyRounds beh t iterations w).trace = w.trace ++ (List.range Keys.maxKeys).filterMap (dtorEv t w.keys) ∧
    ∀ j, j < Keys.maxKeys → (w.keys.globals j).dtor ≠ 0 → valueOf t (keyRounds beh t iterations w).keys j = 0 := by
  have again : ∀ n (w : W), (∀ j, j < Keys.maxKeys → (w.keys.globals j).dtor ≠ 0 → valueOf t w.keys j = 0) →
      (keyRounds beh t n w).trace = w.trace ∧
      ∀ j, j < Keys.maxKeys → (w.keys.globals j).dtor ≠ 0 → valueOf t (keyRounds beh t n w).keys j = 0 := by
    intro n
    induction n with
    | zero => exact fun w h => ⟨rfl, h⟩
    | succ n ih =>
      intro w h
      obtain ⟨h1, h2, h3⟩ := keyRound_quiet hb t w
      rw [keyRounds]
      obtain ⟨k1, k2⟩ := ih (keyRound beh t w) (fun j hj hd => by rw [h3]; rw [h2] at hd; simp [hj, hd])
      refine ⟨?_, fun j hj hd => k2 j hj (by rw [h2]; exact hd)⟩
      rw [k1, h1]
      have : (List.range Keys.maxKeys).filterMap (dtorEv t w.keys) = [] := by
        rw [List.filterMap_eq_nil_iff]
        intro j hj
        have hj := List.mem_range.1 hj
        simp only [dtorEv]
        rw [if_neg]
        rintro ⟨a, b⟩
        exact a (h j hj b)
      rw [this, List.append_nil]
  obtain ⟨h1, h2, h3⟩ := keyRound_quiet hb t w
  have ha := again 7 (keyRound beh t w) (fun j hj hd => by rw [h3]; rw [h2] at hd; simp [hj, hd])
  have e : keyRounds beh t iterations w = keyRounds beh t 7 (keyRound beh t w) := by
    rw [iterations, keyRounds]
  rw [e]
  exact ⟨by rw [ha.1, h1], fun j hj hd => ha.2 j hj (by rw [h2]; exact hd)⟩

/-! ## Executions -/

/-- Key 0 exists with destructor 9 and value 77 in thread 1; handlers as given. -/
def sample (tl cleanup : List Nat) : W :=
  ⟨⟨fun i => if i = 0 then ⟨true, 9, 0⟩ else ⟨false, 0, 0⟩, fun t i => if t = 1 ∧ i = 0 then ⟨77, 0⟩ else ⟨0, 0⟩⟩,
    tl, cleanup, []⟩

/-- Callbacks that do nothing. -/
def quiet : Beh := fun _ _ => []

example : QuietDtors quiet ∧ NoRegs quiet ∧ (sample [1, 2] [3]).trace = [] :=
  ⟨fun _ _ _ _ => rfl, fun _ _ _ h => by simp [quiet] at h, rfl⟩

/-- Only key 0 is in use. -/
def OnlyKey0 (w : W) : Prop := ∀ i, i ≠ 0 → (w.keys.globals i).inUse = false

/-- Callbacks create and delete no keys. -/
def NoKeys (beh : Beh) : Prop := ∀ es c a, a ∈ beh es c →
  (∃ t k, a = .key (.get t k)) ∨ (∃ t k v, a = .key (.set t k v)) ∨ ∃ h, a = .regTl h

theorem set_globals (s : Keys.St) (t k v : Nat) : (Keys.set s t k v).2.globals = s.globals := by
  simp only [Keys.set, Keys.setL]
  split <;> rfl

theorem acts_globals {w : W} {as : List Act} (h : ∀ a, a ∈ as →
    (∃ t k, a = .key (.get t k)) ∨ (∃ t k v, a = .key (.set t k v)) ∨ ∃ h, a = .regTl h) :
    (acts w as).keys.globals = w.keys.globals := by
  unfold acts
  induction as generalizing w with
  | nil => rfl
  | cons a as ih =>
    refine (ih (w := act w a) (fun a ha => h a (by simp [ha]))).trans ?_
    rcases h a (by simp) with ⟨t, k, rfl⟩ | ⟨t, k, v, rfl⟩ | ⟨h, rfl⟩
    · exact get_globals t w.keys k
    · exact set_globals w.keys t k v
    · rfl

theorem keyStep_only {beh : Beh} (hb : NoKeys beh) (t : Nat) {w : W} (h : OnlyKey0 w) : OnlyKey0 (keyStep beh t w 0) := by
  have : (keyStep beh t w 0).keys.globals = w.keys.globals := by
    simp only [keyStep]
    split
    · simp only [Keys.setL, call]
      rw [acts_globals (hb _ _)]
      exact get_globals t w.keys 0
    · exact get_globals t w.keys 0
  intro i hi
  rw [this]; exact h i hi

theorem keyStep_skip (beh : Beh) (t : Nat) {w : W} (h : OnlyKey0 w) {i : Nat} (hi : i ≠ 0) : keyStep beh t w i = w := by
  have : Keys.get w.keys t i = (0, w.keys) := by
    simp only [Keys.get]; rw [if_pos (.inr (h i hi))]
  simp only [keyStep, this]
  rw [if_neg (by simp)]

theorem keyRound_only {beh : Beh} (hb : NoKeys beh) (t : Nat) {w : W} (h : OnlyKey0 w) :
    keyRound beh t w = keyStep beh t w 0 := by
  have skip : ∀ (is : List Nat) (w : W), OnlyKey0 w → (∀ i, i ∈ is → i ≠ 0) → is.foldl (keyStep beh t) w = w := by
    intro is
    induction is with
    | nil => intro w _ _; rfl
    | cons i is ih =>
      intro w hw hi
      rw [List.foldl_cons, keyStep_skip beh t hw (hi i (by simp))]
      exact ih w hw (fun i h => hi i (by simp [h]))
  unfold keyRound
  rw [show Keys.maxKeys = 1023 + 1 from rfl, List.range_succ_eq_map, List.foldl_cons]
  exact skip _ _ (keyStep_only hb t h) (by simp)

/-- With only key 0 in use the loops visit it eight times. -/
def rounds0 (beh : Beh) (t : Nat) : Nat → W → W
  | 0, w => w
  | n + 1, w => rounds0 beh t n (keyStep beh t w 0)

theorem keyRounds_only {beh : Beh} (hb : NoKeys beh) (t n : Nat) {w : W} (h : OnlyKey0 w) :
    keyRounds beh t n w = rounds0 beh t n w := by
  induction n generalizing w with
  | zero => rfl
  | succ n ih => rw [keyRounds, rounds0, keyRound_only hb t h, ih (keyStep_only hb t h)]

/-- A whole exit. -/
example : ∃ w', threadExit quiet 1 5 (sample [1, 2] [3, 4]) = some w' ∧ w'.trace =
    [.call (.tl 1), .call (.tl 2), .call (.cleanup 3), .call (.cleanup 4), .call (.dtor 0 9 77)] := by
  have hb : NoKeys quiet := fun _ _ _ h => by simp [quiet] at h
  refine ⟨_, rfl, ?_⟩
  rw [keyRounds_only hb]
  · decide
  · intro i hi; simp [call, quiet, acts, sample, hi]

def lateTl : Beh := fun _ c => if c = .cleanup 3 then [.regTl 8] else []
def reader : Beh := fun _ c => match c with | .dtor _ _ _ => [.key (.get 1 0)] | _ => []
def resetter : Beh := fun _ c => match c with | .dtor _ _ v => if v = 77 then [.key (.set 1 0 5)] else [] | _ => []

/-- **C44** violated: a cleanup handler uses a thread-local object for the first time, which registers its destructor;
the thread ends without calling it. threads.cpp L199-205 -/
theorem exit_tl_lost_violated : ∃ beh w', threadExit beh 1 5 (sample [] [3]) = some w' ∧
    replayTl [] w'.trace = some [8] := by
  have hb : NoKeys lateTl := by
    intro es c a h; simp only [lateTl] at h; split at h <;> simp_all
  refine ⟨lateTl, _, rfl, ?_⟩
  rw [keyRounds_only hb]
  · decide
  · intro i hi; simp [call, acts, act, lateTl, sample, hi]

/-- **C44** violated: a key's destructor that reads the key sees the value it is being called with, not NULL.
threads.cpp L215-216 -/
theorem exit_value_seen_violated : ∃ beh w', threadExit beh 1 5 (sample [] []) = some w' ∧
    w'.trace = [.call (.dtor 0 9 77), .key (.get 1 0) (.value 77)] := by
  have hb : NoKeys reader := by
    intro es c a h; simp only [reader] at h; split at h <;> simp_all
  refine ⟨reader, _, rfl, ?_⟩
  rw [keyRounds_only hb]
  · decide
  · intro i hi; simp [sample, hi]

/-- **C44** violated: a key's destructor that sets the key to a new value is not called with that value: it is called
once, and the new value is dropped. threads.cpp L216 -/
theorem exit_reset_lost_violated : ∃ beh w', threadExit beh 1 5 (sample [] []) = some w' ∧
    w'.trace = [.call (.dtor 0 9 77), .key (.set 1 0 5) .ok] ∧ valueOf 1 w'.keys 0 = 0 := by
  have hb : NoKeys resetter := by
    intro es c a h; simp only [resetter] at h; split at h <;> first | (split at h <;> simp_all) | simp_all
  refine ⟨resetter, _, rfl, ?_⟩
  rw [keyRounds_only hb]
  · decide
  · intro i hi; simp [sample, hi]

end Mlibc.ThreadExit
