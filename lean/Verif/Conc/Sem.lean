import Verif.Conc.Base
/-
Semaphores: `sem_init`, `sem_wait`, `sem_clockwait`, `sem_post`, `sem_getvalue`, `sem_trywait`
(options/posix/generic/semaphore.cpp L12-170), called by any number of threads in any interleaving. Property C41.
-/
set_option linter.unusedSimpArgs false
namespace Mlibc.Conc.Sem

/-- `SEM_VALUE_MAX`, also the mask of the count. options/posix/include/semaphore.h, semaphore.cpp L9-10 -/
def maxValue : Nat := 2 ^ 31 - 1

/-- The semaphore word: count and waiters bit (bit 31). -/
structure Word where
  count : Nat
  bit : Bool
  deriving DecidableEq, Repr

/-- Where a thread is. -/
inductive Pc where
  | out
  /-- in the loop of `sem_wait` or (`timed`) `sem_clockwait` with this value of `state`. L36, L66 -/
  | wait (timed : Bool) (state : Word)
  /-- the compare-exchange to the bare waiters bit succeeded; before `FutexWait(state)`. L40, L91 -/
  | fut (timed : Bool) (state : Word)
  | sleep (timed : Bool)
  /-- in `sem_post`, before the load. L112 -/
  | post
  /-- in the loop of `sem_post` with this value of `state`. L114 -/
  | postLoop (state : Word)
  /-- before `FutexWake`. L129 -/
  | wake
  /-- in `sem_trywait`, before the load. L158 -/
  | try_
  /-- before the compare-exchange. L166 -/
  | tryCas (state : Word)
  deriving DecidableEq, Repr

inductive Lab where
  | tau
  | callWait | retWait (ok : Bool)
  | callPost | retPost (ok : Bool)
  /-- the count was raised; the call returns here if there is nobody to wake -/
  | posted
  | callTry | retTry (ok : Bool)
  | getValue (v : Nat)
  deriving DecidableEq, Repr

structure St where
  word : Word
  pc : Tid → Pc

def Pc.asleep : Pc → Bool
  | .sleep _ => true
  | _ => false

/-- Sleeping threads return from `FutexWait` with 0 and go on with the state they waited for, the bare bit. -/
def wakeAll (pc : Tid → Pc) : Tid → Pc := fun u =>
  match pc u with
  | .sleep timed => .wait timed ⟨0, true⟩
  | p => p

inductive Step (t : Tid) : St → Lab → St → Prop where
  -- sem_wait, sem_clockwait. L33-109
  | callWait {s} (timed) : s.pc t = .out → Step t s .callWait { s with pc := upd s.pc t (.wait timed ⟨0, false⟩) }
  | mark {s timed b} : s.pc t = .wait timed ⟨0, b⟩ → s.word = ⟨0, b⟩ →
      Step t s .tau { word := ⟨0, true⟩, pc := upd s.pc t (.fut timed ⟨0, b⟩) }
  | markFail {s timed b} : s.pc t = .wait timed ⟨0, b⟩ → s.word ≠ ⟨0, b⟩ →
      Step t s .tau { s with pc := upd s.pc t (.wait timed s.word) }
  | expired {s st} : s.pc t = .fut true st → Step t s (.retWait false) { s with pc := upd s.pc t .out }
  | futexSleep {s timed st} : s.pc t = .fut timed st → s.word = st →
      Step t s .tau { s with pc := upd s.pc t (.sleep timed) }
  | futexAgain {s timed st} : s.pc t = .fut timed st → s.word ≠ st →
      Step t s .tau { s with pc := upd s.pc t (.wait timed st) }
  | spurious {s timed} : s.pc t = .sleep timed →
      Step t s .tau { s with pc := upd s.pc t (.wait timed ⟨0, true⟩) }
  /-- interrupted by a signal (EINTR), or timed out -/
  | intr {s timed} : s.pc t = .sleep timed → Step t s (.retWait false) { s with pc := upd s.pc t .out }
  | take {s timed n b} : s.pc t = .wait timed ⟨n + 1, b⟩ → s.word = ⟨n + 1, b⟩ →
      Step t s (.retWait true) { word := ⟨n, b⟩, pc := upd s.pc t .out }
  | takeFail {s timed n b} : s.pc t = .wait timed ⟨n + 1, b⟩ → s.word ≠ ⟨n + 1, b⟩ →
      Step t s .tau { s with pc := upd s.pc t (.wait timed s.word) }
  -- sem_post. L111-133
  | callPost {s} : s.pc t = .out → Step t s .callPost { s with pc := upd s.pc t .post }
  | postLoad {s} : s.pc t = .post → Step t s .tau { s with pc := upd s.pc t (.postLoop s.word) }
  | overflow {s st} : s.pc t = .postLoop st → st.count + 1 > maxValue →
      Step t s (.retPost false) { s with pc := upd s.pc t .out }
  | postCas {s st} : s.pc t = .postLoop st → st.count + 1 ≤ maxValue → s.word = st → st.bit = false →
      Step t s .posted { word := ⟨st.count + 1, st.bit⟩, pc := upd s.pc t .out }
  | postCasWake {s st} : s.pc t = .postLoop st → st.count + 1 ≤ maxValue → s.word = st → st.bit = true →
      Step t s .posted { word := ⟨st.count + 1, st.bit⟩, pc := upd s.pc t .wake }
  /-- the weak compare-exchange fails -/
  | postFail {s st} : s.pc t = .postLoop st → st.count + 1 ≤ maxValue →
      Step t s .tau { s with pc := upd s.pc t (.postLoop s.word) }
  | wake {s} : s.pc t = .wake → Step t s (.retPost true) { s with pc := upd (wakeAll s.pc) t .out }
  -- sem_trywait. L156-170
  | callTry {s} : s.pc t = .out → Step t s .callTry { s with pc := upd s.pc t .try_ }
  | tryAgain {s} : s.pc t = .try_ → (s.word.bit = true ∨ s.word = ⟨0, false⟩) →
      Step t s (.retTry false) { s with pc := upd s.pc t .out }
  | tryLoad {s n} : s.pc t = .try_ → s.word = ⟨n + 1, false⟩ →
      Step t s .tau { s with pc := upd s.pc t (.tryCas ⟨n + 1, false⟩) }
  | tryCas {s n} : s.pc t = .tryCas ⟨n + 1, false⟩ → s.word = ⟨n + 1, false⟩ →
      Step t s (.retTry true) { word := ⟨n, false⟩, pc := upd s.pc t .out }
  | tryCasFail {s st} : s.pc t = .tryCas st → s.word ≠ st → Step t s .tau { s with pc := upd s.pc t .try_ }
  -- sem_getvalue. L145-149
  | getValue {s} : s.pc t = .out → Step t s (.getValue s.word.count) s

/-- `sem_init` with value `n`. L12-27 -/
def Init (n : Nat) (s : St) : Prop := n ≤ maxValue ∧ s.word = ⟨n, false⟩ ∧ ∀ t, s.pc t = .out

/-- A step of any thread. -/
def Sys (s : St) (e : Tid × Lab) (s' : St) : Prop := Step e.1 s e.2 s'

/-! ## Specification over what an observer sees -/

/-- Completed waits, of either kind. -/
def waits (tr : List (Tid × Lab)) : Nat := tr.countP (fun e => e.2 = .retWait true ∨ e.2 = .retTry true)

/-- Posts that have taken effect. -/
def posts (tr : List (Tid × Lab)) : Nat := tr.countP (fun e => e.2 = .posted)

/-- Posts of thread `t` that have taken effect. -/
def postsOf (tr : List (Tid × Lab)) (t : Tid) : Nat := tr.countP (fun e => e.1 = t ∧ e.2 = .posted)

/-- Post calls thread `t` has begun. -/
def postsBegun (tr : List (Tid × Lab)) (t : Tid) : Nat := tr.countP (fun e => e.1 = t ∧ e.2 = .callPost)

structure Inv (n : Nat) (tr : List (Tid × Lab)) (s : St) : Prop where
  conserve : s.word.count + waits tr = n + posts tr
  bound : s.word.count ≤ maxValue
  sleepers : ∀ t, (s.pc t).asleep = true → s.word.bit = true ∧ (s.word.count = 0 ∨ ∃ u, s.pc u = .wake)
  fut : ∀ t timed st, s.pc t = .fut timed st → st.count = 0 ∧ s.word.bit = true
  loop : ∀ t st, s.pc t = .postLoop st → st.bit = true → s.word.bit = true

theorem upd_pc (s : St) (t u : Tid) (x : Pc) : upd s.pc t x u = if u = t then x else s.pc u := rfl
grind_pattern upd_pc => upd s.pc t x, s.pc u

theorem waits_snoc (tr : List (Tid × Lab)) (e : Tid × Lab) :
    waits (tr ++ [e]) = waits tr + if e.2 = .retWait true ∨ e.2 = .retTry true then 1 else 0 := by
  simp [waits, List.countP_append, List.countP_singleton]

theorem posts_snoc (tr : List (Tid × Lab)) (e : Tid × Lab) :
    posts (tr ++ [e]) = posts tr + if e.2 = .posted then 1 else 0 := by
  simp [posts, List.countP_append, List.countP_singleton]

theorem inv_init (n : Nat) (s : St) (h : Init n s) : Inv n [] s := by
  obtain ⟨h1, h2, h3⟩ := h
  constructor <;> simp [h1, h2, h3, waits, posts, Pc.asleep]

set_option maxHeartbeats 2000000 in
theorem inv_step {n : Nat} {tr : List (Tid × Lab)} {s s' : St} {e : Tid × Lab} (h : Inv n tr s) (hs : Sys s e s') :
    Inv n (tr ++ [e]) s' := by
  obtain ⟨t, l⟩ := e
  obtain ⟨h1, h2, h3, h4, h5⟩ := h
  simp only [Sys] at hs
  cases hs <;> constructor <;>
    ((try simp only [waits_snoc, posts_snoc]); grind [Pc.asleep, wakeAll])

theorem inv_run {n : Nat} {tr tr' : List (Tid × Lab)} {s s' : St} (h : Inv n tr s) (hr : Run Sys s tr' s') :
    Inv n (tr ++ tr') s' := by
  induction hr generalizing tr with
  | nil => simpa using h
  | @cons s e s1 tr2 s2 hs _ ih => simpa using ih (inv_step h hs)

/-- A post that is in progress and has not yet taken effect. -/
def Pc.posting : Pc → Nat
  | .post | .postLoop _ => 1
  | _ => 0

theorem posting_step {s s' : St} {e : Tid × Lab} (hs : Sys s e s') (u : Tid) :
    postsOf [e] u + (s'.pc u).posting ≤ postsBegun [e] u + (s.pc u).posting := by
  obtain ⟨t, l⟩ := e
  simp only [Sys] at hs
  simp only [postsOf, postsBegun, List.countP_singleton]
  cases hs <;> (try simp only) <;> grind [Pc.posting, wakeAll]

theorem posting_run {s s' : St} {tr : List (Tid × Lab)} (hr : Run Sys s tr s') (u : Tid) :
    postsOf tr u + (s'.pc u).posting ≤ postsBegun tr u + (s.pc u).posting := by
  induction hr with
  | nil s => simp [postsOf, postsBegun]
  | @cons s e s1 tr s2 hs _ ih =>
    have h1 := posting_step hs u
    have a1 : postsOf (e :: tr) u = postsOf [e] u + postsOf tr u := by
      simp only [postsOf]; rw [← List.countP_append]; rfl
    have a2 : postsBegun (e :: tr) u = postsBegun [e] u + postsBegun tr u := by
      simp only [postsBegun]; rw [← List.countP_append]; rfl
    omega

/-- **C41** (conservation): in every execution by any number of threads, completed waits never exceed the initial value
plus the posts that have taken effect; the difference is exactly the value `sem_getvalue` reports; and a post takes
effect at most once, during a call. -/
theorem sem_conserves {n : Nat} {s0 s : St} {tr : List (Tid × Lab)} (h0 : Init n s0) (hr : Run Sys s0 tr s) :
    waits tr ≤ n + posts tr ∧ s.word.count = n + posts tr - waits tr ∧ s.word.count ≤ maxValue ∧
    ∀ t, postsOf tr t ≤ postsBegun tr t := by
  have hi := inv_run (inv_init _ _ h0) hr
  simp only [List.nil_append] at hi
  have h1 := hi.conserve
  refine ⟨by omega, by omega, hi.bound, fun t => ?_⟩
  have := posting_run hr t
  rw [h0.2.2] at this
  simp only [Pc.posting] at this
  omega

/-- **C41**: `sem_getvalue` reports the value and changes nothing. -/
theorem sem_getvalue {n : Nat} {s0 s s' : St} {tr : List (Tid × Lab)} (h0 : Init n s0) (hr : Run Sys s0 tr s)
    {t : Tid} {v : Nat} (hs : Sys s (t, .getValue v) s') : v = n + posts tr - waits tr ∧ s' = s := by
  have h1 := (sem_conserves h0 hr).2.1
  simp only [Sys] at hs
  generalize hl : Lab.getValue v = l at hs
  cases hs <;> simp_all

/-- **C41** (no lost wake-up): if the value is positive and no post call is in progress, no waiter is asleep. -/
theorem sem_no_lost_wakeup {n : Nat} {s0 s : St} {tr : List (Tid × Lab)} (h0 : Init n s0) (hr : Run Sys s0 tr s)
    (hpos : 0 < s.word.count) (hquiet : ∀ u, s.pc u ≠ .wake) (t : Tid) : (s.pc t).asleep = false := by
  have hi := inv_run (inv_init _ _ h0) hr
  cases hb : (s.pc t).asleep with
  | false => rfl
  | true =>
    rcases (hi.sleepers t hb).2 with h | ⟨u, h⟩
    · omega
    · exact absurd h (hquiet u)

/-- A post that finds the waiters bit leaves nobody asleep. -/
theorem sem_wakes {s s' : St} {t : Tid} (hs : Sys s (t, .retPost true) s') (u : Tid) : (s'.pc u).asleep = false := by
  simp only [Sys] at hs
  generalize hl : Lab.retPost true = l at hs
  cases hs <;> grind [wakeAll, Pc.asleep]

/-- **C41** (`sem_trywait`): fails only if the value is zero or the waiters bit is set, and then changes nothing.
Missing from the full property: the waiters bit is never cleared (`sem_trywait_violated`). -/
theorem sem_trywait_partial {s s' : St} {t : Tid} (hs : Sys s (t, .retTry false) s') :
    (s.word.count = 0 ∨ s.word.bit = true) ∧ s'.word = s.word := by
  simp only [Sys] at hs
  generalize hl : Lab.retTry false = l at hs
  cases hs <;> cases hl
  case tryAgain _ h => rcases h with h | h <;> simp [h]

/-- The waiters bit is set only if some thread once found the value zero in `sem_wait`: if no wait has ever had to block,
`sem_trywait` succeeds whenever the value is positive and stays so. -/
theorem sem_trywait_no_blocking {s s' : St} {e : Tid × Lab} (hs : Sys s e s') (hb : s.word.bit = false)
    (hb' : s'.word.bit = true) : ∃ timed, s.pc e.1 = .wait timed ⟨0, false⟩ ∧ s.word.count = 0 := by
  obtain ⟨t, l⟩ := e
  simp only [Sys] at hs
  cases hs <;> simp_all

/-- Within the execution `tr` from `s0` to `s`, during thread `t`'s present `sem_post` call (which began before that
point and of which no event but internal ones follows), the semaphore once held `w`. -/
def SeenInPost (s0 : St) (tr : List (Tid × Lab)) (s : St) (t : Tid) (w : Word) : Prop :=
  ∃ tr1 tr2 s1, tr = tr1 ++ tr2 ∧ Run Sys s0 tr1 s1 ∧ Run Sys s1 tr2 s ∧ s1.word = w ∧
    postsBegun tr t = postsBegun tr1 t ∧ (∀ e ∈ tr2, e.1 = t → e.2 = .tau) ∧ (s1.pc t).posting = 1

theorem run_append {s s1 s2 : St} {tr tr' : List (Tid × Lab)} (h : Run Sys s tr s1) (h' : Run Sys s1 tr' s2) :
    Run Sys s (tr ++ tr') s2 := by
  induction h with
  | nil => exact h'
  | cons hs _ ih => exact .cons hs (ih h')

theorem seen_step {s0 s s' : St} {tr : List (Tid × Lab)} {e : Tid × Lab} (hr : Run Sys s0 tr s)
    (h : ∀ t st, s.pc t = .postLoop st → SeenInPost s0 tr s t st) (hs : Sys s e s') :
    ∀ t st, s'.pc t = .postLoop st → SeenInPost s0 (tr ++ [e]) s' t st := by
  intro t st ht
  obtain ⟨u, l⟩ := e
  have hone : Run Sys s [(u, l)] s' := .cons hs (.nil _)
  by_cases hut : u = t
  · subst hut
    have key : l = .tau ∧ s.word = st ∧ (s.pc u).posting = 1 := by
      simp only [Sys] at hs
      cases hs <;> grind [wakeAll, Pc.posting]
    obtain ⟨rfl, h2, h3⟩ := key
    refine ⟨tr, [(u, .tau)], s, rfl, hr, hone, h2, ?_, ?_, h3⟩
    · simp [postsBegun, List.countP_append, List.countP_singleton]
    · simp
  · have hold : s.pc t = .postLoop st := by
      simp only [Sys] at hs
      cases hs <;> grind [wakeAll]
    obtain ⟨tr1, tr2, s1, rfl, h1, h2, h3, h4, h5, h6⟩ := h t st hold
    refine ⟨tr1, tr2 ++ [(u, l)], s1, by simp, h1, run_append h2 hone, h3, ?_, ?_, h6⟩
    · rw [← h4]; simp [postsBegun, List.countP_append, List.countP_singleton, hut]
    · intro e he hte
      rcases List.mem_append.1 he with he | he
      · exact h5 e he hte
      · simp only [List.mem_singleton] at he; subst he; exact absurd hte hut

theorem seen_run {s0 s s' : St} {tr tr' : List (Tid × Lab)} (hr : Run Sys s0 tr s)
    (h : ∀ t st, s.pc t = .postLoop st → SeenInPost s0 tr s t st) (hr' : Run Sys s tr' s') :
    ∀ t st, s'.pc t = .postLoop st → SeenInPost s0 (tr ++ tr') s' t st := by
  induction hr' generalizing tr with
  | nil => simpa using h
  | @cons s e s1 tr2 s2 hs _ ih =>
    have := ih (run_append hr (.cons hs (.nil _))) (seen_step hr h hs)
    simpa using this

/-- **C41** (`EOVERFLOW`): `sem_post` fails only if at some point during that very call the value was
`SEM_VALUE_MAX`, and then it changes nothing. -/
theorem sem_post_fails {n : Nat} {s0 s s' : St} {tr : List (Tid × Lab)} (h0 : Init n s0) (hr : Run Sys s0 tr s)
    {t : Tid} (hs : Sys s (t, .retPost false) s') :
    (∃ w, w.count = 2 ^ 31 - 1 ∧ SeenInPost s0 tr s t w) ∧ s'.word = s.word := by
  have hseen := seen_run (.nil s0) (fun t st h => by rw [h0.2.2] at h; cases h) hr
  simp only [List.nil_append] at hseen
  simp only [Sys] at hs
  generalize hl : Lab.retPost false = l at hs
  cases hs <;> cases hl
  case overflow st h1 h2 =>
    refine ⟨⟨st, ?_, hseen t st h1⟩, rfl⟩
    obtain ⟨tr1, tr2, s1, _, hr1, _, hw, _⟩ := hseen t st h1
    have hb := (inv_run (inv_init _ _ h0) hr1).bound
    rw [hw] at hb
    simp only [maxValue] at hb h2
    omega

/-- A fresh semaphore. -/
def fresh (n : Nat) : St := ⟨⟨n, false⟩, fun _ => .out⟩

/-- One more step in front of a run. -/
theorem Sys.then {s s1 s2 : St} {t : Tid} {l : Lab} {tr : List (Tid × Lab)}
    (h : Step t s l s1) (hr : Run Sys s1 tr s2) : Run Sys s ((t, l) :: tr) s2 := .cons (l := (t, l)) h hr

/-- Thread 1 waits on a zero semaphore and sleeps, thread 2 posts and wakes it, thread 1 completes. -/
example : Init 0 (fresh 0) ∧ ∃ tr s, Run Sys (fresh 0) tr s ∧ waits tr = 1 ∧ posts tr = 1 := by
  refine ⟨⟨by decide, rfl, fun _ => rfl⟩, _, _,
    Sys.then (t := 1) (.callWait false rfl) <| Sys.then (t := 1) (.mark (timed := false) (b := false) rfl rfl) <|
    Sys.then (t := 1) (.futexAgain (timed := false) (st := ⟨0, false⟩) rfl (by decide)) <|
    Sys.then (t := 1) (.markFail (timed := false) (b := false) rfl (by decide)) <|
    Sys.then (t := 1) (.mark (timed := false) (b := true) rfl rfl) <|
    Sys.then (t := 1) (.futexSleep (timed := false) (st := ⟨0, true⟩) rfl rfl) <|
    Sys.then (t := 2) (.callPost rfl) <| Sys.then (t := 2) (.postLoad rfl) <|
    Sys.then (t := 2) (.postCasWake (st := ⟨0, true⟩) rfl (by decide) rfl rfl) <| Sys.then (t := 2) (.wake rfl) <|
    Sys.then (t := 1) (.markFail (timed := false) (b := true) rfl (by decide)) <|
    Sys.then (t := 1) (.take (timed := false) (n := 0) (b := true) rfl rfl) <| .nil _, ?_, ?_⟩ <;> decide

/-- A post to a semaphore at `SEM_VALUE_MAX` fails. -/
example : Init maxValue (fresh maxValue) ∧ ∃ tr s s', Run Sys (fresh maxValue) tr s ∧ Sys s (1, .retPost false) s' :=
  ⟨⟨Nat.le_refl _, rfl, fun _ => rfl⟩, _, _, _,
    Sys.then (t := 1) (.callPost rfl) <| Sys.then (t := 1) (.postLoad rfl) <| .nil _,
    .overflow (st := ⟨maxValue, false⟩) rfl (by decide)⟩

/-- **C41 does not hold in full**: after one wait has had to block and has completed, the waiters bit stays set: with
the value at 1 and no other thread in a call, `sem_trywait` fails with `EAGAIN`. -/
theorem sem_trywait_violated : ∃ tr s s', Run Sys (fresh 0) tr s ∧ s.word.count = 1 ∧ (∀ t, t ≠ 3 → s.pc t = .out) ∧
    s.pc 3 = .try_ ∧ Sys s (3, .retTry false) s' := by
  refine ⟨_, _, _,
    Sys.then (t := 1) (.callWait false rfl) <| Sys.then (t := 1) (.mark (timed := false) (b := false) rfl rfl) <|
    Sys.then (t := 1) (.futexAgain (timed := false) (st := ⟨0, false⟩) rfl (by decide)) <|
    Sys.then (t := 1) (.markFail (timed := false) (b := false) rfl (by decide)) <|
    Sys.then (t := 1) (.mark (timed := false) (b := true) rfl rfl) <|
    Sys.then (t := 1) (.futexSleep (timed := false) (st := ⟨0, true⟩) rfl rfl) <|
    Sys.then (t := 2) (.callPost rfl) <| Sys.then (t := 2) (.postLoad rfl) <|
    Sys.then (t := 2) (.postCasWake (st := ⟨0, true⟩) rfl (by decide) rfl rfl) <| Sys.then (t := 2) (.wake rfl) <|
    Sys.then (t := 1) (.markFail (timed := false) (b := true) rfl (by decide)) <|
    Sys.then (t := 1) (.take (timed := false) (n := 0) (b := true) rfl rfl) <|
    Sys.then (t := 2) (.callPost rfl) <| Sys.then (t := 2) (.postLoad rfl) <|
    Sys.then (t := 2) (.postCasWake (st := ⟨0, true⟩) rfl (by decide) rfl rfl) <| Sys.then (t := 2) (.wake rfl) <|
    Sys.then (t := 3) (.callTry rfl) <| .nil _, rfl, ?_, rfl, .tryAgain rfl (.inl rfl)⟩
  intro t ht
  by_cases h1 : t = 1
  · subst h1; rfl
  by_cases h2 : t = 2
  · subst h2; rfl
  · simp [ht, h1, h2, wakeAll, fresh]

end Mlibc.Conc.Sem
