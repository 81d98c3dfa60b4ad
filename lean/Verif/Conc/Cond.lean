import Verif.Conc.Base
/-
Condition variables: `thread_cond_signal`, `thread_cond_broadcast`, `thread_cond_timedwait`
(options/internal/generic/threads.cpp L421-501), called by any number of threads in any interleaving. The mutex is an
atomic lock with an owner, as justified by C34 (Verif/Conc/MutexProps.lean). Property C38.
-/
set_option linter.unusedSimpArgs false
namespace Mlibc.Conc.Cond

/-- The sequence counter is a 32-bit unsigned integer. options/internal/include/mlibc/thread-types.hpp (`__mlibc_seq`) -/
def M : Nat := 2 ^ 32

/-- What `FutexWait` returned. -/
inductive Err where
  | ok | again | intr | timeout
  deriving DecidableEq, Repr

/-- Where a thread is. `c` is the number of signals and broadcasts so far when the thread loaded the counter; the
thread sees only `c % M`. `timed` says whether a deadline was given. -/
inductive Pc where
  /-- outside any call, without and with the mutex -/
  | out
  | inn
  /-- in `timedwait`, before unlocking the mutex. L450 -/
  | wUnl (c : Nat) (timed : Bool)
  /-- before `FutexWait`. L453-470 -/
  | wFut (c : Nat) (timed : Bool)
  | sleep (c : Nat) (timed : Bool)
  /-- before locking the mutex again. L473 -/
  | wLock (c : Nat) (timed : Bool) (e : Err)
  /-- mutex locked, before looking at the result. L486-500 -/
  | wChk (c : Nat) (timed : Bool) (e : Err)
  /-- in `signal` or (`all`) `broadcast`, before the increment; `held`: called with the mutex held. L422, L430 -/
  | sig (all held : Bool)
  /-- before `FutexWake`. L423, L431 -/
  | sigW (all held : Bool)
  | crashed
  deriving DecidableEq, Repr

inductive Lab where
  | tau
  | lock | unlock
  | callWait | retWait (timedOut : Bool)
  | callSig (all : Bool) | retSig (all : Bool)
  deriving DecidableEq, Repr

/-- `cnt` counts increments of the counter; its value in memory is `cnt % M`. -/
structure St where
  cnt : Nat
  owner : Option Tid
  pc : Tid → Pc

def outside (held : Bool) : Pc := if held then .inn else .out

/-- The sleeper's `FutexWait` returns 0. -/
def woken : Pc → Pc
  | .sleep c timed => .wLock c timed .ok
  | p => p

def Pc.asleep : Pc → Bool
  | .sleep _ _ => true
  | _ => false

inductive Step (t : Tid) : St → Lab → St → Prop where
  -- the mutex
  | lock {s} : s.pc t = .out → s.owner = none → Step t s .lock { s with owner := some t, pc := upd s.pc t .inn }
  | unlock {s} : s.pc t = .inn → Step t s .unlock { s with owner := none, pc := upd s.pc t .out }
  -- thread_cond_timedwait. L437-501
  | callWait {s} (timed) : s.pc t = .inn → Step t s .callWait { s with pc := upd s.pc t (.wUnl s.cnt timed) }
  | wUnl {s c timed} : s.pc t = .wUnl c timed →
      Step t s .tau { s with owner := none, pc := upd s.pc t (.wFut c timed) }
  /-- the deadline has passed already. L460-464 -/
  | expired {s c} : s.pc t = .wFut c true → Step t s .tau { s with pc := upd s.pc t (.wLock c true .timeout) }
  | futexSleep {s c timed} : s.pc t = .wFut c timed → s.cnt % M = c % M →
      Step t s .tau { s with pc := upd s.pc t (.sleep c timed) }
  | futexAgain {s c timed} : s.pc t = .wFut c timed → s.cnt % M ≠ c % M →
      Step t s .tau { s with pc := upd s.pc t (.wLock c timed .again) }
  | spurious {s c timed} : s.pc t = .sleep c timed →
      Step t s .tau { s with pc := upd s.pc t (.wLock c timed .ok) }
  | signal {s c timed} : s.pc t = .sleep c timed →
      Step t s .tau { s with pc := upd s.pc t (.wLock c timed .intr) }
  | timeout {s c} : s.pc t = .sleep c true → Step t s .tau { s with pc := upd s.pc t (.wLock c true .timeout) }
  | wLock {s c timed e} : s.pc t = .wLock c timed e → s.owner = none →
      Step t s .tau { s with owner := some t, pc := upd s.pc t (.wChk c timed e) }
  | okRet {s c timed} : s.pc t = .wChk c timed .ok → s.cnt % M > c % M →
      Step t s (.retWait false) { s with pc := upd s.pc t .inn }
  | okLoop {s c timed} : s.pc t = .wChk c timed .ok → ¬ s.cnt % M > c % M →
      Step t s .tau { s with pc := upd s.pc t (.wUnl c timed) }
  | againRet {s c timed} : s.pc t = .wChk c timed .again → s.cnt % M > c % M →
      Step t s (.retWait false) { s with pc := upd s.pc t .inn }
  | againBad {s c timed} : s.pc t = .wChk c timed .again → ¬ s.cnt % M > c % M →
      Step t s .tau { s with pc := upd s.pc t .crashed }
  | intr {s c timed} : s.pc t = .wChk c timed .intr →
      Step t s .tau { s with pc := upd s.pc t (.wUnl c timed) }
  | timedOut {s c timed} : s.pc t = .wChk c timed .timeout →
      Step t s (.retWait true) { s with pc := upd s.pc t .inn }
  -- thread_cond_signal, thread_cond_broadcast. L421-435
  | callSig {s} (all held) : s.pc t = outside held →
      Step t s (.callSig all) { s with pc := upd s.pc t (.sig all held) }
  | inc {s all held} : s.pc t = .sig all held →
      Step t s .tau { s with cnt := s.cnt + 1, pc := upd s.pc t (.sigW all held) }
  | wakeAll {s held} : s.pc t = .sigW true held →
      Step t s (.retSig true) { s with pc := upd (fun u => woken (s.pc u)) t (outside held) }
  | wakeOne {s held} (u) : s.pc t = .sigW false held → (s.pc u).asleep = true →
      Step t s (.retSig false) { s with pc := upd (upd s.pc u (woken (s.pc u))) t (outside held) }
  | wakeNone {s held} : s.pc t = .sigW false held → (∀ u, (s.pc u).asleep = false) →
      Step t s (.retSig false) { s with pc := upd s.pc t (outside held) }

/-- A fresh condition variable and a free mutex. -/
def Init (s : St) : Prop := s.cnt = 0 ∧ s.owner = none ∧ ∀ t, s.pc t = .out

/-- A step of any thread. -/
def Sys (s : St) (e : Tid × Lab) (s' : St) : Prop := Step e.1 s e.2 s'

def Reachable : St → Prop := Reach Init (fun s s' => ∃ e, Sys s e s')

/-! ## Specification -/

/-- Thread `t` has called wait and released the mutex, and has not taken the mutex again. -/
def Waiting (s : St) (t : Tid) : Prop :=
  ∃ c timed, s.pc t = .wFut c timed ∨ s.pc t = .sleep c timed ∨ ∃ e, s.pc t = .wLock c timed e

/-- Thread `t` is in wait, not asleep, and a signal came after it loaded the counter. -/
def Released (s : St) (t : Tid) : Prop :=
  ∃ c timed, c < s.cnt ∧ (s.pc t = .wFut c timed ∨ s.pc t = .wUnl c timed ∨
    ∃ e, s.pc t = .wLock c timed e ∨ s.pc t = .wChk c timed e)

/-! ## Invariant -/

def Pc.holds : Pc → Bool
  | .inn | .wUnl _ _ | .wChk _ _ _ => true
  | .sig _ held | .sigW _ held => held
  | _ => false

def Pc.cap : Pc → Nat
  | .wUnl c _ | .wFut c _ | .sleep c _ | .wLock c _ _ | .wChk c _ _ => c
  | _ => 0

def Pc.waits : Pc → Bool
  | .wFut _ _ | .sleep _ _ | .wLock _ _ _ => true
  | _ => false

theorem waiting_iff (s : St) (t : Tid) : Waiting s t ↔ (s.pc t).waits = true := by
  unfold Waiting
  cases s.pc t <;> simp [Pc.waits]

structure Inv (s : St) : Prop where
  holds : ∀ t, (s.pc t).holds = true → s.owner = some t
  owned : ∀ t, s.owner = some t → (s.pc t).holds = true ∨ s.pc t = .crashed
  cap : ∀ t, (s.pc t).cap ≤ s.cnt
  again : ∀ t c timed, s.pc t = .wLock c timed .again → c < s.cnt
  again' : ∀ t c timed, s.pc t = .wChk c timed .again → c < s.cnt
  noCrash : s.cnt < M → ∀ t, s.pc t ≠ .crashed

theorem upd_pc (s : St) (t u : Tid) (x : Pc) : upd s.pc t x u = if u = t then x else s.pc u := rfl
grind_pattern upd_pc => upd s.pc t x, s.pc u

theorem inv_init (s : St) (h : Init s) : Inv s := by
  obtain ⟨h1, h2, h3⟩ := h
  constructor <;> simp [h1, h2, h3, Pc.holds, Pc.cap]

theorem lt_of_mod_ne {a b m : Nat} (h : a ≤ b) (hne : b % m ≠ a % m) : a < b := by
  rcases Nat.lt_or_ge a b with h1 | h1
  · exact h1
  · exact absurd (by rw [Nat.le_antisymm h h1]) hne

theorem mod_gt {a b : Nat} (h : a < b) (hb : b < M) : b % M > a % M := by
  rw [Nat.mod_eq_of_lt hb, Nat.mod_eq_of_lt (Nat.lt_trans h hb)]; exact h

theorem woken_cases (p : Pc) : (p.asleep = false ∧ woken p = p) ∨
    ∃ c timed, p = .sleep c timed ∧ woken p = .wLock c timed .ok := by
  cases p <;> simp [woken, Pc.asleep]
grind_pattern woken_cases => woken p

theorem woken_holds (p : Pc) : (woken p).holds = p.holds := by cases p <;> rfl
theorem woken_cap (p : Pc) : (woken p).cap = p.cap := by cases p <;> rfl
theorem outside_holds (h : Bool) : (outside h).holds = h := by cases h <;> rfl
theorem outside_cap (h : Bool) : (outside h).cap = 0 := by cases h <;> rfl

set_option maxHeartbeats 2000000 in
theorem inv_step {s s' : St} {e : Tid × Lab} (h : Inv s) (hs : Sys s e s') : Inv s' := by
  obtain ⟨t, l⟩ := e
  obtain ⟨h1, h2, h3, h4, h4', h5⟩ := h
  have h6 : s.cnt < M → ∀ t c timed, s.pc t = .wChk c timed .again → s.cnt % M > c % M :=
    fun h t c d e => mod_gt (h4' t c d e) h
  simp only [Sys] at hs
  cases hs <;> constructor <;>
    (simp only; grind [Pc.holds, Pc.cap, woken_holds, woken_cap, outside_holds, outside_cap, outside, Pc.asleep,
      lt_of_mod_ne])

theorem inv_reach {s : St} (h : Reachable s) : Inv s :=
  h.invariant inv_init (fun _ _ h ⟨_, hs⟩ => inv_step h hs)


theorem cnt_mono {s s' : St} {e : Tid × Lab} (hs : Sys s e s') : s.cnt ≤ s'.cnt := by
  obtain ⟨t, l⟩ := e
  simp only [Sys] at hs
  cases hs <;> simp

theorem cnt_mono_run {s s' : St} {tr : List (Tid × Lab)} (hr : Run Sys s tr s') : s.cnt ≤ s'.cnt := by
  induction hr with
  | nil => exact Nat.le_refl _
  | cons h _ ih => exact Nat.le_trans (cnt_mono h) ih

/-! ## A released waiter returns -/

/-- Steps a released waiter still takes before it returns (an upper bound). -/
def Pc.rank : Pc → Nat
  | .wLock _ _ .intr => 5
  | .wChk _ _ .intr => 4
  | .wUnl _ _ => 3
  | .wFut _ _ => 2
  | .wLock _ _ _ => 1
  | _ => 0

/-- **C38**: a released waiter stays released whatever the other threads do, and each step of its own brings it closer
to returning: it never sleeps again. (While the counter has not wrapped.) -/
theorem released_returns_partial {s s' : St} {u : Tid} {l : Lab} (hs : Sys s (u, l) s') (hb : s'.cnt < M)
    {t : Tid} (ht : Released s t) :
    (Released s' t ∧ (u = t → (s'.pc t).rank < (s.pc t).rank)) ∨ (u = t ∧ ∃ to, l = .retWait to) := by
  have hm := cnt_mono hs
  obtain ⟨c, timed, hc, h⟩ := ht
  have hg : s.cnt % M > c % M := mod_gt hc (by omega)
  simp only [Sys] at hs hm
  by_cases hut : u = t
  · subst hut
    cases hs <;> simp_all [Released, Pc.rank] <;> first | omega | grind [outside, Pc.rank]
  · left
    refine ⟨⟨c, timed, by omega, ?_⟩, fun e => absurd e hut⟩
    have hpc : s'.pc t = s.pc t := by
      cases hs <;> (try simp only) <;> grind [outside]
    rw [hpc]; exact h

/-! ## Signals and broadcasts issued with the mutex held -/

theorem waiting_kept {s s' : St} {u g : Tid} {l : Lab} (hi : Inv s) (hs : Sys s (u, l) s') (hug : u ≠ g)
    (hg : ∃ all, s.pc g = .sigW all true) (t : Tid) : ((s'.pc t).waits = (s.pc t).waits ∧
      ((s.pc t).waits = true → (s'.pc t).cap = (s.pc t).cap)) ∧ s'.pc g = s.pc g := by
  obtain ⟨all, hg⟩ := hg
  have h1 := hi.holds g (by rw [hg]; rfl)
  have h2 := hi.holds u
  simp only [Sys] at hs
  cases hs <;> simp_all <;> grind [Pc.waits, Pc.cap, outside, Pc.holds]

theorem waiting_kept_run {s s' : St} {g : Tid} {tr : List (Tid × Lab)} (hi : Inv s) (hr : Run Sys s tr s')
    (hno : ∀ e ∈ tr, e.1 ≠ g) (hg : ∃ all, s.pc g = .sigW all true) (t : Tid) : ((s'.pc t).waits = (s.pc t).waits ∧
      ((s.pc t).waits = true → (s'.pc t).cap = (s.pc t).cap)) ∧ s'.pc g = s.pc g ∧ Inv s' := by
  induction hr with
  | nil => exact ⟨⟨rfl, fun _ => rfl⟩, rfl, hi⟩
  | @cons s e s1 tr s2 hs _ ih =>
    obtain ⟨⟨h1, h2⟩, h3⟩ := waiting_kept hi hs (hno e (List.mem_cons_self ..)) hg t
    obtain ⟨⟨h4, h5⟩, h6, h7⟩ := ih (inv_step hi hs) (fun e he => hno e (List.mem_cons_of_mem _ he)) (by rw [h3]; exact hg)
    exact ⟨⟨by rw [h4, h1], fun hw => by rw [h5 (by rw [h1]; exact hw), h2 hw]⟩, by rw [h6, h3], h7⟩

/-- A signal or broadcast by `g` with the mutex held: the state before the increment, the state after the increment,
the steps other threads take in between, and the state before and after the wake-up call. -/
structure SigCall (all : Bool) (g : Tid) (s1 s4 : St) : Prop where
  ex : ∃ s2 tr s3, s1.pc g = .sig all true ∧ Sys s1 (g, .tau) s2 ∧ Run Sys s2 tr s3 ∧ (∀ e ∈ tr, e.1 ≠ g) ∧
    Sys s3 (g, .retSig all) s4

theorem sig_core {all : Bool} {g : Tid} {s1 s2 s3 : St} {tr : List (Tid × Lab)} (h : Reachable s1)
    (hp : s1.pc g = .sig all true) (h12 : Sys s1 (g, .tau) s2) (h23 : Run Sys s2 tr s3) (hno : ∀ e ∈ tr, e.1 ≠ g) :
    Inv s3 ∧ s3.pc g = .sigW all true ∧ (∀ t, (s3.pc t).waits = (s1.pc t).waits) ∧
    (∀ t, (s3.pc t).waits = true → (s3.pc t).cap < s3.cnt) := by
  have hi := inv_reach h
  have hi2 := inv_step hi h12
  have e2 : s2 = { s1 with cnt := s1.cnt + 1, pc := upd s1.pc g (.sigW all true) } := by
    simp only [Sys] at h12
    generalize hl : Lab.tau = l at h12
    cases h12 <;> simp_all
  have hg2 : s2.pc g = .sigW all true := by rw [e2]; simp
  have key := fun t => waiting_kept_run hi2 h23 hno ⟨all, hg2⟩ t
  have hw2 : ∀ t, (s2.pc t).waits = (s1.pc t).waits ∧ ((s2.pc t).waits = true → (s2.pc t).cap < s2.cnt) := by
    intro t
    have hc := hi.cap t
    rw [e2]
    by_cases ht : t = g
    · subst ht; simp [Pc.waits, hp]
    · simp [ht]; omega
  have hm := cnt_mono_run h23
  refine ⟨(key 0).2.2, by rw [(key g).2.1, hg2], fun t => by rw [(key t).1.1, (hw2 t).1], fun t ht => ?_⟩
  rw [(key t).1.1] at ht
  rw [(key t).1.2 ht]
  have := (hw2 t).2 ht
  omega

theorem released_of {s : St} {t : Tid} (hw : (s.pc t).waits = true) (hc : (s.pc t).cap < s.cnt)
    (hs : (s.pc t).asleep = false) : Released s t := by
  unfold Released
  cases hp : s.pc t <;> simp_all [Pc.waits, Pc.cap, Pc.asleep]

/-- **C38** (broadcast): every thread that had released the mutex in wait when a broadcast was issued with the mutex
held is released when the broadcast returns. Holds for every counter value; that a released thread returns is
`released_returns_partial`, which needs the counter not to wrap. -/
theorem broadcast_releases_all {g : Tid} {s1 s4 : St} (h : Reachable s1) (hb : SigCall true g s1 s4) :
    ∀ w, Waiting s1 w → Released s4 w := by
  obtain ⟨s2, tr, s3, hp, h12, h23, hno, h34⟩ := hb.ex
  obtain ⟨hi, hg, hw, hc⟩ := sig_core h hp h12 h23 hno
  intro w ht
  rw [waiting_iff, ← hw w] at ht
  have hcw := hc w ht
  have hwg : w ≠ g := by intro e; subst e; rw [hg] at ht; simp [Pc.waits] at ht
  have e4 : s4.pc w = woken (s3.pc w) ∧ s4.cnt = s3.cnt := by
    simp only [Sys] at h34
    generalize hl : Lab.retSig true = l at h34
    cases h34 <;> simp_all
  apply released_of
  · rw [e4.1]; revert ht; cases s3.pc w <;> simp [Pc.waits, woken]
  · rw [e4.1, woken_cap, e4.2]; exact hcw
  · rw [e4.1]; cases s3.pc w <;> rfl

/-- **C38** (signal): if some thread had released the mutex in wait when a signal was issued with the mutex held, then
at least one such thread is released when the signal returns. -/
theorem signal_releases_one {g : Tid} {s1 s4 : St} (h : Reachable s1) (hb : SigCall false g s1 s4)
    (hw : ∃ w, Waiting s1 w) : ∃ w, Waiting s1 w ∧ Released s4 w := by
  obtain ⟨s2, tr, s3, hp, h12, h23, hno, h34⟩ := hb.ex
  obtain ⟨hi, hg, hws, hc⟩ := sig_core h hp h12 h23 hno
  obtain ⟨w, ht⟩ := hw
  rw [waiting_iff, ← hws w] at ht
  have hcw := hc w ht
  have hwg : w ≠ g := by intro e; subst e; rw [hg] at ht; simp [Pc.waits] at ht
  simp only [Sys] at h34
  generalize hl : Lab.retSig false = l at h34
  cases h34 <;> cases hl
  case wakeOne hd u hgw hu =>
    have huw : (s3.pc u).waits = true := by revert hu; cases s3.pc u <;> simp [Pc.asleep, Pc.waits]
    have hug : u ≠ g := by intro e; subst e; rw [hg] at hu; simp [Pc.asleep] at hu
    refine ⟨u, by rw [waiting_iff, ← hws u]; exact huw, ?_⟩
    have hcu := hc u huw
    apply released_of
    · simp [hug]; revert hu; cases s3.pc u <;> simp [Pc.asleep, Pc.waits, woken]
    · simp [hug, woken_cap]; exact hcu
    · simp [hug]; cases s3.pc u <;> rfl
  case wakeNone hd hgw hn =>
    refine ⟨w, by rw [waiting_iff, ← hws w]; exact ht, ?_⟩
    apply released_of
    · simp [hwg, ht]
    · simp [hwg, hcw]
    · simp [hwg, hn]

/-- **C38**: wait returns only after taking the mutex again. -/
theorem wait_returns_locked {s s' : St} (h : Reachable s) {t : Tid} {to : Bool}
    (hs : Sys s (t, .retWait to) s') : s'.owner = some t ∧ s'.pc t = .inn := by
  have h1 := (inv_reach h).holds t
  simp only [Sys] at hs
  generalize hl : Lab.retWait to = l at hs
  cases hs <;> simp_all [Pc.holds]

/-- **C38**: while fewer than 2^32 signals have been issued, no assertion of the library fails. -/
theorem cond_no_crash_partial {s : St} (h : Reachable s) (hb : s.cnt < M) (t : Tid) : s.pc t ≠ .crashed :=
  (inv_reach h).noCrash hb t

/-! ## Concrete executions -/

/-- A fresh condition variable. -/
def fresh (n : Nat) : St := ⟨n, none, fun _ => .out⟩

/-- One more step in front of a run. -/
theorem Sys.then {s s1 s2 : St} {t : Tid} {l : Lab} {tr : List (Tid × Lab)}
    (h : Step t s l s1) (hr : Run Sys s1 tr s2) : Run Sys s ((t, l) :: tr) s2 := .cons (l := (t, l)) h hr

/-- Any number of signals can be issued. -/
theorem fresh_reachable (n : Nat) : Reachable (fresh n) := by
  induction n with
  | zero => exact .init ⟨rfl, rfl, fun _ => rfl⟩
  | succ n ih =>
    have := Run.reach (
      Sys.then (t := 1) (s := fresh n) (.callSig false false rfl) <|
      Sys.then (t := 1) (.inc (all := false) (held := false) rfl) <|
      Sys.then (t := 1) (.wakeNone (held := false) rfl (fun u => by
        simp only [upd_apply, fresh]; split <;> rfl)) <| .nil _) ih
    have e : (upd (upd (upd (fresh n).pc 1 (.sig false false)) 1 (.sigW false false)) 1 (outside false)) =
        (fresh (n + 1)).pc := by
      funext u; simp only [upd_apply, fresh, outside]; split <;> rfl
    simp only [e] at this
    exact this

/-- Thread 2 waits and sleeps; thread 1 takes the mutex and signals: the hypotheses of `signal_releases_one` (and with
`all := true` of `broadcast_releases_all`) are met. -/
theorem sig_example (n : Nat) (all : Bool) : ∃ s1 s4, Reachable s1 ∧ s1.cnt = n ∧ SigCall all 1 s1 s4 ∧ Waiting s1 2 ∧
    s1.pc 2 = .sleep n false ∧ s4.pc 2 = .wLock n false .ok ∧ s4.pc 1 = .inn ∧ s4.owner = some 1 ∧ s4.cnt = n + 1 ∧
    Reachable s4 := by
  have hr1 := Run.reach (
    Sys.then (t := 2) (s := fresh n) (.lock rfl rfl) <| Sys.then (t := 2) (.callWait false rfl) <|
    Sys.then (t := 2) (.wUnl (c := n) (timed := false) rfl) <|
    Sys.then (t := 2) (.futexSleep (c := n) (timed := false) rfl rfl) <|
    Sys.then (t := 1) (.lock rfl rfl) <| Sys.then (t := 1) (.callSig all true rfl) <| .nil _) (fresh_reachable n)
  have hs1 : ∃ s1, Reachable s1 ∧ s1.cnt = n ∧ s1.pc 1 = .sig all true ∧ s1.pc 2 = .sleep n false ∧
      s1.owner = some 1 := ⟨_, hr1, rfl, rfl, rfl, rfl⟩
  obtain ⟨s1, h1, h2, h3, h4, h5⟩ := hs1
  have st1 := Step.inc (t := 1) (all := all) (held := true) h3
  cases all with
  | true =>
    have st2 := Step.wakeAll (t := 1) (held := true)
      (s := { s1 with cnt := s1.cnt + 1, pc := upd s1.pc 1 (.sigW true true) }) (by simp)
    refine ⟨s1, _, h1, h2, ⟨_, [], _, h3, st1, .nil _, by simp, st2⟩,
      ⟨n, false, .inr (.inl h4)⟩, h4, ?_, by simp [outside], h5, by simp [h2],
      .step (.step h1 ⟨(_, _), st1⟩) ⟨(_, _), st2⟩⟩
    simp [h4, woken]
  | false =>
    have st2 := Step.wakeOne (t := 1) (held := true)
      (s := { s1 with cnt := s1.cnt + 1, pc := upd s1.pc 1 (.sigW false true) }) 2 (by simp)
      (by simp [h4, Pc.asleep])
    refine ⟨s1, _, h1, h2, ⟨_, [], _, h3, st1, .nil _, by simp, st2⟩,
      ⟨n, false, .inr (.inl h4)⟩, h4, ?_, by simp [outside], h5, by simp [h2],
      .step (.step h1 ⟨(_, _), st1⟩) ⟨(_, _), st2⟩⟩
    simp [h4, woken]

/-- **C38 does not hold in full**: when the counter wraps, a waiter whose wait began with the counter at 2^32 - 1 does
not return when signalled: it finds the counter smaller than the value it loaded, goes round the loop, is told that
the counter has changed, and an assertion fails. -/
theorem cond_wrap_violated : ∃ s4 tr s5, Reachable s4 ∧ Released s4 2 ∧ s4.pc 2 = .wLock (M - 1) false .ok ∧
    Run Sys s4 tr s5 ∧ (∀ e ∈ tr, ∀ to, e.2 ≠ .retWait to) ∧ s5.pc 2 = .crashed := by
  obtain ⟨s1, s4, hr1, hc1, hsig, hw, hp1, hp2, hp3, ho, hc4, hr4⟩ := sig_example (M - 1) false
  have hM : s4.cnt % M = 0 := by rw [hc4, Nat.sub_add_cancel (by unfold M; omega)]; exact Nat.mod_self _
  have hM1 : (M - 1) % M = M - 1 := Nat.mod_eq_of_lt (by unfold M; omega)
  have hne : s4.cnt % M ≠ (M - 1) % M := by rw [hM, hM1]; unfold M; omega
  have hle : ¬ s4.cnt % M > (M - 1) % M := by rw [hM]; omega
  refine ⟨s4, _, _, hr4, ⟨M - 1, false, by omega, .inr (.inr ⟨.ok, .inl hp2⟩)⟩, hp2,
    Sys.then (t := 1) (.unlock hp3) <|
    Sys.then (t := 2) (.wLock (c := M - 1) (timed := false) (e := .ok) (by simpa using hp2) rfl) <|
    Sys.then (t := 2) (.okLoop (c := M - 1) (timed := false) (by simp) hle) <|
    Sys.then (t := 2) (.wUnl (c := M - 1) (timed := false) (by simp)) <|
    Sys.then (t := 2) (.futexAgain (c := M - 1) (timed := false) (by simp) hne) <|
    Sys.then (t := 2) (.wLock (c := M - 1) (timed := false) (e := .again) (by simp) rfl) <|
    Sys.then (t := 2) (.againBad (c := M - 1) (timed := false) (by simp) hle) <| .nil _, ?_, by simp⟩
  simp

end Mlibc.Conc.Cond
