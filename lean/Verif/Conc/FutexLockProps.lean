import Verif.Conc.FutexLock
/- Properties of the internal lock and FILE locking: C42. -/
set_option linter.unusedSimpArgs false
namespace Mlibc.Conc.FutexLock

/-! ## Specification: what an observer of calls and returns can say -/

/-- How many lock or successful try-lock calls of thread `t` have returned. -/
def acquired (tr : List (Tid × Lab)) (t : Tid) : Nat :=
  tr.countP (fun e => e.1 = t ∧ (e.2 = .retLock ∨ e.2 = .retTry true))

/-- How many unlock calls thread `t` has begun. -/
def released (tr : List (Tid × Lab)) (t : Tid) : Nat :=
  tr.countP (fun e => e.1 = t ∧ e.2 = .callUnlock)

/-- Thread `t` has locked more often than it has unlocked. -/
def Holds (tr : List (Tid × Lab)) (t : Tid) : Prop := released tr t < acquired tr t

/-- Locks not yet being released, by place. -/
def Pc.held : Pc → Nat
  | .inn n | .lock n _ | .try_ n | .tryCas n => n
  | .unl n => n - 1
  | _ => 0

theorem rest_held (n : Nat) : (rest n).held = n := by cases n <;> rfl

theorem held_step {r : Bool} {s s' : St} {e : Tid × Lab} (h : Inv r s) (hs : Sys r false s e s') (u : Tid) :
    acquired [e] u + (s.pc u).held = released [e] u + (s'.pc u).held := by
  obtain ⟨t, l⟩ := e
  have hd := h.depth
  have hd1 := h.depth1
  have h6 := h.innPos
  have h7 := h.tryFree
  have h8 := h.owns
  have h9 := h.lock0
  have h10 := h.expSelf
  have h11 := h.try0
  have h12 := h.owned
  simp only [Sys] at hs
  simp only [acquired, released, List.countP_singleton]
  cases hs <;> simp only <;> grind [Pc.held, Pc.depth, Pc.owning, rest_held, wakeAll]

theorem held_run {r : Bool} {s s' : St} {tr : List (Tid × Lab)} (h : Inv r s) (hr : Run (Sys r false) s tr s')
    (u : Tid) : Inv r s' ∧ acquired tr u + (s.pc u).held = released tr u + (s'.pc u).held := by
  induction hr with
  | nil s => exact ⟨h, by simp [acquired, released]⟩
  | @cons s e s1 tr s2 hs _ ih =>
    have h1 := held_step h hs u
    obtain ⟨h2, h3⟩ := ih (inv_step _ _ _ h _ _ hs)
    refine ⟨h2, ?_⟩
    have a1 : acquired (e :: tr) u = acquired [e] u + acquired tr u := by
      simp only [acquired]; rw [← List.countP_append]; rfl
    have a2 : released (e :: tr) u = released [e] u + released tr u := by
      simp only [released]; rw [← List.countP_append]; rfl
    omega

theorem owning_of_held {p : Pc} (h : 0 < p.held) : p.owning = true := by
  cases p <;> simp [Pc.held, Pc.owning] at h ⊢ <;> omega

/-- **C42** (the internal lock, recursive or not; `flockfile`): in every execution by any number of threads, at most
one thread has locked more often than it has unlocked, and no assertion of the library fails.
Missing from the full property: executions where a thread calls `try_lock` on a recursive lock it holds
(`ftrylock_owner_violated`). -/
theorem exclusion_partial (r : Bool) {s0 s : St} {tr : List (Tid × Lab)} (h0 : Init s0)
    (hr : Run (Sys r false) s0 tr s) :
    (∀ t u, Holds tr t → Holds tr u → t = u) ∧ ∀ t, s.pc t ≠ .crashed := by
  have h0' := inv_init r s0 h0
  refine ⟨fun t u ht hu => ?_, (held_run h0' hr 0).1.noCrash⟩
  obtain ⟨hi, h1⟩ := held_run h0' hr t
  obtain ⟨_, h2⟩ := held_run h0' hr u
  simp only [Holds] at ht hu
  have e1 : (s0.pc t).held = 0 := by rw [h0.2.2]; rfl
  have e2 : (s0.pc u).held = 0 := by rw [h0.2.2]; rfl
  have := hi.owns _ (owning_of_held (p := s.pc t) (by omega))
  rw [hi.owns _ (owning_of_held (p := s.pc u) (by omega))] at this
  cases this; rfl

/-- **C42** (nesting): locking a recursive lock one already holds (`flockfile` inside `flockfile`) does not block: the
call reads the lock word and returns with one more level. -/
theorem nests {s s' : St} (h : Reachable true false s) {t : Tid} {n : Nat} {e : Word} (ht : s.pc t = .lock n e)
    (hn : n ≠ 0) {l : Lab} (hs : Sys true false s (t, l) s') :
    (e = none ∧ l = .tau ∧ ∃ w, s'.pc t = .lock n (some (t, w))) ∨ (l = .retLock ∧ s'.pc t = .inn (n + 1)) := by
  obtain ⟨q1, q2, q3, q4, q5, q6, q7, q8, q9, q10, q11, q12, q13, q14⟩ := inv_reach h
  simp only [Sys] at hs
  cases hs <;> grind [Pc.owning, Pc.depth]

/-- **C42**: no wake-up is lost: if a thread is asleep and every other thread is asleep or outside the library, some
thread holds the lock. -/
theorem no_lost_wakeup (r : Bool) {s : St} (h : Reachable r false s)
    (quiet : ∀ u, s.pc u = .out ∨ (∃ n, s.pc u = .inn n) ∨ s.pc u = .sleep)
    {t : Tid} (ht : s.pc t = .sleep) : ∃ u n, s.pc u = .inn n ∧ n ≠ 0 := by
  have hi := inv_reach h
  rcases hi.sleepers t ht with ⟨o, ho⟩ | ⟨u, hu⟩
  · have := hi.owned o true ho
    rcases quiet o with h1 | ⟨n, h1⟩ | h1
    · simp [h1, Pc.owning] at this
    · exact ⟨o, n, h1, hi.innPos o n (.inl h1)⟩
    · simp [h1, Pc.owning] at this
  · rcases quiet u with h1 | ⟨n, h1⟩ | h1 <;> simp [h1] at hu

/-- **C42**: `try_lock` fails only while the lock is taken, and then changes nothing. -/
theorem try_fails_only_taken (r : Bool) {s s' : St} {t : Tid} (h : Reachable r false s)
    (hs : Sys r false s (t, .retTry false) s') :
    (∃ u, (s.pc u).owning = true) ∧ s'.word = s.word ∧ s'.recursion = s.recursion := by
  have q2 := (inv_reach h).owned
  simp only [Sys] at hs
  generalize hl : Lab.retTry false = l at hs
  cases hs <;> grind

/-! ## Concrete executions -/

/-- A fresh lock. -/
def fresh : St := ⟨none, 0, fun _ => .out⟩

theorem fresh_init : Init fresh := ⟨rfl, rfl, fun _ => rfl⟩

/-- One more step in front of a run. -/
theorem Sys.then {r o : Bool} {s s1 s2 : St} {t : Tid} {l : Lab} {tr : List (Tid × Lab)}
    (h : Step r o t s l s1) (hr : Run (Sys r o) s1 tr s2) : Run (Sys r o) s ((t, l) :: tr) s2 :=
  .cons (l := (t, l)) h hr

/-- Thread 1 locks twice; thread 2 sets the waiters bit and sleeps; thread 1 unlocks twice and wakes thread 2, which
takes the lock. -/
example : ∃ tr s, Run (Sys true false) fresh tr s ∧ Holds tr 2 ∧ ¬ Holds tr 1 := by
  refine ⟨_, _,
    Sys.then (t := 1) (.callLock 0 rfl (.inl rfl)) <| Sys.then (t := 1) (.cas (n := 0) rfl rfl) <|
    Sys.then (t := 1) (.took rfl (fun _ => rfl)) <|
    Sys.then (t := 1) (.callLock 1 rfl (.inr rfl)) <|
    Sys.then (t := 1) (.casFail (n := 1) (o := 1) (w := false) rfl rfl) <|
    Sys.then (t := 1) (.relock (n := 1) (w := false) rfl rfl) <|
    Sys.then (t := 2) (.callLock 0 rfl (.inl rfl)) <|
    Sys.then (t := 2) (.casFail (n := 0) (o := 1) (w := false) rfl rfl) <|
    Sys.then (t := 2) (.setWaiters (n := 0) (o := 1) rfl (by decide) rfl) <|
    Sys.then (t := 2) (.futexSleep (n := 0) (o := 1) rfl (by decide) rfl) <|
    Sys.then (t := 1) (.callUnlock (n := 2) rfl) <| Sys.then (t := 1) (.unlNested (n := 2) rfl rfl (by decide)) <|
    Sys.then (t := 1) (.callUnlock (n := 1) rfl) <| Sys.then (t := 1) (.unlLast (n := 1) rfl rfl rfl) <|
    Sys.then (t := 1) (.exchangeWake rfl rfl) <| Sys.then (t := 1) (.wake rfl) <|
    Sys.then (t := 2) (.cas (n := 0) rfl rfl) <|
    Sys.then (t := 2) (.took rfl (fun _ => rfl)) <| .nil _, ?_, ?_⟩ <;> (unfold Holds; decide)

/-- **C42 does not hold in full**: `ftrylockfile` by the thread that holds the lock aborts. -/
theorem ftrylock_owner_violated : ∃ tr s, Run (Sys true true) fresh tr s ∧ Holds tr 1 ∧ s.pc 1 = .crashed := by
  refine ⟨_, _,
    Sys.then (t := 1) (.callLock 0 rfl (.inl rfl)) <| Sys.then (t := 1) (.cas (n := 0) rfl rfl) <|
    Sys.then (t := 1) (.took rfl (fun _ => rfl)) <|
    Sys.then (t := 1) (.callTry 1 rfl (.inr (.inr rfl))) <|
    Sys.then (t := 1) (.tryOwnBad (n := 1) (w := false) rfl rfl rfl (by decide)) <| .nil _, ?_, rfl⟩
  unfold Holds; decide

end Mlibc.Conc.FutexLock
