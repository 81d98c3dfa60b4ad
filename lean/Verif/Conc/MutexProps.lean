import Verif.Conc.Mutex
/- Properties of mutexes: C34, C35, C36. -/
namespace Mlibc.Conc.Mutex

/-! ## Specification: what an observer of calls and returns can say -/

/-- How many lock or trylock calls of thread `t` have succeeded. -/
def acquired (tr : List (Tid × Lab)) (t : Tid) : Nat :=
  tr.countP (fun e => e.1 = t ∧ (e.2 = .retLock .ok ∨ e.2 = .retTry .ok))

/-- How many unlock calls thread `t` has begun. -/
def released (tr : List (Tid × Lab)) (t : Tid) : Nat :=
  tr.countP (fun e => e.1 = t ∧ e.2 = .callUnlock)

/-- Thread `t` is between a successful lock and the matching unlock. -/
def Holds (tr : List (Tid × Lab)) (t : Tid) : Prop := released tr t < acquired tr t

/-- Locks not yet being released, by place. -/
def Pc.held : Pc → Nat
  | .inn n | .lock n _ _ | .try_ n | .tryCas n => n
  | .unl n => n - 1
  | _ => 0

theorem rest_held (n : Nat) : (rest n).held = n := by cases n <;> rfl

theorem held_step {kind : Kind} {s s' : St} {e : Tid × Lab} (h : Inv kind s) (hs : Sys kind false s e s') (u : Tid) :
    acquired [e] u + (s.pc u).held = released [e] u + (s'.pc u).held := by
  obtain ⟨t, l⟩ := e
  have hd := h.depth
  have h6 := h.innPos
  have h7 := h.tryFree
  have h8 := h.owns
  simp only [Sys] at hs
  simp only [acquired, released, List.countP_singleton]
  cases hs <;> simp only <;> grind [Pc.held, Pc.depth, Pc.owning, rest_held, wakeAll]

theorem held_run {kind : Kind} {s s' : St} {tr : List (Tid × Lab)} (h : Inv kind s) (hr : Run (Sys kind false) s tr s')
    (u : Tid) : Inv kind s' ∧ acquired tr u + (s.pc u).held = released tr u + (s'.pc u).held := by
  induction hr with
  | nil s => exact ⟨h, by simp [acquired, released]⟩
  | @cons s e s1 tr s2 hs _ ih =>
    have h1 := held_step h hs u
    obtain ⟨h2, h3⟩ := ih (inv_step _ _ _ h _ _ hs)
    refine ⟨h2, ?_⟩
    have a1 : acquired (e :: tr) u = acquired [e] u + acquired tr u := by
      simp only [acquired]; rw [← List.countP_append]; rfl
    have a2 : released (e :: tr) u = released [e] u + released tr u := by
      simp only [released]; rw [← List.countP_append]; rfl
    omega

/-- **C34**: in every execution by any number of threads, however interleaved, in which threads unlock only what they
hold, at most one thread is between a successful lock and the matching unlock, and no assertion of the library
fails. -/
theorem mutual_exclusion (kind : Kind) {s0 s : St} {tr : List (Tid × Lab)} (h0 : Init s0)
    (hr : Run (Sys kind false) s0 tr s) :
    (∀ t u, Holds tr t → Holds tr u → t = u) ∧ ∀ t, s.pc t ≠ .crashed := by
  have h0' := inv_init kind s0 h0
  refine ⟨fun t u ht hu => ?_, (held_run h0' hr 0).1.noCrash⟩
  obtain ⟨hi, h1⟩ := held_run h0' hr t
  obtain ⟨_, h2⟩ := held_run h0' hr u
  simp only [Holds] at ht hu
  have e1 : (s0.pc t).held = 0 := by rw [h0.2.2]; rfl
  have e2 : (s0.pc u).held = 0 := by rw [h0.2.2]; rfl
  have o1 : (s.pc t).owning = true := by
    have : 0 < (s.pc t).held := by omega
    generalize s.pc t = p at this
    cases p <;> simp [Pc.held, Pc.owning] at this ⊢ <;> omega
  have o2 : (s.pc u).owning = true := by
    have : 0 < (s.pc u).held := by omega
    generalize s.pc u = p at this
    cases p <;> simp [Pc.held, Pc.owning] at this ⊢ <;> omega
  have := hi.owns _ o1
  rw [hi.owns _ o2] at this
  cases this; rfl

/-- **C35**: if a thread is asleep waiting for the mutex and every other thread is asleep or outside the library, then
some thread holds the mutex: when the mutex is free and no operation is in progress, no thread is asleep. -/
theorem no_lost_wakeup (kind : Kind) {s : St} (h : Reachable kind false s)
    (quiet : ∀ u, s.pc u = .out ∨ (∃ n, s.pc u = .inn n) ∨ ∃ timed, s.pc u = .sleep timed)
    {t : Tid} {timed : Bool} (ht : s.pc t = .sleep timed) : ∃ u n, s.pc u = .inn n ∧ n ≠ 0 := by
  have hi := inv_reach h
  rcases hi.sleepers t timed ht with ⟨o, ho⟩ | ⟨u, hu⟩
  · have := hi.owned o true ho
    rcases quiet o with h1 | ⟨n, h1⟩ | ⟨_, h1⟩
    · simp [h1, Pc.owning] at this
    · exact ⟨o, n, h1, hi.innPos o n (.inl h1)⟩
    · simp [h1, Pc.owning] at this
  · rcases quiet u with h1 | ⟨n, h1⟩ | ⟨_, h1⟩ <;> simp [h1] at hu

/-- **C35**, the other half: the unlock that finds waiters leaves nobody asleep. -/
theorem wake_wakes {kind : Kind} {s s' : St} {t : Tid} (h : Sys kind false s (t, .retUnlock .ok) s')
    (hw : s.pc t = .wake) (u : Tid) (timed : Bool) : s'.pc u ≠ .sleep timed := by
  simp only [Sys] at h
  generalize hl : Lab.retUnlock Ret.ok = l at h
  cases h <;> simp_all <;> first | grind [wakeAll] | skip


/-- **C36**: after any execution, while thread `t` has unlocked the mutex fewer times than it has locked it, the mutex is
`t`'s: no other thread can take it. In particular a recursive mutex must be unlocked as often as it was locked. -/
theorem held_until_matched_partial (kind : Kind) {s0 s s' : St} {tr : List (Tid × Lab)} (h0 : Init s0)
    (hr : Run (Sys kind false) s0 tr s) {t u : Tid} (ht : Holds tr t) {l : Lab} (hs : Sys kind false s (u, l) s')
    (hl : l = .retLock .ok ∨ l = .retTry .ok) : u = t ∧ kind = .recursive := by
  have h0' := inv_init kind s0 h0
  obtain ⟨hi, h1⟩ := held_run h0' hr t
  have e1 : (s0.pc t).held = 0 := by rw [h0.2.2]; rfl
  simp only [Holds] at ht
  have o1 : (s.pc t).owning = true ∧ s.pc t ≠ .took true ∧ s.pc t ≠ .took false := by
    have : 0 < (s.pc t).held := by omega
    generalize s.pc t = p at this
    cases p <;> simp [Pc.held, Pc.owning] at this ⊢ <;> omega
  have hw := hi.owns _ o1.1
  obtain ⟨q1, q2, q3, q4, q5, q6, q7, q8, q9, q10, q11⟩ := hi
  simp only [Sys] at hs
  cases hs <;> grind [Pc.owning, Pc.depth]

/-- **C36**: a lock call by the thread that holds the mutex never sleeps: it reads the lock word and then returns, with
one more level on a recursive mutex, with `EDEADLK` and no effect on any other. -/
theorem relock_by_owner_partial (kind : Kind) {s s' : St} (h : Reachable kind false s) {t : Tid} {n : Nat} {timed : Bool}
    {e : Word} (ht : s.pc t = .lock n timed e) (hn : n ≠ 0) {l : Lab} (hs : Sys kind false s (t, l) s') :
    (e = none ∧ l = .tau ∧ (∃ w, s'.pc t = .lock n timed (some (t, w))) ∧ s'.word = s.word) ∨
    (kind = .recursive ∧ l = .retLock .ok ∧ s'.pc t = .inn (n + 1) ∧ s'.word = s.word) ∨
    (kind ≠ .recursive ∧ l = .retLock .edeadlk ∧ s'.pc t = .inn n ∧ s'.word = s.word ∧
      s'.recursion = s.recursion) := by
  obtain ⟨q1, q2, q3, q4, q5, q6, q7, q8, q9, q10, q11⟩ := inv_reach h
  simp only [Sys] at hs
  cases hs <;> grind [Pc.owning, Pc.depth]

/-- **C36**: `EDEADLK` is reported only to the thread that holds the mutex, and never on a recursive one. -/
theorem edeadlk_only_owner (kind : Kind) {s0 s s' : St} {tr : List (Tid × Lab)} (h0 : Init s0)
    (hr : Run (Sys kind false) s0 tr s) {t : Tid} (hs : Sys kind false s (t, .retLock .edeadlk) s') :
    Holds tr t ∧ kind ≠ .recursive := by
  have h0' := inv_init kind s0 h0
  obtain ⟨hi, h1⟩ := held_run h0' hr t
  have e1 : (s0.pc t).held = 0 := by rw [h0.2.2]; rfl
  have q7 := hi.expSelf
  simp only [Holds]
  simp only [Sys] at hs
  generalize hl : Lab.retLock Ret.edeadlk = l at hs
  cases hs <;> grind [Pc.held]

/-- **C36**: `trylock` reports `EBUSY` only while the mutex is taken, and then changes nothing. -/
theorem ebusy_only_taken_partial (kind : Kind) {s s' : St} {t : Tid} (h : Reachable kind false s)
    (hs : Sys kind false s (t, .retTry .ebusy) s') :
    (∃ u, (s.pc u).owning = true) ∧ s'.word = s.word ∧ s'.recursion = s.recursion := by
  have q2 := (inv_reach h).owned
  simp only [Sys] at hs
  generalize hl : Lab.retTry Ret.ebusy = l at hs
  cases hs <;> grind

/-- **C36**: `trylock` on a mutex another thread holds reports `EBUSY`. -/
theorem trylock_busy (kind : Kind) {s s' : St} {t u : Tid} {m : Nat} (h : Reachable kind false s)
    (hu : s.pc u = .inn m) (htu : t ≠ u) (ht : s.pc t = .try_ 0) {l : Lab} (hs : Sys kind false s (t, l) s') :
    l = .retTry .ebusy ∧ s'.pc t = .out := by
  obtain ⟨q1, q2, q3, q4, q5, q6, q7, q8, q9, q10, q11⟩ := inv_reach h
  have := q1 u
  simp only [Sys] at hs
  cases hs <;> grind [Pc.owning, Pc.depth]

/-! ## Concrete executions -/

/-- A fresh mutex. -/
def fresh : St := ⟨none, 0, fun _ => .out⟩

theorem fresh_init : Init fresh := ⟨rfl, rfl, fun _ => rfl⟩

/-- One more step in front of a run. -/
theorem Sys.then {kind : Kind} {m : Bool} {s s1 s2 : St} {t : Tid} {l : Lab} {tr : List (Tid × Lab)}
    (h : Step kind m t s l s1) (hr : Run (Sys kind m) s1 tr s2) : Run (Sys kind m) s ((t, l) :: tr) s2 :=
  .cons (l := (t, l)) h hr

/-- Thread 1 locks; thread 2 tries and goes to sleep; thread 1 unlocks and wakes thread 2, which takes the mutex. -/
example : ∃ tr s, Run (Sys .normal false) fresh tr s ∧ Holds tr 2 ∧ ¬ Holds tr 1 := by
  refine ⟨_, _,
    Sys.then (t := 1) (.callLock 0 false rfl) <| Sys.then (t := 1) (.cas (n := 0) (timed := false) rfl rfl) <|
    Sys.then (t := 1) (.took (tr := false) rfl rfl) <|
    Sys.then (t := 2) (.callLock 0 false rfl) <|
    Sys.then (t := 2) (.casFail (n := 0) (timed := false) (o := 1) (w := true) rfl rfl) <|
    Sys.then (t := 2) (.futexSleep (n := 0) (timed := false) (o := 1) rfl (by decide) rfl) <|
    Sys.then (t := 1) (.callUnlock (n := 1) rfl (.inl (by decide))) <|
    Sys.then (t := 1) (.unlLast (n := 1) rfl rfl) <| Sys.then (t := 1) (.exchangeWake rfl rfl) <|
    Sys.then (t := 1) (.wake rfl) <|
    Sys.then (t := 2) (.cas (n := 0) (timed := false) rfl rfl) <|
    Sys.then (t := 2) (.took (tr := false) rfl rfl) <| .nil _, ?_, ?_⟩ <;> (unfold Holds; decide)

/-- A reachable state with a holder, a sleeper and no operation in progress. -/
example : ∃ s, Reachable .normal false s ∧ s.pc 2 = .sleep false ∧
    ∀ u, s.pc u = .out ∨ (∃ n, s.pc u = .inn n) ∨ ∃ timed, s.pc u = .sleep timed := by
  refine ⟨_, (
    Sys.then (t := 1) (.callLock 0 false rfl) <| Sys.then (t := 1) (.cas (n := 0) (timed := false) rfl rfl) <|
    Sys.then (t := 1) (.took (tr := false) rfl rfl) <|
    Sys.then (t := 2) (.callLock 0 false rfl) <|
    Sys.then (t := 2) (.casFail (n := 0) (timed := false) (o := 1) (w := true) rfl rfl) <|
    Sys.then (t := 2) (.futexSleep (n := 0) (timed := false) (o := 1) rfl (by decide) rfl) <| .nil _).reach
      (.init fresh_init), rfl, ?_⟩
  intro u
  by_cases h2 : u = 2
  · subst h2; exact .inr (.inr ⟨false, rfl⟩)
  by_cases h1 : u = 1
  · subst h1; exact .inr (.inl ⟨1, rfl⟩)
  · left; simp [h1, h2, fresh]

/-- A recursive mutex locked twice by thread 1 and unlocked once is still thread 1's. -/
example : ∃ tr s, Run (Sys .recursive false) fresh tr s ∧ Holds tr 1 ∧ s.pc 1 = .inn 1 := by
  refine ⟨_, _,
    Sys.then (t := 1) (.callLock 0 false rfl) <| Sys.then (t := 1) (.cas (n := 0) (timed := false) rfl rfl) <|
    Sys.then (t := 1) (.took (tr := false) rfl rfl) <|
    Sys.then (t := 1) (.callTry 1 rfl) <|
    Sys.then (t := 1) (.tryRecursive (n := 1) (w := true) rfl rfl rfl) <|
    Sys.then (t := 1) (.callUnlock (n := 2) rfl (.inl (by decide))) <|
    Sys.then (t := 1) (.unlNested (n := 2) rfl (by decide)) <| .nil _, ?_, rfl⟩
  unfold Holds; decide

/-- **C36 does not hold in full**: on an error-checking mutex held by thread 1, an unlock by thread 2 returns `EPERM`
but has already released the mutex: thread 3 then locks it while thread 1 still holds it. -/
theorem errorcheck_eperm_violated : ∃ tr s, Run (Sys .errorCheck true) fresh tr s ∧
    (2, Lab.retUnlock .eperm) ∈ tr ∧ Holds tr 1 ∧ Holds tr 3 := by
  refine ⟨_, _,
    Sys.then (t := 1) (.callLock 0 false rfl) <| Sys.then (t := 1) (.cas (n := 0) (timed := false) rfl rfl) <|
    Sys.then (t := 1) (.took (tr := false) rfl rfl) <|
    Sys.then (t := 2) (.callUnlock (n := 0) rfl (.inr rfl)) <|
    Sys.then (t := 2) (.unlLast (n := 0) rfl rfl) <|
    Sys.then (t := 2) (.exchangeEperm rfl (by decide) rfl) <|
    Sys.then (t := 3) (.callLock 0 false rfl) <| Sys.then (t := 3) (.cas (n := 0) (timed := false) rfl rfl) <|
    Sys.then (t := 3) (.took (tr := false) rfl rfl) <| .nil _, ?_, ?_, ?_⟩
  · decide
  · unfold Holds; decide
  · unfold Holds; decide

/-- **C36 does not hold in full**: unlocking a free error-checking mutex aborts instead of returning `EPERM`. -/
theorem errorcheck_unlocked_violated : ∃ tr s, Run (Sys .errorCheck true) fresh tr s ∧
    tr = [(1, .callUnlock), (1, .tau)] ∧ s.pc 1 = .crashed :=
  ⟨_, _, Sys.then (t := 1) (.callUnlock (n := 0) rfl (.inr rfl)) <|
    Sys.then (t := 1) (.unlBad (n := 0) rfl rfl) <| .nil _, rfl, rfl⟩

end Mlibc.Conc.Mutex
