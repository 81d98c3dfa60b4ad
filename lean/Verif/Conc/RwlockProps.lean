import Verif.Conc.Rwlock
/- Properties of reader/writer locks: C40. -/
set_option linter.unusedSimpArgs false
namespace Mlibc.Conc.Rwlock

theorem inv_run {s s' : St} {tr : List (Tid × Lab)} (h : Inv s) (hr : Run Sys s tr s') : Inv s' := by
  induction hr with
  | nil => exact h
  | cons hs _ ih => exact ih (inv_step h hs)

/-- Write locks held by `t`. -/
def St.wh (s : St) (t : Tid) : Nat := if s.writer = some t then 1 else 0

theorem holds_step {s s' : St} {e : Tid × Lab} (h : Inv s) (hs : Sys s e s') (u : Tid) :
    acquired [e] .rd u + s.rh u = released [e] .rd u + s'.rh u ∧
    acquired [e] .wr u + s.wh u = released [e] .wr u + s'.wh u := by
  obtain ⟨t, l⟩ := e
  simp only [Sys] at hs
  simp only [acquired, released, List.countP_singleton, St.wh]
  have h5 := h.ownPc t
  have h7 := h.wr
  cases hs
  case munl a x hpc hm =>
    cases a with
    | busy d => cases d <;> simp [After.lab, After.hold]
    | gotR => simp only [After.lab, After.hold]; grind
    | _ => simp [After.lab, After.hold]
  case mwake a hpc =>
    cases a with
    | busy d => cases d <;> simp [After.lab, After.hold]
    | gotR => simp only [After.lab, After.hold]; grind
    | _ => simp [After.lab, After.hold]
  all_goals (try simp only) <;> grind [Pc.owns]

theorem holds_run {s s' : St} {tr : List (Tid × Lab)} (h : Inv s) (hr : Run Sys s tr s') (u : Tid) :
    acquired tr .rd u + s.rh u = released tr .rd u + s'.rh u ∧
    acquired tr .wr u + s.wh u = released tr .wr u + s'.wh u := by
  induction hr with
  | nil s => simp [acquired, released]
  | @cons s e s1 tr s2 hs _ ih =>
    have h1 := holds_step h hs u
    have h2 := ih (inv_step h hs)
    have a1 : ∀ k, acquired (e :: tr) k u = acquired [e] k u + acquired tr k u := by
      intro k; simp only [acquired]; rw [← List.countP_append]; rfl
    have a2 : ∀ k, released (e :: tr) k u = released [e] k u + released tr k u := by
      intro k; simp only [released]; rw [← List.countP_append]; rfl
    rw [a1, a1, a2, a2]
    omega

/-- What the specification says a thread holds is what the ghost state says. -/
theorem holds_iff {s0 s : St} {tr : List (Tid × Lab)} (h0 : Init s0) (hr : Run Sys s0 tr s) (t : Tid) :
    (Holds tr .rd t ↔ s.rh t ≠ 0) ∧ (Holds tr .wr t ↔ s.writer = some t) := by
  have h := holds_run (inv_init _ h0) hr t
  obtain ⟨_, _, _, _, h5, h6, _⟩ := h0
  have e1 := h5 t
  have e2 : s0.wh t = 0 := by simp [St.wh, h6]
  unfold Holds
  have e3 : s.wh t = if s.writer = some t then 1 else 0 := rfl
  split at e3 <;> rename_i hw
  · simp only [hw, iff_true]; omega
  · simp only [hw, iff_false]; omega

/-- **C40**: in every execution, while a thread holds the lock for writing, no thread holds it for reading and no other
thread holds it for writing. -/
theorem rw_exclusion {s0 s : St} {tr : List (Tid × Lab)} (h0 : Init s0) (hr : Run Sys s0 tr s) {t : Tid}
    (ht : Holds tr .wr t) : (∀ u, ¬ Holds tr .rd u) ∧ ∀ u, Holds tr .wr u → u = t := by
  have hi := inv_run (inv_init _ h0) hr
  have hw := (holds_iff h0 hr t).2.1 ht
  refine ⟨fun u hu => ?_, fun u hu => ?_⟩
  · have hu := (holds_iff h0 hr u).1.1 hu
    have hm := hi.mem u
    rw [(hi.wr t hw).2.2] at hm
    simp at hm
    omega
  · have hu := (holds_iff h0 hr u).2.1 hu
    rw [hw] at hu
    exact (Option.some.inj hu).symm

/-- A thread inside a call that is not asleep. -/
def Pc.running : Pc → Bool
  | .out | .msleep _ _ | .wsleep _ => false
  | _ => true

/-- **C40** (no lost wakeup): in every execution, when no thread is running inside a call and some thread sleeps waiting
for the lock, then some thread holds the lock. So the release by the last holder always ends with a waiting thread
awake. -/
theorem rw_no_lost_wakeup {s0 s : St} {tr : List (Tid × Lab)} (h0 : Init s0) (hr : Run Sys s0 tr s)
    (hq : ∀ u, (s.pc u).running = false) {t : Tid} (ht : (∃ k d, s.pc t = .msleep k d) ∨ ∃ d, s.pc t = .wsleep d) :
    ∃ u k, Holds tr k u := by
  have hi := inv_run (inv_init _ h0) hr
  have rc : ∀ u d, s.pc u = .wsleep d → ∃ u k, Holds tr k u := by
    intro u d hu
    rcases hi.sleepR u d hu with hb | ⟨v, hv⟩
    · match hl : s.readers with
      | [] => exact absurd hl (hi.bit hb)
      | v :: vs =>
        refine ⟨v, .rd, (holds_iff h0 hr v).1.2 ?_⟩
        have hm := hi.mem v
        rw [hl] at hm
        simp at hm
        have : (s.pc v).inR = 0 := by
          have := hq v
          cases hpv : s.pc v <;> rw [hpv] at this <;> simp_all [Pc.running, Pc.inR]
        omega
    · have := hq v; rw [hv] at this; cases this
  rcases ht with ⟨k, d, ht⟩ | ⟨d, ht⟩
  · rcases hi.sleepM t k d ht with ⟨x, hm⟩ | ⟨v, a, hv⟩
    · match ho : s.own with
      | none => rw [hi.own.1 ho] at hm; cases hm
      | some u =>
        rcases hi.ownOr u ho with hp | hw
        · have := hq u
          have : ∃ d, s.pc u = .wsleep d := by
            cases hpu : s.pc u <;> rw [hpu] at this hp <;> simp_all [Pc.running, Pc.owns]
          obtain ⟨d, hu⟩ := this
          exact rc u d hu
        · exact ⟨u, .wr, (holds_iff h0 hr u).2.2 hw⟩
    · have := hq v; rw [hv] at this; cases this
  · exact rc t d ht

/-- **C40**: the wake steps leave no thread asleep on the word they wake. -/
theorem rw_wakes {s s' : St} {t : Tid} {l : Lab} (hs : Sys s (t, l) s') :
    (∀ a, s.pc t = .mwake a → ∀ u k d, s'.pc u ≠ .msleep k d) ∧
    (s.pc t = .rcwake → ∀ u d, s'.pc u ≠ .wsleep d) := by
  simp only [Sys] at hs
  refine ⟨fun a ha u k d => ?_, fun ha u d => ?_⟩
  · have hn : ∀ a : After, a.next ≠ .msleep k d := by
      intro a
      cases a with
      | busy d => cases d <;> simp [After.next]
      | _ => simp [After.next]
    cases hs <;> simp_all [upd_apply]
    split
    · exact hn _
    · exact (wakeM_apply s.pc u).2.2.2.1 k d
  · cases hs <;> simp_all [upd_apply]
    split
    · simp
    · exact (wakeRc_apply s.pc u).2.2.2.1 d

/-- One more step in front of a run. -/
theorem Sys.then {s s1 s2 : St} {t : Tid} {l : Lab} {tr : List (Tid × Lab)}
    (h : Step t s l s1) (hr : Run Sys s1 tr s2) : Run Sys s ((t, l) :: tr) s2 := .cons (l := (t, l)) h hr

theorem Run.append {s s1 s' : St} {tr tr' : List (Tid × Lab)} (h : Run Sys s tr s1)
    (h' : Run Sys s1 tr' s') : Run Sys s (tr ++ tr') s' := by
  induction h with
  | nil => exact h'
  | cons hs _ ih => exact .cons hs (ih h')

/-- **C40** (sharing): whenever the internal mutex is free, no thread holding it for writing, a thread outside any call
obtains a read lock by its own steps alone, whatever other readers hold. -/
theorem rw_readers_share {s0 s : St} {tr : List (Tid × Lab)} (h0 : Init s0) (hr : Run Sys s0 tr s)
    (hm : s.m = none) {t : Tid} (ht : s.pc t = .out) : ∃ tr' s', Run Sys s tr' s' ∧ (∀ e, e ∈ tr' → e.1 = t) ∧
    Holds (tr ++ tr') .rd t ∧ (∀ u, u ≠ t → Holds tr .rd u → Holds (tr ++ tr') .rd u) ∧ s'.m = none ∧ s'.pc t = .out := by
  obtain ⟨tr', s', hrun, h1, h2, h3, h4⟩ : ∃ tr' s', Run Sys s tr' s' ∧ (∀ e, e ∈ tr' → e.1 = t) ∧
      s'.rh = upd s.rh t (s.rh t + 1) ∧ s'.m = none ∧ s'.pc t = .out := by
    refine ⟨_, _, Sys.then (t := t) (.callLock .rd ht) <|
      Sys.then (t := t) (.mload (k := .rd) (d := false) (by simp)) <|
      Sys.then (t := t) (.mtake (k := .rd) (d := false) (by simp [hm]) hm) <|
      Sys.then (t := t) (.radd (by simp [taken])) <|
      Sys.then (t := t) (.munl (a := .gotR) (x := false) (by simp) (by simp)) <| .nil _, ?_, ?_, rfl, ?_⟩
    · simp
    · simp [After.hold]
    · simp [After.next]
  have hall := Run.append hr hrun
  refine ⟨tr', s', hrun, h1, ?_, ?_, h3, h4⟩
  · rw [(holds_iff h0 hall t).1, h2]; simp
  · intro u _ hu
    rw [(holds_iff h0 hr u).1] at hu
    rw [(holds_iff h0 hall u).1, h2]
    simp only [upd_apply]
    split <;> omega

/-! ### try-locks -/

/-- **C40**: `tryrdlock` and `trywrlock` give up at the internal mutex only when the lock is held for writing or another
thread is inside a call, holding that mutex.
Missing from the full property: a thread that is only acquiring also makes them fail (`rw_try_violated`). -/
theorem rw_try_partial {s0 s s' : St} {tr : List (Tid × Lab)} (h0 : Init s0) (hr : Run Sys s0 tr s) {t : Tid}
    {k : Kind} {d : Bool} (ht : s.pc t = .tload k d ∨ s.pc t = .tcas k d) {e : Err}
    (hs : Sys s (t, .fail k e) s') :
    e ≠ .timedOut ∧ ((∃ u, Holds tr .wr u) ∨ ∃ u, u ≠ t ∧ (s.pc u).owns = true) := by
  have hi := inv_run (inv_init _ h0) hr
  have hm : s.m ≠ none ∧ e ≠ .timedOut := by
    simp only [Sys] at hs
    generalize hl : Lab.fail k e = l at hs
    cases hs <;> (try simp only [reduceCtorEq, Lab.fail.injEq] at hl) <;> (try exact hl.elim) <;> simp_all
    all_goals (rename_i a _ _; cases a with
      | busy d => cases d <;> simp_all [After.lab]
      | _ => simp_all [After.lab])
  refine ⟨hm.2, ?_⟩
  match ho : s.own with
  | none => exact absurd (hi.own.1 ho) hm.1
  | some u =>
    rcases hi.ownOr u ho with hp | hw
    · refine .inr ⟨u, ?_, hp⟩
      rintro rfl
      rcases ht with ht | ht <;> rw [ht] at hp <;> cases hp
    · exact .inl ⟨u, (holds_iff h0 hr u).2.2 hw⟩

/-- **C40**: past the mutex, `trywrlock` gives up only when some thread holds the lock for reading or is inside a call
acquiring or releasing it for reading. -/
theorem rw_trywr_partial {s0 s s' : St} {tr : List (Tid × Lab)} (h0 : Init s0) (hr : Run Sys s0 tr s) {t : Tid}
    {d : Bool} {l : Lab} (ht : s.pc t = .wtry d) (hs : Sys s (t, l) s') (hl : l ≠ .got .wr) :
    ∃ u, Holds tr .rd u ∨ (s.pc u).inR = 1 := by
  have hi := inv_run (inv_init _ h0) hr
  have hne : s.rc ≠ (0, false) := by
    simp only [Sys] at hs
    cases hs <;> simp_all
  match hrd : s.readers with
  | [] => exact absurd ((rc_zero hi).2 hrd) hne
  | u :: us =>
    refine ⟨u, ?_⟩
    have hm := hi.mem u
    rw [hrd] at hm
    simp at hm
    by_cases h : s.rh u = 0
    · right
      have : (s.pc u).inR ≤ 1 := by cases s.pc u <;> simp [Pc.inR] <;> split <;> simp
      omega
    · exact .inl ((holds_iff h0 hr u).1.2 h)

/-! ### Executions -/

/-- A fresh lock. -/
def start : St := ⟨none, (0, false), none, [], fun _ => 0, none, fun _ => .out⟩

theorem start_init : Init start := ⟨rfl, rfl, rfl, rfl, fun _ => rfl, rfl, fun _ => rfl⟩

/-- Two readers hold the lock together while a writer sleeps: the hypotheses of `rw_no_lost_wakeup` and
`rw_readers_share` are met. -/
example : ∃ tr s, Run Sys start tr s ∧ Holds tr .rd 1 ∧ Holds tr .rd 2 ∧ s.pc 3 = .wsleep false ∧
    ∀ u, (s.pc u).running = false := by
  refine ⟨_, _, Sys.then (t := 1) (.callLock .rd rfl) <| Sys.then (t := 1) (.mload (k := .rd) (d := false) rfl) <|
    Sys.then (t := 1) (.mtake (k := .rd) (d := false) rfl rfl) <| Sys.then (t := 1) (.radd rfl) <|
    Sys.then (t := 1) (.munl (a := .gotR) (x := false) rfl rfl) <|
    Sys.then (t := 2) (.callTry .rd false rfl) <| Sys.then (t := 2) (.tfree (k := .rd) (d := false) rfl rfl) <|
    Sys.then (t := 2) (.ttake (k := .rd) (d := false) rfl rfl) <| Sys.then (t := 2) (.radd rfl) <|
    Sys.then (t := 2) (.munl (a := .gotR) (x := false) rfl rfl) <|
    Sys.then (t := 3) (.callLock .wr rfl) <| Sys.then (t := 3) (.mload (k := .wr) (d := false) rfl) <|
    Sys.then (t := 3) (.mtake (k := .wr) (d := false) rfl rfl) <| Sys.then (t := 3) (.wload (d := false) rfl) <|
    Sys.then (t := 3) (.wbit (d := false) (n := 2) rfl (by decide) rfl) <|
    Sys.then (t := 3) (.wsleep (d := false) (n := 2) rfl rfl) <| .nil _, ?_, ?_, rfl, ?_⟩
  · unfold Holds; decide
  · unfold Holds; decide
  · intro u
    by_cases h1 : u = 1
    · subst h1; rfl
    by_cases h2 : u = 2
    · subst h2; rfl
    by_cases h3 : u = 3
    · subst h3; rfl
    simp [h1, h2, h3, start, Pc.running]

/-- A writer holds the lock: the hypothesis of `rw_exclusion` is met. -/
example : ∃ tr s, Run Sys start tr s ∧ Holds tr .wr 3 := by
  refine ⟨_, _, Sys.then (t := 3) (.callTry .wr false rfl) <| Sys.then (t := 3) (.tfree (k := .wr) (d := false) rfl rfl) <|
    Sys.then (t := 3) (.ttake (k := .wr) (d := false) rfl rfl) <|
    Sys.then (t := 3) (.wtryGot (d := false) rfl rfl) <| .nil _, ?_⟩
  unfold Holds; decide

/-- **C40** violated: while thread 1 is in the middle of acquiring a read lock and no thread holds the lock,
`tryrdlock` (and, `timed`, `clockrdlock`) by thread 2 fails with `EAGAIN` and `trywrlock` by thread 3 with `EBUSY`.
pthread.cpp L1210-1218 -/
theorem rw_try_violated (timed : Bool) : ∃ tr s, Run Sys start tr s ∧ (2, Lab.fail .rd .again) ∈ tr ∧
    (3, Lab.fail .wr .busy) ∈ tr ∧ ∀ k u, acquired tr k u = 0 := by
  refine ⟨_, _, Sys.then (t := 1) (.callLock .rd rfl) <| Sys.then (t := 1) (.mload (k := .rd) (d := false) rfl) <|
    Sys.then (t := 1) (.mtake (k := .rd) (d := false) rfl rfl) <|
    Sys.then (t := 2) (.callTry .rd timed rfl) <|
    Sys.then (t := 2) (.tagain (d := timed) (b := false) (.inl rfl) rfl) <|
    Sys.then (t := 3) (.callTry .wr false rfl) <|
    Sys.then (t := 3) (.tbusy (k := .wr) (x := false) (b := false) (.inl rfl) rfl (.inl rfl)) <| .nil _, ?_, ?_, ?_⟩
  · simp
  · simp
  · intro k u; simp [acquired]

end Mlibc.Conc.Rwlock
