import Verif.Conc.CancelInv
/-
Property C80: thread cancellation.
-/
set_option linter.unusedSimpArgs false
namespace Mlibc.Conc.Cancel
open Spec

/-! ### Theorems -/

/-- **C80.** A thread is cancelled only if somebody asked for it before. -/
theorem cancelled_asked {m : Bool} {a b : List Lab} {s : St} (h : Exec m (a ++ .cancelled :: b) s) : Asked a := by
  obtain ⟨s1, s2, hx, hs⟩ := exec_split h
  obtain ⟨i1, i2, i3, i4, i5, i6, i7, i8, i9, i10, i11, i12, i13, i14, i15⟩ := (inv12 hx).1
  obtain ⟨j1, j2, j3, j4, j5, j6⟩ := inv3 hx
  cases hs with
  | tyCancel a old g1 g2 g3 g4 g5 => apply j1; rw [g4]; simp [asyncCancelled] at g5; exact g5.2
  | stCancel e old g1 g2 g3 g4 g5 => apply j1; rw [g4]; simp [asyncCancelled] at g5; exact g5.2
  | testYes g1 g2 g3 g4 => exact j1 g4
  | cpCancel v g1 g2 g3 g4 => exact j1 ((i1 v g2).2.2.2.2 g4)
  | intrCancel g1 g2 g3 g4 => exact j1 g4
  | scCancel old g1 g2 g3 g4 g5 => exact j3 (Or.inr ⟨old, g2⟩)
  | hCancel old g1 g2 g3 => exact j1 (i12 (by rw [g1]; simp))

theorem disabled_stays {m : Bool} {a : List Lab} {was : Bool} (b : List Lab) :
    ∀ {s : St}, Exec m (a ++ .retState false was :: b) s → .callState true ∉ b → disabled (a ++ .retState false was :: b) = true := by
  induction b using snoc_induction with
  | h0 =>
    intro s _ _
    rw [disabled_snoc]; rfl
  | h1 b l ih =>
    intro s h hin
    rw [← List.cons_append, ← List.append_assoc] at h ⊢
    obtain ⟨s1, s2, hx, hs⟩ := exec_split h
    have hd := ih hx (by intro hc; exact hin (by simp [hc]))
    have hl : l ≠ .callState true := by rintro rfl; exact hin (by simp)
    obtain ⟨j1, j2, j3, j4, j5⟩ := inv5 hx
    rw [disabled_snoc]
    cases hs <;> first | exact hd | skip
    · rename_i e _ _
      cases e
      · exact hd
      · exact absurd rfl hl
    · rename_i e old g1 g2 g3
      cases e
      · rfl
      · exact absurd g2 (j4 old hd)
    · rename_i e w g1 g2
      cases e
      · rfl
      · exact absurd g2 (j5 w hd)

/-- **C80.** A thread that has disabled cancellation is not cancelled until it begins to enable it again, whatever the other threads do. -/
theorem disabled_safe {m : Bool} {a b c : List Lab} {was : Bool} {s : St}
    (h : Exec m (a ++ .retState false was :: b ++ .cancelled :: c) s) : .callState true ∈ b := by
  obtain ⟨s1, s2, hx, hs⟩ := exec_split h
  by_cases hin : Lab.callState true ∈ b
  · exact hin
  · exfalso
    have hd := disabled_stays b hx hin
    obtain ⟨j1, j2, j3, j4, j5⟩ := inv5 hx
    obtain ⟨i1, i2, i3, i4, i5, i6, i7, i8, i9, i10, i11, i12, i13, i14, i15⟩ := (inv12 hx).1
    have hen := j1 hd
    cases hs with
    | tyCancel a old g1 g2 g3 g4 g5 => rw [g4] at hen; simp [asyncCancelled, hen] at g5
    | stCancel e old g1 g2 g3 g4 g5 => cases e <;> simp [asyncCancelled] at g5; exact j4 old hd g2
    | testYes g1 g2 g3 g4 => rw [hen] at g3; cases g3
    | cpCancel v g1 g2 g3 g4 => rw [(i1 v g2).1, hen] at g3; cases g3
    | intrCancel g1 g2 g3 g4 => rw [hen] at g3; cases g3
    | scCancel old g1 g2 g3 g4 g5 => rw [g4] at hen; simp [hen] at g5
    | hCancel old g1 g2 g3 =>
      rcases j2 hd with hx' | ⟨_, hx'⟩
      · rw [g3] at hx'; exact g2 (Or.inr hx')
      · rw [g1] at hx'; cases hx'

/-- No asynchronous cancellation was ever set. -/
theorem deferred_bits {m : Bool} {tr : List Lab} {s : St} (h : Exec m tr s) (hd : .callType true ∉ tr) :
    s.bits.as = false ∧ s.pc ≠ .tyLoad true ∧ ∀ v, s.pc ≠ .tyCas true v := by
  induction h with
  | init h => obtain ⟨h1, h2, h3, h4, h5, h6, h7⟩ := h; simp [h1, h5]
  | step hx hs ih =>
    have ih := ih (fun hc => hd (by simp [hc]))
    obtain ⟨k1, k2, k3⟩ := ih
    obtain ⟨i1, i2, i3, i4, i5, i6, i7, i8, i9, i10, i11, i12, i13, i14, i15⟩ := (inv12 hx).1
    simp only [List.mem_append, List.mem_singleton, not_or] at hd
    cases hs <;> refine ⟨?_, ?_, ?_⟩ <;> grind

/-- **C80.** While asynchronous cancellation has not been asked for, a thread is cancelled only inside pthread_testcancel or inside a
system call that is a cancellation point. -/
theorem deferred_points {m : Bool} {a b : List Lab} {s : St} (h : Exec m (a ++ .cancelled :: b) s) (hd : .callType true ∉ a) :
    callOf a = .test ∨ callOf a = .sys := by
  obtain ⟨s1, s2, hx, hs⟩ := exec_split h
  obtain ⟨k1, k2, k3⟩ := deferred_bits hx hd
  obtain ⟨i1, i2, i3, i4, i5, i6, i7, i8, i9, i10, i11, i12, i13, i14, i15⟩ := (inv12 hx).1
  obtain ⟨j1, j2, j3, j4, j5, j6, j7, j8⟩ := inv4 hx
  cases hs with
  | tyCancel a old g1 g2 g3 g4 g5 => cases a <;> simp [asyncCancelled] at g5; exact absurd g2 (k3 old)
  | stCancel e old g1 g2 g3 g4 g5 => rw [g4] at k1; simp [asyncCancelled, k1] at g5
  | testYes g1 g2 g3 g4 => left; rw [j7 (by rw [g2]; rfl), g2]; rfl
  | cpCancel v g1 g2 g3 g4 => right; rw [j7 (by rw [g2]; rfl), g2]; rfl
  | intrCancel g1 g2 g3 g4 => right; rw [j7 (by rw [g2]; rfl), g2]; rfl
  | scCancel old g1 g2 g3 g4 g5 => rw [g4] at k1; simp [k1] at g5
  | hCancel old g1 g2 g3 =>
    right
    rcases j8 old g1 with hx' | hx'
    · rw [k1] at hx'; cases hx'
    · have : leaving s1.pc = false ∧ callPc s1.pc = .sys := by
        cases hp : s1.pc <;> rw [hp] at hx' <;> simp [inRange, leaving, callPc] at hx' ⊢
      rw [j7 this.1, this.2]

/-- **C80.** A request is not lost: if another thread's pthread_cancel returned before a thread with cancellation enabled called
pthread_testcancel or a system call that is a cancellation point, the call neither returns nor takes effect. -/
theorem request_seen {m : Bool} {a b : List Lab} {l : Lab} {s : St} (h : Exec m (a ++ l :: b) s) (hal : Alive a) (hen : stateOf a = true)
    (hl : l = .retTest ∨ l = .effect ∨ ∃ d, l = .retSys d) : requestedBefore a = false := by
  obtain ⟨s1, s2, hx, hs⟩ := exec_split h
  obtain ⟨j1, j2, j3, j4, j5, j6⟩ := inv3 hx
  obtain ⟨k1, k2, k3, k4, k5, k6, k7, k8⟩ := inv4 hx
  have hen : masking s1.pc = false → s1.bits.en = true := fun hm => by rw [k3 hal hm]; exact hen
  unfold requestedBefore
  rcases hl with rfl | rfl | ⟨d, rfl⟩
  · cases hs with
    | testRet g1 g2 => exact j6 (hen (by rw [g2]; rfl)) (Or.inl g2)
  · cases hs with
    | effect g1 g2 => exact j6 (hen (by rw [g2]; rfl)) (Or.inr (Or.inl g2))
  · cases hs with
    | cpDone g1 g2 => exact j6 (hen (by rw [g2]; rfl)) (Or.inr (Or.inr (Or.inr (Or.inl ⟨_, g2⟩))))
    | intrRet g1 g2 => exact j6 (hen (by rw [g2]; rfl)) (Or.inr (Or.inr (Or.inl g2)))

/-- **C80.** A thread asleep in a system call that is a cancellation point, with cancellation enabled, is woken by a request: when some
pthread_cancel has returned, the signal that interrupts the call is pending or is being sent, and it is not blocked. The thread was created
by one that did not block the signal. -/
theorem sleeper_woken {tr : List Lab} {s : St} (h : Exec false tr s) (hal : Alive tr) (hen : stateOf tr = true) (hp : s.pc = .cpIn)
    (hr : Requested tr) : s.blocked = false ∧ (s.pending = true ∨ ∃ c, s.cpc c = .kill) := by
  obtain ⟨i1, i2, i3, i4, i5, i6, i7, i8, i9, i10, i11, i12, i13, i14, i15⟩ := (inv12 h).1
  obtain ⟨l1, l2, l3, l4, l5, l6⟩ := (inv12 h).2
  obtain ⟨j1, j2, j3, j4, j5, j6⟩ := inv3 h
  obtain ⟨k1, k2, k3, k4, k5, k6, k7, k8⟩ := inv4 h
  have he : s.bits.en = true := by rw [k3 hal (by rw [hp]; rfl)]; exact hen
  have ht := j4 ((requested_iff tr).2 hr)
  have hh : s.hp = .none := by
    by_cases hh : s.hp = .none
    · exact hh
    · exact absurd hp (i13 hh)
  have hx := (k1 hal).2
  exact ⟨l4 rfl hh hx (by rw [hp]; rfl) (by rw [hp]; rfl) he, l6 hh hx he ht (Or.inl hp)⟩

/-- **C80.** With asynchronous cancellation the thread need not reach a cancellation point: when some pthread_cancel has returned, the
signal that cancels the thread is pending or being sent, and not blocked. -/
theorem async_signalled {tr : List Lab} {s : St} (h : Exec false tr s) (hal : Alive tr) (hen : stateOf tr = true) (hty : typeOf tr = true)
    (hc : callOf tr = .none) (hh : s.hp = .none) (hr : Requested tr) : s.blocked = false ∧ (s.pending = true ∨ ∃ c, s.cpc c = .kill) := by
  obtain ⟨l1, l2, l3, l4, l5, l6⟩ := (inv12 h).2
  obtain ⟨j1, j2, j3, j4, j5, j6⟩ := inv3 h
  obtain ⟨k1, k2, k3, k4, k5, k6, k7, k8⟩ := inv4 h
  have hl := (k1 hal).1
  have hx := (k1 hal).2
  have hm : masking s.pc = false := by
    cases hp : s.pc <;> simp [masking]
    rw [k7 hl, hp] at hc
    simp [callPc] at hc
  have he : s.bits.en = true := by rw [k3 hal hm]; exact hen
  have ha : s.bits.as = true := by rw [k4 hal]; exact hty
  have ht := j4 ((requested_iff tr).2 hr)
  exact ⟨l4 rfl hh hx hl hm he, l5 hh hx hl he ha ht⟩

/-- What the handler then does: with asynchronous cancellation, or with the thread interrupted in a system call, it never returns to the
thread before that is cancelled. -/
theorem handler_cancels {m : Bool} {tr : List Lab} {s s' : St} {l : Lab} (h : Exec m tr s) (hal : Alive tr) (hh : s.hp ≠ .none)
    (hw : s.bits.as = true ∨ inRange s.pc = true) (hs : Step s l s') : l = .cancelled ∨ s'.hp ≠ .none := by
  obtain ⟨i1, i2, i3, i4, i5, i6, i7, i8, i9, i10, i11, i12, i13, i14, i15⟩ := (inv12 h).1
  obtain ⟨l1, -, -, -, -, -⟩ := (inv12 h).2
  obtain ⟨k1, -, -, -, -, -, -, -⟩ := inv4 h
  have k1 := k1 hal
  cases hs <;> grind

/-- **C80.** The functions return the state and the type set before, and pthread_cancel never fails with ESRCH. -/
theorem previous_returned {m : Bool} {a b : List Lab} {l : Lab} {s : St} (h : Exec m (a ++ l :: b) s) :
    (∀ was, l = .retType was → Alive a → was = typeOf a) ∧ (∀ e was, l = .retState e was → Alive a → was = stateOf a) ∧
    ∀ c, l ≠ .retEsrch c := by
  obtain ⟨s1, s2, hx, hs⟩ := exec_split h
  obtain ⟨i1, i2, i3, i4, i5, i6, i7, i8, i9, i10, i11, i12, i13, i14, i15⟩ := (inv12 hx).1
  obtain ⟨k1, k2, k3, k4, k5, k6, k7, k8⟩ := inv4 hx
  refine ⟨?_, ?_, ?_⟩
  · rintro was rfl hal
    unfold typeOf
    cases hs with
    | tySame a old g1 g2 g3 => rw [(i2 _ old g2).2.1]; exact k4 hal
    | tyCas a old g1 g2 g3 g4 g5 => rw [← k4 hal, g4]
  · rintro e was rfl hal
    cases hs with
    | stSame _ old g1 g2 g3 => rw [(i3 _ old g2).1]; exact k3 hal (by rw [g2]; rfl)
    | stMask _ _ g1 g2 => exact k2 _ _ hal g2
  · rintro c rfl
    cases hs with
    | esrch _ g1 g2 => rw [(i11 c g1).2] at g2; cases g2

/-! ### Ending -/

/-- The thread calls one of the functions. -/
def IsCall (l : Lab) : Prop := l = .callTest ∨ l = .callSys ∨ l = .callSelf ∨ l = .callExit ∨ (∃ a, l = .callType a) ∨ ∃ e, l = .callState e

/-- Since the thread began to leave: no calls (`some true`). -/
def quiet (tr : List Lab) : Option Bool := tr.foldl (fun v l => match v, l with
  | none, .cancelled => some true
  | none, .callExit => some true
  | none, _ => none
  | some _, .callTest => some false | some _, .callSys => some false | some _, .callSelf => some false | some _, .callExit => some false
  | some _, .callType _ => some false | some _, .callState _ => some false
  | some v, _ => some v) none

theorem quiet_snoc (tr : List Lab) (l : Lab) : quiet (tr ++ [l]) = match quiet tr, l with
    | none, .cancelled => some true
    | none, .callExit => some true
    | none, _ => none
    | some _, .callTest => some false | some _, .callSys => some false | some _, .callSelf => some false | some _, .callExit => some false
    | some _, .callType _ => some false | some _, .callState _ => some false
    | some v, _ => some v := by
  simp only [quiet, List.foldl_append, List.foldl_cons, List.foldl_nil]

/-- On the way out without detours. -/
@[grind] def Out (s : St) : Prop := (s.bits.exit = false ∧ (s.pc = .exLoad ∨ (∃ v, s.pc = .exCas v) ∨ s.pc = .xTest ∨ s.pc = .xOr)) ∨
  (s.bits.exit = true ∧ (s.pc = .xLoop ∨ s.pc = .user ∨ s.pc = .dead true))

theorem quiet_alive (tr : List Lab) : quiet tr = none ↔ Alive tr := by
  induction tr using snoc_induction with
  | h0 => simp [quiet, Alive]
  | h1 tr l ih =>
    rw [quiet_snoc, alive_snoc, ← ih]
    cases hq : quiet tr <;> cases l <;> simp

theorem out_step {s s' : St} {l : Lab} (h1 : Inv1 s) (h : Out s) (hs : Step s l s') (hl : ¬ IsCall l) : Out s' ∧ l ≠ .ended false := by
  obtain ⟨i1, i2, i3, i4, i5, i6, i7, i8, i9, i10, i11, i12, i13, i14, i15⟩ := h1
  unfold IsCall at hl
  cases hs <;> (refine ⟨?_, ?_⟩) <;> grind

theorem out_start {m : Bool} {tr : List Lab} {s s' : St} {l : Lab} (hx : Exec m tr s) (hal : Alive tr) (hs : Step s l s')
    (hl : l = .cancelled ∨ l = .callExit) : Out s' := by
  have k := (inv4 hx).alive hal
  unfold Out
  rcases hl with rfl | rfl <;> cases hs <;> grind

/-- **C80, partial.** A thread that is cancelled or calls pthread_exit, and whose cleanup handlers and destructors call neither
cancellation points nor the functions that change the state, runs all of its cleanup handlers and can then be joined: it does not end in
any other way. Missing: handlers that call such functions (see `cleanup_violated`). -/
theorem ends_joinable_partial {m : Bool} {a b c : List Lab} {l : Lab} {s : St} (h : Exec m (a ++ l :: b ++ .ended false :: c) s) (hal : Alive a)
    (hl : l = .cancelled ∨ l = .callExit) : ∃ x ∈ b, IsCall x := by
  by_cases hin : ∃ x ∈ b, IsCall x
  · exact hin
  · exfalso
    obtain ⟨s1, s2, hx, hs⟩ := exec_split h
    have key : ∀ (b : List Lab), (∀ x ∈ b, ¬ IsCall x) → ∀ {s : St}, Exec m (a ++ l :: b) s → Out s := by
      intro b
      induction b using snoc_induction with
      | h0 =>
        intro _ s hx
        generalize htr : a ++ l :: [] = tr at hx
        cases hx with
        | init => simp at htr
        | step hx hs =>
          obtain ⟨rfl, h2⟩ := List.append_inj' htr rfl
          simp at h2
          subst h2
          exact out_start hx hal hs hl
      | h1 b y ih =>
        intro hb s hx
        rw [← List.cons_append, ← List.append_assoc] at hx
        generalize htr : a ++ l :: b ++ [y] = tr at hx
        cases hx with
        | init => simp at htr
        | step hx hs =>
          obtain ⟨rfl, h2⟩ := List.append_inj' htr rfl
          simp at h2
          subst h2
          exact (out_step (inv12 hx).1 (ih (fun x hx => hb x (by simp [hx])) hx) hs (hb y (by simp))).1
    have ho := key b (fun x hx hc => hin ⟨x, hx, hc⟩) hx
    have := (out_step (inv12 hx).1 ho hs (by simp [IsCall])).2
    exact this rfl

/-- When the thread can be joined, no cleanup handler is left. -/
theorem joinable_all_run {m : Bool} {a b : List Lab} {s : St} (h : Exec m (a ++ .ended true :: b) s) :
    a.count .push = a.count .cleanup := by
  have key : ∀ {tr : List Lab} {s : St}, Exec m tr s → tr.count .push = tr.count .cleanup + s.handlers := by
    intro tr s h
    induction h with
    | init h => simp [h.2.2.2.1]
    | step hx hs ih =>
      rw [List.count_append, List.count_append, ih]
      cases hs <;> simp_all <;> omega
  obtain ⟨s1, s2, hx, hs⟩ := exec_split h
  cases hs with
  | ended g1 g2 g3 => have := key hx; omega

/-! ### Cases -/

/-- A new thread. -/
def start (masked : Bool) : St := ⟨⟨true, false, false, false, false⟩, masked, false, 0, .user, .none, fun _ => .out⟩

theorem start_exec (m : Bool) : Exec m [] (start m) := .init ⟨rfl, rfl, rfl, rfl, rfl, rfl, fun _ => rfl⟩

/-- A cancellation at pthread_testcancel: with one cleanup handler, the thread ends and can be joined. -/
example : ∃ s, Exec false [.push, .callCancel 1, .tau, .tau, .tau, .retCancel 1, .callTest, .cancelled, .tau, .tau, .cleanup, .cleanupRet, .ended true] s := by
  have h := start_exec false
  have h := h.step (.push rfl rfl)
  have h := h.step (.callCancel 1 rfl)
  have h := h.step (.caLoad 1 rfl)
  have h := h.step (.caCas 1 ⟨true, false, false, false, false⟩ rfl rfl rfl)
  have h := h.step (.kill 1 rfl (by intro j; exact nofun))
  have h := h.step (.caRet 1 rfl)
  have h := h.step (.callTest rfl rfl)
  have h := h.step (.testYes rfl rfl rfl rfl)
  have h := h.step (.xTest rfl rfl rfl)
  have h := h.step (.xOr rfl rfl)
  have h := h.step (.cleanup 0 rfl rfl rfl)
  have h := h.step (.cleanupRet rfl rfl rfl)
  have h := h.step (.ended rfl rfl rfl)
  exact ⟨_, h⟩

/-- A sleeping thread is interrupted and cancelled. -/
example : ∃ s, Exec false [.callSys, .tau, .tau, .callCancel 1, .tau, .tau, .tau, .retCancel 1, .tau, .tau, .cancelled] s := by
  have h := start_exec false
  have h := h.step (.callSys rfl rfl)
  have h := h.step (.cpLoad rfl rfl)
  have h := h.step (.cpEnter _ rfl rfl (by decide))
  have h := h.step (.callCancel 1 rfl)
  have h := h.step (.caLoad 1 rfl)
  have h := h.step (.caCas 1 ⟨true, false, false, false, false⟩ rfl rfl rfl)
  have h := h.step (.kill 1 rfl (by intro j; exact nofun))
  have h := h.step (.caRet 1 rfl)
  have h := h.step (.deliver rfl (by intro j; exact nofun) rfl rfl)
  have h := h.step (.hLoad rfl (by decide))
  have h := h.step (.hCancel _ rfl (by decide) rfl)
  exact ⟨_, h⟩

/-- Disabling, enabling and asynchronous cancellation. -/
example : ∃ s, Exec false [.callState false, .tau, .tau, .retState false true, .callCancel 1, .tau, .tau, .retCancel 1, .callTest, .tau, .retTest,
    .callType true, .tau, .retType false, .callState true, .tau, .cancelled] s := by
  have h := start_exec false
  have h := h.step (.callState false rfl rfl)
  have h := h.step (.stLoad false rfl rfl)
  have h := h.step (.stCas false _ rfl rfl (by decide) rfl (by decide))
  have h := h.step (.stMask false true rfl rfl)
  have h := h.step (.callCancel 1 rfl)
  have h := h.step (.caLoad 1 rfl)
  have h := h.step (.caCas 1 ⟨false, false, false, false, false⟩ rfl rfl rfl)
  have h := h.step (.caRet 1 rfl)
  have h := h.step (.callTest rfl rfl)
  have h := h.step (.testNo rfl rfl (by decide))
  have h := h.step (.testRet rfl rfl)
  have h := h.step (.callType true rfl rfl)
  have h := h.step (.tyLoad true rfl rfl)
  have h := h.step (.tyCas true _ rfl rfl (by decide) rfl (by decide))
  have h := h.step (.callState true rfl rfl)
  have h := h.step (.stLoad true rfl rfl)
  have h := h.step (.stCancel true _ rfl rfl (by decide) rfl (by decide))
  exact ⟨_, h⟩

/-- A system call that has taken effect is lost: the signal arrives at `__mlibc_syscall_end`, which counts as before the call, and the
thread is cancelled, so that for example the data a read has taken are gone. -/
theorem effect_lost_violated : ∃ s, Exec false [.callSys, .tau, .tau, .callCancel 1, .tau, .tau, .effect, .tau, .tau, .tau, .cancelled] s := by
  have h := start_exec false
  have h := h.step (.callSys rfl rfl)
  have h := h.step (.cpLoad rfl rfl)
  have h := h.step (.cpEnter _ rfl rfl (by decide))
  have h := h.step (.callCancel 1 rfl)
  have h := h.step (.caLoad 1 rfl)
  have h := h.step (.caCas 1 ⟨true, false, false, false, false⟩ rfl rfl rfl)
  have h := h.step (.effect rfl rfl)
  have h := h.step (.kill 1 rfl (by intro j; exact nofun))
  have h := h.step (.deliver rfl (by intro j; exact nofun) rfl rfl)
  have h := h.step (.hLoad rfl (by decide))
  have h := h.step (.hCancel _ rfl (by decide) rfl)
  exact ⟨_, h⟩

/-- Cancellation stays enabled while the cleanup handlers run: a cancellation point in one ends the thread at once. The other handler does
not run, and the thread cannot be joined: pthread_join waits for ever. -/
theorem cleanup_violated : ∃ s, Exec false [.push, .push, .callCancel 1, .tau, .tau, .callTest, .cancelled, .tau, .tau, .cleanup, .callTest,
    .cancelled, .ended false] s ∧ s.handlers = 1 ∧ s.pc = .dead false := by
  have h := start_exec false
  have h := h.step (.push rfl rfl)
  have h := h.step (.push rfl rfl)
  have h := h.step (.callCancel 1 rfl)
  have h := h.step (.caLoad 1 rfl)
  have h := h.step (.caCas 1 ⟨true, false, false, false, false⟩ rfl rfl rfl)
  have h := h.step (.callTest rfl rfl)
  have h := h.step (.testYes rfl rfl rfl rfl)
  have h := h.step (.xTest rfl rfl rfl)
  have h := h.step (.xOr rfl rfl)
  have h := h.step (.cleanup 1 rfl rfl rfl)
  have h := h.step (.callTest rfl rfl)
  have h := h.step (.testYes rfl rfl rfl rfl)
  have h := h.step (.xAgain rfl rfl rfl)
  exact ⟨_, h, rfl, rfl⟩

/-- A thread created while its creator had cancellation disabled inherits the blocked signal, although its own state is enabled: a
request does not interrupt its system calls. -/
theorem inherited_violated : ∃ tr s, Exec true tr s ∧ Alive tr ∧ stateOf tr = true ∧ s.pc = .cpIn ∧ Requested tr ∧ s.blocked = true := by
  have h := start_exec true
  have h := h.step (.callSys rfl rfl)
  have h := h.step (.cpLoad rfl rfl)
  have h := h.step (.cpEnter _ rfl rfl (by decide))
  have h := h.step (.callCancel 1 rfl)
  have h := h.step (.caLoad 1 rfl)
  have h := h.step (.caCas 1 ⟨true, false, false, false, false⟩ rfl rfl rfl)
  have h := h.step (.kill 1 rfl (by intro j; exact nofun))
  have h := h.step (.caRet 1 rfl)
  exact ⟨_, _, h, by simp [Alive], by decide, rfl, ⟨1, by simp⟩, rfl⟩

end Mlibc.Conc.Cancel
