import Verif.Base

/-!
# The life of an asynchronous request

`aio_error`, `aio_return` and `aio_suspend`: sysdeps/linux/generic/posix/aio.cpp L32-94 (the state in `struct aiocb`), L394-452 (`handle_cqe`),
L631-672 (submission), L817-888, L946-979, and options/posix/generic/aio.cpp L57-82.
-/

namespace Mlibc.AioLife

/-- L32-37 and `__res`, `__err` of `struct aiocb`; states: 0 invalid, 1 success, 2 in progress, 3 cancelled. -/
structure Cb where
  state : Nat
  res : Int
  err : Int
  deriving DecidableEq

/-- The kernel's results from -4095 to -1 are errors. -/
def scError (r : Int) : Int := if -4095 ≤ r ∧ r ≤ -1 then -r else 0

/-- L74-92. -/
def exchange (cb : Cb) (new expected : Nat) : Cb := if cb.state = expected then { cb with state := new } else cb

/-- L631-651 and L653-672, as far as `struct aiocb` is concerned: L646-647, L668-669. -/
def submit (cb : Cb) : Cb := { cb with res := 0, err := 0, state := 2 }

/-- L441-452: the kernel has completed the request with result `r`. -/
def complete (cb : Cb) (r : Int) : Cb :=
  let e := scError r
  let cb := if e ≠ 0 then { cb with res := -1, err := e } else { cb with res := r, err := 0 }    -- L443-445
  exchange cb (if e = 125 then 3 else 1) 2                                        -- L451-452

/-- L430-434: the kernel has completed a cancellation of this one request with result `r`. -/
def cancelDone (cb : Cb) (r : Int) : Cb :=
  if scError r = 0 then exchange { cb with res := -1, err := 125 } 3 2 else cb

/-- L946-965 under options/posix/generic/aio.cpp L75-82: the value that is returned. -/
def aioError (cb : Cb) : Res Int :=
  if cb.state = 1 then .ok cb.err
  else if cb.state = 2 then .ok 115
  else if cb.state = 3 then .ok 125
  else if cb.state = 0 then .ok (-1)
  else .ub

/-- L967-979 under options/posix/generic/aio.cpp L66-73: the value and whether the call fails with EINVAL. -/
def aioReturn (cb : Cb) : Cb × Int × Bool :=
  if cb.state ≠ 1 ∧ cb.state ≠ 3 then (cb, -1, true)
  else (⟨0, 0, 0⟩, cb.res, false)

/-! ## Specification: a request that is not there, running, or finished with the kernel's result -/

inductive Life where
  | none
  | running
  | finished (r : Int)

inductive Op where
  | submit
  | complete (r : Int)
  | error
  | ret

/-- What the calls return; a second member `true` is the error EINVAL.  Requests are submitted while none is running, and completions come
    for running ones. -/
def spec : Life → Op → Option (Life × Option (Int × Bool))
  | .running, .submit => Option.none
  | _, .submit => some (.running, Option.none)
  | .running, .complete r => if -4095 ≤ r then some (.finished r, Option.none) else Option.none
  | _, .complete _ => Option.none
  | .none, .error => some (.none, some (-1, true))
  | .running, .error => some (.running, some (115, false))
  | .finished r, .error => some (.finished r, some (if r < 0 then -r else 0, false))
  | .none, .ret => some (.none, some (-1, true))
  | .running, .ret => some (.running, some (-1, true))
  | .finished r, .ret => some (.none, some (if r < 0 then -1 else r, false))

def specRun : Life → List Op → Option (List (Option (Int × Bool)))
  | _, [] => some []
  | l, o :: os => (spec l o).bind fun r => (specRun r.1 os).map (r.2 :: ·)

/-- The code, with the same outputs. -/
def code (cb : Cb) : Op → Res (Cb × Option (Int × Bool))
  | .submit => .ok (submit cb, none)
  | .complete r => .ok (complete cb r, none)
  | .error => (aioError cb).bind fun v => .ok (cb, some (v, cb.state = 0))
  | .ret => let q := aioReturn cb; .ok (q.1, some q.2)

def codeRun : Cb → List Op → Res (List (Option (Int × Bool)))
  | _, [] => .ok []
  | cb, o :: os => (code cb o).bind fun r => (codeRun r.1 os).bind fun q => .ok (r.2 :: q)

/-! ## Theorems -/

def Rel : Life → Cb → Prop
  | .none, cb => cb.state = 0
  | .running, cb => cb.state = 2
  | .finished r, cb => -4095 ≤ r ∧ cb.res = (if r < 0 then -1 else r) ∧ cb.err = (if r < 0 then -r else 0) ∧
      cb.state = (if r = -125 then 3 else 1)

theorem code_spec (l : Life) (cb : Cb) (h : Rel l cb) (o : Op) (l' : Life) (out : Option (Int × Bool)) (hs : spec l o = some (l', out)) :
    ∃ cb', code cb o = .ok (cb', out) ∧ Rel l' cb' := by
  obtain ⟨st, res, err⟩ := cb
  cases l with
  | none =>
    simp only [Rel] at h
    subst h
    cases o <;> simp only [spec, Option.some.injEq, Prod.mk.injEq, reduceCtorEq] at hs <;> obtain ⟨rfl, rfl⟩ := hs
    · exact ⟨_, rfl, rfl⟩
    · exact ⟨_, rfl, rfl⟩
    · exact ⟨_, rfl, rfl⟩
  | running =>
    simp only [Rel] at h
    subst h
    cases o with
    | submit => simp [spec] at hs
    | complete r =>
      simp only [spec] at hs
      split at hs
      · rename_i hr
        simp only [Option.some.injEq, Prod.mk.injEq] at hs
        obtain ⟨rfl, rfl⟩ := hs
        refine ⟨_, rfl, ?_⟩
        simp only [complete, scError, exchange, Rel]
        by_cases hn : r < 0
        · have h1 : -4095 ≤ r ∧ r ≤ -1 := by omega
          have h2 : -r ≠ 0 := by omega
          by_cases h3 : r = -125
          · subst h3; simp
          · have h4 : ¬ (-r = 125) := by omega
            simp [h1, hn, h3, h4, hr, show r ≠ 0 by omega]
        · have h1 : ¬ (r ≤ -1) := by omega
          simp [h1, hn, hr, show ¬ r = -125 by omega]
      · simp at hs
    | error => simp only [spec, Option.some.injEq, Prod.mk.injEq] at hs; obtain ⟨rfl, rfl⟩ := hs; exact ⟨_, rfl, rfl⟩
    | ret => simp only [spec, Option.some.injEq, Prod.mk.injEq] at hs; obtain ⟨rfl, rfl⟩ := hs; exact ⟨_, rfl, rfl⟩
  | finished r =>
    obtain ⟨hr, h1, h2, h3⟩ := h
    dsimp only at h1 h2 h3
    cases o with
    | submit => simp only [spec, Option.some.injEq, Prod.mk.injEq] at hs; obtain ⟨rfl, rfl⟩ := hs; exact ⟨_, rfl, rfl⟩
    | complete r => simp [spec] at hs
    | error =>
      simp only [spec, Option.some.injEq, Prod.mk.injEq] at hs
      obtain ⟨rfl, rfl⟩ := hs
      refine ⟨⟨st, res, err⟩, ?_, hr, h1, h2, h3⟩
      by_cases h : r = -125
      · subst h; subst h3; simp [code, aioError, Res.bind]
      · rw [if_neg h] at h3; subst h3; simp [code, aioError, Res.bind, h2]
    | ret =>
      simp only [spec, Option.some.injEq, Prod.mk.injEq] at hs
      obtain ⟨rfl, rfl⟩ := hs
      refine ⟨⟨0, 0, 0⟩, ?_, rfl⟩
      by_cases h : r = -125
      · subst h; subst h3; simp [code, aioReturn, h1]
      · rw [if_neg h] at h3; subst h3; simp [code, aioReturn, h1]

theorem run_spec (os : List Op) : ∀ (l : Life) (cb : Cb) (outs : List (Option (Int × Bool))), Rel l cb → specRun l os = some outs →
    codeRun cb os = .ok outs := by
  induction os with
  | nil => intro l cb outs _ h; simp only [specRun, Option.some.injEq] at h; subst h; rfl
  | cons o os ih =>
    intro l cb outs hr h
    unfold specRun at h
    cases hs : spec l o with
    | none => rw [hs] at h; simp at h
    | some p =>
      obtain ⟨l', out⟩ := p
      rw [hs] at h
      simp only [Option.bind_some, Option.map_eq_some_iff] at h
      obtain ⟨rest, h1, h2⟩ := h
      obtain ⟨cb', hc, hr'⟩ := code_spec l cb hr o l' out hs
      unfold codeRun
      rw [hc]
      simp only [Res.bind]
      rw [ih l' cb' rest hr' h1, ← h2]

/-- **C143, partial.** In every history of submissions, completions and queries of one `struct aiocb`: while the request is running,
    `aio_error` is EINPROGRESS and `aio_return` fails; when it is finished, `aio_error` is its error and `aio_return` its result, once;
    then both fail.  Missing: histories with cancellations. -/
theorem aio_life_partial (os : List Op) (outs : List (Option (Int × Bool))) (h : specRun .none os = some outs) (r e : Int) :
    codeRun ⟨0, r, e⟩ os = .ok outs := run_spec os .none _ outs rfl h

/-- **C143, partial.** A cancelled request whose structure is not used again: whichever of the two completions comes first, `aio_error` is
    ECANCELED from the first one on, and the result is -1; a cancellation that failed changes nothing. -/
theorem aio_cancel_partial (cb : Cb) (r : Int) :
    (∀ c ∈ [cancelDone (submit cb) 0, complete (submit cb) (-125), complete (cancelDone (submit cb) 0) (-125),
      cancelDone (complete (submit cb) (-125)) 0], aioError c = .ok 125 ∧ (aioReturn c).2 = (-1, false)) ∧
    (-4095 ≤ r → r < 0 → cancelDone cb r = cb) := by
  refine ⟨?_, ?_⟩
  · intro c hc
    simp only [List.mem_cons, List.not_mem_nil, or_false] at hc
    rcases hc with rfl | rfl | rfl | rfl <;> exact ⟨rfl, rfl⟩
  · intro h1 h2
    unfold cancelDone scError
    rw [if_pos (show -4095 ≤ r ∧ r ≤ -1 by omega), if_neg (by omega)]

/-- **C143, violated.** A request is cancelled, and the completion of the cancellation comes first: the request is reported as finished
    and its result is fetched.  The same `struct aiocb` is used for a new request.  The completion of the old one comes: the new
    one, still running, is reported as cancelled. -/
theorem aio_reuse_violated : aioError (cancelDone (submit ⟨0, 0, 0⟩) 0) = .ok 125 ∧
    (aioReturn (cancelDone (submit ⟨0, 0, 0⟩) 0)).2 = (-1, false) ∧
    aioError (submit (aioReturn (cancelDone (submit ⟨0, 0, 0⟩) 0)).1) = .ok 115 ∧
    aioError (complete (submit (aioReturn (cancelDone (submit ⟨0, 0, 0⟩) 0)).1) (-125)) = .ok 125 := by decide

/-- A read of five bytes, an error EBADF, and a cancelled request. -/
example : specRun .none [.error, .submit, .error, .ret, .complete 5, .error, .ret, .ret, .submit, .complete (-9), .error, .ret, .submit,
    .complete (-125), .error, .ret] = some [some (-1, true), none, some (115, false), some (-1, true), none, some (0, false),
    some (5, false), some (-1, true), none, none, some (9, false), some (-1, false), none, none, some (125, false), some (-1, false)] := by
  decide

/-! ## `aio_suspend` -/

/-- L823-844 and L872-886: a look at the states; null pointers are `none`. -/
def look : List (Option Nat) → Res Bool
  | [] => .ok false
  | none :: l => look l
  | some st :: l =>
    if st = 2 then look l
    else if st = 1 ∨ st = 3 then .ok true
    else .panic

/-- L855-887: the kernel's answers to `futex_waitv` with what the states are then; `none`: still waiting at the end of the list. -/
def waitLoop : List (Int × List (Option Nat)) → Res (Option Int)
  | [] => .ok none
  | (e, l) :: rest =>
    if e = 110 then .ok (some 11)                                                 -- L865-867
    else if e ≠ 0 ∧ e ≠ 11 then .ok (some e)                                      -- L868-870
    else (look l).bind fun b => if b then .ok (some 0) else waitLoop rest

/-- L817-888, after the conversion of the time. -/
def suspend (l : List (Option Nat)) (answers : List (Int × List (Option Nat))) : Res (Option Int) :=
  (look l).bind fun b =>
    if b then .ok (some 0)
    else if l.all (·.isNone) then .ok (some 0)                                    -- L846-847
    else waitLoop answers

/-- A finished request is in the list. -/
def Finished (l : List (Option Nat)) : Prop := some 1 ∈ l ∨ some 3 ∈ l

/-- All are running or finished. -/
def Valid (l : List (Option Nat)) : Prop := ∀ st, some st ∈ l → st = 1 ∨ st = 2 ∨ st = 3

theorem look_spec (l : List (Option Nat)) (h : Valid l) : (look l = .ok true ∧ Finished l) ∨ (look l = .ok false ∧ ¬ Finished l) := by
  induction l with
  | nil => exact Or.inr ⟨rfl, by simp [Finished]⟩
  | cons a l ih =>
    have ih := ih (fun st hst => h st (List.mem_cons_of_mem _ hst))
    cases a with
    | none => simpa [look, Finished] using ih
    | some st =>
      rcases h st List.mem_cons_self with rfl | rfl | rfl
      · exact Or.inl ⟨rfl, by simp [Finished]⟩
      · simpa [look, Finished] using ih
      · exact Or.inl ⟨rfl, by simp [Finished]⟩

theorem wait_spec (answers : List (Int × List (Option Nat))) (h : ∀ a ∈ answers, Valid a.2) : ∃ r, waitLoop answers = .ok r ∧
    (r = some 0 → ∃ a ∈ answers, (a.1 = 0 ∨ a.1 = 11) ∧ Finished a.2) ∧
    (r = some 11 → ∃ a ∈ answers, a.1 = 110) ∧
    (r = none → ∀ a ∈ answers, (a.1 = 0 ∨ a.1 = 11) ∧ ¬ Finished a.2) := by
  induction answers with
  | nil => exact ⟨none, rfl, by simp, by simp, by simp⟩
  | cons a rest ih =>
    obtain ⟨r, i1, i2, i3, i4⟩ := ih (fun x hx => h x (List.mem_cons_of_mem _ hx))
    obtain ⟨e, l⟩ := a
    have hv : Valid l := h (e, l) List.mem_cons_self
    unfold waitLoop
    by_cases h1 : e = 110
    · rw [if_pos h1]
      exact ⟨_, rfl, by simp, fun _ => ⟨_, List.mem_cons_self, h1⟩, by simp⟩
    · rw [if_neg h1]
      by_cases h2 : e ≠ 0 ∧ e ≠ 11
      · rw [if_pos h2]
        refine ⟨_, rfl, ?_, ?_, by simp⟩
        · intro h; simp at h; omega
        · intro h; simp at h; omega
      · rw [if_neg h2]
        rcases look_spec l hv with ⟨hl, hf⟩ | ⟨hl, hf⟩
        · rw [hl]
          exact ⟨some 0, rfl, fun _ => ⟨_, List.mem_cons_self, by dsimp only; omega, hf⟩, by simp, by simp⟩
        · rw [hl]
          refine ⟨r, i1, ?_, ?_, ?_⟩
          · intro hr; obtain ⟨a, ha, hb⟩ := i2 hr; exact ⟨a, List.mem_cons_of_mem _ ha, hb⟩
          · intro hr; obtain ⟨a, ha, hb⟩ := i3 hr; exact ⟨a, List.mem_cons_of_mem _ ha, hb⟩
          · intro hr x hx
            rcases List.mem_cons.mp hx with rfl | hx
            · exact ⟨by dsimp only; omega, hf⟩
            · exact i4 hr x hx

/-- **C143.** For every list of submitted requests and every sequence of answers of the kernel, with spurious ones: `aio_suspend` does not
    wait if a request is finished already; it succeeds only if it has seen a finished request (or the list has none at all); it
    fails with EAGAIN only if the time is over; and it goes on waiting only as long as no request was seen to be finished. -/
theorem suspend_spec (l : List (Option Nat)) (answers : List (Int × List (Option Nat))) (hl : Valid l) (h : ∀ a ∈ answers, Valid a.2) :
    (Finished l → suspend l answers = .ok (some 0)) ∧
    ∃ r, suspend l answers = .ok r ∧
      (r = some 0 → Finished l ∨ (∀ x ∈ l, x = none) ∨ ∃ a ∈ answers, (a.1 = 0 ∨ a.1 = 11) ∧ Finished a.2) ∧
      (r = some 11 → ∃ a ∈ answers, a.1 = 110) ∧
      (r = none → ¬ Finished l ∧ ∀ a ∈ answers, (a.1 = 0 ∨ a.1 = 11) ∧ ¬ Finished a.2) := by
  unfold suspend
  rcases look_spec l hl with ⟨hk, hf⟩ | ⟨hk, hf⟩
  · rw [hk]
    exact ⟨fun _ => rfl, some 0, rfl, fun _ => Or.inl hf, by simp, by simp⟩
  · rw [hk]
    refine ⟨fun x => absurd x hf, ?_⟩
    simp only [Res.bind, Bool.false_eq_true, if_false]
    by_cases ha : l.all (·.isNone) = true
    · rw [if_pos ha]
      refine ⟨some 0, rfl, fun _ => Or.inr (Or.inl ?_), by simp, by simp⟩
      simpa using ha
    · rw [if_neg ha]
      obtain ⟨r, h1, h2, h3, h4⟩ := wait_spec answers h
      exact ⟨r, h1, fun hr => Or.inr (Or.inr (h2 hr)), h3, fun hr => ⟨hf, h4 hr⟩⟩

/-- A spurious answer, then the second request is finished; and a time that is over. -/
example : suspend [some 2, none, some 2] [(11, [some 2, none, some 2]), (0, [some 2, none, some 1])] = .ok (some 0) ∧
    suspend [some 2] [(0, [some 2]), (110, [some 2])] = .ok (some 11) ∧ Valid [some 2, none, some 1] :=
  ⟨by decide, by decide, by intro st h; simp at h; omega⟩

end Mlibc.AioLife
