import Verif.Base

/-!
# Attributes of threads, mutexes and condition variables

`pthread_attr_*`: options/posix/generic/pthread.cpp L82-346, options/internal/include/mlibc/thread-types.hpp L16-61;
what `pthread_create` does with them: options/internal/generic/threads.cpp L97-135, sysdeps/linux/generic/thread.cpp L30-59;
`pthread_getattr_np`: pthread.cpp L348-368; `pthread_mutexattr_*` and `pthread_condattr_*`: pthread.cpp L783-968,
threads.cpp L233-260, L392-404.  Numbers of abis/linux.  Property C121.
-/
namespace Mlibc.Attr

/-- The calls that set attributes of a thread.  `affinity none`: a null pointer; `mem`: is there memory for the copy? -/
inductive Op
  | detach (v : Int) | stacksize (n : Nat) | stackaddr (a : Nat) | stack (a n : Nat) | guardsize (n : Nat)
  | scope (v : Int) | inherit (v : Int) | param (p : List Nat) | policy (v : Int)
  | affinity (c : Option (List Nat)) (mem : Bool) | sigmask (m : Option (BitVec 1024))
deriving DecidableEq, Repr

/-! ## Specification -/

/-- The value of an attribute after a history of calls with their results: what the last successful call that sets it has set
    (`pick`), or else the value before. -/
def lastOf (pick : ω → Option α) (before : α) : List (ω × Int) → α
  | [] => before
  | (op, r) :: h => lastOf pick (if r = 0 then (pick op).getD before else before) h

/-- Arguments that POSIX allows (and that need not be refused): states 0 and 1, stacks of 16384 bytes or more, policies 0 to 2. -/
def Valid : Op → Prop
  | .detach v | .inherit v => v = 0 ∨ v = 1
  | .scope v => v = 0
  | .stacksize n | .stack _ n => 16384 ≤ n
  | .policy v => v = 0 ∨ v = 1 ∨ v = 2
  | _ => True

/-- The error of an argument that is not allowed: EINVAL, or ENOTSUP for PTHREAD_SCOPE_PROCESS. -/
def refusal : Op → Int
  | .scope 1 => 95
  | _ => 22

def setsDetach : Op → Option Int | .detach v => some v | _ => none
def setsSize : Op → Option Nat | .stacksize n => some n | .stack _ n => some n | _ => none
def setsAddr : Op → Option Nat | .stackaddr a => some a | .stack a _ => some a | _ => none
def setsGuard : Op → Option Nat | .guardsize n => some n | _ => none
def setsScope : Op → Option Int | .scope v => some v | _ => none
def setsInherit : Op → Option Int | .inherit v => some v | _ => none
def setsParam : Op → Option (List Nat) | .param p => some p | _ => none
def setsPolicy : Op → Option Int | .policy v => some v | _ => none
/-- No processors (a null pointer or no bytes) means that there is no restriction. -/
def setsAffinity : Op → Option (Option (List Nat))
  | .affinity none _ => some none
  | .affinity (some c) _ => some (if c = [] then none else some c)
  | _ => none
def setsMask : Op → Option Bool | .sigmask m => some m.isSome | _ => none
/-- Signal `i + 1` in the mask; signal 32 is never in it. -/
def setsSignal (i : Nat) : Op → Option Bool
  | .sigmask none => some false
  | .sigmask (some m) => some (m.getLsbD i && i ≠ 31)
  | _ => none

/-- What reading `n` bytes of a set of processors should give: all of them if there is no restriction; an error (ERANGE) if a
    processor is left out; else the set with zeros behind it. -/
inductive Reads : Option (List Nat) → Nat → Int → List Nat → Prop
  | all {n} : Reads none n 0 (List.replicate n 255)
  | short {c n buf} : (∃ i, n ≤ i ∧ c.getD i 0 ≠ 0) → Reads (some c) n 34 buf
  | set {c n buf} : (∀ i, n ≤ i → c.getD i 0 = 0) → buf.length = n → (∀ i, i < n → buf.getD i 0 = c.getD i 0) →
      Reads (some c) n 0 buf

/-! ## The code: attributes -/

/-- `__mlibc_threadattr`, thread-types.hpp L39-60, with its defaults. -/
structure State where
  guardsize : Nat := 4096
  stackaddr : Nat := 0
  stacksize : Nat := 0x200000
  detachstate : Bool := false
  inheritsched : Bool := false
  scope : Bool := false
  schedparam : List Nat := [0, 0, 0, 0]
  schedpolicy : Int := 0
  cpuset : Option (List Nat) := none
  sigmask : BitVec 1024 := 0
  sigmaskset : Bool := false

/-- The functions that set attributes, pthread.cpp L102-346: the new object and the result. -/
def step (s : State) : Op → State × Int
  | .detach v => if v ≠ 1 ∧ v ≠ 0 then (s, 22) else ({ s with detachstate := v = 1 }, 0)            -- L102-110
  | .stacksize n => if n < 16384 then (s, 22) else ({ s with stacksize := n }, 0)                   -- L118-124
  | .stackaddr a => ({ s with stackaddr := a }, 0)                                                  -- L132-136
  | .stack a n => if n < 16384 then (s, 22) else ({ s with stacksize := n, stackaddr := a }, 0)     -- L145-152
  | .guardsize n => ({ s with guardsize := n }, 0)                                                  -- L160-164
  | .scope v =>                                                                                     -- L172-180
    if v ≠ 0 ∧ v ≠ 1 then (s, 22) else if v = 1 then (s, 95) else ({ s with scope := v = 1 }, 0)
  | .inherit v => if v ≠ 0 ∧ v ≠ 1 then (s, 22) else ({ s with inheritsched := v = 1 }, 0)          -- L188-196
  | .param p => ({ s with schedparam := p }, 0)                                                     -- L204-210
  | .policy v => if v ≠ 1 ∧ v ≠ 2 ∧ v ≠ 0 then (s, 22) else ({ s with schedpolicy := v }, 0)        -- L218-225
  | .affinity c mem =>                                                                              -- L288-311
    match c with
    | none => ({ s with cpuset := none }, 0)
    | some c =>
      if c.length = 0 then ({ s with cpuset := none }, 0)
      else if (s.cpuset.getD []).length ≠ c.length ∧ mem = false then (s, 12)
      else ({ s with cpuset := some c }, 0)
  | .sigmask m =>                                                                                   -- L328-346
    match m with
    | none => ({ s with sigmaskset := false }, 0)
    | some m => ({ s with sigmask := m &&& ~~~ (1#1024 <<< (32 - 1)), sigmaskset := true }, 0)

/-- A history of calls. -/
def run (step : σ → ω → σ × Int) (s : σ) : List ω → σ × List Int
  | [] => (s, [])
  | op :: ops => let r := run step (step s op).1 ops; (r.1, (step s op).2 :: r.2)

/-- pthread.cpp L96-100 -/
def getDetach (s : State) : Int := if s.detachstate then 1 else 0
/-- pthread.cpp L166-170 -/
def getScope (s : State) : Int := if s.scope then 1 else 0
/-- pthread.cpp L182-186 -/
def getInherit (s : State) : Int := if s.inheritsched then 1 else 0

/-- pthread.cpp L265-286 `pthread_attr_getaffinity_np` into `buf`; the `memset` begins at the start of the buffer. -/
def getAffinity (s : State) (buf : List Nat) : Int × List Nat :=
  match s.cpuset with
  | none => (0, List.replicate buf.length 255)                                                      -- L272-275
  | some c =>
    if (c.drop buf.length).any (· ≠ 0) then (34, buf)                                               -- L277-279
    else
      let m := min buf.length c.length
      let buf1 := c.take m ++ buf.drop m                                                            -- L281-282
      if buf.length > c.length then
        (0, List.replicate (buf.length - c.length) 0 ++ buf1.drop (buf.length - c.length))          -- L283-284
      else (0, buf1)

/-- pthread.cpp L313-326 `pthread_attr_getsigmask_np` -/
def getSigmask (s : State) : Int × BitVec 1024 := if s.sigmaskset then (0, s.sigmask) else (-1, 0)

/-! ## The code: threads made with the attributes -/

/-- What is observable of a new thread's stack: `lo` to `hi` can be written; below it are `guard` bytes that cannot; `sp` is where
    it begins; `base`, `size` are what the thread's control block remembers. -/
structure Thread where
  joinable : Bool
  lo : Nat
  hi : Nat
  guard : Nat
  sp : Nat
  base : Nat
  size : Nat
deriving DecidableEq, Repr

/-- threads.cpp L98-135 and sysdeps/linux/generic/thread.cpp L30-59.  `map` is where the kernel puts a new mapping (`none`: no
    memory); protecting an address that is not a multiple of the page size fails.  `none`: EAGAIN.  Not modelled: the kernel
    rounds the end of the mapping up to a page. -/
def create (attr : Option State) (map : Option Nat) : Option Thread :=
  let a : State := attr.getD {}
  let size := if a.stacksize = 0 then 0x200000 else a.stacksize
  if a.stackaddr ≠ 0 then
    some { joinable := !a.detachstate, lo := a.stackaddr, hi := a.stackaddr + size, guard := 0,
           sp := a.stackaddr + 0 + size - 8 - 8, base := a.stackaddr, size }
  else
    match map with
    | none => none
    | some m =>
      if (m + a.guardsize) % 4096 ≠ 0 then none
      else some { joinable := !a.detachstate, lo := m + a.guardsize, hi := m + a.guardsize + size, guard := a.guardsize,
                  sp := m + a.guardsize + size - 8 - 8, base := m, size }

/-- pthread.cpp L348-368 `pthread_getattr_np`: the address and the size of the stack that it reports. -/
def reported (t : Thread) : Nat × Nat := (t.base, t.size)

/-! ## Theorems: attributes -/

theorem history {step : σ → ω → σ × Int} {get : σ → α} {pick : ω → Option α}
    (h : ∀ s op, get (step s op).1 = if (step s op).2 = 0 then (pick op).getD (get s) else get s) (ops : List ω) :
    ∀ s, get (run step s ops).1 = lastOf pick (get s) (ops.zip (run step s ops).2) := by
  induction ops with
  | nil => intro s; rfl
  | cons op ops ih =>
    intro s
    simp only [run, List.zip_cons_cons, lastOf]
    rw [ih, h]

theorem run_length (step : σ → ω → σ × Int) (ops : List ω) : ∀ s, (run step s ops).2.length = ops.length := by
  induction ops with
  | nil => intro s; rfl
  | cons op ops ih => intro s; simp [run, ih]

/-- The results of a history are those of its calls. -/
theorem run_results (step : σ → ω → σ × Int) (P : ω → Int → Prop) (h : ∀ s op, P op (step s op).2) (ops : List ω) :
    ∀ s, ∀ p ∈ ops.zip (run step s ops).2, P p.1 p.2 := by
  induction ops with
  | nil => intro s p hp; cases hp
  | cons op ops ih =>
    intro s p hp
    simp only [run, List.zip_cons_cons, List.mem_cons] at hp
    rcases hp with rfl | hp
    · exact h s op
    · exact ih _ p hp

/-- **C121.** A call succeeds exactly for the arguments that are allowed (except for lack of memory); otherwise it gives the right
    error. -/
theorem attr_results (ops : List Op) (s : State) : (run step s ops).2.length = ops.length ∧
    ∀ p ∈ ops.zip (run step s ops).2, (p.2 = 0 → Valid p.1) ∧ (¬ Valid p.1 → p.2 = refusal p.1) ∧
      (Valid p.1 → p.2 = 0 ∨ p.2 = 12 ∧ ∃ c, p.1 = .affinity (some c) false) := by
  refine ⟨run_length _ _ _, run_results step (fun op r => (r = 0 → Valid op) ∧ (¬ Valid op → r = refusal op) ∧
    (Valid op → r = 0 ∨ r = 12 ∧ ∃ c, op = .affinity (some c) false)) (fun s op => ?_) ops s⟩
  cases op with
  | detach v | inherit v | policy v =>
    simp only [step, Valid, refusal]
    split <;> simp <;> omega
  | stacksize n | stack a n =>
    simp only [step, Valid, refusal]
    split <;> simp <;> omega
  | scope v =>
    simp only [step, Valid]
    split
    · next h =>
      have : refusal (.scope v) = 22 := by
        unfold refusal
        split
        · next h1 => injection h1; omega
        · rfl
      rw [this]
      simp
      omega
    · split
      · next h1 => subst h1; simp [refusal]
      · next h1 h2 =>
        have : v = 0 := by omega
        simp [this]
  | stackaddr a | guardsize a | param a => simp [step, Valid]
  | sigmask m => cases m <;> simp [step, Valid]
  | affinity c mem =>
    cases c with
    | none => simp [step, Valid]
    | some c =>
      simp only [step, Valid]
      split
      · simp
      · split
        · next h => simp [h.2]
        · simp

/-- **C121.** After every history of calls on a new object, each function that reads an attribute gives what the last successful
    call that sets it has set, or else the default. -/
theorem attr_history (ops : List Op) : let s := (run step {} ops).1; let h := ops.zip (run step {} ops).2
    getDetach s = lastOf setsDetach 0 h ∧ s.stacksize = lastOf setsSize 2097152 h ∧ s.stackaddr = lastOf setsAddr 0 h ∧
    s.guardsize = lastOf setsGuard 4096 h ∧ getScope s = lastOf setsScope 0 h ∧ getInherit s = lastOf setsInherit 0 h ∧
    s.schedparam = lastOf setsParam [0, 0, 0, 0] h ∧ s.schedpolicy = lastOf setsPolicy 0 h ∧
    s.cpuset = lastOf setsAffinity none h ∧ ((getSigmask s).1 = if lastOf setsMask false h then 0 else -1) ∧
    ∀ i, i < 1024 → (getSigmask s).2.getLsbD i = lastOf (setsSignal i) false h := by
  refine ⟨history (get := getDetach) ?_ ops {}, history (get := State.stacksize) ?_ ops {}, history (get := State.stackaddr) ?_ ops {},
    history (get := State.guardsize) ?_ ops {}, history (get := getScope) ?_ ops {}, history (get := getInherit) ?_ ops {},
    history (get := State.schedparam) ?_ ops {},
    history (get := State.schedpolicy) ?_ ops {}, history (get := State.cpuset) ?_ ops {}, ?_, fun i hi => ?_⟩
  · intro s op
    cases op with
    | detach v =>
      simp only [step, setsDetach]
      split
      · simp
      · simp only [getDetach, decide_eq_true_eq, if_true, Option.getD_some]
        split <;> omega
    | affinity c mem => cases c <;> simp only [step, setsDetach, getDetach] <;> (repeat' split) <;> simp_all
    | sigmask m => cases m <;> rfl
    | _ => simp only [step, setsDetach, getDetach] <;> (repeat' split) <;> simp_all
  · intro s op
    cases op with
    | affinity c mem => cases c <;> simp only [step, setsSize] <;> (repeat' split) <;> simp_all
    | sigmask m => cases m <;> simp [step, setsSize]
    | _ => simp only [step, setsSize] <;> (repeat' split) <;> simp_all
  · intro s op
    cases op with
    | affinity c mem => cases c <;> simp only [step, setsAddr] <;> (repeat' split) <;> simp_all
    | sigmask m => cases m <;> simp [step, setsAddr]
    | _ => simp only [step, setsAddr] <;> (repeat' split) <;> simp_all
  · intro s op
    cases op with
    | affinity c mem => cases c <;> simp only [step, setsGuard] <;> (repeat' split) <;> simp_all
    | sigmask m => cases m <;> simp [step, setsGuard]
    | _ => simp only [step, setsGuard] <;> (repeat' split) <;> simp_all
  · intro s op
    cases op with
    | scope v =>
      simp only [step, setsScope]
      split
      · simp
      · split
        · simp
        · simp only [getScope, decide_eq_true_eq, if_true, Option.getD_some]
          split <;> omega
    | affinity c mem => cases c <;> simp only [step, setsScope, getScope] <;> (repeat' split) <;> simp_all
    | sigmask m => cases m <;> rfl
    | _ => simp only [step, setsScope, getScope] <;> (repeat' split) <;> simp_all
  · intro s op
    cases op with
    | inherit v =>
      simp only [step, setsInherit]
      split
      · simp
      · simp only [getInherit, decide_eq_true_eq, if_true, Option.getD_some]
        split <;> omega
    | affinity c mem => cases c <;> simp only [step, setsInherit, getInherit] <;> (repeat' split) <;> simp_all
    | sigmask m => cases m <;> rfl
    | _ => simp only [step, setsInherit, getInherit] <;> (repeat' split) <;> simp_all
  · intro s op
    cases op with
    | affinity c mem => cases c <;> simp only [step, setsParam] <;> (repeat' split) <;> simp_all
    | sigmask m => cases m <;> simp [step, setsParam]
    | _ => simp only [step, setsParam] <;> (repeat' split) <;> simp_all
  · intro s op
    cases op with
    | affinity c mem => cases c <;> simp only [step, setsPolicy] <;> (repeat' split) <;> simp_all
    | sigmask m => cases m <;> simp [step, setsPolicy]
    | _ => simp only [step, setsPolicy] <;> (repeat' split) <;> simp_all
  · intro s op
    cases op with
    | affinity c mem => cases c <;> simp only [step, setsAffinity] <;> (repeat' split) <;> simp_all
    | sigmask m => cases m <;> simp [step, setsAffinity]
    | _ => simp only [step, setsAffinity] <;> (repeat' split) <;> simp_all
  · have := history (get := State.sigmaskset) (pick := setsMask) (step := step) (fun s op => by
      cases op with
      | affinity c mem => cases c <;> simp only [step, setsMask] <;> (repeat' split) <;> simp_all
      | sigmask m => cases m <;> simp [step, setsMask]
      | _ => simp only [step, setsMask] <;> (repeat' split) <;> simp_all) ops {}
    rw [← this]
    unfold getSigmask
    split <;> rfl
  · have hb : ∀ m : BitVec 1024, (m &&& ~~~ (1#1024 <<< (32 - 1))).getLsbD i = (m.getLsbD i && decide (i ≠ 31)) := by
      intro m
      simp only [BitVec.getLsbD_and, BitVec.getLsbD_not, BitVec.getLsbD_shiftLeft, BitVec.getLsbD_one, hi, decide_true, Bool.true_and]
      by_cases h1 : i = 31
      · simp [h1]
      · by_cases h2 : i < 31
        · simp [h1, h2]
        · have : i - 31 ≠ 0 := by omega
          simp [h1, h2, this]
    have := history (get := fun s => (getSigmask s).2.getLsbD i) (pick := setsSignal i) (step := step) (fun s op => by
      cases op with
      | affinity c mem => cases c <;> simp only [step, setsSignal] <;> (repeat' split) <;> rfl
      | sigmask m =>
        cases m with
        | none => exact BitVec.getLsbD_zero
        | some m => simp only [step, setsSignal, getSigmask, if_true, hb, Option.getD_some]
      | _ => simp only [step, setsSignal] <;> (repeat' split) <;> rfl) ops {}
    have h0 : (getSigmask {}).2.getLsbD i = false := BitVec.getLsbD_zero
    simp only [h0] at this
    exact this

example : (run step {} [.detach 1, .stack 65536 8192, .stack 65536 32768, .detach 5, .scope 1, .affinity (some [5]) true,
    .sigmask (some 0xC0000000#1024)]).2 = [0, 22, 0, 22, 95, 0, 0] := by decide +kernel

/-- **C121.** What has been set as the processors is read back, into a buffer that is no longer than it.
    Missing: longer buffers, `affinity_violated`. -/
theorem affinity_read_partial (ops : List Op) (buf : List Nat) :
    let s := (run step {} ops).1; let c := lastOf setsAffinity none (ops.zip (run step {} ops).2)
    (∀ d, c = some d → buf.length ≤ d.length) → Reads c buf.length (getAffinity s buf).1 (getAffinity s buf).2 := by
  intro s c hc
  have hs : s.cpuset = c := (attr_history ops).2.2.2.2.2.2.2.2.1
  unfold getAffinity
  rw [hs]
  cases hd : c with
  | none => exact .all
  | some d =>
    have hl := hc d hd
    dsimp only
    by_cases h : (d.drop buf.length).any (· ≠ 0) = true
    · rw [if_pos h]
      rw [List.any_eq_true] at h
      obtain ⟨x, hx, hne⟩ := h
      obtain ⟨i, hi, rfl⟩ := List.getElem_of_mem hx
      refine .short ⟨buf.length + i, by omega, ?_⟩
      rw [List.length_drop] at hi
      rw [List.getElem_drop] at hne
      rw [List.getD_eq_getElem?_getD, List.getElem?_eq_getElem (by omega), Option.getD_some]
      simpa using hne
    · rw [if_neg h, if_neg (by omega)]
      refine .set (fun i hi => ?_) (by simp; omega) (fun i hi => ?_)
      · rw [List.getD_eq_getElem?_getD]
        by_cases hi2 : i < d.length
        · rw [List.getElem?_eq_getElem hi2, Option.getD_some]
          rw [List.any_eq_true] at h
          refine Classical.byContradiction fun hne => h ⟨d[i], ?_, by simpa using hne⟩
          have : d[i] = (d.drop buf.length)[i - buf.length]'(by rw [List.length_drop]; omega) := by
            rw [List.getElem_drop]
            congr 1
            omega
          rw [this]
          exact List.getElem_mem _
        · rw [List.getElem?_eq_none (by omega), Option.getD_none]
      · have hm : min buf.length d.length = buf.length := by omega
        dsimp only
        rw [hm, List.drop_length, List.append_nil, List.getD_eq_getElem?_getD, List.getElem?_take, if_pos hi,
          List.getD_eq_getElem?_getD]

/-- **C121 is violated.** Reading one byte of processors (0 and 2) into a buffer of two loses the processors and leaves the old
    contents of the second byte. -/
theorem affinity_violated : getAffinity (run step {} [.affinity (some [5]) true]).1 [9, 9] = (0, [0, 9]) ∧
    ¬ Reads (some [5]) 2 0 [0, 9] := by
  refine ⟨by decide +kernel, fun h => ?_⟩
  cases h with
  | set h1 h2 h3 => exact absurd (h3 0 (by omega)) (by decide)

/-! ## Theorems: threads -/

/-- **C121.** A thread made with attributes that have any history can be joined unless it was to be detached; its stack begins at
    the end of the area that was set, and the area, or a new one of the size that was set with the guard below it, can be written.
    Missing: the processors, the signal mask and the scheduling are ignored, `create_ignores_violated`; a guard that is not a
    multiple of the page size, `guard_violated`; and what is reported of the stack, `reported_violated`. -/
theorem create_partial (ops : List Op) (map : Option Nat) (hm : ∀ m, map = some m → m % 4096 = 0) :
    let s := (run step {} ops).1; let h := ops.zip (run step {} ops).2
    (lastOf setsGuard 4096 h % 4096 = 0 → map ≠ none → create (some s) map ≠ none) ∧
    (lastOf setsAddr 0 h ≠ 0 → create (some s) map ≠ none) ∧
    ∀ t, create (some s) map = some t → (t.joinable = true ↔ lastOf setsDetach 0 h = 0) ∧
      t.hi = t.lo + lastOf setsSize 2097152 h ∧ t.lo ≤ t.sp ∧ t.sp + 16 = t.hi ∧
      (lastOf setsAddr 0 h ≠ 0 → t.lo = lastOf setsAddr 0 h) ∧
      (lastOf setsAddr 0 h = 0 → t.guard = lastOf setsGuard 4096 h ∧ ∃ m, map = some m ∧ t.lo = m + t.guard) := by
  intro s h
  obtain ⟨h1, h2, h3, h4, -⟩ := attr_history ops
  rw [← h1, ← h2, ← h3, ← h4]
  have hsz : 16384 ≤ s.stacksize := by
    have : ∀ (ops : List Op) (s : State), 16384 ≤ s.stacksize → 16384 ≤ (run step s ops).1.stacksize := by
      intro ops
      induction ops with
      | nil => intro s h; exact h
      | cons op ops ih =>
        intro s h
        refine ih _ ?_
        cases op with
        | affinity c mem => cases c <;> simp only [step] <;> (repeat' split) <;> simp_all
        | sigmask m => cases m <;> simpa [step] using h
        | _ => simp only [step] <;> (repeat' split) <;> simp_all
    exact this ops {} (by decide)
  have hnz : ¬ s.stacksize = 0 := by omega
  have hj : ((!s.detachstate) = true ↔ getDetach s = 0) := by
    unfold getDetach
    cases s.detachstate <;> simp
  change (s.guardsize % 4096 = 0 → map ≠ none → create (some s) map ≠ none) ∧
    (s.stackaddr ≠ 0 → create (some s) map ≠ none) ∧ ∀ t, create (some s) map = some t → (t.joinable = true ↔ getDetach s = 0) ∧
      t.hi = t.lo + s.stacksize ∧ t.lo ≤ t.sp ∧ t.sp + 16 = t.hi ∧ (s.stackaddr ≠ 0 → t.lo = s.stackaddr) ∧
      (s.stackaddr = 0 → t.guard = s.guardsize ∧ ∃ m, map = some m ∧ t.lo = m + t.guard)
  simp only [create, Option.getD_some, if_neg hnz]
  by_cases ha : s.stackaddr ≠ 0
  · simp only [if_pos ha]
    refine ⟨fun _ _ => by simp, fun _ => by simp, fun t ht => ?_⟩
    injection ht with ht
    subst ht
    exact ⟨hj, rfl, by dsimp only; omega, by dsimp only; omega, fun _ => rfl, fun h => absurd h ha⟩
  · simp only [if_neg ha]
    cases map with
    | none => exact ⟨fun _ h => absurd rfl h, fun h => absurd h ha, fun t ht => by cases ht⟩
    | some m =>
      have := hm m rfl
      dsimp only
      by_cases hp : (m + s.guardsize) % 4096 ≠ 0
      · rw [if_pos hp]
        exact ⟨fun h _ => absurd (by omega) hp, fun h => absurd h ha, fun t ht => by cases ht⟩
      · rw [if_neg hp]
        refine ⟨fun _ _ => by simp, fun _ => by simp, fun t ht => ?_⟩
        injection ht with ht
        subst ht
        exact ⟨hj, rfl, by dsimp only; omega, by dsimp only; omega, fun h => absurd h ha, fun _ => ⟨rfl, m, rfl, rfl⟩⟩

example : create (some (run step {} [.stack 65536 32768, .detach 1]).1) none =
    some ⟨false, 65536, 98304, 0, 98288, 65536, 32768⟩ := by decide

/-- **C121.** Without attributes a thread is as with those of a new object. -/
theorem create_default (map : Option Nat) : create none map = create (some {}) map := rfl

/-- **C121 is violated.** With a guard of 100 bytes no thread is made, although there is memory: the guard is not rounded up. -/
theorem guard_violated : (run step {} [.guardsize 100]).2 = [0] ∧ ∀ m, m % 4096 = 0 →
    create (some (run step {} [.guardsize 100]).1) (some m) = none := by
  refine ⟨by decide, fun m hm => ?_⟩
  have : (m + 100) % 4096 ≠ 0 := by omega
  simp [run, step, create, this]

theorem create_new (s : State) (m : Nat) (ha : s.stackaddr = 0) (hn : s.stacksize ≠ 0) (hp : (m + s.guardsize) % 4096 = 0) :
    ∃ t, create (some s) (some m) = some t ∧ t.lo = m + s.guardsize ∧ t.sp = m + s.guardsize + s.stacksize - 8 - 8 ∧ t.base = m ∧
      t.size = s.stacksize := by
  simp only [create, Option.getD_some, ha, ne_eq, not_true_eq_false, if_false, hn, hp]
  exact ⟨_, rfl, rfl, rfl, rfl, rfl⟩

/-- **C121 is violated.** The stack that `pthread_getattr_np` reports for a thread with default attributes begins with the guard,
    and the stack pointer the thread begins with is not in it. -/
theorem reported_violated (m : Nat) (hm : m % 4096 = 0) : ∃ t, create none (some m) = some t ∧ (reported t).1 < t.lo ∧
    (reported t).1 + (reported t).2 ≤ t.sp := by
  obtain ⟨t, h1, h2, h3, h4, h5⟩ := create_new {} m rfl (by decide) (by change (m + 4096) % 4096 = 0; omega)
  have hs : ({} : State).stacksize = 2097152 := rfl
  have hg : ({} : State).guardsize = 4096 := rfl
  rw [hg] at h2 h3
  rw [hs] at h3 h5
  refine ⟨t, h1, ?_, ?_⟩
  · simp only [reported]; omega
  · simp only [reported]; omega

/-- **C121 is violated.** The signal mask, the processors and the scheduling of the attributes have no effect on a new thread. -/
theorem create_ignores_violated (s : State) (map : Option Nat) (c : Option (List Nat)) (m : BitVec 1024) (b i : Bool)
    (p : List Nat) (v : Int) :
    create (some { s with cpuset := c, sigmask := m, sigmaskset := b, inheritsched := i, schedparam := p, schedpolicy := v }) map =
      create (some s) map := rfl

/-! ## Mutexes and condition variables -/

inductive MOp
  | type (v : Int) | pshared (v : Int) | protocol (v : Int) | robust (v : Int) | prioceiling (v : Int)
deriving DecidableEq, Repr

/-- Specification: what a successful call sets. -/
def setsType : MOp → Option Int | .type v => some v | _ => none
def setsShared : MOp → Option Int | .pshared v => some v | _ => none
def setsProtocol : MOp → Option Int | .protocol v => some v | _ => none

/-- Specification: allowed arguments: three types, two scopes, three protocols; robust mutexes and ceilings do not exist. -/
def MValid : MOp → Prop
  | .type v | .protocol v => 0 ≤ v ∧ v ≤ 2
  | .pshared v => v = 0 ∨ v = 1
  | .robust _ | .prioceiling _ => False

/-- thread-types.hpp L100-104 -/
structure MState where
  type : Int := 0
  robust : Int := 0
  protocol : Int := 0
  pshared : Int := 0

/-- threads.cpp L397-404, pthread.cpp L815-868 (ENOSYS is 38). -/
def mstep (s : MState) : MOp → MState × Int
  | .type v => if v ≠ 0 ∧ v ≠ 1 ∧ v ≠ 2 then (s, 22) else ({ s with type := v }, 0)
  | .pshared v => if v ≠ 0 ∧ v ≠ 1 then (s, 22) else ({ s with pshared := v }, 0)
  | .protocol v => if v ≠ 0 ∧ v ≠ 1 ∧ v ≠ 2 then (s, 22) else ({ s with protocol := v }, 0)
  | .robust _ => (s, 38)
  | .prioceiling _ => (s, 22)

/-- threads.cpp L233-260 `thread_mutex_init`: the flags of the mutex, 1 recursive, 2 error checking, 4 shared. -/
def mutexInit (attr : Option MState) : Res Nat := do
  let a : MState := attr.getD {}
  let f ← if a.type = 2 then .ok 1 else if a.type = 1 then .ok 2 else if a.type = 0 then .ok 0 else .panic   -- L242-248
  let f := if a.pshared = 1 then f ||| 4 else f                                                             -- L250-251
  if a.robust = 0 then .ok f else .panic                                                                    -- L254

/-- **C121.** Attributes of mutexes: results, what is read back, and the mutex made from them, which is never a reason to end. -/
theorem mutexattr_history (ops : List MOp) : let s := (run mstep {} ops).1; let h := ops.zip (run mstep {} ops).2
    (∀ p ∈ h, (p.2 = 0 ↔ MValid p.1)) ∧
    s.type = lastOf setsType 0 h ∧ s.pshared = lastOf setsShared 0 h ∧ s.protocol = lastOf setsProtocol 0 h ∧
    ∃ f, mutexInit (some s) = .ok f ∧ (f.testBit 0 = true ↔ lastOf setsType 0 h = 2) ∧
      (f.testBit 1 = true ↔ lastOf setsType 0 h = 1) ∧ (f.testBit 2 = true ↔ lastOf setsShared 0 h = 1) := by
  intro s h
  have ht : s.type = lastOf setsType 0 h := history (get := MState.type) (fun s op => by
    cases op <;> simp only [mstep, setsType] <;> (repeat' split) <;> simp_all) ops {}
  have hs : s.pshared = lastOf setsShared 0 h := history (get := MState.pshared) (fun s op => by
    cases op <;> simp only [mstep, setsShared] <;> (repeat' split) <;> simp_all) ops {}
  have hp : s.protocol = lastOf setsProtocol 0 h := history (get := MState.protocol) (fun s op => by
    cases op <;> simp only [mstep, setsProtocol] <;> (repeat' split) <;> simp_all) ops {}
  have inv : ∀ (ops : List MOp) (s : MState), s.robust = 0 → 0 ≤ s.type ∧ s.type ≤ 2 →
      (run mstep s ops).1.robust = 0 ∧ 0 ≤ (run mstep s ops).1.type ∧ (run mstep s ops).1.type ≤ 2 := by
    intro ops
    induction ops with
    | nil => intro s h1 h2; exact ⟨h1, h2⟩
    | cons op ops ih =>
      intro s h1 h2
      refine ih _ ?_ ?_
      · cases op <;> simp only [mstep] <;> (repeat' split) <;> simp_all
      · cases op <;> simp only [mstep] <;> (repeat' split) <;> (try dsimp only) <;> omega
  obtain ⟨hr, ht1, ht2⟩ := inv ops {} rfl (by decide)
  refine ⟨run_results mstep (fun op r => r = 0 ↔ MValid op) (fun s op => ?_) ops {}, ht, hs, hp, ?_⟩
  · cases op <;> simp only [mstep, MValid] <;> (repeat' split) <;> simp <;> omega
  · rw [← ht, ← hs]
    change s.robust = 0 at hr
    change 0 ≤ s.type at ht1
    change s.type ≤ 2 at ht2
    have h3 : s.type = 0 ∨ s.type = 1 ∨ s.type = 2 := by omega
    have key : ∀ t q : Int, t = 0 ∨ t = 1 ∨ t = 2 → ∃ f, mutexInit (some ⟨t, 0, s.protocol, q⟩) = .ok f ∧
        (f.testBit 0 = true ↔ t = 2) ∧ (f.testBit 1 = true ↔ t = 1) ∧ (f.testBit 2 = true ↔ q = 1) := by
      intro t q h
      by_cases hq : q = 1
      · subst hq
        rcases h with rfl | rfl | rfl
        · exact ⟨4, rfl, by decide, by decide, by decide⟩
        · exact ⟨6, rfl, by decide, by decide, by decide⟩
        · exact ⟨5, rfl, by decide, by decide, by decide⟩
      · rcases h with rfl | rfl | rfl
        · exact ⟨0, by simp [mutexInit, hq, Res.ok_bind], by decide, by decide, by simp [hq]⟩
        · exact ⟨2, by simp [mutexInit, hq, Res.ok_bind], by decide, by decide, by simp [hq]; decide⟩
        · exact ⟨1, by simp [mutexInit, hq, Res.ok_bind], by decide, by decide, by simp [hq]; decide⟩
    have := key s.type s.pshared h3
    have e : s = ⟨s.type, 0, s.protocol, s.pshared⟩ := by
      cases hs' : s
      rw [hs'] at hr
      simp only at hr
      rw [hr]
    rw [e]
    exact this

inductive COp
  | clock (v : Int) | pshared (v : Int)
deriving DecidableEq, Repr

/-- Specification: what a successful call sets; the clocks are the system's that are not the time of a processor: realtime 0,
    monotonic 1 and the variants 4, 5, 6, 7. -/
def setsClock : COp → Option Int | .clock v => some v | _ => none
def csetsShared : COp → Option Int | .pshared v => some v | _ => none
def CValid : COp → Prop
  | .clock v => v = 0 ∨ v = 1 ∨ 4 ≤ v ∧ v ≤ 7
  | .pshared v => v = 0 ∨ v = 1

/-- thread-types.hpp L136-137 -/
structure CState where
  pshared : Int := 0
  clock : Int := 0

/-- pthread.cpp L943-968 -/
def cstep (s : CState) : COp → CState × Int
  | .clock v => if v ≠ 0 ∧ v ≠ 1 ∧ v ≠ 4 ∧ v ≠ 5 ∧ v ≠ 6 ∧ v ≠ 7 then (s, 22) else ({ s with clock := v }, 0)
  | .pshared v => if v ≠ 0 ∧ v ≠ 1 then (s, 22) else ({ s with pshared := v }, 0)

/-- threads.cpp L406-416 `thread_cond_init`: the clock and the flags of the condition variable. -/
def condInit (attr : Option CState) : Int × Int :=
  match attr with
  | none => (0, 0)
  | some a => (a.clock, a.pshared)

/-- **C121.** Attributes of condition variables: results, what is read back and what the condition variable gets. -/
theorem condattr_history (ops : List COp) : let s := (run cstep {} ops).1; let h := ops.zip (run cstep {} ops).2
    (∀ p ∈ h, (p.2 = 0 ↔ CValid p.1) ∧ (p.2 = 0 ∨ p.2 = 22)) ∧
    s.clock = lastOf setsClock 0 h ∧ s.pshared = lastOf csetsShared 0 h ∧
    condInit (some s) = (lastOf setsClock 0 h, lastOf csetsShared 0 h) ∧ condInit none = (0, 0) := by
  intro s h
  have ht : s.clock = lastOf setsClock 0 h := history (get := CState.clock) (fun s op => by
    cases op <;> simp only [cstep, setsClock] <;> (repeat' split) <;> simp_all) ops {}
  have hs : s.pshared = lastOf csetsShared 0 h := history (get := CState.pshared) (fun s op => by
    cases op <;> simp only [cstep, csetsShared] <;> (repeat' split) <;> simp_all) ops {}
  refine ⟨run_results cstep (fun op r => (r = 0 ↔ CValid op) ∧ (r = 0 ∨ r = 22)) (fun s op => ?_) ops {}, ht, hs, ?_, rfl⟩
  · cases op <;> simp only [cstep, CValid] <;> (repeat' split) <;> simp <;> omega
  · rw [← ht, ← hs]; rfl

example : (run mstep {} [.type 2, .type 7, .pshared 1, .robust 1]).2 = [0, 22, 0, 38] ∧
    mutexInit (some (run mstep {} [.type 2, .type 7, .pshared 1]).1) = .ok 5 ∧
    (run cstep {} [.clock 1, .clock 2]).2 = [0, 22] := by decide

end Mlibc.Attr
