import Verif.Base
/-
Concurrent programs as transition systems. Shared memory is sequentially consistent; one step is one atomic
operation, one futex call or one access to a non-atomic variable by one thread. `sys_futex_wait(p, v)` is atomic: it
puts the thread to sleep if `*p == v`, otherwise it returns `EAGAIN`; a sleeping thread may return at any time
(signal, spurious wake-up). `sys_futex_wake(p, all)` wakes the threads asleep on `p`.
-/
namespace Mlibc.Conc

/-- Threads are named by their thread id. -/
abbrev Tid := Nat

/-- The states an execution can reach. -/
inductive Reach {σ : Type} (init : σ → Prop) (step : σ → σ → Prop) : σ → Prop where
  | init {s} : init s → Reach init step s
  | step {s s'} : Reach init step s → step s s' → Reach init step s'

theorem Reach.invariant {σ : Type} {init : σ → Prop} {step : σ → σ → Prop} {I : σ → Prop}
    (h0 : ∀ s, init s → I s) (hs : ∀ s s', I s → step s s' → I s') {s : σ} (h : Reach init step s) : I s := by
  induction h with
  | init h => exact h0 _ h
  | step _ h ih => exact hs _ _ ih h

/-- A sequence of steps, each with a label. -/
inductive Run {σ ℓ : Type} (step : σ → ℓ → σ → Prop) : σ → List ℓ → σ → Prop where
  | nil (s) : Run step s [] s
  | cons {s l s' ls s''} : step s l s' → Run step s' ls s'' → Run step s (l :: ls) s''

theorem Run.reach {σ ℓ : Type} {init : σ → Prop} {step : σ → ℓ → σ → Prop} {s s' : σ} {ls : List ℓ}
    (h : Run step s ls s') (h0 : Reach init (fun a b => ∃ l, step a l b) s) :
    Reach init (fun a b => ∃ l, step a l b) s' := by
  induction h with
  | nil => exact h0
  | cons h _ ih => exact ih (.step h0 ⟨_, h⟩)

/-- The local state of thread `t` changes to `x`. -/
def upd {α : Type} (pc : Tid → α) (t : Tid) (x : α) : Tid → α := fun u => if u = t then x else pc u

@[simp, grind =] theorem upd_apply {α : Type} (pc : Tid → α) (t : Tid) (x : α) (u : Tid) :
    upd pc t x u = if u = t then x else pc u := rfl

/-- A lock word: zero, or the owner's thread id with or without the waiters bit. -/
abbrev Word := Option (Tid × Bool)

/-- The owner recorded in a lock word. -/
@[grind] def Word.owner : Word → Option Tid
  | none => none
  | some (t, _) => some t

/-- The 32-bit value of a lock word. options/internal/include/mlibc/thread-types.hpp L68-69 (`mutex_owner_mask`,
`mutex_waiters_bit`), options/internal/include/mlibc/lock.hpp L23-24 -/
def Word.encode : Word → Nat
  | none => 0
  | some (t, w) => t + if w then 2 ^ 31 else 0

/-- For thread ids the kernel hands out (positive, below 2^30), a lock word is determined by its value, and the
masks used in the code give its parts. -/
theorem Word.encode_parts {t : Nat} {w : Bool} (h0 : 0 < t) (h1 : t < 2 ^ 30) :
    (Word.encode (some (t, w))) % 2 ^ 30 = t ∧ ((Word.encode (some (t, w))) / 2 ^ 31 = if w then 1 else 0) ∧
    Word.encode (some (t, w)) ≠ 0 ∧ Word.encode (some (t, w)) < 2 ^ 32 := by
  simp only [Word.encode]
  cases w <;> simp only [Bool.false_eq_true, if_false, if_true] <;> refine ⟨?_, ?_, ?_, ?_⟩ <;> omega

end Mlibc.Conc
