/-
Thread-specific data keys: `thread_key_create`, `thread_key_delete`, `thread_key_get`, `thread_key_set`
(options/internal/generic/threads.cpp L503-564), behind `pthread_key_*`, `pthread_*specific` and `tss_*`. Each runs under
`key_mutex_`, so a history of calls by any threads is a sequence of these operations. The generation counter is 64-bit
and is modelled without wrapping. Property C43.
-/
namespace Mlibc.Keys

abbrev Tid := Nat

/-- `PTHREAD_KEYS_MAX`. options/ansi/include/limits.h L171 -/
def maxKeys : Nat := 1024

/-- Calls. Values are pointers, 0 is NULL; destructors are function pointers, 0 is none. -/
inductive Op where
  | create (dtor : Nat)
  | delete (key : Nat)
  | get (t : Tid) (key : Nat)
  | set (t : Tid) (key : Nat) (value : Nat)
  deriving DecidableEq, Repr

/-- Results. -/
inductive Ret where
  | key (k : Nat) | eagain
  | ok | einval
  | value (v : Nat)
  deriving DecidableEq, Repr

/-- An entry of `key_globals_`. threads.cpp L18-26 -/
structure Global where
  inUse : Bool
  dtor : Nat
  gen : Nat
  deriving DecidableEq, Repr

/-- An entry of a thread's `localKeys`. options/internal/include/mlibc/tcb.hpp L137-141 -/
structure Local where
  value : Nat
  gen : Nat
  deriving DecidableEq, Repr

structure St where
  globals : Nat → Global
  locals : Tid → Nat → Local

/-- Process start: nothing in use; every thread's table starts zeroed. -/
def init : St := ⟨fun _ => ⟨false, 0, 0⟩, fun _ _ => ⟨0, 0⟩⟩

def setG (s : St) (k : Nat) (g : Global) : St := { s with globals := fun i => if i = k then g else s.globals i }

def setL (s : St) (t : Tid) (k : Nat) (l : Local) : St :=
  { s with locals := fun u i => if u = t ∧ i = k then l else s.locals u i }

/-- The loop of `thread_key_create`: the first free entry at or after `i`, looking at `n` entries. L506-512 -/
def firstFree (s : St) : Nat → Nat → Option Nat
  | _, 0 => none
  | i, n + 1 => if (s.globals i).inUse then firstFree s (i + 1) n else some i

/-- `thread_key_create`. L503-523 -/
def create (s : St) (dtor : Nat) : Ret × St :=
  match firstFree s 0 maxKeys with
  | none => (.eagain, s)
  | some k => (.key k, setG s k { s.globals k with inUse := true, dtor := dtor })

/-- `thread_key_delete`. L525-536 -/
def delete (s : St) (k : Nat) : Ret × St :=
  if k ≥ maxKeys ∨ (s.globals k).inUse = false then (.einval, s)
  else (.ok, setG s k ⟨false, 0, (s.globals k).gen + 1⟩)

/-- `thread_key_get`. L538-551 -/
def get (s : St) (t : Tid) (k : Nat) : Nat × St :=
  if k ≥ maxKeys ∨ (s.globals k).inUse = false then (0, s)
  else if (s.globals k).gen > (s.locals t k).gen then (0, setL s t k ⟨0, (s.globals k).gen⟩)
  else ((s.locals t k).value, s)

/-- `thread_key_set`. L553-564 -/
def set (s : St) (t : Tid) (k v : Nat) : Ret × St :=
  if k ≥ maxKeys ∨ (s.globals k).inUse = false then (.einval, s)
  else (.ok, setL s t k ⟨v, (s.globals k).gen⟩)

def exec (s : St) : Op → Ret × St
  | .create d => create s d
  | .delete k => delete s k
  | .get t k => let (v, s') := get s t k; (.value v, s')
  | .set t k v => set s t k v

/-- A history: the calls with their results. -/
def run (s : St) : List Op → List (Op × Ret)
  | [] => []
  | op :: ops => (op, (exec s op).1) :: run (exec s op).2 ops

/-! ## Specification -/

/-- What a user relies on: which key numbers are alive, each standing for one creation (numbered), and for each thread
and creation the value last set. -/
structure Spec where
  alive : Nat → Option Nat
  values : Tid → Nat → Nat
  creations : Nat

def Spec.init : Spec := ⟨fun _ => none, fun _ _ => 0, 0⟩

/-- Allowed behaviour of one call. -/
inductive Spec.Step : Spec → Op → Ret → Spec → Prop where
  /-- a new key differs from all live ones and stands for a new creation, NULL in every thread -/
  | create {a d k} : k < maxKeys → a.alive k = none → Step a (.create d) (.key k)
      { a with alive := fun i => if i = k then some a.creations else a.alive i, creations := a.creations + 1 }
  /-- creation fails only when all keys are in use -/
  | eagain {a d} : (∀ k, k < maxKeys → a.alive k ≠ none) → Step a (.create d) .eagain a
  | delete {a k c} : a.alive k = some c → Step a (.delete k) .ok
      { a with alive := fun i => if i = k then none else a.alive i }
  | deleteInval {a k} : a.alive k = none → Step a (.delete k) .einval a
  | get {a t k c} : a.alive k = some c → Step a (.get t k) (.value (a.values t c)) a
  | getNone {a t k} : a.alive k = none → Step a (.get t k) (.value 0) a
  | set {a t k v c} : a.alive k = some c → Step a (.set t k v) .ok
      { a with values := fun u i => if u = t ∧ i = c then v else a.values u i }
  | setInval {a t k v} : a.alive k = none → Step a (.set t k v) .einval a

/-- Allowed histories. -/
inductive Spec.Allows : Spec → List (Op × Ret) → Prop where
  | nil {a} : Allows a []
  | cons {a op r a' h} : Spec.Step a op r a' → Allows a' h → Allows a ((op, r) :: h)

/-! ## Refinement -/

structure Rel (s : St) (a : Spec) : Prop where
  use : ∀ k, (s.globals k).inUse = true ↔ a.alive k ≠ none
  lt : ∀ k c, a.alive k = some c → k < maxKeys ∧ c < a.creations
  inj : ∀ k k' c, a.alive k = some c → a.alive k' = some c → k = k'
  fresh : ∀ t c, a.creations ≤ c → a.values t c = 0
  gen : ∀ t k, (s.locals t k).gen ≤ (s.globals k).gen
  live : ∀ t k c, a.alive k = some c →
    a.values t c = if (s.globals k).gen > (s.locals t k).gen then 0 else (s.locals t k).value
  dead : ∀ t k, a.alive k = none → (s.globals k).gen > (s.locals t k).gen ∨ (s.locals t k).value = 0

theorem rel_init : Rel init .init := by
  constructor <;> simp [init, Spec.init]

theorem firstFree_some {s : St} {i n k : Nat} (h : firstFree s i n = some k) :
    i ≤ k ∧ k < i + n ∧ (s.globals k).inUse = false := by
  induction n generalizing i with
  | zero => simp [firstFree] at h
  | succ n ih =>
    rw [firstFree] at h
    split at h
    · obtain ⟨a, b, c⟩ := ih h; exact ⟨by omega, by omega, c⟩
    · rename_i hu; cases h; exact ⟨by omega, by omega, by simpa using hu⟩

theorem firstFree_none {s : St} {i n : Nat} (h : firstFree s i n = none) :
    ∀ k, i ≤ k → k < i + n → (s.globals k).inUse = true := by
  induction n generalizing i with
  | zero => intro k h1 h2; omega
  | succ n ih =>
    rw [firstFree] at h
    split at h
    · intro k h1 h2
      by_cases hk : k = i
      · subst hk; assumption
      · exact ih h k (by omega) (by omega)
    · cases h

theorem step_refines {s : St} {a : Spec} (h : Rel s a) (op : Op) :
    ∃ a', Spec.Step a op (exec s op).1 a' ∧ Rel (exec s op).2 a' := by
  obtain ⟨h1, h2, h3, h4, h5, h6, h7⟩ := h
  have hn : ∀ k, (k ≥ maxKeys ∨ (s.globals k).inUse = false) ↔ a.alive k = none := by
    intro k
    have hu := h1 k
    cases ha : a.alive k with
    | none => rw [ha] at hu; simp at hu; simp [hu]
    | some c =>
      have := h2 k c ha
      rw [ha] at hu; simp at hu; simp [hu]; omega
  cases op with
  | create d =>
    simp only [exec, create]
    split
    · rename_i hf
      refine ⟨a, .eagain fun k hk => ?_, ⟨h1, h2, h3, h4, h5, h6, h7⟩⟩
      exact (h1 k).1 (firstFree_none hf k (by omega) (by omega))
    · rename_i k hf
      obtain ⟨_, hk, hu⟩ := firstFree_some hf
      have ha : a.alive k = none := (hn k).1 (.inr hu)
      refine ⟨_, .create (by omega) ha, ?_⟩
      constructor <;> (try simp only [setG]) <;> grind
  | delete k =>
    simp only [exec, delete]
    by_cases hk : k ≥ maxKeys ∨ (s.globals k).inUse = false
    · rw [if_pos hk]
      exact ⟨a, .deleteInval ((hn k).1 hk), ⟨h1, h2, h3, h4, h5, h6, h7⟩⟩
    · rw [if_neg hk]
      match ha : a.alive k with
      | none => exact absurd ((hn k).2 ha) hk
      | some c =>
        refine ⟨_, .delete ha, ?_⟩
        constructor <;> (try simp only [setG]) <;> grind
  | get t k =>
    simp only [exec, get]
    by_cases hk : k ≥ maxKeys ∨ (s.globals k).inUse = false
    · rw [if_pos hk]
      exact ⟨a, .getNone ((hn k).1 hk), ⟨h1, h2, h3, h4, h5, h6, h7⟩⟩
    · rw [if_neg hk]
      match ha : a.alive k with
      | none => exact absurd ((hn k).2 ha) hk
      | some c =>
        have hv := h6 t k c ha
        split
        · rename_i hg
          rw [if_pos hg] at hv
          refine ⟨a, by simpa [hv] using Spec.Step.get (t := t) ha, ?_⟩
          constructor <;> (try simp only [setL]) <;> grind
        · rename_i hg
          rw [if_neg hg] at hv
          exact ⟨a, by simpa [hv] using Spec.Step.get (t := t) ha, ⟨h1, h2, h3, h4, h5, h6, h7⟩⟩
  | set t k v =>
    simp only [exec, set]
    by_cases hk : k ≥ maxKeys ∨ (s.globals k).inUse = false
    · rw [if_pos hk]
      exact ⟨a, .setInval ((hn k).1 hk), ⟨h1, h2, h3, h4, h5, h6, h7⟩⟩
    · rw [if_neg hk]
      match ha : a.alive k with
      | none => exact absurd ((hn k).2 ha) hk
      | some c =>
        refine ⟨_, .set ha, ?_⟩
        constructor <;> (try simp only [setL]) <;> grind

theorem run_refines {s : St} {a : Spec} (h : Rel s a) (ops : List Op) : a.Allows (run s ops) := by
  induction ops generalizing s a with
  | nil => exact .nil
  | cons op ops ih =>
    obtain ⟨a', h1, h2⟩ := step_refines h op
    exact .cons h1 (ih h2)

/-- **C43**: every history of key creations, deletions, reads and writes by any threads is one the specification
allows. -/
theorem keys_history (ops : List Op) : Spec.init.Allows (run init ops) := run_refines rel_init ops

/-- A recreated key reads NULL although the same slot held a value before. -/
example : run init [.create 0, .set 3 0 77, .get 3 0, .delete 0, .create 0, .get 3 0, .get 4 0, .delete 5] =
    [(.create 0, .key 0), (.set 3 0 77, .ok), (.get 3 0, .value 77), (.delete 0, .ok), (.create 0, .key 0),
     (.get 3 0, .value 0), (.get 4 0, .value 0), (.delete 5, .einval)] := by decide +kernel

end Mlibc.Keys
