import Verif.Base

/-!
# Message queues

`mq_open`, `mq_unlink`, `mq_receive`: options/posix/generic/mqueue.cpp L24-66, with sysdeps/linux/generic/sysdeps.cpp L2823-2852, on a
kernel with queues.  Not modelled: attributes, permissions, waiting, and queues without a name that are still open.
-/

namespace Mlibc.Mqueue

/-- Bytes of a name or message. -/
abbrev Text := List Nat

/-- A queue: its messages with their priorities, in the order in which they came. -/
abbrev Queue := List (Text × Nat)

/-- The kernel: which names there are, which queue each has, and the queues. -/
structure Kernel where
  names : Text → Option Nat
  queues : Nat → Queue
  next : Nat

/-- What calls leave: the kernel, the result and errno (0: not set). -/
abbrev Out := Kernel × Int × Nat

/-! ## Specification -/

/-- The message to receive: of the highest priority, and of those the one that came first. -/
def Next (q : Queue) (m : Text × Nat) (rest : Queue) : Prop :=
  ∃ a b, q = a ++ m :: b ∧ rest = a ++ b ∧ (∀ x ∈ a, x.2 < m.2) ∧ (∀ x ∈ b, x.2 ≤ m.2)

/-! ## The kernel's interface -/

/-- `mq_timedreceive`: takes out the message to receive. -/
def best : Queue → Option ((Text × Nat) × Queue)
  | [] => none
  | m :: q => match best q with
    | none => some (m, [])
    | some (n, r) => if n.2 > m.2 then some (n, m :: r) else some (m, q)

/-- The system call: bytes copied, or an error (EAGAIN 11 for an empty queue, EMSGSIZE 90 for too small a buffer). -/
def sysReceive (k : Kernel) (id len : Nat) : Kernel × (Text × Nat) ⊕ Nat :=
  match best (k.queues id) with
  | none => .inr 11
  | some (m, r) =>
    if len < m.1.length then .inr 90
    else .inl ({ k with queues := fun j => if j = id then r else k.queues j }, m)

/-- The system call `mq_open` for a name without its slash: names with slashes are EACCES (13), no name is ENOENT (2); O_CREAT is 64, O_EXCL 128. -/
def sysOpen (k : Kernel) (name : Text) (create excl : Bool) : Kernel × Nat ⊕ Nat :=
  if name = [] then .inr 2
  else if 47 ∈ name then .inr 13
  else match k.names name with
    | some id => if create && excl then .inr 17 else .inl (k, id)
    | none =>
      if create then .inl (⟨(fun n => if n = name then some k.next else k.names n),
        (fun j => if j = k.next then [] else k.queues j), k.next + 1⟩, k.next)
      else .inr 2

/-- The system call `mq_unlink`; without permission Linux says EPERM (1), `denied`. -/
def sysUnlink (k : Kernel) (name : Text) (denied : Bool) : Kernel ⊕ Nat :=
  if denied then .inr 1
  else match k.names name with
    | none => .inr 2
    | some _ => .inl { k with names := fun n => if n = name then none else k.names n }

/-! ## The code -/

/-- mqueue.cpp L26-27 and L41-42: one leading slash is removed. -/
def strip (name : Text) : Text := match name with | 47 :: r => r | n => n

/-- mqueue.cpp L36-58 -/
def mqOpen (k : Kernel) (name : Text) (create excl : Bool) : Out :=
  match sysOpen k (strip name) create excl with
  | .inr e => (k, -1, e)                                                          -- L53-56
  | .inl (k, id) => (k, id, 0)                                                    -- L57

/-- mqueue.cpp L24-34, with sysdeps.cpp L2832-2841: EPERM becomes EACCES. -/
def mqUnlink (k : Kernel) (name : Text) (denied : Bool) : Out :=
  match sysUnlink k (strip name) denied with
  | .inr e => (k, -1, if e = 1 then 13 else e)
  | .inl k => (k, 0, 0)

/-- mqueue.cpp L60-66, with sysdeps.cpp L2843-2852: also the bytes and the priority that are stored. -/
def mqReceive (k : Kernel) (id len : Nat) : Out × Option (Text × Nat) :=
  match sysReceive k id len with
  | .inr e => ((k, -1, e), none)                                                  -- L61-64
  | .inl (k, m) => ((k, 0, 0), some m)                                            -- L65

/-! ## Theorems -/

theorem best_next (q : Queue) : match best q with
    | none => q = []
    | some (m, r) => Next q m r := by
  induction q with
  | nil => rfl
  | cons m q ih =>
    unfold best
    cases h : best q with
    | none =>
      rw [h] at ih
      exact ⟨[], [], by simp [show q = [] from ih], rfl, by simp, by simp⟩
    | some p =>
      obtain ⟨n, r⟩ := p
      rw [h] at ih
      obtain ⟨a, b, h1, h2, h3, h4⟩ := (show Next q n r from ih)
      dsimp only
      by_cases hp : n.2 > m.2
      · rw [if_pos hp]
        refine ⟨m :: a, b, by simp [h1], by simp [h2], ?_, h4⟩
        intro x hx
        rcases List.mem_cons.mp hx with rfl | hx
        · exact hp
        · exact h3 x hx
      · rw [if_neg hp]
        refine ⟨[], q, rfl, rfl, by simp, ?_⟩
        intro x hx
        rw [h1] at hx
        rcases List.mem_append.mp hx with hx | hx
        · have := h3 x hx; omega
        · rcases List.mem_cons.mp hx with rfl | hx
          · omega
          · have := h4 x hx; omega

/-- **C138.** `mq_receive` stores the message of the highest priority that came first and takes exactly it out of the queue, other queues
    stay; it fails, and changes nothing, only if the queue is empty or the buffer is smaller than the message.  Missing: the result, see
    `mq_receive_violated`. -/
theorem mq_receive_partial (k : Kernel) (id len : Nat) :
    (∃ m r, Next (k.queues id) m r ∧ m.1.length ≤ len ∧ (mqReceive k id len).2 = some m ∧ (mqReceive k id len).1.2.1 ≠ -1 ∧
      (mqReceive k id len).1.1.queues id = r ∧ ∀ j, j ≠ id → (mqReceive k id len).1.1.queues j = k.queues j) ∨
    (k.queues id = [] ∧ mqReceive k id len = ((k, -1, 11), none)) ∨
    (∃ m r, Next (k.queues id) m r ∧ len < m.1.length ∧ mqReceive k id len = ((k, -1, 90), none)) := by
  have h := best_next (k.queues id)
  cases hb : best (k.queues id) with
  | none =>
    rw [hb] at h
    exact Or.inr (Or.inl ⟨h, by unfold mqReceive sysReceive; rw [hb]⟩)
  | some p =>
    obtain ⟨m, r⟩ := p
    rw [hb] at h
    by_cases hl : len < m.1.length
    · refine Or.inr (Or.inr ⟨m, r, h, hl, ?_⟩)
      unfold mqReceive sysReceive
      rw [hb]
      simp only [if_pos hl]
    · refine Or.inl ⟨m, r, h, by omega, ?_⟩
      unfold mqReceive sysReceive
      rw [hb]
      simp only [if_neg hl]
      exact ⟨trivial, by decide, by simp, fun j hj => by simp [hj]⟩

/-- **C138 is violated.** The result of `mq_receive` must be the length of the message; it is 0 for a message of three bytes. -/
theorem mq_receive_violated : let k : Kernel := ⟨fun _ => none, fun _ => [([1, 2, 3], 0)], 1⟩
    (mqReceive k 0 8).2 = some ([1, 2, 3], 0) ∧ (mqReceive k 0 8).1.2.1 = 0 := by decide

/-- **C138.** A name with and without its leading slash is the same queue: what one call creates, all others open, until it is unlinked. -/
theorem mq_names (k : Kernel) (name : Text) (excl : Bool) (h1 : name ≠ []) (h2 : 47 ∉ name) (hk : k.names name = none) :
    ∃ k', mqOpen k (47 :: name) true excl = (k', (k.next : Int), 0) ∧ k'.queues k.next = [] ∧
      mqOpen k' name false false = (k', (k.next : Int), 0) ∧ mqOpen k' (47 :: name) false false = (k', (k.next : Int), 0) ∧
      mqOpen k' name true true = (k', -1, 17) ∧
      (∀ n, n ≠ name → k'.names n = k.names n) ∧
      ∃ k'', mqUnlink k' name false = (k'', 0, 0) ∧ mqUnlink k' (47 :: name) false = (k'', 0, 0) ∧ mqOpen k'' name false false = (k'', -1, 2) := by
  have hs : strip name = name := by
    unfold strip
    split
    · rename_i r; exact absurd (List.mem_cons_self) h2
    · rfl
  have hs' : strip (47 :: name) = name := rfl
  refine ⟨⟨(fun n => if n = name then some k.next else k.names n),
        (fun j => if j = k.next then [] else k.queues j), k.next + 1⟩, ?_, by simp, ?_, ?_, ?_, ?_,
      ⟨(fun n => if n = name then none else if n = name then some k.next else k.names n),
        (fun j => if j = k.next then [] else k.queues j), k.next + 1⟩, ?_, ?_, ?_⟩
  · simp [mqOpen, hs', sysOpen, h1, h2, hk]
  · simp [mqOpen, hs, sysOpen, h1, h2]
  · simp [mqOpen, hs', sysOpen, h1, h2]
  · simp [mqOpen, hs, sysOpen, h1, h2]
  · intro n hn; simp [hn]
  · simp [mqUnlink, hs, sysUnlink]
  · simp [mqUnlink, hs', sysUnlink]
  · simp [mqOpen, hs, sysOpen, h1, h2]

/-- **C138.** Without permission `mq_unlink` gives EACCES and changes nothing. -/
theorem mq_unlink_denied (k : Kernel) (name : Text) : mqUnlink k name true = (k, -1, 13) := by simp [mqUnlink, sysUnlink]

/-- Three messages: the second has the highest priority, and the hypotheses of `mq_names` hold for the name "a". -/
example : best [([1], 0), ([2], 5), ([3], 5)] = some (([2], 5), [([1], 0), ([3], 5)]) ∧ ([97] : Text) ≠ [] ∧ 47 ∉ ([97] : Text) := by decide

end Mlibc.Mqueue
