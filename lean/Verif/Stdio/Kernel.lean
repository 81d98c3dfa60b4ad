import Verif.Stdio.Refine
/-
A concrete kernel for regular files and one for pipes, driven by an arbitrary schedule of short
transfers and failures. They show that the assumption `Kernel` of the stdio theorems is met, and
are used for the concrete histories shown beside the theorems.
-/
set_option linter.unusedSimpArgs false
namespace Mlibc.Stdio

/-- A kernel object with the remaining schedule: `none` fails the next call, `some m` limits it to
`m + 1` bytes; an exhausted schedule transfers everything. -/
structure Sched (σ : Type) where
  st : σ
  sched : List (Option Nat)
  /-- failed calls so far -/
  fails : Nat := 0
  deriving DecidableEq, Repr

/-- The limit the schedule puts on the next transfer. -/
def Sched.next {σ : Type} (k : Sched σ) : Option Nat :=
  match k.sched with
  | [] => some (2 ^ 64)
  | none :: _ => none
  | some m :: _ => some (m + 1)

/-- `read(2)`, `write(2)`, `lseek(2)` on a device under a schedule. A negative target fails; `seekable`
false fails every seek (`ESPIPE`). -/
def schedIo {σ : Type} (dev : Device σ) (seekable : Bool) : Io (Sched σ) where
  read k n :=
    match k.next with
    | none => (none, { k with sched := k.sched.tail, fails := k.fails + 1 })
    | some m =>
      let d := (dev.avail k.st).take (min m n)
      (some d, ⟨dev.adv k.st d.length, k.sched.tail, k.fails⟩)
  write k d :=
    match k.next with
    | none => (none, { k with sched := k.sched.tail, fails := k.fails + 1 })
    | some m => (some (min m d.length), ⟨dev.put k.st (d.take m), k.sched.tail, k.fails⟩)
  seek k off w :=
    if seekable && decide (0 ≤ dev.target k.st off w) then
      (some (dev.target k.st off w), { k with st := dev.seekTo k.st (dev.target k.st off w) })
    else (none, { k with fails := k.fails + 1 })

theorem Sched.next_pos {σ : Type} {k : Sched σ} {m : Nat} (h : k.next = some m) : 0 < m := by
  unfold Sched.next at h
  split at h
  · simp at h; omega
  · simp at h
  · simp at h; omega

/-- Every schedule is a possible behaviour of the kernel. -/
theorem schedIo_kernel {σ : Type} (dev : Device σ) (b : Bool) :
    Kernel (schedIo dev b) dev Sched.st Sched.fails where
  read_err := by
    intro k n k' h
    simp only [schedIo] at h
    cases hn : k.next with
    | none => rw [hn] at h; simp only [Prod.mk.injEq, true_and] at h; rw [← h]
    | some m => rw [hn] at h; simp at h
  read_ok := by
    intro k n d k' h
    simp only [schedIo] at h
    cases hn : k.next with
    | none => rw [hn] at h; simp at h
    | some m =>
      rw [hn] at h
      have hm := Sched.next_pos hn
      simp only [Prod.mk.injEq, Option.some.injEq] at h
      obtain ⟨rfl, rfl⟩ := h
      refine ⟨by simp; omega, List.take_prefix _ _, ?_, rfl⟩
      intro h0
      have hl := congrArg List.length h0
      simp at hl
      rcases hl with hl | hl | hl
      · omega
      · exact Or.inl hl
      · exact Or.inr hl
  write_err := by
    intro k n k' h
    simp only [schedIo] at h
    cases hn : k.next with
    | none => rw [hn] at h; simp only [Prod.mk.injEq, true_and] at h; rw [← h]
    | some m => rw [hn] at h; simp at h
  write_ok := by
    intro k d n k' h
    simp only [schedIo] at h
    cases hn : k.next with
    | none => rw [hn] at h; simp at h
    | some m =>
      rw [hn] at h
      have hm := Sched.next_pos hn
      simp only [Prod.mk.injEq, Option.some.injEq] at h
      obtain ⟨rfl, rfl⟩ := h
      refine ⟨by omega, ?_, ?_⟩
      · intro h0
        have : 0 < d.length := List.length_pos_iff.mpr h0
        omega
      · congr 1
        by_cases h1 : m ≤ d.length
        · rw [Nat.min_eq_left h1]
        · rw [Nat.min_eq_right (by omega), List.take_of_length_le (by omega), List.take_length]
  seek_err := by
    intro k off w k' h
    simp only [schedIo] at h
    by_cases hc : (b && decide (0 ≤ dev.target k.st off w)) = true
    · rw [if_pos hc] at h; simp at h
    · rw [if_neg hc] at h; simp only [Prod.mk.injEq, true_and] at h; rw [← h]
  seek_ok := by
    intro k off w p k' h
    simp only [schedIo] at h
    by_cases hc : (b && decide (0 ≤ dev.target k.st off w)) = true
    · rw [if_pos hc] at h
      simp only [Prod.mk.injEq, Option.some.injEq] at h
      obtain ⟨rfl, rfl⟩ := h
      simp only [Bool.and_eq_true, decide_eq_true_eq] at hc
      exact ⟨hc.2, rfl, rfl⟩
    · rw [if_neg hc] at h; simp at h

  read_fail := by
    intro k n k' h
    simp only [schedIo] at h
    cases hn : k.next with
    | none => rw [hn] at h; simp only [Prod.mk.injEq, true_and] at h; rw [← h]; simp
    | some m => rw [hn] at h; simp at h
  write_fail := by
    intro k n k' h
    simp only [schedIo] at h
    cases hn : k.next with
    | none => rw [hn] at h; simp only [Prod.mk.injEq, true_and] at h; rw [← h]; simp
    | some m => rw [hn] at h; simp at h
  seek_fail := by
    intro k off w k' h
    simp only [schedIo] at h
    by_cases hc : (b && decide (0 ≤ dev.target k.st off w)) = true
    · rw [if_pos hc] at h; simp at h
    · rw [if_neg hc] at h; simp only [Prod.mk.injEq, true_and] at h; rw [← h]; simp
  read_fine := by
    intro k n d k' h
    simp only [schedIo] at h
    cases hn : k.next with
    | none => rw [hn] at h; simp at h
    | some m => rw [hn] at h; simp only [Prod.mk.injEq] at h; rw [← h.2]
  write_fine := by
    intro k d n k' h
    simp only [schedIo] at h
    cases hn : k.next with
    | none => rw [hn] at h; simp at h
    | some m => rw [hn] at h; simp only [Prod.mk.injEq] at h; rw [← h.2]
  seek_fine := by
    intro k off w p k' h
    simp only [schedIo] at h
    by_cases hc : (b && decide (0 ≤ dev.target k.st off w)) = true
    · rw [if_pos hc] at h; simp only [Prod.mk.injEq] at h; rw [← h.2]
    · rw [if_neg hc] at h; simp at h

/-- A buffered regular file with a buffer of four bytes. -/
def cfg4 : Cfg := ⟨4, true, .full⟩
/-- An unused buffer of four bytes. -/
def buf4 : List UInt8 := [0xAA, 0xAA, 0xAA, 0xAA]
/-- A regular file with the given contents, read and written from the start, under a schedule. -/
def file (c : List UInt8) (sched : List (Option Nat)) : Sched FileSt := ⟨⟨c, 0⟩, sched, 0⟩

end Mlibc.Stdio
