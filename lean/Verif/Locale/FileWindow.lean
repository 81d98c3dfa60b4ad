import Verif.Base

/-!
# Whole files in memory

`file_window`, options/internal/include/mlibc/file-window.hpp L13-52, where MLIBC_MAP_FILE_WINDOWS is 0.
-/

namespace Mlibc.FileWindow

/-! ## The kernel -/

/-- What the kernel does: the file has the bytes `file` while it is read (they may be more or less than at the time of `stat`); read
    number `i` fails, or wants to give at most `k + 1` bytes. -/
structure World where
  file : List Nat
  read : Nat → Option Nat

/-- SYS_read number `i` at position `pos` of at most `n` bytes: never 0 bytes unless the file ends or `n` is 0. -/
def World.bytes (w : World) (i pos n : Nat) : Option (List Nat) :=
  (w.read i).map fun k => ((w.file.drop pos).take n).take (k + 1)

/-! ## The code -/

/-- file-window.hpp L38: the kernel stores bytes into the memory at an index; outside of it that is undefined. -/
def store (buf : List Nat) (at' : Nat) (bs : List Nat) : Res (List Nat) :=
  if at' + bs.length ≤ buf.length then .ok (buf.take at' ++ bs ++ buf.drop (at' + bs.length)) else .ub

/-- file-window.hpp L35-47, at most `fuel` rounds; read number `i` comes next.  The position of the file is the number of bytes read. -/
def loop (w : World) (size : Nat) : Nat → Nat → Nat → List Nat → Res (List Nat)
  | 0, _, _, _ => .ub
  | fuel + 1, i, progress, buf =>
    if progress < size then                                                       -- L36
      match w.bytes i progress (size - progress) with                             -- L38-39
      | none => .panic                                                            -- L40
      | some bs =>
        (store buf progress bs).bind fun buf =>
        if bs.length = 0 then (if progress ≠ size then .panic else .ok buf)       -- L41-42, L45-47
        else loop w size fuel (i + 1) (progress + bs.length) buf                  -- L43
    else if progress ≠ size then .panic else .ok buf                              -- L45-47

/-- file-window.hpp L11-52: `size` is what `stat` gives, `junk` what is in new memory.  That the file is opened, that memory is there and
    that closing succeeds (L13-24, L32-33, L50-51) is assumed; each failure ends the process with a message. -/
def window (w : World) (size : Nat) (junk : List Nat) : Res (List Nat) := loop w size (size + 1) 0 0 junk

/-! ## Theorems -/

theorem loop_spec (w : World) (size : Nat) (fuel : Nat) : ∀ (i p : Nat) (buf : List Nat), size - p < fuel → p ≤ size →
    buf.length = size → buf.take p = w.file.take p → p ≤ w.file.length →
    (loop w size fuel i p buf = .ok (w.file.take size) ∧ size ≤ w.file.length) ∨
    (loop w size fuel i p buf = .panic ∧ (w.file.length < size ∨ ∃ j, w.read j = none)) := by
  induction fuel with
  | zero => intro i p buf h; omega
  | succ fuel ih =>
    intro i p buf hf hp hb ht hl
    unfold loop
    by_cases h : p < size
    · rw [if_pos h]
      unfold World.bytes
      cases hr : w.read i with
      | none => exact Or.inr ⟨rfl, Or.inr ⟨i, hr⟩⟩
      | some k =>
        simp only [Option.map]
        generalize hbs : ((w.file.drop p).take (size - p)).take (k + 1) = bs
        have hbl : bs.length = min (k + 1) (min (size - p) (w.file.length - p)) := by rw [← hbs]; simp
        have hbe : bs = (w.file.drop p).take bs.length := by
          rw [hbl, ← hbs, List.take_take]
          rw [List.take_eq_take_iff]
          simp
        have hst : store buf p bs = .ok (buf.take p ++ bs ++ buf.drop (p + bs.length)) := by
          unfold store; rw [if_pos (by omega)]
        rw [hst]
        show ((if bs.length = 0 then _ else _ : Res (List Nat)) = _ ∧ _) ∨ _
        by_cases h0 : bs.length = 0
        · refine Or.inr ⟨?_, Or.inl (by omega)⟩
          show (if bs.length = 0 then _ else _ : Res (List Nat)) = _
          rw [if_pos h0, if_pos (by omega)]
        · have e1 : (if bs.length = 0 then (if p ≠ size then Res.panic else .ok (buf.take p ++ bs ++ buf.drop (p + bs.length)))
              else loop w size fuel (i + 1) (p + bs.length) (buf.take p ++ bs ++ buf.drop (p + bs.length))) =
              loop w size fuel (i + 1) (p + bs.length) (buf.take p ++ bs ++ buf.drop (p + bs.length)) := if_neg h0
          have := ih (i + 1) (p + bs.length) (buf.take p ++ bs ++ buf.drop (p + bs.length)) (by omega) (by omega) (by simp; omega) (by
            rw [List.take_append_of_le_length (by simp; omega), List.take_of_length_le (by simp; omega), ht, List.take_add]
            rw [← hbe]) (by omega)
          rw [← e1] at this
          exact this
    · have hps : p = size := by omega
      rw [if_neg h, if_neg (by simp [hps])]
      subst hps
      rw [List.take_of_length_le (by omega)] at ht
      exact Or.inl ⟨by rw [ht], hl⟩

/-- **C129.** Whatever the kernel does, no memory outside of the window is written and the loop ends; if the process goes on, the
    window holds exactly the first `size` bytes of the file, all of which exist; otherwise a read has failed or the file is
    shorter than `stat` had said. -/
theorem window_contents (w : World) (size : Nat) (junk : List Nat) (hj : junk.length = size) :
    (window w size junk = .ok (w.file.take size) ∧ size ≤ w.file.length) ∨
    (window w size junk = .panic ∧ (w.file.length < size ∨ ∃ j, w.read j = none)) :=
  loop_spec w size (size + 1) 0 0 junk (by omega) (by omega) hj (by simp) (by omega)

/-- **C129.** If no read fails and the file is not shorter than it was, the window holds the file. -/
theorem window_progress (w : World) (size : Nat) (junk : List Nat) (hj : junk.length = size) (hr : ∀ i, w.read i ≠ none)
    (hl : w.file.length = size) : window w size junk = .ok w.file := by
  rcases window_contents w size junk hj with ⟨h, -⟩ | ⟨-, h | ⟨j, h⟩⟩
  · rw [h, List.take_of_length_le (by omega)]
  · omega
  · exact absurd h (hr j)

/-- A file of five bytes, read one byte, then up to three, then the rest; and one that has become shorter. -/
example : window ⟨[1, 2, 3, 4, 5], fun i => some (2 * i)⟩ 5 [9, 9, 9, 9, 9] = .ok [1, 2, 3, 4, 5] ∧
    window ⟨[1, 2], fun _ => some 9⟩ 5 [9, 9, 9, 9, 9] = .panic := by decide

end Mlibc.FileWindow
