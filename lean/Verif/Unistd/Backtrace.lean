import Verif.Base

/-!
# Backtraces

`backtrace` and its callback, options/glibc/generic/execinfo.cpp L21-50, L54-81, on x86.
-/

namespace Mlibc.Backtrace

/-! ## Specification -/

/-- What the array must hold for a frame: an address in the instruction that called, one byte before the return address; 0 stays 0. -/
def callSite (ip : Nat) : Nat := ip - 1

/-! ## The code -/

/-- L21-25, with the array as memory. -/
structure State where
  frames : List Nat
  count : Int
  current : Nat

/-- L27-50: the state, and whether the unwinder goes on (_URC_NO_REASON). -/
def trace (ip : Nat) (s : State) : Res (State × Bool) :=
  if (s.current : Int) ≥ s.count then .ok (s, false)                              -- L30-31
  else
    let ip := if ip ≠ 0 then ip - 1 else ip                                       -- L35-37
    if s.current < s.frames.length then                                           -- L48
      .ok ({ s with frames := s.frames.set s.current ip, current := s.current + 1 }, true)
    else .ub

/-- The unwinder (`_Unwind_Backtrace`): calls the callback for each frame until it says stop. -/
def unwind : List Nat → State → Res State
  | [], s => .ok s
  | ip :: ips, s => (trace ip s).bind fun r => if r.2 then unwind ips r.1 else .ok r.1

/-- How the search for the unwinder's functions ended (L16-19): not searched yet, without them, with them. -/
inductive Lib
  | unknown | absent | present
deriving DecidableEq, Repr

/-- L54-81: `found`: whether a search finds both functions; `ips` are the frames of the stack.  The result, the array, and what is
    known of the library afterwards.  `dlopen` and `dlsym` themselves are not modelled. -/
def backtrace (lib : Lib) (found : Bool) (ips buffer : List Nat) (size : Int) : Res (Nat × List Nat × Lib) :=
  if size ≤ 0 then .ok (0, buffer, lib)                                           -- L55-56
  else
    let lib := if lib = .unknown then (if found then .present else .absent) else lib   -- L58-73
    if lib ≠ .present then .ok (0, buffer, lib)                                   -- L75-76
    else (unwind ips ⟨buffer, size, 0⟩).bind fun s => .ok (s.current, s.frames, lib)   -- L78-80

/-! ## Theorems -/

theorem unwind_spec (ips : List Nat) : ∀ (pre rest : List Nat) (n : Nat), n ≤ rest.length →
    unwind ips ⟨pre ++ rest, (pre.length + n : Nat), pre.length⟩ =
      .ok ⟨pre ++ ((ips.take n).map callSite ++ rest.drop (min n ips.length)), (pre.length + n : Nat), pre.length + min n ips.length⟩ := by
  induction ips with
  | nil => intro pre rest n _; simp [unwind]
  | cons ip ips ih =>
    intro pre rest n hn
    unfold unwind trace
    match n, rest, hn with
    | 0, rest, _ => simp [Res.bind]
    | n + 1, x :: rest, hn =>
      have h1 : ¬ ((pre.length : Int) ≥ ((pre.length + (n + 1) : Nat) : Int)) := by omega
      have h2 : pre.length < (pre ++ x :: rest).length := by simp
      have h3 : (if ip ≠ 0 then ip - 1 else ip) = callSite ip := by unfold callSite; split <;> omega
      dsimp only
      rw [if_neg h1, if_pos h2, h3]
      simp only [Res.bind, if_true]
      have h4 : (pre ++ x :: rest).set pre.length (callSite ip) = (pre ++ [callSite ip]) ++ rest := by
        rw [List.set_append_right _ _ (Nat.le_refl _)]; simp
      have := ih (pre ++ [callSite ip]) rest n (by simpa using hn)
      simp only [List.length_append, List.length_cons, List.length_nil, Nat.zero_add] at this
      rw [h4, show pre.length + (n + 1) = pre.length + 1 + n by omega, this]
      simp only [List.length_cons, List.take_succ_cons, List.map_cons, Nat.succ_min_succ, List.drop_succ_cons, List.append_assoc,
        List.cons_append, List.nil_append]
      rw [show pre.length + 1 + min n ips.length = pre.length + (min n ips.length + 1) by omega]

/-- **C134.** With an array of at least `size` places, `backtrace` returns the number of frames, at most `size`; that many places at
    the start hold the call sites of the innermost frames in order, and the other places are unchanged. -/
theorem backtrace_frames (lib : Lib) (found : Bool) (ips buffer : List Nat) (size : Nat) (hs : 0 < size) (hb : size ≤ buffer.length)
    (hl : lib = .present ∨ (lib = .unknown ∧ found = true)) :
    backtrace lib found ips buffer size = .ok (min size ips.length,
      (ips.take size).map callSite ++ buffer.drop (min size ips.length), .present) := by
  unfold backtrace
  rw [if_neg (by omega)]
  have h1 : (if lib = .unknown then (if found then Lib.present else .absent) else lib) = .present := by
    rcases hl with h | ⟨h, h'⟩
    · simp [h]
    · simp [h, h']
  dsimp only
  rw [h1, if_neg (by simp)]
  have := unwind_spec ips [] buffer size hb
  simp only [List.nil_append, List.length_nil, Nat.zero_add] at this
  rw [this]
  rfl

/-- **C134.** Without the unwinder, or with a size that is not positive, the result is 0 and the array is unchanged; the
    unwinder is searched at most once. -/
theorem backtrace_none (lib : Lib) (found : Bool) (ips buffer : List Nat) (size : Int)
    (h : size ≤ 0 ∨ lib = .absent ∨ (lib = .unknown ∧ found = false)) :
    ∃ lib', backtrace lib found ips buffer size = .ok (0, buffer, lib') ∧
      (0 < size → ∀ found', backtrace lib' found' ips buffer size = .ok (0, buffer, lib')) := by
  by_cases hs : size ≤ 0
  · exact ⟨lib, by unfold backtrace; rw [if_pos hs], fun h' => by omega⟩
  · refine ⟨.absent, ?_, fun _ f => by unfold backtrace; rw [if_neg hs]; simp⟩
    unfold backtrace
    rw [if_neg hs]
    rcases h with h | h | ⟨h, h'⟩
    · exact absurd h hs
    · simp [h]
    · simp [h, h']

/-- Three frames, an array of four, two asked for. -/
example : backtrace .unknown true [100, 200, 300] [7, 7, 7, 7] 2 = .ok (2, [99, 199, 7, 7], .present) := by decide

end Mlibc.Backtrace
