import Verif.Base

/-!
# Waiting with a mask

`ppoll` where the kernel has only `poll`, options/posix/generic/poll.cpp L18-36.
-/

namespace Mlibc.Ppoll

/-! ## Specification -/

/-- How long a call waits at most: nanoseconds, or for ever. -/
inductive Wait
  | ns (n : Int) | forever
deriving DecidableEq, Repr

/-- What `ppoll` must ask of the kernel: to wait with the mask given (or the one that is set, without one) for exactly the time given,
    for ever without one. -/
def expected (mask : Nat) (sigmask : Option Nat) (timeout : Option (Int × Int)) : Nat × Wait :=
  (sigmask.getD mask, match timeout with
    | none => .forever
    | some (sec, nsec) => .ns (sec * 1000000000 + nsec))

/-! ## The code -/

/-- A number made `int`. -/
def toInt32 (x : Int) : Int := (x + 2147483648) % 4294967296 - 2147483648

/-- L29: milliseconds; a product or sum that does not fit `long` is undefined. -/
def millis (timeout : Option (Int × Int)) : Res Int :=
  match timeout with
  | none => .ok (-1)
  | some (sec, nsec) =>
    let v := sec * 1000 + nsec.tdiv 1000000
    if -2 ^ 63 ≤ sec * 1000 ∧ sec * 1000 < 2 ^ 63 ∧ -2 ^ 63 ≤ v ∧ v < 2 ^ 63 then .ok (toInt32 v) else .ub

/-- How long `poll` waits for a number of milliseconds; a negative one is for ever. -/
def pollWait (ms : Int) : Wait := if ms < 0 then .forever else .ns (ms * 1000000)

/-- L28-35: `poll` says what a call with a mask and a time gives.  The result, the mask afterwards, and the mask and time of the wait.
    Each call of `sigprocmask` is one step here; that signals may come between the steps is not modelled. -/
def ppoll (poll : Nat → Wait → Int) (mask : Nat) (sigmask : Option Nat) (timeout : Option (Int × Int)) : Res (Int × Nat × Nat × Wait) :=
  (millis timeout).bind fun ms =>
  let origmask := mask
  let mask := match sigmask with | some m => m | none => mask                     -- L31
  let ready := poll mask (pollWait ms)                                            -- L32
  .ok (ready, origmask, mask, pollWait ms)                                        -- L33-35

/-! ## Theorems -/

/-- **C135.** For whole milliseconds up to 2^31 - 1, and without a time, `ppoll` waits with the right mask for the right time, gives
    the result of that wait, and leaves the mask as it was.  Missing: other times, see the theorems below. -/
theorem ppoll_spec_partial (poll : Nat → Wait → Int) (mask : Nat) (sigmask : Option Nat) (timeout : Option (Int × Int))
    (h : ∀ sec nsec, timeout = some (sec, nsec) → 0 ≤ sec ∧ 0 ≤ nsec ∧ nsec < 1000000000 ∧ nsec % 1000000 = 0 ∧
      sec * 1000 + nsec / 1000000 < 2 ^ 31) :
    let e := expected mask sigmask timeout
    ppoll poll mask sigmask timeout = .ok (poll e.1 e.2, mask, e.1, e.2) := by
  have hm : (match sigmask with | some m => m | none => mask) = sigmask.getD mask := by cases sigmask <;> rfl
  cases timeout with
  | none => simp only [ppoll, millis, Res.bind, expected, hm, pollWait]; rfl
  | some t =>
    obtain ⟨sec, nsec⟩ := t
    obtain ⟨h1, h2, h3, h4, h5⟩ := h sec nsec rfl
    have e1 : nsec.tdiv 1000000 = nsec / 1000000 := Int.tdiv_eq_ediv_of_nonneg h2
    have e2 : millis (some (sec, nsec)) = .ok (sec * 1000 + nsec / 1000000) := by
      simp only [millis, e1]
      rw [if_pos (by omega)]
      unfold toInt32
      rw [show (sec * 1000 + nsec / 1000000 + 2147483648) % 4294967296 = sec * 1000 + nsec / 1000000 + 2147483648 by omega]
      rw [show sec * 1000 + nsec / 1000000 + 2147483648 - 2147483648 = sec * 1000 + nsec / 1000000 by omega]
    have e3 : pollWait (sec * 1000 + nsec / 1000000) = .ns (sec * 1000000000 + nsec) := by
      unfold pollWait
      rw [if_neg (by omega), show (sec * 1000 + nsec / 1000000) * 1000000 = sec * 1000000000 + nsec by omega]
    simp only [ppoll, e2, Res.bind, expected, hm, e3]

/-- **C135 is violated.** A wait of less than a millisecond does not wait, and one of 25 days is one for ever. -/
theorem ppoll_time_violated (poll : Nat → Wait → Int) (mask : Nat) :
    ppoll poll mask none (some (0, 999999)) = .ok (poll mask (.ns 0), mask, mask, .ns 0) ∧
    (expected mask none (some (0, 999999))).2 = .ns 999999 ∧
    ppoll poll mask none (some (2160000, 0)) = .ok (poll mask .forever, mask, mask, .forever) ∧
    (expected mask none (some (2160000, 0))).2 = .ns 2160000000000000 := by
  refine ⟨?_, rfl, ?_, rfl⟩
  · have : millis (some (0, 999999)) = .ok 0 := by decide
    simp only [ppoll, this, Res.bind]
    rfl
  · have : millis (some (2160000, 0)) = .ok (-2134967296) := by decide
    simp only [ppoll, this, Res.bind]
    rfl

/-- A second and a half, with a mask. -/
example : ppoll (fun m _ => m) 5 (some 3) (some (1, 500000000)) = .ok (3, 5, 3, .ns 1500000000) :=
  ppoll_spec_partial _ 5 (some 3) (some (1, 500000000)) (by
    intro s n h; simp only [Option.some.injEq, Prod.mk.injEq] at h; obtain ⟨rfl, rfl⟩ := h; decide)

end Mlibc.Ppoll
