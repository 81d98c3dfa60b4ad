import Verif.Base

/-!
# Arithmetic of `timeval`, `settimeofday` and `gettimeofday`

options/posix/generic/sys-time.cpp, options/posix/include/sys/time.h.  `time_t` and `suseconds_t` have 64 bits;
overflow is undefined behaviour.
-/
namespace Mlibc.Timeval

/-- options/internal/include/bits/timeval.h L7-10 `struct timeval`. -/
structure Tv where
  sec : Int
  usec : Int
deriving DecidableEq, Repr

/-! ## Specification -/

/-- The time in microseconds. -/
def micros (t : Tv) : Int := t.sec * 1000000 + t.usec

/-- A time as programs use it: the microseconds are less than a second. -/
def Normal (t : Tv) : Prop :=
  0 ≤ t.usec ∧ t.usec < 1000000 ∧ -9223372036854775808 ≤ t.sec ∧ t.sec ≤ 9223372036854775807

/-! ## The code -/

/-- A 64-bit signed result. -/
def chk (x : Int) : Res Int := if -2 ^ 63 ≤ x ∧ x < 2 ^ 63 then .ok x else .ub

/-- sys-time.cpp L42-45. -/
def carry (sec usec : Int) : Res Tv :=
  if h : usec > 999999 then do
    let s ← chk (sec + 1)
    carry s (usec - 1000000)
  else .ok ⟨sec, usec⟩
termination_by usec.toNat
decreasing_by omega

/-- sys-time.cpp L39-46 `timeradd`. -/
def timeradd (a b : Tv) : Res Tv := do
  let s ← chk (a.sec + b.sec)
  let u ← chk (a.usec + b.usec)
  carry s u

/-- sys-time.cpp L51-54. -/
def borrow (sec usec : Int) : Res Tv :=
  if h : usec < 0 then do
    let s ← chk (sec - 1)
    borrow s (usec + 1000000)
  else .ok ⟨sec, usec⟩
termination_by (-usec).toNat
decreasing_by omega

/-- sys-time.cpp L48-55 `timersub`. -/
def timersub (a b : Tv) : Res Tv := do
  let s ← chk (a.sec - b.sec)
  let u ← chk (a.usec - b.usec)
  borrow s u

/-- sys/time.h L50-51 `timercmp`, for an operator. -/
def timercmp (op : Int → Int → Bool) (s t : Tv) : Bool :=
  if s.sec = t.sec then op s.usec t.usec else op s.sec t.sec

/-- sys-time.cpp L57-60 `timerclear`. -/
def timerclear : Tv := ⟨0, 0⟩

/-- sys-time.cpp L62-67 `timerisset`. -/
def timerisset (t : Tv) : Bool := t.sec ≠ 0 || t.usec ≠ 0

/-- What `settimeofday` does: nothing; EINVAL; or a call of `ClockSet` with seconds and nanoseconds. -/
inductive Set
  | nothing
  | einval
  | clock (sec nsec : Int)
deriving DecidableEq, Repr

/-- sys-time.cpp L24-37 `settimeofday`; no `tv` is the null pointer. -/
def settimeofday : Option Tv → Set
  | none => .nothing                                          -- L25-26
  | some tv =>
    if tv.usec ≥ 1000000 then .einval                         -- L28-31
    else .clock tv.sec (tv.usec * 1000)                       -- L32

/-- sys-time.cpp L10-22 `gettimeofday`: the time, when `ClockGet` gives `sec` and `nsec`. -/
def gettimeofday (sec nsec : Int) : Tv := ⟨sec, Int.tdiv nsec 1000⟩

/-! ## Proofs -/

theorem chk_ok {x : Int} (h : -2 ^ 63 ≤ x ∧ x < 2 ^ 63) : chk x = .ok x := if_pos h

/-- **C113.** The sum of two normal times is exact and normal.  Missing: the one second where the sum of the
    seconds is not representable before the carry, `timeradd_violated`. -/
theorem timeradd_partial (a b r : Tv) (ha : Normal a) (hb : Normal b) (hr : Normal r)
    (h : micros r = micros a + micros b) (hs : -9223372036854775808 ≤ a.sec + b.sec) : timeradd a b = .ok r := by
  obtain ⟨a1, a2, a3, a4⟩ := ha
  obtain ⟨b1, b2, b3, b4⟩ := hb
  obtain ⟨r1, r2, r3, r4⟩ := hr
  obtain ⟨as, au⟩ := a
  obtain ⟨bs, bu⟩ := b
  obtain ⟨rs, ru⟩ := r
  simp only [micros] at *
  unfold timeradd
  dsimp only
  rw [chk_ok (by constructor <;> omega), Res.ok_bind, chk_ok (by constructor <;> omega), Res.ok_bind, carry]
  by_cases hc : au + bu > 999999
  · rw [dif_pos hc, chk_ok (by constructor <;> omega), Res.ok_bind, carry, dif_neg (by omega)]
    rw [show as + bs + 1 = rs by omega, show au + bu - 1000000 = ru by omega]
  · rw [dif_neg hc, show as + bs = rs by omega, show au + bu = ru by omega]

/-- **C113.** The difference of two normal times is exact and normal.  Missing: the one second where the
    difference of the seconds is not representable before the borrow, `timersub_violated`. -/
theorem timersub_partial (a b r : Tv) (ha : Normal a) (hb : Normal b) (hr : Normal r)
    (h : micros r = micros a - micros b) (hs : a.sec - b.sec ≤ 9223372036854775807) : timersub a b = .ok r := by
  obtain ⟨a1, a2, a3, a4⟩ := ha
  obtain ⟨b1, b2, b3, b4⟩ := hb
  obtain ⟨r1, r2, r3, r4⟩ := hr
  obtain ⟨as, au⟩ := a
  obtain ⟨bs, bu⟩ := b
  obtain ⟨rs, ru⟩ := r
  simp only [micros] at *
  unfold timersub
  dsimp only
  rw [chk_ok (by constructor <;> omega), Res.ok_bind, chk_ok (by constructor <;> omega), Res.ok_bind, borrow]
  by_cases hc : au - bu < 0
  · rw [dif_pos hc, chk_ok (by constructor <;> omega), Res.ok_bind, borrow, dif_neg (by omega)]
    rw [show as - bs - 1 = rs by omega, show au - bu + 1000000 = ru by omega]
  · rw [dif_neg hc, show as - bs = rs by omega, show au - bu = ru by omega]

/-- **C113 is violated by the code**, at the edge of the range: the sum of the seconds of two normal times
    overflows although the time is representable. -/
theorem timeradd_violated : ∃ a b r : Tv, Normal a ∧ Normal b ∧ Normal r ∧ micros r = micros a + micros b ∧
    timeradd a b = .ub := by
  refine ⟨⟨-9223372036854775808, 500000⟩, ⟨-1, 500000⟩, ⟨-9223372036854775808, 0⟩, ?_, ?_, ?_, by decide, ?_⟩
  · simp [Normal]
  · simp [Normal]
  · simp [Normal]
  · rfl

/-- **C113 is violated by the code**, at the edge of the range. -/
theorem timersub_violated : ∃ a b r : Tv, Normal a ∧ Normal b ∧ Normal r ∧ micros r = micros a - micros b ∧
    timersub a b = .ub := by
  refine ⟨⟨9223372036854775807, 0⟩, ⟨-1, 1⟩, ⟨9223372036854775807, 999999⟩, ?_, ?_, ?_, by decide, ?_⟩
  · simp [Normal]
  · simp [Normal]
  · simp [Normal]
  · rfl

/-- **C113.** `timercmp` compares the times. -/
theorem timercmp_spec (s t : Tv) (hs : Normal s) (ht : Normal t) :
    (timercmp (fun x y => decide (x < y)) s t = true ↔ micros s < micros t) ∧
      (timercmp (fun x y => decide (x = y)) s t = true ↔ micros s = micros t) ∧
      (timercmp (fun x y => decide (x > y)) s t = true ↔ micros s > micros t) := by
  obtain ⟨s1, s2, -, -⟩ := hs
  obtain ⟨t1, t2, -, -⟩ := ht
  simp only [timercmp, micros]
  refine ⟨?_, ?_, ?_⟩ <;> split <;> simp only [decide_eq_true_eq] <;> omega

/-- **C113.** `timerisset` says whether a normal time is not zero, which is what `timerclear` makes it. -/
theorem timerisset_spec (t : Tv) (h : Normal t) :
    (timerisset t = true ↔ micros t ≠ 0) ∧ micros timerclear = 0 ∧ timerisset timerclear = false := by
  obtain ⟨h1, h2, -, -⟩ := h
  refine ⟨?_, rfl, by decide⟩
  simp only [timerisset, micros, Bool.or_eq_true, decide_eq_true_eq]
  omega

/-- **C113.** `settimeofday` sets the clock to the time given, which `gettimeofday` then reads, and refuses
    microseconds of a second or more.  Missing: negative microseconds, `settimeofday_violated`. -/
theorem settimeofday_partial (t : Tv) (h : 0 ≤ t.usec) :
    (t.usec < 1000000 → ∃ s ns, settimeofday (some t) = .clock s ns ∧ 0 ≤ ns ∧ ns < 1000000000 ∧
      gettimeofday s ns = t) ∧
    (1000000 ≤ t.usec → settimeofday (some t) = .einval) := by
  refine ⟨fun h1 => ⟨t.sec, t.usec * 1000, ?_, by omega, by omega, ?_⟩, fun h1 => ?_⟩
  · simp only [settimeofday]; rw [if_neg (by omega)]
  · simp only [gettimeofday]
    rw [Int.mul_tdiv_cancel _ (by decide)]
  · simp only [settimeofday]; rw [if_pos (by omega)]

/-- **C113 is violated by the code**: negative microseconds are not refused; the clock is set with negative
    nanoseconds. -/
theorem settimeofday_violated : settimeofday (some ⟨5, -1⟩) = .clock 5 (-1000) := by decide

/-- The time read from the clock is not later than the clock, by less than a microsecond. -/
theorem gettimeofday_spec (sec nsec : Int) (h0 : 0 ≤ nsec) (h1 : nsec < 1000000000)
    (hs : -9223372036854775808 ≤ sec ∧ sec ≤ 9223372036854775807) :
    Normal (gettimeofday sec nsec) ∧ 1000 * micros (gettimeofday sec nsec) ≤ sec * 1000000000 + nsec ∧
      sec * 1000000000 + nsec < 1000 * micros (gettimeofday sec nsec) + 1000 := by
  have e : Int.tdiv nsec 1000 = nsec / 1000 := Int.tdiv_eq_ediv_of_nonneg h0
  simp only [Normal, gettimeofday, micros, e]
  omega

example : Normal ⟨7, 600000⟩ ∧ Normal ⟨1, 500000⟩ ∧ timeradd ⟨7, 600000⟩ ⟨1, 500000⟩ = .ok ⟨9, 100000⟩ ∧
    timersub ⟨9, 100000⟩ ⟨1, 500000⟩ = .ok ⟨7, 600000⟩ :=
  ⟨by simp [Normal], by simp [Normal],
    timeradd_partial _ _ _ (by simp [Normal]) (by simp [Normal]) (by simp [Normal]) (by decide) (by decide),
    timersub_partial _ _ _ (by simp [Normal]) (by simp [Normal]) (by simp [Normal]) (by decide) (by decide)⟩

end Mlibc.Timeval
