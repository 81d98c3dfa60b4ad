import Verif.Base

/-!
# Times of files

`utimes`, `futimes` and `lutimes`, options/posix/generic/posix_time.cpp L18-82; `utime`, options/posix/generic/utime.cpp L9-29.
-/

namespace Mlibc.Utimes

/-- Seconds and nanoseconds. -/
abbrev Spec := Int × Int

/-- What a call refers to: a path, with or without following a last symbolic link, or a descriptor. -/
inductive Target
  | path (p : List Nat) (follow : Bool) | desc (fd : Int)
deriving DecidableEq, Repr

/-- The kernel: which file a target is (or an error), the times of access and modification of each file, and the time now. -/
structure Kernel where
  resolve : Target → Nat ⊕ Nat
  times : Nat → Spec × Spec
  now : Spec

/-- The kernel changes the times of a file. -/
def Kernel.set (k : Kernel) (f : Nat) (a m : Spec) : Kernel := { k with times := fun g => if g = f then (a, m) else k.times g }

/-! ## Specification -/

/-- What a call must do with the times asked for, `none` for now: the whole of both times is set, for that file only; microseconds
    that are not in a second are EINVAL (22), and nothing changes. -/
def expected (k : Kernel) (t : Target) (times : Option ((Int × Int) × (Int × Int))) : Kernel × Nat :=
  let valid := match times with
    | none => true
    | some (a, m) => decide (0 ≤ a.2 ∧ a.2 ≤ 999999 ∧ 0 ≤ m.2 ∧ m.2 ≤ 999999)
  if valid then
    match k.resolve t with
    | .inr e => (k, e)
    | .inl f => (match times with
      | none => k.set f k.now k.now
      | some (a, m) => k.set f (a.1, a.2 * 1000) (m.1, m.2 * 1000), 0)
  else (k, 22)

/-! ## The kernel's interface -/

/-- `utimensat`: nanoseconds 0x3FFFFFFF are the time now, 0x3FFFFFFE leave the time as it is (options/posix/include/bits/posix/stat.h L7-8). -/
def utimensat (k : Kernel) (t : Target) (a m : Spec) : Kernel × Nat :=
  let ok := fun x : Spec => decide (x.2 = 0x3FFFFFFF ∨ x.2 = 0x3FFFFFFE ∨ (0 ≤ x.2 ∧ x.2 < 1000000000))
  if ok a && ok m then
    match k.resolve t with
    | .inr e => (k, e)
    | .inl f =>
      let val := fun (x old : Spec) => if x.2 = 0x3FFFFFFF then k.now else if x.2 = 0x3FFFFFFE then old else x
      (k.set f (val a (k.times f).1) (val m (k.times f).2), 0)
  else (k, 22)

/-! ## The code -/

/-- A product in `long`: undefined if it does not fit. -/
def mul1000 (u : Int) : Res Int := if -2 ^ 63 ≤ u * 1000 ∧ u * 1000 < 2 ^ 63 then .ok (u * 1000) else .ub

/-- posix_time.cpp L19-30, L41-52 and L63-74, the same in three functions. -/
def convert (times : Option ((Int × Int) × (Int × Int))) : Res (Spec × Spec) :=
  match times with
  | none => .ok ((0x3FFFFFFF, 0x3FFFFFFF), (0x3FFFFFFF, 0x3FFFFFFF))
  | some (a, m) => (mul1000 a.2).bind fun x => (mul1000 m.2).bind fun y => .ok ((a.1, x), (m.1, y))

/-- posix_time.cpp L18-38: kernel afterwards and error number, 0 if the result is 0. -/
def utimes (k : Kernel) (p : List Nat) (times : Option ((Int × Int) × (Int × Int))) : Res (Kernel × Nat) :=
  (convert times).bind fun t => .ok (utimensat k (.path p true) t.1 t.2)

/-- posix_time.cpp L40-60: an empty path with AT_EMPTY_PATH is the descriptor. -/
def futimes (k : Kernel) (fd : Int) (times : Option ((Int × Int) × (Int × Int))) : Res (Kernel × Nat) :=
  (convert times).bind fun t => .ok (utimensat k (.desc fd) t.1 t.2)

/-- posix_time.cpp L62-82 -/
def lutimes (k : Kernel) (p : List Nat) (times : Option ((Int × Int) × (Int × Int))) : Res (Kernel × Nat) :=
  (convert times).bind fun t => .ok (utimensat k (.path p false) t.1 t.2)

/-- utime.cpp L9-29: whole seconds. -/
def utime (k : Kernel) (p : List Nat) (times : Option (Int × Int)) : Res (Kernel × Nat) :=
  match times with
  | some (a, m) => .ok (utimensat k (.path p true) (a, 0) (m, 0))
  | none => .ok (utimensat k (.path p true) (0x3FFFFFFF, 0x3FFFFFFF) (0x3FFFFFFF, 0x3FFFFFFF))

/-! ## Theorems -/

/-- Microseconds for which the product is less than 2^63. -/
def Small (times : Option ((Int × Int) × (Int × Int))) : Prop :=
  ∀ a m, times = some (a, m) → (-9223372036854775 ≤ a.2 ∧ a.2 ≤ 9223372036854775) ∧ (-9223372036854775 ≤ m.2 ∧ m.2 ≤ 9223372036854775)

theorem kernel_expected (k : Kernel) (t : Target) (times : Option ((Int × Int) × (Int × Int))) (h : Small times) :
    ((convert times).bind fun s => .ok (utimensat k t s.1 s.2)) = Res.ok (expected k t times) := by
  cases times with
  | none =>
    simp only [convert, Res.bind, expected, utimensat]
    cases k.resolve t <;> simp
  | some q =>
    obtain ⟨⟨as, au⟩, ⟨ms, mu⟩⟩ := q
    obtain ⟨⟨h1, h2⟩, ⟨h3, h4⟩⟩ := h _ _ rfl
    dsimp only at h1 h2 h3 h4
    have e1 : mul1000 au = .ok (au * 1000) := by unfold mul1000; rw [if_pos (by omega)]
    have e2 : mul1000 mu = .ok (mu * 1000) := by unfold mul1000; rw [if_pos (by omega)]
    simp only [convert, e1, e2, Res.bind, expected, utimensat]
    have a1 : ¬ au * 1000 = 0x3FFFFFFF := by omega
    have a2 : ¬ au * 1000 = 0x3FFFFFFE := by omega
    have m1 : ¬ mu * 1000 = 0x3FFFFFFF := by omega
    have m2 : ¬ mu * 1000 = 0x3FFFFFFE := by omega
    simp only [a1, a2, m1, m2, if_false, false_or]
    by_cases hv : 0 ≤ au ∧ au ≤ 999999 ∧ 0 ≤ mu ∧ mu ≤ 999999
    · rw [if_pos (by simp; omega), if_pos (by simp; omega)]
    · rw [if_neg (by simp; omega), if_neg (by simp; omega)]

/-- **C133.** `utimes`, `futimes` and `lutimes` do exactly what is expected, each for its file: in particular no microseconds
    are mistaken for the special numbers of the kernel.  Missing: microseconds so large that the product overflows, see
    `utimes_overflow_violated`. -/
theorem utimes_spec_partial (k : Kernel) (p : List Nat) (fd : Int) (times : Option ((Int × Int) × (Int × Int))) (h : Small times) :
    utimes k p times = .ok (expected k (.path p true) times) ∧
    futimes k fd times = .ok (expected k (.desc fd) times) ∧
    lutimes k p times = .ok (expected k (.path p false) times) :=
  ⟨kernel_expected k _ times h, kernel_expected k _ times h, kernel_expected k _ times h⟩

/-- **C133.** `utime` sets whole seconds, or the time now. -/
theorem utime_spec (k : Kernel) (p : List Nat) (times : Option (Int × Int)) :
    utime k p times = .ok (expected k (.path p true) (times.map fun t => ((t.1, 0), (t.2, 0)))) := by
  cases times with
  | none =>
    simp only [utime, expected, utimensat, Option.map]
    cases k.resolve (.path p true) <;> simp
  | some q =>
    simp only [utime, expected, utimensat, Option.map]
    cases k.resolve (.path p true) <;> simp

/-- **C133 is violated.** Microseconds of 2^60, which must be EINVAL, overflow. -/
theorem utimes_overflow_violated (k : Kernel) (p : List Nat) :
    utimes k p (some ((0, 2 ^ 60), (0, 0))) = .ub ∧ (expected k (.path p true) (some ((0, 2 ^ 60), (0, 0)))).2 = 22 := by
  constructor
  · have : mul1000 (2 ^ 60) = .ub := by decide
    simp only [utimes, convert, this, Res.bind]
  · simp [expected]

/-- A file system with one file, and times that meet the hypothesis. -/
example : Small (some ((5, 999999), (7, 1))) ∧
    ((expected ⟨fun _ => .inl 3, fun _ => ((0, 0), (0, 0)), (9, 9)⟩ (.desc 4) (some ((5, 999999), (7, 1)))).1.times 3) =
      ((5, 999999000), (7, 1000)) := by
  constructor
  · intro a m h; simp only [Option.some.injEq, Prod.mk.injEq] at h; obtain ⟨rfl, rfl⟩ := h; decide
  · decide

end Mlibc.Utimes
