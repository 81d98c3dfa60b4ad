import Verif.Base

/-
Conversion between absolute and relative deadlines (options/internal/include/mlibc/time-helpers.hpp L16-54, L58-99).
`time_t` and `long` have 64 bits; `frg::checked_add`/`checked_sub` (not in the repository) fail exactly when the result
is not representable. The reading of the clock is a parameter. Property C51.
-/
namespace Mlibc.Deadline

structure Timespec where
  sec : Int
  nsec : Int
  deriving DecidableEq, Repr

inductive Clock where
  | realtime | monotonic | other
  deriving DecidableEq, Repr

/-- Representable in 64 bits. -/
abbrev Fits (x : Int) : Prop := -2 ^ 63 ≤ x ∧ x < 2 ^ 63

/-- `frg::checked_add` -/
def checkedAdd (a b : Int) : Option Int := if Fits (a + b) then some (a + b) else none

/-- `frg::checked_sub` -/
def checkedSub (a b : Int) : Option Int := if Fits (a - b) then some (a - b) else none

/-- `time_absolute_to_relative`: `none` is the return value false; a clock that cannot be read is a panic. L16-54 -/
def absToRel (clock : Clock) (now : Option Timespec) (abs : Timespec) : Res (Option Timespec) :=
  if clock ≠ .realtime ∧ clock ≠ .monotonic then .ok none
  else
    match now with
    | none => .panic
    | some now => .ok <|
      (checkedSub abs.sec now.sec).bind fun sec =>
      (checkedSub abs.nsec now.nsec).bind fun nsec =>
      if sec < 0 ∨ (sec = 0 ∧ nsec < 0) then some ⟨0, 0⟩
      else if nsec ≥ 1000000000 then
        (checkedAdd sec 1).bind fun sec =>
        if nsec - 1000000000 ≥ 1000000000 then none else some ⟨sec, nsec - 1000000000⟩
      else if nsec < 0 then
        (checkedSub sec 1).bind fun sec =>
        if nsec + 1000000000 < 0 then none else some ⟨sec, nsec + 1000000000⟩
      else some ⟨sec, nsec⟩

/-- `time_relative_to_absolute` L58-99 -/
def relToAbs (clock : Clock) (now : Option Timespec) (rel : Timespec) : Res (Option Timespec) :=
  if clock ≠ .realtime ∧ clock ≠ .monotonic then .ok none
  else
    match now with
    | none => .panic
    | some now => .ok <|
      (checkedAdd now.sec rel.sec).bind fun sec =>
      (checkedAdd now.nsec rel.nsec).bind fun nsec =>
      (if nsec ≥ 1000000000 then
        (checkedAdd sec 1).bind fun sec =>
        if nsec - 1000000000 ≥ 1000000000 then none else some ⟨sec, nsec - 1000000000⟩
      else if nsec < 0 then
        (checkedSub sec 1).bind fun sec =>
        if nsec + 1000000000 < 0 then none else some ⟨sec, nsec + 1000000000⟩
      else some (⟨sec, nsec⟩ : Timespec)).bind fun t =>
      if now.sec > 0 ∧ rel.sec > 0 ∧ t.sec < 0 then none else some t

/-! ## Specification -/

/-- A time in nanoseconds. -/
def Timespec.ns (t : Timespec) : Int := t.sec * 1000000000 + t.nsec

/-- Representable, with nanoseconds in their range. -/
def Timespec.Valid (t : Timespec) : Prop := Fits t.sec ∧ 0 ≤ t.nsec ∧ t.nsec < 1000000000

/-! ## Theorems -/

/-- **C51** (partial): for valid times, if the seconds are not more than 2^63 apart, the relative timeout is valid and
is exactly the time left, or zero if the deadline is not in the future.
Missing from the full property: deadlines so far in the past that the difference is not representable are reported as a
failure (`deadline_far_past_violated`); invalid nanoseconds are not rejected (`deadline_invalid_violated`). -/
theorem abs_to_rel_partial (clock : Clock) (hc : clock ≠ .other) (now abs : Timespec) (hn : now.Valid) (ha : abs.Valid)
    (hf : Fits (abs.sec - now.sec)) : ∃ rel, absToRel clock (some now) abs = .ok (some rel) ∧ rel.Valid ∧
    rel.ns = max 0 (abs.ns - now.ns) := by
  obtain ⟨⟨n1, n2⟩, n3, n4⟩ := hn
  obtain ⟨⟨a1, a2⟩, a3, a4⟩ := ha
  have hc' : ¬ (clock ≠ .realtime ∧ clock ≠ .monotonic) := by cases clock <;> simp_all
  unfold absToRel
  rw [if_neg hc']
  simp only [checkedSub, if_pos hf, Option.bind_some, Res.ok.injEq]
  have hf2 : Fits (abs.nsec - now.nsec) := ⟨by omega, by omega⟩
  rw [if_pos hf2, Option.bind_some]
  unfold Fits at hf
  unfold Timespec.ns Timespec.Valid
  split
  · exact ⟨_, rfl, ⟨⟨by simp only; omega, by simp only; omega⟩, by simp, by simp⟩, by simp only; omega⟩
  · rw [if_neg (by omega)]
    split
    · rw [if_pos ⟨by omega, by omega⟩, Option.bind_some, if_neg (by omega)]
      exact ⟨_, rfl, ⟨⟨by simp only; omega, by simp only; omega⟩, by simp only; omega, by simp only; omega⟩,
        by simp only; omega⟩
    · exact ⟨_, rfl, ⟨⟨by simp only; omega, by simp only; omega⟩, by simp only; omega, by simp only; omega⟩,
        by simp only; omega⟩

example : absToRel .monotonic (some ⟨100, 900000000⟩) ⟨102, 100000000⟩ = .ok (some ⟨1, 200000000⟩) := by decide
example : absToRel .monotonic (some ⟨100, 900000000⟩) ⟨100, 800000000⟩ = .ok (some ⟨0, 0⟩) := by decide

/-- **C51**: for valid times of a clock that is not negative, the absolute deadline is valid and exactly the sum; the
conversion fails exactly when the sum is not representable. -/
theorem rel_to_abs_exact (clock : Clock) (hc : clock ≠ .other) (now rel : Timespec) (hn : now.Valid) (hr : rel.Valid)
    (h0 : 0 ≤ now.sec) :
    (∃ abs, relToAbs clock (some now) rel = .ok (some abs) ∧ abs.Valid ∧ abs.ns = now.ns + rel.ns) ∨
    (relToAbs clock (some now) rel = .ok none ∧ ∀ t : Timespec, t.Valid → t.ns ≠ now.ns + rel.ns) := by
  obtain ⟨⟨n1, n2⟩, n3, n4⟩ := hn
  obtain ⟨⟨a1, a2⟩, a3, a4⟩ := hr
  have hc' : ¬ (clock ≠ .realtime ∧ clock ≠ .monotonic) := by cases clock <;> simp_all
  unfold relToAbs
  rw [if_neg hc']
  simp only [checkedAdd, Res.ok.injEq]
  have hf2 : Fits (now.nsec + rel.nsec) := ⟨by omega, by omega⟩
  rw [if_pos hf2]
  unfold Timespec.ns Timespec.Valid
  by_cases h1 : Fits (now.sec + rel.sec)
  · rw [if_pos h1, Option.bind_some, Option.bind_some]
    unfold Fits at h1
    split
    · by_cases h2 : Fits (now.sec + rel.sec + 1)
      · rw [if_pos h2, Option.bind_some, if_neg (by omega), Option.bind_some]
        unfold Fits at h2
        rw [if_neg (by simp only; omega)]
        exact .inl ⟨_, rfl, ⟨⟨by simp only; omega, by simp only; omega⟩, by simp only; omega, by simp only; omega⟩,
          by simp only; omega⟩
      · rw [if_neg h2]
        unfold Fits at h2
        exact .inr ⟨rfl, fun t ⟨⟨t1, t2⟩, t3, t4⟩ e => by omega⟩
    · rw [if_neg (by omega), Option.bind_some, if_neg (by simp only; omega)]
      exact .inl ⟨_, rfl, ⟨⟨by simp only; omega, by simp only; omega⟩, by simp only; omega, by simp only; omega⟩,
        by simp only; omega⟩
  · rw [if_neg h1]
    unfold Fits at h1
    exact .inr ⟨rfl, fun t ⟨⟨t1, t2⟩, t3, t4⟩ e => by omega⟩

example : relToAbs .realtime (some ⟨100, 900000000⟩) ⟨1, 200000000⟩ = .ok (some ⟨102, 100000000⟩) := by decide
example : relToAbs .realtime (some ⟨100, 0⟩) ⟨2 ^ 63 - 1, 0⟩ = .ok none := by decide

/-- **C51**: the conversions are inverse: the time left until the deadline made from a timeout is the timeout. -/
theorem rel_abs_rel (clock : Clock) (hc : clock ≠ .other) (now rel abs : Timespec) (hn : now.Valid) (hr : rel.Valid)
    (h0 : 0 ≤ now.sec) (hr0 : 0 ≤ rel.sec) (h : relToAbs clock (some now) rel = .ok (some abs)) :
    absToRel clock (some now) abs = .ok (some rel) := by
  rcases rel_to_abs_exact clock hc now rel hn hr h0 with ⟨abs', h1, h2, h3⟩ | ⟨h1, -⟩
  · rw [h1] at h
    obtain rfl : abs' = abs := by cases h; rfl
    have hf : Fits (abs'.sec - now.sec) := by
      obtain ⟨⟨n1, n2⟩, n3, n4⟩ := hn
      obtain ⟨⟨a1, a2⟩, a3, a4⟩ := hr
      obtain ⟨⟨b1, b2⟩, b3, b4⟩ := h2
      unfold Timespec.ns at h3
      exact ⟨by omega, by omega⟩
    obtain ⟨rel', k1, k2, k3⟩ := abs_to_rel_partial clock hc now abs' hn h2 hf
    rw [k1]
    have : rel' = rel := by
      obtain ⟨⟨n1, n2⟩, n3, n4⟩ := hn
      obtain ⟨⟨a1, a2⟩, a3, a4⟩ := hr
      obtain ⟨⟨b1, b2⟩, b3, b4⟩ := k2
      unfold Timespec.ns at h3 k3
      obtain ⟨s, n⟩ := rel
      obtain ⟨s', n'⟩ := rel'
      simp only [Timespec.mk.injEq] at *
      omega
    rw [this]
  · rw [h1] at h; cases h

/-- **C51** violated: a deadline 2^63 seconds ago is a failure, not an expired deadline. time-helpers.hpp L29 -/
theorem deadline_far_past_violated :
    absToRel .realtime (some ⟨1, 0⟩) ⟨-2 ^ 63, 0⟩ = .ok none := by decide

/-- **C51** violated: nanoseconds out of range are accepted, and a deadline in the future may be reported as expired.
time-helpers.hpp L29-51 -/
theorem deadline_invalid_violated :
    absToRel .realtime (some ⟨1, 0⟩) ⟨1, 1500000000⟩ = .ok (some ⟨1, 500000000⟩) ∧
    absToRel .realtime (some ⟨2, 0⟩) ⟨1, 1500000000⟩ = .ok (some ⟨0, 0⟩) := by decide

end Mlibc.Deadline
