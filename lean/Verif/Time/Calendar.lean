import Verif.Base

/-
Broken-down time: gmtime_r, localtime_r (given the offset of the zone), timegm and mktime
(options/ansi/generic/time.cpp L71-73, L685-711, L906-971, L1000-1015). `time_t` and `long` have 64 bits, `int` 32;
overflow of `int` is undefined, conversions to `int` keep the low 32 bits. Property C52.
-/
namespace Mlibc.Calendar
open Mlibc

/-- The value of a signed 32-bit operation: undefined if it overflows. -/
def i32 (x : Int) : Res Int := if -2147483648 ≤ x ∧ x ≤ 2147483647 then .ok x else .ub

/-- Conversion to `unsigned int`. -/
def u32 (x : Int) : Int := x % 4294967296

/-- Conversion to `int`. -/
def s32 (x : Int) : Int := if x % 4294967296 < 2147483648 then x % 4294967296 else x % 4294967296 - 4294967296

/-- `civil_from_days`: year, month, day. `doe` is not negative, so the unsigned operations on it do not wrap. L685-699 -/
def civilFromDays (days : Int) : Res (Int × Int × Int) :=
  let time := days + 719468
  let era := (if time ≥ 0 then time else time - 146096).tdiv 146097
  (i32 (era * 146097)).bind fun e =>
  let doe := u32 (time - e)
  let yoe := (doe - doe / 1460 + doe / 36524 - doe / 146096) / 365
  (i32 (yoe + era * 400)).bind fun y =>
  let doy := doe - (365 * yoe + yoe / 4 - yoe / 100)
  let mp := (5 * doy + 2) / 153
  let d := doy - (153 * mp + 2) / 5 + 1
  let m := if mp < 10 then mp + 3 else mp - 9
  .ok (y + (if m ≤ 2 then 1 else 0), m, d)

/-- `weekday_from_days` L701-704 -/
def weekdayFromDays (days : Int) : Int := if days ≥ -4 then (days + 4).tmod 7 else (days + 5).tmod 7 + 6

/-- `yearday_from_date` L706-711 -/
def yeardayFromDate (year month day : Int) : Int :=
  let year := u32 year
  let n1 := 275 * month / 9
  let n2 := (month + 9) / 12
  let n3 := u32 (1 + u32 (year - u32 (4 * year) / 4 + 2) / 3)
  u32 (n1 - u32 (n2 * n3) + day - 30)

/-- The fields of `struct tm` that depend on the instant only. -/
structure Tm where
  sec : Int
  min : Int
  hour : Int
  mday : Int
  mon : Int
  year : Int
  wday : Int
  yday : Int
deriving DecidableEq, Repr

/-- The conversion shared by `gmtime_r` and `localtime_r`. L915-928, L953-966 -/
def breakDown (t : Int) : Res Tm :=
  let days := s32 (t.tdiv 86400)
  (civilFromDays days).bind fun c =>
  (i32 (c.1 - 1900)).bind fun year =>
  .ok { sec := t.tmod 60, min := (t.tdiv 60).tmod 60, hour := (t.tdiv 3600).tmod 24, mday := c.2.2, mon := c.2.1 - 1,
        year := year, wday := weekdayFromDays days, yday := s32 (yeardayFromDate c.1 c.2.1 c.2.2 - 1) }

/-- `gmtime_r` L906-933 -/
def gmtime (t : Int) : Res Tm := breakDown t

/-- `localtime_r` for the offset that the zone's rules give at this instant. L935-971 -/
def localtime (offset t : Int) : Res Tm := breakDown (t + offset)

/-- `days_from_civil` L1000-1007 -/
def daysFromCivil (y m d : Int) : Res Int :=
  (i32 (y - (if m ≤ 2 then 1 else 0))).bind fun y =>
  (i32 (if y ≥ 0 then y else y - 399)).bind fun y' =>
  let era := y'.tdiv 400
  let yoe := u32 (y - era * 400)
  let doy := u32 (u32 (u32 (153 * u32 (if m > 2 then m - 3 else m + 9)) + 2) / 5 + d - 1)
  let doe := u32 (yoe * 365 + yoe / 4 - yoe / 100 + doy)
  (i32 (era * 146097)).bind fun e => (i32 (e + s32 doe)).bind fun x => i32 (x - 719468)

/-- `timegm` L1009-1015 -/
def timegm (tm : Tm) : Res Int :=
  (i32 (tm.year + 1900)).bind fun y => (i32 (tm.mon + 1)).bind fun m =>
  (daysFromCivil y (u32 m) (u32 tm.mday)).bind fun days =>
  (i32 (tm.hour * 60)).bind fun h => (i32 (h * 60)).bind fun h => (i32 (tm.min * 60)).bind fun mi =>
  .ok (days * 86400 + h + mi + tm.sec)

/-- `mktime`: the result and the structure afterwards. L71-73 -/
def mktime (tm : Tm) : Res (Int × Tm) := (timegm tm).bind fun t => .ok (t, tm)

/-! ## Specification: the Gregorian calendar, extended in both directions -/
namespace Spec

def leap (y : Int) : Prop := y % 4 = 0 ∧ (y % 100 ≠ 0 ∨ y % 400 = 0)

instance (y : Int) : Decidable (leap y) := by unfold leap; infer_instance

structure Date where
  year : Int
  month : Int
  day : Int
deriving DecidableEq, Repr

/-- The number of days of a month. -/
def monthLen (y m : Int) : Int :=
  if m = 4 ∨ m = 6 ∨ m = 9 ∨ m = 11 then 30 else if m = 2 then (if leap y then 29 else 28) else 31

def Valid (d : Date) : Prop := 1 ≤ d.month ∧ d.month ≤ 12 ∧ 1 ≤ d.day ∧ d.day ≤ monthLen d.year d.month

/-- The day after. -/
def next (d : Date) : Date :=
  if d.day < monthLen d.year d.month then ⟨d.year, d.month, d.day + 1⟩
  else if d.month < 12 then ⟨d.year, d.month + 1, 1⟩
  else ⟨d.year + 1, 1, 1⟩

/-- `IsDay n d`: `d` is the date `n` days after (before, if negative) 1 January 1970. -/
inductive IsDay : Int → Date → Prop
  | epoch : IsDay 0 ⟨1970, 1, 1⟩
  | succ {n d} : IsDay n d → IsDay (n + 1) (next d)
  | pred {n d} : Valid d → IsDay (n + 1) (next d) → IsDay n d

end Spec

open Spec

/-! ## Day numbers -/

/-- Days before the given day of the year that begins in March, for month `mp` counted from March. -/
def doyOf (mp d : Int) : Int := (153 * mp + 2) / 5 + d - 1

/-- The day number of a date, as a closed expression. -/
def dayNum (d : Date) : Int :=
  let y := if d.month ≤ 2 then d.year - 1 else d.year
  let mp := if d.month > 2 then d.month - 3 else d.month + 9
  let yoe := y % 400
  y / 400 * 146097 + (yoe * 365 + yoe / 4 - yoe / 100 + doyOf mp d.day) - 719468

theorem leap_iff (y : Int) : leap y ↔ y % 400 % 4 = 0 ∧ (y % 400 % 100 ≠ 0 ∨ y % 400 = 0) := by
  unfold leap; omega

/-- The next date has the next number. -/
theorem dayNum_next (d : Date) (h : Valid d) : dayNum (next d) = dayNum d + 1 := by
  obtain ⟨y, m, dd⟩ := d
  obtain ⟨h1, h2, h3, h4⟩ := h
  simp only at h1 h2 h3 h4
  unfold next
  simp only
  split
  · simp only [dayNum, doyOf]; omega
  · rename_i hd
    have hd' : dd = monthLen y m := by omega
    subst hd'
    clear h3 h4 hd
    have hm : m = 1 ∨ m = 2 ∨ m = 3 ∨ m = 4 ∨ m = 5 ∨ m = 6 ∨ m = 7 ∨ m = 8 ∨ m = 9 ∨ m = 10 ∨ m = 11 ∨ m = 12 := by omega
    rcases hm with rfl | rfl | rfl | rfl | rfl | rfl | rfl | rfl | rfl | rfl | rfl | rfl
    case inr.inl =>
      by_cases hl : leap y
      · simp only [monthLen, dayNum, doyOf, hl]
        simp only [leap_iff] at hl
        simp
        omega
      · simp only [monthLen, dayNum, doyOf, hl]
        simp only [leap_iff] at hl
        simp
        omega
    all_goals
      simp only [monthLen, dayNum, doyOf]
      simp
      try omega

theorem monthLen_bounds (y m : Int) : 28 ≤ monthLen y m ∧ monthLen y m ≤ 31 := by
  unfold monthLen
  split
  · omega
  · split
    · split <;> omega
    · omega

theorem next_valid (d : Date) (h : Valid d) : Valid (next d) := by
  obtain ⟨h1, h2, h3, h4⟩ := h
  unfold next
  have := monthLen_bounds d.year (d.month + 1)
  have := monthLen_bounds (d.year + 1) 1
  split
  · exact ⟨h1, h2, by simp only; omega, by simp only; omega⟩
  · split
    · exact ⟨by simp only; omega, by simp only; omega, by simp, by simp only; omega⟩
    · exact ⟨by simp, by simp, by simp, by simp only; omega⟩

/-- Every valid date is the day after some valid date. -/
theorem prev_exists (d : Date) (h : Valid d) : ∃ p, Valid p ∧ next p = d := by
  obtain ⟨y, m, dd⟩ := d
  obtain ⟨h1, h2, h3, h4⟩ := h
  simp only at h1 h2 h3 h4
  by_cases hd : 1 < dd
  · refine ⟨⟨y, m, dd - 1⟩, ⟨h1, h2, by simp only; omega, by simp only; omega⟩, ?_⟩
    unfold next
    simp only
    rw [if_pos (by omega)]
    congr 1; omega
  · have : dd = 1 := by omega
    subst this
    by_cases hm : 1 < m
    · have := monthLen_bounds y (m - 1)
      refine ⟨⟨y, m - 1, monthLen y (m - 1)⟩, ⟨by simp only; omega, by simp only; omega, by simp only; omega, by simp⟩, ?_⟩
      unfold next
      simp only
      rw [if_neg (by omega), if_pos (by omega)]
      congr 1; omega
    · have : m = 1 := by omega
      subst this
      refine ⟨⟨y - 1, 12, 31⟩, ⟨by simp, by simp, by simp, by simp [monthLen]⟩, ?_⟩
      unfold next
      simp [monthLen]

/-- Every number is the day number of a valid date. -/
theorem dayNum_surj (n : Int) : ∃ d, Valid d ∧ dayNum d = n := by
  have up : ∀ k : Nat, ∃ d, Valid d ∧ dayNum d = k := by
    intro k
    induction k with
    | zero => exact ⟨⟨1970, 1, 1⟩, by unfold Valid; decide, by decide⟩
    | succ k ih =>
      obtain ⟨d, hv, hd⟩ := ih
      exact ⟨next d, next_valid d hv, by rw [dayNum_next d hv, hd]; omega⟩
  have down : ∀ k : Nat, ∃ d, Valid d ∧ dayNum d = -k := by
    intro k
    induction k with
    | zero => exact ⟨⟨1970, 1, 1⟩, by unfold Valid; decide, by decide⟩
    | succ k ih =>
      obtain ⟨d, hv, hd⟩ := ih
      obtain ⟨p, hp, rfl⟩ := prev_exists d hv
      exact ⟨p, hp, by have := dayNum_next p hp; omega⟩
  by_cases h : 0 ≤ n
  · obtain ⟨d, hv, hd⟩ := up n.toNat
    exact ⟨d, hv, by omega⟩
  · obtain ⟨d, hv, hd⟩ := down (-n).toNat
    exact ⟨d, hv, by omega⟩

/-- Bounds at the first and the last day of each of the 400 years of an era. -/
theorem era_table : ∀ y : Fin 400,
    365 * (y.val : Int) ≤ (let x : Int := y.val * 365 + y.val / 4 - y.val / 100; x - x / 1460 + x / 36524) ∧
    (y.val < 399 → (let x : Int := (y.val + 1) * 365 + (y.val + 1) / 4 - (y.val + 1) / 100 - 1; x - x / 1460 + x / 36524) <
      365 * ((y.val : Int) + 1)) := by decide +kernel

theorem quot_mono {x x' : Int} (h : x ≤ x') : x - x / 1460 + x / 36524 ≤ x' - x' / 1460 + x' / 36524 := by
  have h1 : x / 36524 ≤ x' / 36524 := by omega
  have h2 : x - x / 1460 ≤ x' - x' / 1460 := by omega
  omega

/-- The year of the era is found from the day of the era. -/
theorem yoe_of_doe (yoe doy : Int) (h0 : 0 ≤ yoe) (h1 : yoe < 400) (h2 : 0 ≤ doy) (h3 : doy ≤ 365)
    (h4 : doy = 365 → (yoe + 1) % 4 = 0 ∧ ((yoe + 1) % 100 ≠ 0 ∨ yoe + 1 = 400)) (doe : Int)
    (hd : doe = yoe * 365 + yoe / 4 - yoe / 100 + doy) :
    (doe - doe / 1460 + doe / 36524 - doe / 146096) / 365 = yoe ∧ 0 ≤ doe ∧ doe < 146097 := by
  have hnext : doe ≤ (yoe + 1) * 365 + (yoe + 1) / 4 - (yoe + 1) / 100 - 1 ∨ yoe = 399 := by
    by_cases h : doy = 365
    · have := h4 h; omega
    · omega
  have hmax : 0 ≤ doe ∧ doe < 146097 := by omega
  clear h4
  refine ⟨?_, hmax⟩
  obtain ⟨n, rfl⟩ := Int.eq_ofNat_of_zero_le h0
  obtain ⟨hl, hu⟩ := era_table ⟨n, by omega⟩
  simp only at hl hu
  have m1 := quot_mono (x := (n : Int) * 365 + n / 4 - n / 100) (x' := doe) (by omega)
  have hlow := Int.le_trans hl m1
  by_cases h399 : (n : Int) < 399
  · have m2 := quot_mono (x := doe) (x' := ((n : Int) + 1) * 365 + ((n : Int) + 1) / 4 - ((n : Int) + 1) / 100 - 1) (by omega)
    have hup := Int.lt_of_le_of_lt m2 (hu (by omega))
    clear hl hu m1 m2
    generalize doe - doe / 1460 + doe / 36524 = f at *
    omega
  · clear hl hu m1
    omega

/-- The floor of the division by the length of an era, as the code computes it. -/
theorem era_eq (t : Int) : (if t ≥ 0 then t else t - 146096).tdiv 146097 = t / 146097 := by
  split
  · rw [Int.tdiv_eq_ediv_of_nonneg (by omega)]
  · rw [Int.tdiv_eq_ediv]
    have h1 : ¬ 0 ≤ t - 146096 := by omega
    simp only [h1, false_or]
    split
    · omega
    · rw [show Int.sign 146097 = 1 from rfl]; omega

theorem era_eq' (y : Int) : (if y ≥ 0 then y else y - 399).tdiv 400 = y / 400 := by
  split
  · rw [Int.tdiv_eq_ediv_of_nonneg (by omega)]
  · rw [Int.tdiv_eq_ediv]
    have h1 : ¬ 0 ≤ y - 399 := by omega
    simp only [h1, false_or]
    split
    · omega
    · rw [show Int.sign 400 = 1 from rfl]; omega

theorem i32_ok {x : Int} (h1 : -2147483648 ≤ x) (h2 : x ≤ 2147483647) : i32 x = .ok x := if_pos ⟨h1, h2⟩

theorem tdiv_cases (t k : Int) (hk : 0 < k) : t.tdiv k = if 0 ≤ t then t / k else -((-t) / k) := by
  split
  · rw [Int.tdiv_eq_ediv_of_nonneg (by omega)]
  · rw [← Int.tdiv_eq_ediv_of_nonneg (by omega : 0 ≤ -t), Int.neg_tdiv, Int.neg_neg]

theorem tdiv_60_60 (t : Int) : (t.tdiv 60).tdiv 60 = t.tdiv 3600 := by
  simp only [tdiv_cases _ 60 (by omega), tdiv_cases _ 3600 (by omega)]
  split <;> split <;> omega

theorem tdiv_3600_24 (t : Int) : (t.tdiv 3600).tdiv 24 = t.tdiv 86400 := by
  simp only [tdiv_cases _ 24 (by omega), tdiv_cases _ 3600 (by omega), tdiv_cases _ 86400 (by omega)]
  split <;> split <;> omega

/-- The parts of a valid date relative to years that begin in March. -/
theorem march (d : Date) (h : Valid d) : ∃ y mp dd : Int, 0 ≤ mp ∧ mp ≤ 11 ∧ 1 ≤ dd ∧
    dayNum d = y / 400 * 146097 + (y % 400 * 365 + y % 400 / 4 - y % 400 / 100 + doyOf mp dd) - 719468 ∧
    d.day = dd ∧ d.month = (if mp < 10 then mp + 3 else mp - 9) ∧ d.year = y + (if d.month ≤ 2 then 1 else 0) ∧
    0 ≤ doyOf mp dd ∧ doyOf mp dd ≤ 365 ∧
    (doyOf mp dd = 365 → (y % 400 + 1) % 4 = 0 ∧ ((y % 400 + 1) % 100 ≠ 0 ∨ y % 400 + 1 = 400)) ∧
    (5 * doyOf mp dd + 2) / 153 = mp := by
  obtain ⟨y, m, dd⟩ := d
  obtain ⟨h1, h2, h3, h4⟩ := h
  simp only at h1 h2 h3 h4
  refine ⟨if m ≤ 2 then y - 1 else y, if m > 2 then m - 3 else m + 9, dd, by split <;> omega, by split <;> omega, h3, rfl, rfl,
    ?_, ?_, ?_⟩
  · simp only; split <;> split <;> omega
  · simp only; split <;> omega
  · have hm : m = 1 ∨ m = 2 ∨ m = 3 ∨ m = 4 ∨ m = 5 ∨ m = 6 ∨ m = 7 ∨ m = 8 ∨ m = 9 ∨ m = 10 ∨ m = 11 ∨ m = 12 := by omega
    rcases hm with rfl | rfl | rfl | rfl | rfl | rfl | rfl | rfl | rfl | rfl | rfl | rfl
    case inr.inl =>
      by_cases hl : leap y
      · simp only [monthLen, hl] at h4
        simp only [leap_iff] at hl
        simp at h4
        simp only [doyOf]
        simp
        omega
      · simp only [monthLen, hl] at h4
        simp at h4
        simp only [doyOf]
        simp
        omega
    all_goals
      simp [monthLen] at h4
      simp only [doyOf]
      simp
      omega

/-- `civil_from_days` finds the date with the given number. -/
theorem civil_exact (d : Date) (h : Valid d) (h1 : -2147483648 ≤ dayNum d) (h2 : dayNum d ≤ 2147483647 - 719468) :
    civilFromDays (dayNum d) = .ok (d.year, d.month, d.day) := by
  obtain ⟨y, mp, dd, a1, a2, a3, a4, a5, a6, a7, b1, b2, b3, b4⟩ := march d h
  have hm0 : 0 ≤ y % 400 := by omega
  have hm1 : y % 400 < 400 := by omega
  obtain ⟨c1, c2, c3⟩ := yoe_of_doe (y % 400) (doyOf mp dd) hm0 hm1 b1 b2 b3 _ rfl
  have hyoe0 : 0 ≤ y % 400 * 365 + y % 400 / 4 - y % 400 / 100 := by omega
  unfold civilFromDays
  simp only [era_eq]
  generalize hdoe : y % 400 * 365 + y % 400 / 4 - y % 400 / 100 + doyOf mp dd = doe at *
  have ht : dayNum d + 719468 = y / 400 * 146097 + doe := by omega
  rw [ht]
  have he : (y / 400 * 146097 + doe) / 146097 = y / 400 := by omega
  rw [he, i32_ok (by omega) (by omega)]
  simp only [Res.bind]
  have hu : u32 (y / 400 * 146097 + doe - y / 400 * 146097) = doe := by unfold u32; omega
  rw [hu, c1]
  have hy : y % 400 + y / 400 * 400 = y := by omega
  rw [hy, i32_ok (by omega) (by omega)]
  have hdoy : doe - (365 * (y % 400) + y % 400 / 4 - y % 400 / 100) = doyOf mp dd := by omega
  simp only
  rw [hdoy, b4, a7, a5, a6]
  have hday : doyOf mp dd - (153 * mp + 2) / 5 + 1 = dd := by unfold doyOf; omega
  rw [hday]

/-- `days_from_civil` gives the number of a date. -/
theorem days_exact (d : Date) (h : Valid d) (h1 : -2147483648 ≤ dayNum d) (h2 : dayNum d ≤ 2147483647 - 719468) :
    daysFromCivil d.year d.month d.day = .ok (dayNum d) := by
  obtain ⟨y, mp, dd, a1, a2, a3, a4, a5, a6, a7, b1, b2, b3, b4⟩ := march d h
  have hm0 : 0 ≤ y % 400 := by omega
  have hm1 : y % 400 < 400 := by omega
  obtain ⟨c1, c2, c3⟩ := yoe_of_doe (y % 400) (doyOf mp dd) hm0 hm1 b1 b2 b3 _ rfl
  have hy : d.year - (if d.month ≤ 2 then 1 else 0) = y := by rw [a7]; omega
  have hmp : (if d.month > 2 then d.month - 3 else d.month + 9) = mp := by
    rw [a6]; split <;> split <;> omega
  unfold daysFromCivil
  rw [hy, hmp, i32_ok (by omega) (by omega)]
  simp only [Res.bind]
  rw [i32_ok (by split <;> omega) (by split <;> omega)]
  simp only [era_eq']
  have hyoe : u32 (y - y / 400 * 400) = y % 400 := by unfold u32; omega
  have hdoy : u32 (u32 (u32 (153 * u32 mp) + 2) / 5 + d.day - 1) = doyOf mp dd := by
    have e1 : u32 mp = mp := by unfold u32; omega
    have e2 : u32 (153 * mp) = 153 * mp := by unfold u32; omega
    have e3 : u32 (153 * mp + 2) = 153 * mp + 2 := by unfold u32; omega
    have e4 : u32 (doyOf mp dd) = doyOf mp dd := by unfold u32; omega
    rw [e1, e2, e3, a5]
    exact e4
  rw [hyoe, hdoy]
  generalize hdoe : y % 400 * 365 + y % 400 / 4 - y % 400 / 100 + doyOf mp dd = doe at *
  have hs : s32 (u32 doe) = doe := by unfold s32 u32; split <;> omega
  rw [hs, i32_ok (by omega) (by omega)]
  simp only
  rw [i32_ok (by omega) (by omega)]
  simp only
  rw [i32_ok (by omega) (by omega)]
  congr 1
  omega

/-! ## The specification of days -/

theorem dayNum_inj {d d' : Date} (h : Valid d) (h' : Valid d') (e : dayNum d = dayNum d') : d = d' := by
  obtain ⟨y, mp, dd, a1, a2, a3, a4, a5, a6, a7, b1, b2, b3, b4⟩ := march d h
  obtain ⟨y', mp', dd', a1', a2', a3', a4', a5', a6', a7', b1', b2', b3', b4'⟩ := march d' h'
  obtain ⟨c1, c2, c3⟩ := yoe_of_doe (y % 400) (doyOf mp dd) (by omega) (by omega) b1 b2 b3 _ rfl
  obtain ⟨c1', c2', c3'⟩ := yoe_of_doe (y' % 400) (doyOf mp' dd') (by omega) (by omega) b1' b2' b3' _ rfl
  generalize hdoe : y % 400 * 365 + y % 400 / 4 - y % 400 / 100 + doyOf mp dd = doe at *
  generalize hdoe' : y' % 400 * 365 + y' % 400 / 4 - y' % 400 / 100 + doyOf mp' dd' = doe' at *
  have he : y / 400 = y' / 400 := by omega
  have hd : doe = doe' := by omega
  subst hd
  have hm : y % 400 = y' % 400 := by omega
  have hyy : y = y' := by omega
  subst hyy
  have hdoy : doyOf mp dd = doyOf mp' dd' := by omega
  have hmp : mp = mp' := by rw [← b4, ← b4', hdoy]
  subst hmp
  have hdd : dd = dd' := by unfold doyOf at hdoy; omega
  have hmon : d.month = d'.month := by rw [a6, a6']
  have hyear : d.year = d'.year := by rw [a7, a7', hmon]
  have hday : d.day = d'.day := by rw [a5, a5', hdd]
  cases d; cases d'; simp only at hmon hyear hday; subst hmon hyear hday; rfl

/-- The calendar determines the date of every day, and conversely. -/
theorem isDay_iff (n : Int) (d : Date) : IsDay n d ↔ Valid d ∧ dayNum d = n := by
  constructor
  · intro h
    induction h with
    | epoch => exact ⟨by unfold Valid; decide, by decide⟩
    | succ _ ih => exact ⟨next_valid _ ih.1, by rw [dayNum_next _ ih.1, ih.2]⟩
    | pred hv _ ih =>
      refine ⟨hv, ?_⟩
      have := ih.2
      rw [dayNum_next _ hv] at this
      omega
  · rintro ⟨hv, rfl⟩
    have up : ∀ (k : Nat) (d : Date), Valid d → dayNum d = k → IsDay k d := by
      intro k
      induction k with
      | zero =>
        intro d hv hd
        have : d = ⟨1970, 1, 1⟩ := dayNum_inj hv (by unfold Valid; decide) (by rw [hd]; decide)
        subst this
        exact IsDay.epoch
      | succ k ih =>
        intro d hv hd
        obtain ⟨p, hp, rfl⟩ := prev_exists d hv
        have hp' := dayNum_next p hp
        have := IsDay.succ (ih p hp (by omega))
        rw [show ((k + 1 : Nat) : Int) = (k : Int) + 1 by omega]
        exact this
    have down : ∀ (k : Nat) (d : Date), Valid d → dayNum d = -k → IsDay (-k) d := by
      intro k
      induction k with
      | zero => intro d hv hd; exact up 0 d hv (by simpa using hd)
      | succ k ih =>
        intro d hv hd
        have hn := ih (next d) (next_valid d hv) (by rw [dayNum_next d hv, hd]; omega)
        exact IsDay.pred hv (by rw [show -((k + 1 : Nat) : Int) + 1 = -(k : Int) by omega]; exact hn)
    by_cases h : 0 ≤ dayNum d
    · have := up (dayNum d).toNat d hv (by omega)
      rwa [show ((dayNum d).toNat : Int) = dayNum d by omega] at this
    · have := down (-dayNum d).toNat d hv (by omega)
      rwa [show -((-dayNum d).toNat : Int) = dayNum d by omega] at this

/-! ## Theorems -/

/-- C52: `gmtime` then `timegm` gives the instant back, for all days that an `int` and the sums of `civil_from_days` can
hold (years up to 5.8 million in either direction), negative instants included. -/
theorem timegm_gmtime (t : Int) (h1 : -2147483648 ≤ t.tdiv 86400) (h2 : t.tdiv 86400 ≤ 2147483647 - 719468) :
    ∃ tm, gmtime t = .ok tm ∧ timegm tm = .ok t := by
  obtain ⟨d, hv, hd⟩ := dayNum_surj (t.tdiv 86400)
  obtain ⟨y, mp, dd, a1, a2, a3, a4, a5, a6, a7, b1, b2, b3, b4⟩ := march d hv
  have hyear : -8000000 < d.year ∧ d.year < 8000000 := by
    have := yoe_of_doe (y % 400) (doyOf mp dd) (by omega) (by omega) b1 b2 b3 _ rfl
    omega
  have hs : s32 (t.tdiv 86400) = t.tdiv 86400 := by unfold s32; split <;> omega
  have hc := civil_exact d hv (by omega) (by omega)
  have hd' := days_exact d hv (by omega) (by omega)
  unfold gmtime breakDown
  simp only [hs]
  rw [← hd, hc]
  simp only [Res.bind]
  rw [i32_ok (by omega) (by omega)]
  refine ⟨_, rfl, ?_⟩
  obtain ⟨v1, v2, v3, v4⟩ := hv
  have := monthLen_bounds d.year d.month
  unfold timegm
  simp only
  rw [show d.year - 1900 + 1900 = d.year by omega, show d.month - 1 + 1 = d.month by omega, i32_ok (by omega) (by omega)]
  simp only [Res.bind]
  rw [i32_ok (by omega) (by omega)]
  simp only
  have e1 : u32 d.month = d.month := by unfold u32; omega
  have e2 : u32 d.day = d.day := by unfold u32; omega
  rw [e1, e2, hd']
  simp only
  have k1 := Int.tmod_add_mul_tdiv (t.tdiv 3600) 24
  have k2 := Int.tmod_add_mul_tdiv (t.tdiv 60) 60
  have k3 := Int.tmod_add_mul_tdiv t 60
  have k4 : (t.tdiv 60).tdiv 60 = t.tdiv 3600 := tdiv_60_60 t
  have k5 : (t.tdiv 3600).tdiv 24 = t.tdiv 86400 := tdiv_3600_24 t
  have r1 := Int.tmod_lt_of_pos (t.tdiv 3600) (by decide : (0 : Int) < 24)
  have r2 := Int.lt_tmod_of_pos (t.tdiv 3600) (by decide : (0 : Int) < 24)
  have r3 := Int.tmod_lt_of_pos (t.tdiv 60) (by decide : (0 : Int) < 60)
  have r4 := Int.lt_tmod_of_pos (t.tdiv 60) (by decide : (0 : Int) < 60)
  rw [i32_ok (by omega) (by omega)]
  simp only
  rw [i32_ok (by omega) (by omega)]
  simp only
  rw [i32_ok (by omega) (by omega)]
  simp only
  congr 1
  omega

theorem weekday_exact (n : Int) : weekdayFromDays n = (n + 4) % 7 := by
  unfold weekdayFromDays
  split
  · rw [Int.tmod_eq_emod_of_nonneg (by omega)]
  · have h := Int.tmod_add_mul_tdiv (n + 5) 7
    rw [tdiv_cases _ 7 (by omega)] at h
    split at h <;> omega

/-- The day of the year, in a leap year or before March. -/
theorem yearday_exact (d : Date) (h : Valid d) (hy : 0 ≤ d.year ∧ d.year < 1073741824) (hl : leap d.year ∨ d.month ≤ 2) :
    IsDay (dayNum d - (yeardayFromDate d.year d.month d.day - 1)) ⟨d.year, 1, 1⟩ ∧
    0 ≤ yeardayFromDate d.year d.month d.day - 1 ∧ yeardayFromDate d.year d.month d.day - 1 ≤ 365 := by
  obtain ⟨y, m, dd⟩ := d
  obtain ⟨h1, h2, h3, h4⟩ := h
  simp only at h1 h2 h3 h4 hy hl ⊢
  have hn : yeardayFromDate y m dd = u32 (275 * m / 9 - u32 ((m + 9) / 12) + dd - 30) := by
    have e0 : u32 y = y := by unfold u32; omega
    have e1 : u32 (4 * y) = 4 * y := by unfold u32; omega
    have e2 : y - 4 * y / 4 + 2 = 2 := by omega
    unfold yeardayFromDate
    simp only [e0, e1, e2]
    rw [show u32 (1 + u32 2 / 3) = 1 by decide, Int.mul_one]
  have hml := monthLen_bounds y m
  rw [hn, isDay_iff]
  have hv : Valid ⟨y, 1, 1⟩ := ⟨by simp, by simp, by simp, by simp [monthLen]⟩
  have hm : m = 1 ∨ m = 2 ∨ m = 3 ∨ m = 4 ∨ m = 5 ∨ m = 6 ∨ m = 7 ∨ m = 8 ∨ m = 9 ∨ m = 10 ∨ m = 11 ∨ m = 12 := by omega
  have hu : u32 (275 * m / 9 - u32 ((m + 9) / 12) + dd - 30) = 275 * m / 9 - (m + 9) / 12 + dd - 30 := by
    have : u32 ((m + 9) / 12) = (m + 9) / 12 := by unfold u32; omega
    rw [this]
    unfold u32
    rcases hm with rfl | rfl | rfl | rfl | rfl | rfl | rfl | rfl | rfl | rfl | rfl | rfl <;> simp <;> omega
  rw [hu]
  refine ⟨⟨hv, ?_⟩, ?_, ?_⟩
  · rcases hm with rfl | rfl | rfl | rfl | rfl | rfl | rfl | rfl | rfl | rfl | rfl | rfl
    case inl => simp only [dayNum, doyOf]; simp; omega
    case inr.inl => simp only [dayNum, doyOf]; simp; omega
    all_goals
      simp only [leap_iff] at hl
      simp only [dayNum, doyOf]
      simp at hl ⊢
      omega
  · rcases hm with rfl | rfl | rfl | rfl | rfl | rfl | rfl | rfl | rfl | rfl | rfl | rfl <;> simp <;> omega
  · rcases hm with rfl | rfl | rfl | rfl | rfl | rfl | rfl | rfl | rfl | rfl | rfl | rfl <;>
      simp [monthLen] at h4 ⊢ <;> (try split at h4) <;> omega

/-- C52: `gmtime` of an instant that is not negative: the time of day is in its range and the date is that of the Gregorian
calendar, with the right weekday; the day of the year is right in leap years and before March (see
`yearday_violated`). -/
theorem gmtime_exact_partial (t : Int) (h0 : 0 ≤ t) (h2 : t / 86400 ≤ 2147483647 - 719468) : ∃ tm, gmtime t = .ok tm ∧
    (0 ≤ tm.sec ∧ tm.sec < 60) ∧ (0 ≤ tm.min ∧ tm.min < 60) ∧ (0 ≤ tm.hour ∧ tm.hour < 24) ∧
    t = t / 86400 * 86400 + tm.hour * 3600 + tm.min * 60 + tm.sec ∧
    IsDay (t / 86400) ⟨tm.year + 1900, tm.mon + 1, tm.mday⟩ ∧ tm.wday = (t / 86400 + 4) % 7 ∧
    (leap (tm.year + 1900) ∨ tm.mon ≤ 1 → IsDay (t / 86400 - tm.yday) ⟨tm.year + 1900, 1, 1⟩) := by
  have e : t.tdiv 86400 = t / 86400 := Int.tdiv_eq_ediv_of_nonneg h0
  obtain ⟨d, hv, hd⟩ := dayNum_surj (t / 86400)
  obtain ⟨y, mp, dd, a1, a2, a3, a4, a5, a6, a7, b1, b2, b3, b4⟩ := march d hv
  have hyear : 0 ≤ d.year ∧ d.year < 8000000 := by
    have := yoe_of_doe (y % 400) (doyOf mp dd) (by omega) (by omega) b1 b2 b3 _ rfl
    omega
  have hs : s32 (t / 86400) = t / 86400 := by unfold s32; split <;> omega
  have hc := civil_exact d hv (by omega) (by omega)
  unfold gmtime breakDown
  simp only [e, hs]
  rw [← hd, hc]
  simp only [Res.bind]
  rw [i32_ok (by omega) (by omega)]
  have h60 : 0 ≤ t / 60 := by omega
  have h3600 : 0 ≤ t / 3600 := by omega
  refine ⟨_, rfl, ?_⟩
  simp only [Int.tdiv_eq_ediv_of_nonneg h0, Int.tmod_eq_emod_of_nonneg h0, Int.tmod_eq_emod_of_nonneg h60,
    Int.tmod_eq_emod_of_nonneg h3600]
  rw [show d.year - 1900 + 1900 = d.year by omega, show d.month - 1 + 1 = d.month by omega]
  refine ⟨by omega, by omega, by omega, by omega, (isDay_iff _ _).2 ⟨hv, rfl⟩, weekday_exact _, fun hl => ?_⟩
  obtain ⟨k1, k2, k3⟩ := yearday_exact d hv (by omega) (by rcases hl with hl | hl; exact Or.inl hl; right; omega)
  have : s32 (yeardayFromDate d.year d.month d.day - 1) = yeardayFromDate d.year d.month d.day - 1 := by
    unfold s32; split <;> omega
  rw [this]
  exact k1

/-- 2024-12-31 23:59:59 UTC. -/
example : gmtime 1735689599 = .ok ⟨59, 59, 23, 31, 11, 124, 2, 365⟩ := by decide +kernel

/-- The first of March 2023 is given day 60 of the year instead of 59: `year - 4 * year / 4` is zero for every year. -/
theorem yearday_violated : gmtime 1677628800 = .ok ⟨0, 0, 0, 1, 2, 123, 3, 60⟩ ∧ ¬ leap 2023 ∧
    IsDay (1677628800 / 86400 - 59) ⟨2023, 1, 1⟩ := by
  refine ⟨by decide +kernel, by decide, (isDay_iff _ _).2 ⟨by unfold Valid; decide, by decide⟩⟩

/-- One second before the epoch has -1 seconds on the first of January 1970. -/
theorem negative_violated : gmtime (-1) = .ok ⟨-1, 0, 0, 1, 0, 70, 4, 0⟩ := by decide +kernel

/-- Past day 2^31 the conversion to `int` wraps and the instant is not recovered, although the year would fit. -/
theorem range_violated : (gmtime (2147483648 * 86400)).bind timegm = .ok (-2147483648 * 86400) := by decide +kernel

/-! ## timegm and mktime on other fields -/

/-- C52: for a month in its range, `timegm` gives the instant that the other fields denote, whether or not they are in
their ranges, as long as the numbers involved fit an `int`. -/
theorem timegm_fields_partial (tm : Tm) (hm : 0 ≤ tm.mon ∧ tm.mon ≤ 11) (hy : -5000000 ≤ tm.year ∧ tm.year ≤ 5000000)
    (hd : -100000000 ≤ tm.mday ∧ tm.mday ≤ 100000000) (hh : -500000 ≤ tm.hour ∧ tm.hour ≤ 500000)
    (hmi : -30000000 ≤ tm.min ∧ tm.min ≤ 30000000) : ∃ n, IsDay n ⟨tm.year + 1900, tm.mon + 1, 1⟩ ∧
    timegm tm = .ok ((n + (tm.mday - 1)) * 86400 + tm.hour * 3600 + tm.min * 60 + tm.sec) := by
  have hv : Valid ⟨tm.year + 1900, tm.mon + 1, 1⟩ :=
    ⟨by simp only; omega, by simp only; omega, by simp, by have := monthLen_bounds (tm.year + 1900) (tm.mon + 1); simp only; omega⟩
  refine ⟨_, (isDay_iff _ _).2 ⟨hv, rfl⟩, ?_⟩
  obtain ⟨y, mp, dd, a1, a2, a3, a4, a5, a6, a7, b1, b2, b3, b4⟩ := march _ hv
  obtain ⟨c1, c2, c3⟩ := yoe_of_doe (y % 400) (doyOf mp dd) (by omega) (by omega) b1 b2 b3 _ rfl
  simp only at a5 a6 a7
  have hyy : tm.year + 1900 - (if tm.mon + 1 ≤ 2 then 1 else 0) = y := by rw [a7]; omega
  have hmp : (if tm.mon + 1 > 2 then tm.mon + 1 - 3 else tm.mon + 1 + 9) = mp := by
    rw [a6]; split <;> split <;> omega
  have hyr : -5000000 ≤ y - 1899 ∧ y - 1900 ≤ 5000000 := by
    split at a7 <;> omega
  clear a6 a7
  unfold timegm
  rw [i32_ok (by omega) (by omega)]
  simp only [Res.bind]
  rw [i32_ok (by omega) (by omega)]
  simp only
  have hum : u32 (tm.mon + 1) = tm.mon + 1 := by unfold u32; omega
  have hdays : daysFromCivil (tm.year + 1900) (u32 (tm.mon + 1)) (u32 tm.mday) =
      .ok (dayNum ⟨tm.year + 1900, tm.mon + 1, 1⟩ + (tm.mday - 1)) := by
    unfold daysFromCivil
    rw [hum, hyy, hmp, i32_ok (by omega) (by omega)]
    simp only [Res.bind]
    rw [i32_ok (by split <;> omega) (by split <;> omega)]
    simp only [era_eq']
    have hyoe : u32 (y - y / 400 * 400) = y % 400 := by unfold u32; omega
    have e1 : u32 mp = mp := by unfold u32; omega
    have e2 : u32 (153 * mp) = 153 * mp := by unfold u32; omega
    have e3 : u32 (153 * mp + 2) = 153 * mp + 2 := by unfold u32; omega
    rw [hyoe, e1, e2, e3]
    have hs : s32 (u32 (y % 400 * 365 + y % 400 / 4 - y % 400 / 100 + u32 ((153 * mp + 2) / 5 + u32 tm.mday - 1))) =
        y % 400 * 365 + y % 400 / 4 - y % 400 / 100 + doyOf mp dd + (tm.mday - 1) := by
      have e4 : u32 (y % 400 * 365 + y % 400 / 4 - y % 400 / 100 + u32 ((153 * mp + 2) / 5 + u32 tm.mday - 1)) =
          u32 (y % 400 * 365 + y % 400 / 4 - y % 400 / 100 + doyOf mp dd + (tm.mday - 1)) := by
        unfold u32 doyOf; omega
      rw [e4]
      unfold s32 u32
      split <;> omega
    rw [hs, i32_ok (by omega) (by omega)]
    simp only
    rw [i32_ok (by omega) (by omega)]
    simp only
    rw [i32_ok (by omega) (by omega)]
    congr 1
    omega
  rw [hdays]
  simp only
  rw [i32_ok (by omega) (by omega)]
  simp only
  rw [i32_ok (by omega) (by omega)]
  simp only
  rw [i32_ok (by omega) (by omega)]
  simp only
  congr 1
  omega

example : timegm ⟨75, -1, 25, 0, 2, 124, 0, 0⟩ = timegm ⟨15, 0, 1, 1, 2, 124, 0, 0⟩ := by decide +kernel

/-- `mktime` leaves the structure as it is. -/
theorem mktime_unchanged (tm : Tm) (t : Int) (tm' : Tm) (h : mktime tm = .ok (t, tm')) : tm' = tm := by
  unfold mktime at h
  cases hg : timegm tm with
  | ok x => rw [hg] at h; simp only [Res.bind, Res.ok.injEq, Prod.mk.injEq] at h; exact h.2.symm
  | ub => rw [hg] at h; simp [Res.bind] at h
  | panic => rw [hg] at h; simp [Res.bind] at h

/-- Month 14 (March of the next year) (given for 2023) is taken one day late, and the structure is not normalised. -/
theorem mktime_violated : mktime ⟨0, 0, 0, 1, 14, 123, 0, 0⟩ = .ok (1709337600, ⟨0, 0, 0, 1, 14, 123, 0, 0⟩) ∧
    timegm ⟨0, 0, 0, 1, 2, 124, 0, 0⟩ = .ok 1709251200 := by decide +kernel

end Mlibc.Calendar
