import Verif.Time.Calendar

/-
The TZ variable: getnum, getoffset, getrule, parse_tz, do_tzset, time_from_rule, is_in_dst, unix_local_from_gmt and
localtime_r (options/ansi/generic/time.cpp L129-416, L546-581, L713-788, L881-902, L935-971). A text is the list of its
characters without the terminator. `isalpha` is a parameter, `isdigit` accepts the ten ASCII digits. `TZNAME_MAX` is the
parameter `max`. Rules that are stored before a later part turns out to be wrong are not modelled, because `daylight` is 0
then and they are not used. Zones from files are `Verif.Time.TzFile`. Property C69.
-/
namespace Mlibc.Tz
open Mlibc

/-! ## Model -/

/-- `isdigit`. -/
def isDigit (c : Nat) : Bool := 48 ≤ c && c ≤ 57

/-- The loop of `getnum` after the first digit, `num` so far; the types are wide enough for ten times the limit. L139-148 -/
def numLoop (min max : Nat) : List Nat → Nat → Option (Nat × List Nat)
  | [], num => if num > max then none else if num < min then none else some (num, [])
  | c :: s, num =>
    if num > max then none
    else if isDigit c then numLoop min max s (num * 10 + (c - 48))
    else if num < min then none else some (num, c :: s)

/-- `getnum`: the number and what follows. L132-149 -/
def getnum (min max : Nat) : List Nat → Option (Nat × List Nat)
  | [] => none
  | c :: s => if isDigit c then numLoop min max s (c - 48) else none

/-- `getoffset` after the sign. L163-185 -/
def getTime (s : List Nat) : Option (Int × List Nat) :=
  (getnum 0 (24 * 7 - 1) s).bind fun h =>
  if h.2.head? = some 58 then
    (getnum 0 59 (h.2.drop 1)).bind fun m =>
    if m.2.head? = some 58 then
      (getnum 0 60 (m.2.drop 1)).bind fun x => some (h.1 * 60 * 60 + m.1 * 60 + x.1, x.2)
    else some (h.1 * 60 * 60 + m.1 * 60, m.2)
  else some (h.1 * 60 * 60, h.2)

/-- `getoffset`. L154-191 -/
def getoffset (s : List Nat) : Option (Int × List Nat) :=
  if s.head? = some 45 then (getTime (s.drop 1)).bind fun r => some (r.1 * -1, r.2)
  else if s.head? = some 43 then getTime (s.drop 1)
  else getTime s

/-- A date of a rule: Jn, n, Mm.w.d. L193-206 -/
inductive Date
  | julian (n : Nat)
  | day (n : Nat)
  | month (m w d : Nat)
  deriving DecidableEq, Repr

/-- A rule: a date and a time of the day. L200-206 -/
structure Rule where
  date : Date
  time : Int
  deriving DecidableEq, Repr

/-- The date of a rule. L212-238 -/
def getdate (s : List Nat) : Option (Date × List Nat) :=
  if s.head? = some 74 then (getnum 1 365 (s.drop 1)).bind fun r => some (.julian r.1, r.2)
  else if s.head? = some 77 then
    (getnum 1 12 (s.drop 1)).bind fun m =>
    if m.2.head? ≠ some 46 then none
    else (getnum 1 5 (m.2.drop 1)).bind fun w =>
      if w.2.head? ≠ some 46 then none
      else (getnum 0 6 (w.2.drop 1)).bind fun d => some (.month m.1 w.1 d.1, d.2)
  else if isDigit (s.headD 0) then (getnum 0 365 s).bind fun r => some (.day r.1, r.2)
  else none

/-- `getrule`. L211-249 -/
def getrule (s : List Nat) : Option (Rule × List Nat) :=
  (getdate s).bind fun d =>
  if d.2.head? = some 47 then (getoffset (d.2.drop 1)).bind fun t => some (⟨d.1, t.1⟩, t.2)
  else some (⟨d.1, 2 * 60 * 60⟩, d.2)

/-- The loop over a name: its length, and what follows the name. L278-305, L347-374 -/
def nameLoop (isAlpha : Nat → Bool) (quoted : Bool) (max : Nat) : List Nat → Nat → Option (Nat × List Nat)
  | [], len => some (len, [])
  | c :: s, len =>
    if len > max then none
    else if isAlpha c then nameLoop isAlpha quoted max s (len + 1)
    else if quoted = true ∧ (c = 43 ∨ c = 45 ∨ isDigit c = true) then nameLoop isAlpha quoted max s (len + 1)
    else if len < 3 then none
    else if quoted then (if c = 62 then some (len, s) else none)
    else some (len, c :: s)

/-- A name, quoted or not. L269-305, L338-374 -/
def getname (isAlpha : Nat → Bool) (max : Nat) (s : List Nat) : Option (List Nat × List Nat) :=
  if s.head? = some 60 then (nameLoop isAlpha true max (s.drop 1) 0).bind fun r => some ((s.drop 1).take r.1, r.2)
  else (nameLoop isAlpha false max s 0).bind fun r => some (s.take r.1, r.2)

/-- What the variables `tzname`, `timezone`, `daylight`, `tt_infos` and `rules` say. `dst` is `none` if `daylight` is 0.
Offsets are east of Greenwich, `-timezone`. L257-259, L46-50 -/
structure Zone where
  name : List Nat
  offset : Int
  dstName : List Nat
  dst : Option (Int × Rule × Rule)
  deriving DecidableEq, Repr

/-- `TZ_DEFAULT_RULE_STRING`. L33 -/
def defaultRules : List Nat := [44, 77, 51, 46, 50, 46, 48, 44, 77, 49, 49, 46, 49, 46, 48]

/-- The two rules at the end. L392-407 -/
def getrules (s : List Nat) : Option (Rule × Rule) :=
  if s.head? = some 44 then
    (getrule (s.drop 1)).bind fun r1 =>
    if r1.2.head? ≠ some 44 then none
    else (getrule (r1.2.drop 1)).bind fun r2 => if r2.2 ≠ [] then none else some (r1.1, r2.1)
  else none

/-- The offset of the summer time and the rules, `off` the variable `offset` (west of Greenwich). L381-413 -/
def getdst (off : Int) (s : List Nat) : Option (Int × Rule × Rule) :=
  (if s ≠ [] ∧ s.head? ≠ some 44 then getoffset s else some (off - 60 * 60, s)).bind fun o =>
  (getrules (if o.2 = [] then defaultRules else o.2)).bind fun r => some (-o.1, r.1, r.2)

/-- `parse_tz`: `none` is the return value `true`. The names are copied into `max + 1` bytes. L261-416 -/
def parseTz (isAlpha : Nat → Bool) (max : Nat) (tz : List Nat) : Res (Option Zone) :=
  let tz := if tz.head? = some 58 then tz.drop 1 else tz
  match (getname isAlpha max tz).bind fun n => (getoffset n.2).bind fun o => some (n.1, o.1, o.2) with
  | none => .ok none
  | some (name, off, rest) =>
    if name.length > max then .ub
    else if rest = [] then .ok (some ⟨name, -off, name, none⟩)
    else match getname isAlpha max rest with
      | none => .ok (some ⟨name, -off, [], none⟩)
      | some (name', rest) =>
        if name'.length > max then .ub
        else .ok (some ⟨name, -off, name', getdst off rest⟩)

/-- `is_leap_year`. L713-715 -/
def isLeap (y : Int) : Bool := y.tmod 4 = 0 ∧ (y.tmod 100 ≠ 0 ∨ y.tmod 400 = 0)

/-- A `struct tm` of zeros but for the year. L726-727, L732-733, L740-741 -/
def yearOnly (year : Int) : Calendar.Tm := ⟨0, 0, 0, 0, 0, year - 1900, 0, 0⟩

/-- `time_from_rule`. L719-765 -/
def timeFromRule (rule : Rule) (year : Int) : Res Int :=
  match rule.date with
  | .julian n =>
    let day := if isLeap year = true ∧ n - 1 ≥ 60 then n else n - 1
    (Calendar.mktime { yearOnly year with yday := day }).bind fun r => .ok r.1
  | .day n => (Calendar.mktime { yearOnly year with yday := n }).bind fun r => .ok r.1
  | .month m w d =>
    (Calendar.mktime { yearOnly year with mon := m - 1, mday := 1 }).bind fun t =>
    let day : Int := 1 + (7 + (d : Int) - t.2.wday).tmod 7 + ((w : Int) - 1) * 7
    (Calendar.mktime { t.2 with mday := day }).bind fun t =>
    let day := if w = 5 ∧ t.2.mon ≠ (m : Int) - 1 then day - 7 else day
    (Calendar.mktime { t.2 with year := year - 1900, mon := m - 1, mday := day, hour := 0, min := 0, sec := 0 }).bind fun r => .ok r.1

/-- `is_in_dst`; both transitions are cut to `int`. L768-788 -/
def isInDst (r : Rule × Rule) (t : Int) : Res Bool :=
  (Calendar.civilFromDays (t.tdiv (60 * 60 * 24))).bind fun c =>
  (timeFromRule r.1 c.1).bind fun s => (timeFromRule r.2 c.1).bind fun e =>
  let s := Calendar.s32 s
  let e := Calendar.s32 e
  if s ≤ e then .ok (decide (t ≥ s ∧ t < e)) else .ok (decide (t ≥ s ∨ t < e))

/-- `unix_local_from_gmt` for a zone from a text: offset, summer time, name. L891-901 -/
def localOf (z : Zone) (t : Int) : Res (Int × Bool × List Nat) :=
  match z.dst with
  | some (off, r) => (isInDst r t).bind fun b => if b then .ok (off, true, z.dstName) else .ok (z.offset, false, z.name)
  | none => .ok (z.offset, false, z.name)

/-- `localtime_r` with such a zone: the fields, `tm_gmtoff`, `tm_isdst`, `tm_zone`. L935-971 -/
def localtime (z : Zone) (t : Int) : Res (Calendar.Tm × Int × Bool × List Nat) :=
  (localOf z t).bind fun l => (Calendar.localtime l.1 t).bind fun tm => .ok (tm, l)

/-- The text that `do_tzset` parses for the value of TZ. L547-551 -/
def tzText : Option (List Nat) → List Nat
  | none => [47, 101, 116, 99, 47, 108, 111, 99, 97, 108, 116, 105, 109, 101]
  | some [] => [85, 84, 67, 48]
  | some s => s

/-! ## Specification: the format of POSIX -/
namespace Spec

def digit (c : Nat) : Prop := 48 ≤ c ∧ c ≤ 57

/-- The number that digits denote. -/
def value (ds : List Nat) : Nat := ds.foldl (fun v c => 10 * v + (c - 48)) 0

/-- `Number lo hi s v r`: `s` is a number `v` between `lo` and `hi`, followed by `r`. -/
def Number (lo hi : Nat) (s : List Nat) (v : Nat) (r : List Nat) : Prop :=
  ∃ ds, s = ds ++ r ∧ ds ≠ [] ∧ (∀ c ∈ ds, digit c) ∧ (∀ c, r.head? = some c → ¬ digit c) ∧ v = value ds ∧ lo ≤ v ∧ v ≤ hi

/-- `hh[:mm[:ss]]` with up to 167 hours, in seconds. -/
inductive Time : List Nat → Int → List Nat → Prop
  | h {s h r} : Number 0 167 s h r → r.head? ≠ some 58 → Time s (3600 * h) r
  | hm {s h m r r'} : Number 0 167 s h (58 :: r) → Number 0 59 r m r' → r'.head? ≠ some 58 → Time s (3600 * h + 60 * m) r'
  | hms {s h m x r r' r''} : Number 0 167 s h (58 :: r) → Number 0 59 r m (58 :: r') → Number 0 60 r' x r'' →
      Time s (3600 * h + 60 * m + x) r''

/-- `[+-]hh[:mm[:ss]]` -/
inductive Offset : List Nat → Int → List Nat → Prop
  | plain {s v r} : Time s v r → Offset s v r
  | plus {s v r} : Time s v r → Offset (43 :: s) v r
  | minus {s v r} : Time s v r → Offset (45 :: s) (-v) r

/-- `Jn`, `n`, `Mm.w.d` -/
inductive IsDate : List Nat → Date → List Nat → Prop
  | julian {s n r} : Number 1 365 s n r → IsDate (74 :: s) (.julian n) r
  | day {s n r} : Number 0 365 s n r → IsDate s (.day n) r
  | month {s m w d r r' r''} : Number 1 12 s m (46 :: r) → Number 1 5 r w (46 :: r') → Number 0 6 r' d r'' →
      IsDate (77 :: s) (.month m w d) r''

/-- `date[/time]`; two o'clock if there is no time. -/
inductive IsRule : List Nat → Rule → List Nat → Prop
  | date {s d r} : IsDate s d r → r.head? ≠ some 47 → IsRule s ⟨d, 7200⟩ r
  | time {s d r t r'} : IsDate s d (47 :: r) → Offset r t r' → IsRule s ⟨d, t⟩ r'

/-- `,start,end` -/
inductive Rules : List Nat → Rule × Rule → Prop
  | two {s r1 r r2} : IsRule s r1 (44 :: r) → IsRule r r2 [] → Rules (44 :: s) (r1, r2)

/-- Three to `max` letters, or letters, digits and signs in angle brackets. -/
inductive Name (isAlpha : Nat → Bool) (max : Nat) : List Nat → List Nat → List Nat → Prop
  | plain {n r} : (∀ c ∈ n, isAlpha c = true) → 3 ≤ n.length → n.length ≤ max →
      (∀ c, r.head? = some c → isAlpha c = false) → Name isAlpha max (n ++ r) n r
  | quoted {n r} : (∀ c ∈ n, isAlpha c = true ∨ c = 43 ∨ c = 45 ∨ digit c) → 3 ≤ n.length → n.length ≤ max →
      Name isAlpha max (60 :: (n ++ 62 :: r)) n r

/-- Second Sunday in March to first Sunday in November, as in New York. -/
def newYork : Rule × Rule := (⟨.month 3 2 0, 7200⟩, ⟨.month 11 1 0, 7200⟩)

/-- What stands behind the name of the summer time: its offset (one hour ahead if there is none), the rules. `w` is
the offset of the standard time, west of Greenwich. -/
inductive Summer (w : Int) : List Nat → Int → Rule × Rule → Prop
  | none : Summer w [] (w - 3600) newYork
  | rules {s r} : Rules s r → Summer w s (w - 3600) r
  | offset {s v} : Offset s v [] → Summer w s v newYork
  | both {s v r rs} : Offset s v r → Rules r rs → Summer w s v rs

/-- The zone that a text stands for. -/
inductive IsZone (isAlpha : Nat → Bool) (max : Nat) : List Nat → Zone → Prop
  | fixed {s n r w} : Name isAlpha max s n r → Offset r w [] → IsZone isAlpha max s ⟨n, -w, n, none⟩
  | summer {s n r w r' n' r'' v rs} : Name isAlpha max s n r → Offset r w r' → Name isAlpha max r' n' r'' →
      Summer w r'' v rs → IsZone isAlpha max s ⟨n, -w, n', some (-v, rs)⟩

end Spec
open Spec

/-- The letters do not include digits and punctuation. -/
structure Letters (isAlpha : Nat → Bool) : Prop where
  digit : ∀ c, digit c → isAlpha c = false
  punct : ∀ c ∈ [43, 44, 45, 58, 60, 62, 47, 46], isAlpha c = false

/-! ## Proof: numbers, offsets, rules -/

theorem isDigit_iff (c : Nat) : isDigit c = true ↔ digit c := by
  unfold isDigit digit
  simp

theorem fold_value (ds : List Nat) (v : Nat) : v ≤ ds.foldl (fun v c => 10 * v + (c - 48)) v := by
  induction ds generalizing v with
  | nil => exact Nat.le_refl _
  | cons c ds ih => exact Nat.le_trans (show v ≤ 10 * v + (c - 48) by omega) (ih _)

theorem numLoop_iff (min max : Nat) (s : List Nat) (num v : Nat) (r : List Nat) : numLoop min max s num = some (v, r) ↔
    ∃ ds, s = ds ++ r ∧ (∀ c ∈ ds, digit c) ∧ (∀ c, r.head? = some c → ¬ digit c) ∧
      v = ds.foldl (fun v c => 10 * v + (c - 48)) num ∧ min ≤ v ∧ v ≤ max := by
  induction s generalizing num with
  | nil =>
    simp only [numLoop]
    constructor
    · intro h
      split at h
      · cases h
      split at h
      · cases h
      injection h with h
      injection h with h1 h2
      subst h1; subst h2
      exact ⟨[], rfl, by simp, by simp, rfl, by omega, by omega⟩
    · rintro ⟨ds, h, -, -, h1, h2, h3⟩
      obtain ⟨rfl, rfl⟩ := List.append_eq_nil_iff.1 h.symm
      simp only [List.foldl_nil] at h1
      subst h1
      rw [if_neg (by omega), if_neg (by omega)]
  | cons c s ih =>
    simp only [numLoop]
    by_cases hm : num > max
    · rw [if_pos hm]
      refine ⟨fun h => (by cases h), ?_⟩
      rintro ⟨ds, -, -, -, h1, -, h3⟩
      have := fold_value ds num
      omega
    · rw [if_neg hm]
      by_cases hd : digit c
      · rw [if_pos ((isDigit_iff c).2 hd), ih]
        constructor
        · rintro ⟨ds, rfl, h1, h2, h3, h4⟩
          refine ⟨c :: ds, rfl, ?_, h2, ?_, h4⟩
          · intro x hx
            rcases List.mem_cons.1 hx with rfl | hx
            · exact hd
            · exact h1 x hx
          · rw [List.foldl_cons, Nat.mul_comm 10 num]; exact h3
        · rintro ⟨ds, h, h1, h2, h3, h4⟩
          match ds, h with
          | [], h => exact absurd hd (h2 c (by rw [← List.nil_append r, ← h]; rfl))
          | x :: ds, h =>
            injection h with e1 e2
            subst e1
            refine ⟨ds, e2, fun y hy => h1 y (by simp [hy]), h2, ?_, h4⟩
            rw [List.foldl_cons, Nat.mul_comm 10 num] at h3
            exact h3
      · rw [if_neg (by rw [isDigit_iff]; exact hd)]
        constructor
        · intro h
          split at h
          · cases h
          · injection h with h
            injection h with h1 h2
            subst h1; subst h2
            exact ⟨[], rfl, by simp, by rintro x ⟨⟩; exact hd, rfl, by omega, by omega⟩
        · rintro ⟨ds, h, h1, h2, h3, h4⟩
          match ds, h with
          | [], h =>
            simp only [List.foldl_nil] at h3
            subst h3
            rw [if_neg (by omega), h]
            rfl
          | x :: ds, h =>
            injection h with e1 e2
            subst e1
            exact absurd (h1 c (by simp)) hd

theorem getnum_iff (min max : Nat) (s : List Nat) (v : Nat) (r : List Nat) : getnum min max s = some (v, r) ↔ Number min max s v r := by
  unfold Number value
  match s with
  | [] =>
    simp only [getnum]
    refine ⟨fun h => (by cases h), ?_⟩
    rintro ⟨ds, h, hne, -⟩
    exact absurd (List.append_eq_nil_iff.1 h.symm).1 hne
  | c :: s =>
    simp only [getnum]
    by_cases hd : digit c
    · rw [if_pos ((isDigit_iff c).2 hd), numLoop_iff]
      constructor
      · rintro ⟨ds, rfl, h1, h2, h3, h4⟩
        refine ⟨c :: ds, rfl, by simp, ?_, h2, ?_, h4⟩
        · intro x hx
          rcases List.mem_cons.1 hx with rfl | hx
          · exact hd
          · exact h1 x hx
        · rw [List.foldl_cons, Nat.mul_zero, Nat.zero_add]; exact h3
      · rintro ⟨ds, h, hne, h1, h2, h3, h4⟩
        match ds, h with
        | x :: ds, h =>
          injection h with e1 e2
          subst e1
          refine ⟨ds, e2, fun y hy => h1 y (by simp [hy]), h2, ?_, h4⟩
          rw [List.foldl_cons, Nat.mul_zero, Nat.zero_add] at h3
          exact h3
    · rw [if_neg (by rw [isDigit_iff]; exact hd)]
      refine ⟨fun h => (by cases h), ?_⟩
      rintro ⟨ds, h, hne, h1, -⟩
      match ds, h with
      | x :: ds, h =>
        injection h with e1 e2
        subst e1
        exact absurd (h1 c (by simp)) hd

theorem Spec.Number.first {lo hi v : Nat} {s r : List Nat} (h : Number lo hi s v r) : ∃ c s', s = c :: s' ∧ digit c := by
  obtain ⟨ds, rfl, hne, h1, -⟩ := h
  obtain ⟨c, ds', rfl⟩ := List.exists_cons_of_ne_nil hne
  exact ⟨c, ds' ++ r, rfl, h1 c (by simp)⟩

theorem head_some {s : List Nat} {c : Nat} (h : s.head? = some c) : s = c :: s.drop 1 := by
  match s, h with
  | x :: s, h => injection h with h; subst h; rfl

theorem bind_some {α β : Type} {o : Option α} {f : α → Option β} {b : β} : o.bind f = some b ↔ ∃ a, o = some a ∧ f a = some b := by
  cases o <;> simp

theorem getTime_iff (s : List Nat) (v : Int) (r : List Nat) : getTime s = some (v, r) ↔ Time s v r := by
  unfold getTime
  rw [bind_some]
  constructor
  · rintro ⟨⟨h, r1⟩, h1, h2⟩
    rw [getnum_iff] at h1
    simp only [] at h2
    split at h2
    · rename_i hc
      rw [bind_some] at h2
      obtain ⟨⟨m, r2⟩, h3, h4⟩ := h2
      rw [getnum_iff] at h3
      rw [head_some hc] at h1
      simp only [] at h4
      split at h4
      · rename_i hc2
        rw [bind_some] at h4
        obtain ⟨⟨x, r3⟩, h5, h6⟩ := h4
        rw [getnum_iff] at h5
        rw [head_some hc2] at h3
        injection h6 with h6
        injection h6 with e1 e2
        subst e2
        have := Time.hms h1 h3 h5
        rwa [show v = 3600 * h + 60 * m + x by omega]
      · rename_i hc2
        injection h4 with h4
        injection h4 with e1 e2
        subst e2
        have := Time.hm h1 h3 hc2
        rwa [show v = 3600 * h + 60 * m by omega]
    · rename_i hc
      injection h2 with h2
      injection h2 with e1 e2
      subst e2
      have := Time.h h1 hc
      rwa [show v = 3600 * h by omega]
  · intro ht
    cases ht with
    | @h h _ h1 h2 =>
      refine ⟨(h, r), (getnum_iff _ _ _ _ _).2 h1, ?_⟩
      simp only []
      rw [if_neg h2]
      congr 2
      omega
    | @hm h m r1 _ h1 h2 h3 =>
      refine ⟨(h, 58 :: r1), (getnum_iff _ _ _ _ _).2 h1, ?_⟩
      simp only [List.head?_cons, if_true, List.drop_succ_cons, List.drop_zero]
      rw [bind_some]
      refine ⟨(m, r), (getnum_iff _ _ _ _ _).2 h2, ?_⟩
      simp only []
      rw [if_neg h3]
      congr 2
      omega
    | @hms h m x r1 r2 _ h1 h2 h3 =>
      refine ⟨(h, 58 :: r1), (getnum_iff _ _ _ _ _).2 h1, ?_⟩
      simp only [List.head?_cons, if_true, List.drop_succ_cons, List.drop_zero]
      rw [bind_some]
      refine ⟨(m, 58 :: r2), (getnum_iff _ _ _ _ _).2 h2, ?_⟩
      simp only [List.head?_cons, if_true, List.drop_succ_cons, List.drop_zero]
      rw [bind_some]
      refine ⟨(x, r), (getnum_iff _ _ _ _ _).2 h3, ?_⟩
      congr 2
      omega

theorem Time.first {v : Int} {s r : List Nat} (h : Time s v r) : ∃ c s', s = c :: s' ∧ digit c := by
  cases h with
  | h h1 _ => exact Number.first h1
  | hm h1 _ _ => exact Number.first h1
  | hms h1 _ _ => exact Number.first h1

theorem getoffset_iff (s : List Nat) (v : Int) (r : List Nat) : getoffset s = some (v, r) ↔ Offset s v r := by
  unfold getoffset
  constructor
  · intro h
    split at h
    · rename_i hc
      rw [bind_some] at h
      obtain ⟨⟨w, r'⟩, h1, h2⟩ := h
      rw [getTime_iff] at h1
      injection h2 with h2
      injection h2 with e1 e2
      subst e2
      rw [head_some hc, show v = -w by omega]
      exact .minus h1
    · split at h
      · rename_i hc
        rw [getTime_iff] at h
        rw [head_some hc]
        exact .plus h
      · rw [getTime_iff] at h
        exact .plain h
  · intro h
    cases h with
    | plain h =>
      obtain ⟨c, s', rfl, hc⟩ := Time.first h
      unfold digit at hc
      rw [if_neg (by simp; omega), if_neg (by simp; omega), getTime_iff]
      exact h
    | plus h =>
      rw [if_neg (by simp), if_pos (by simp), getTime_iff]
      exact h
    | @minus s w _ h =>
      rw [if_pos (by simp), bind_some]
      refine ⟨(w, r), (getTime_iff _ _ _).2 h, ?_⟩
      congr 2
      omega

theorem getdate_iff (s : List Nat) (d : Date) (r : List Nat) : getdate s = some (d, r) ↔ IsDate s d r := by
  unfold getdate
  constructor
  · intro h
    split at h
    · rename_i hc
      rw [bind_some] at h
      obtain ⟨⟨n, r'⟩, h1, h2⟩ := h
      rw [getnum_iff] at h1
      injection h2 with h2
      injection h2 with e1 e2
      subst e1; subst e2
      rw [head_some hc]
      exact .julian h1
    · split at h
      · rename_i hc
        rw [bind_some] at h
        obtain ⟨⟨m, r1⟩, h1, h2⟩ := h
        rw [getnum_iff] at h1
        simp only [] at h2
        split at h2
        · cases h2
        · rename_i hd
          simp only [ne_eq, Decidable.not_not] at hd
          rw [bind_some] at h2
          obtain ⟨⟨w, r2⟩, h3, h4⟩ := h2
          rw [getnum_iff] at h3
          simp only [] at h4
          split at h4
          · cases h4
          · rename_i he
            simp only [ne_eq, Decidable.not_not] at he
            rw [bind_some] at h4
            obtain ⟨⟨x, r3⟩, h5, h6⟩ := h4
            rw [getnum_iff] at h5
            injection h6 with h6
            injection h6 with e1 e2
            subst e1; subst e2
            rw [head_some hc]
            rw [head_some hd] at h1
            rw [head_some he] at h3
            exact .month h1 h3 h5
      · split at h
        · rw [bind_some] at h
          obtain ⟨⟨n, r'⟩, h1, h2⟩ := h
          rw [getnum_iff] at h1
          injection h2 with h2
          injection h2 with e1 e2
          subst e1; subst e2
          exact .day h1
        · cases h
  · intro h
    cases h with
    | @julian s n r h =>
      rw [if_pos (by simp), bind_some]
      exact ⟨(n, r), (getnum_iff _ _ _ _ _).2 h, rfl⟩
    | @month s m w d r1 r2 r h1 h2 h3 =>
      rw [if_neg (by simp), if_pos (by simp), bind_some]
      refine ⟨(m, 46 :: r1), (getnum_iff _ _ _ _ _).2 h1, ?_⟩
      simp only [List.head?_cons, ne_eq, not_true_eq_false, if_false]
      rw [bind_some]
      refine ⟨(w, 46 :: r2), (getnum_iff _ _ _ _ _).2 h2, ?_⟩
      simp only [List.head?_cons, ne_eq, not_true_eq_false, if_false]
      rw [bind_some]
      exact ⟨(d, r), (getnum_iff _ _ _ _ _).2 h3, rfl⟩
    | @day s n r h =>
      obtain ⟨c, s', rfl, hc⟩ := Number.first h
      have hc' := hc
      unfold digit at hc'
      rw [if_neg (by simp; omega), if_neg (by simp; omega), if_pos (show isDigit ((c :: s').headD 0) = true from (isDigit_iff c).2 hc), bind_some]
      exact ⟨(n, r), (getnum_iff _ _ _ _ _).2 h, rfl⟩

theorem getrule_iff (s : List Nat) (x : Rule) (r : List Nat) : getrule s = some (x, r) ↔ IsRule s x r := by
  unfold getrule
  rw [bind_some]
  constructor
  · rintro ⟨⟨d, r1⟩, h1, h2⟩
    rw [getdate_iff] at h1
    simp only [] at h2
    split at h2
    · rename_i hc
      rw [bind_some] at h2
      obtain ⟨⟨t, r2⟩, h3, h4⟩ := h2
      rw [getoffset_iff] at h3
      injection h4 with h4
      injection h4 with e1 e2
      subst e1; subst e2
      rw [head_some hc] at h1
      exact .time h1 h3
    · rename_i hc
      injection h2 with h2
      injection h2 with e1 e2
      subst e1; subst e2
      exact .date h1 hc
  · intro h
    cases h with
    | @date d r h hc =>
      refine ⟨(d, r), (getdate_iff _ _ _).2 h, ?_⟩
      simp only []
      rw [if_neg hc]
      rfl
    | @time d r1 t r h h' =>
      refine ⟨(d, 47 :: r1), (getdate_iff _ _ _).2 h, ?_⟩
      simp only [List.head?_cons, if_true, List.drop_succ_cons, List.drop_zero]
      rw [bind_some]
      exact ⟨(t, r), (getoffset_iff _ _ _).2 h', rfl⟩

theorem getrules_iff (s : List Nat) (x : Rule × Rule) : getrules s = some x ↔ Rules s x := by
  unfold getrules
  constructor
  · intro h
    split at h
    · rename_i hc
      rw [bind_some] at h
      obtain ⟨⟨r1, s1⟩, h1, h2⟩ := h
      rw [getrule_iff] at h1
      simp only [] at h2
      split at h2
      · cases h2
      · rename_i hd
        simp only [ne_eq, Decidable.not_not] at hd
        rw [bind_some] at h2
        obtain ⟨⟨r2, s2⟩, h3, h4⟩ := h2
        rw [getrule_iff] at h3
        simp only [] at h4
        split at h4
        · cases h4
        · rename_i he
          simp only [ne_eq, Decidable.not_not] at he
          injection h4 with h4
          subst h4; subst he
          rw [head_some hc]
          rw [head_some hd] at h1
          exact .two h1 h3
    · cases h
  · intro h
    cases h with
    | @two s r1 r r2 h1 h2 =>
      rw [if_pos (by simp), bind_some]
      refine ⟨(r1, 44 :: r), (getrule_iff _ _ _).2 h1, ?_⟩
      simp only [List.head?_cons, ne_eq, not_true_eq_false, if_false]
      rw [bind_some]
      exact ⟨(r2, []), (getrule_iff _ _ _).2 h2, rfl⟩

theorem default_newYork : getrules defaultRules = some newYork := by decide +kernel

theorem Offset.first {v : Int} {s r : List Nat} (h : Offset s v r) : ∃ c s', s = c :: s' ∧ (digit c ∨ c = 43 ∨ c = 45) := by
  cases h with
  | plain h =>
    obtain ⟨c, s', rfl, hc⟩ := Time.first h
    exact ⟨c, s', rfl, .inl hc⟩
  | plus h => exact ⟨_, _, rfl, .inr (.inl rfl)⟩
  | minus h => exact ⟨_, _, rfl, .inr (.inr rfl)⟩

theorem getdst_iff (w : Int) (s : List Nat) (v : Int) (rs : Rule × Rule) : getdst w s = some (-v, rs) ↔ Summer w s v rs := by
  have hfin : ∀ (o : Int) (s : List Nat), ((getrules (if s = [] then defaultRules else s)).bind fun r => some (-o, r.1, r.2)) = some (-v, rs) ↔
      o = v ∧ ((s = [] ∧ rs = newYork) ∨ Rules s rs) := by
    intro o s
    by_cases hs : s = []
    · subst hs
      rw [if_pos rfl, default_newYork]
      constructor
      · intro h
        injection h with h
        injection h with e1 e2
        exact ⟨by omega, .inl ⟨rfl, e2.symm⟩⟩
      · rintro ⟨rfl, ⟨-, rfl⟩ | h⟩
        · rfl
        · cases h
    · rw [if_neg hs, bind_some]
      constructor
      · rintro ⟨a, h1, h2⟩
        injection h2 with h2
        injection h2 with e1 e2
        have : a = rs := e2
        subst this
        exact ⟨by omega, .inr ((getrules_iff _ _).1 h1)⟩
      · rintro ⟨rfl, ⟨h, -⟩ | h⟩
        · exact absurd h hs
        · exact ⟨rs, (getrules_iff _ _).2 h, rfl⟩
  unfold getdst
  rw [bind_some]
  constructor
  · rintro ⟨⟨o, s'⟩, h1, h2⟩
    rw [hfin] at h2
    obtain ⟨rfl, h2⟩ := h2
    split at h1
    · rw [getoffset_iff] at h1
      rcases h2 with ⟨h3, rfl⟩ | h2
      · have h3 : s' = [] := h3
        subst h3
        exact .offset h1
      · exact .both h1 h2
    · injection h1 with h1
      injection h1 with e1 e2
      subst e1; subst e2
      rcases h2 with ⟨h3, rfl⟩ | h2
      · have h3 : s = [] := h3
        subst h3
        exact .none
      · exact .rules h2
  · intro h
    cases h with
    | none => exact ⟨_, by rw [if_neg (by simp)], (hfin _ _).2 ⟨by omega, .inl ⟨rfl, rfl⟩⟩⟩
    | rules h =>
      refine ⟨(w - 60 * 60, s), ?_, (hfin _ _).2 ⟨by omega, .inr h⟩⟩
      cases h
      rw [if_neg (by simp)]
    | offset h =>
      refine ⟨(v, []), ?_, (hfin _ _).2 ⟨rfl, .inl ⟨rfl, rfl⟩⟩⟩
      obtain ⟨c, s', rfl, hc⟩ := Offset.first h
      unfold digit at hc
      rw [if_pos (by simp; omega), getoffset_iff]
      exact h
    | @both _ _ r _ h h' =>
      refine ⟨(v, r), ?_, (hfin _ _).2 ⟨rfl, .inr h'⟩⟩
      obtain ⟨c, s', rfl, hc⟩ := Offset.first h
      unfold digit at hc
      rw [if_pos (by simp; omega), getoffset_iff]
      exact h

/-! ## Proof: names -/

theorem nameLoop_some {isAlpha : Nat → Bool} {quoted : Bool} {max : Nat} {s : List Nat} {len k : Nat} {r : List Nat}
    (h : nameLoop isAlpha quoted max s len = some (k, r)) : ∃ n, k = len + n.length ∧
      (∀ c ∈ n, isAlpha c = true ∨ (quoted = true ∧ (c = 43 ∨ c = 45 ∨ digit c))) ∧
      ((s = n ∧ r = []) ∨ (3 ≤ k ∧ k ≤ max ∧ (quoted = true → s = n ++ 62 :: r) ∧
        (quoted = false → s = n ++ r ∧ r ≠ [] ∧ ∀ c, r.head? = some c → isAlpha c = false))) := by
  induction s generalizing len with
  | nil =>
    simp only [nameLoop] at h
    injection h with h
    injection h with h1 h2
    subst h1; subst h2
    exact ⟨[], rfl, by simp, .inl ⟨rfl, rfl⟩⟩
  | cons c s ih =>
    simp only [nameLoop] at h
    have hrec : (isAlpha c = true ∨ (quoted = true ∧ (c = 43 ∨ c = 45 ∨ digit c))) →
        nameLoop isAlpha quoted max s (len + 1) = some (k, r) → ∃ n, k = len + n.length ∧
      (∀ c ∈ n, isAlpha c = true ∨ (quoted = true ∧ (c = 43 ∨ c = 45 ∨ digit c))) ∧
      ((c :: s = n ∧ r = []) ∨ (3 ≤ k ∧ k ≤ max ∧ (quoted = true → c :: s = n ++ 62 :: r) ∧
        (quoted = false → c :: s = n ++ r ∧ r ≠ [] ∧ ∀ c, r.head? = some c → isAlpha c = false))) := by
      intro hc h
      obtain ⟨n, h1, h2, h3⟩ := ih h
      refine ⟨c :: n, by simp only [List.length_cons]; omega, ?_, ?_⟩
      · intro x hx
        rcases List.mem_cons.1 hx with rfl | hx
        · exact hc
        · exact h2 x hx
      · rcases h3 with ⟨rfl, rfl⟩ | ⟨a, b, c', d⟩
        · exact .inl ⟨rfl, rfl⟩
        · exact .inr ⟨a, b, fun hq => by rw [c' hq]; rfl, fun hq => ⟨by rw [(d hq).1]; rfl, (d hq).2⟩⟩
    split at h
    · cases h
    · split at h
      · rename_i ha
        exact hrec (.inl ha) h
      · rename_i ha
        split at h
        · rename_i hq
          refine hrec (.inr ⟨hq.1, ?_⟩) h
          rw [← isDigit_iff]
          exact hq.2
        · split at h
          · cases h
          · split at h
            · rename_i hq
              split at h
              · rename_i hc
                injection h with h
                injection h with h1 h2
                subst h1; subst h2; subst hc
                exact ⟨[], rfl, by simp, .inr ⟨by omega, by omega, fun _ => rfl, fun hq' => by rw [hq] at hq'; cases hq'⟩⟩
              · cases h
            · rename_i hq
              injection h with h
              injection h with h1 h2
              subst h1; subst h2
              exact ⟨[], rfl, by simp, .inr ⟨by omega, by omega, fun hq' => absurd hq' hq, fun _ => ⟨rfl, by simp, by
                rintro x ⟨⟩; exact Bool.eq_false_iff.2 ha⟩⟩⟩

theorem nameLoop_plain {isAlpha : Nat → Bool} {max : Nat} (n r : List Nat) (hn : ∀ c ∈ n, isAlpha c = true)
    (hr : ∀ c, r.head? = some c → isAlpha c = false) (len : Nat) (h3 : 3 ≤ len + n.length) (hm : len + n.length ≤ max) :
    nameLoop isAlpha false max (n ++ r) len = some (len + n.length, r) := by
  induction n generalizing len with
  | nil =>
    match r, hr with
    | [], _ => rfl
    | c :: r, hr =>
      simp only [List.length_nil] at h3 hm
      simp only [List.nil_append, nameLoop]
      rw [if_neg (by omega), if_neg (by rw [hr c rfl]; decide), if_neg (by simp), if_neg (by omega), if_neg (by simp)]
      rfl
  | cons c n ih =>
    simp only [List.length_cons] at h3 hm
    simp only [List.cons_append, nameLoop]
    rw [if_neg (by omega), if_pos (hn c (by simp)), ih (fun x hx => hn x (by simp [hx])) (len + 1) (by omega) (by omega)]
    simp only [List.length_cons]
    congr 2
    omega

theorem nameLoop_quoted {isAlpha : Nat → Bool} {max : Nat} (h62 : isAlpha 62 = false) (n r : List Nat)
    (hn : ∀ c ∈ n, isAlpha c = true ∨ c = 43 ∨ c = 45 ∨ digit c) (len : Nat) (h3 : 3 ≤ len + n.length) (hm : len + n.length ≤ max) :
    nameLoop isAlpha true max (n ++ 62 :: r) len = some (len + n.length, r) := by
  induction n generalizing len with
  | nil =>
    simp only [List.length_nil] at h3 hm
    simp only [List.nil_append, nameLoop]
    rw [if_neg (by omega), if_neg (by rw [h62]; decide), if_neg (by simp [isDigit]), if_neg (by omega), if_pos trivial, if_pos trivial]
    rfl
  | cons c n ih =>
    simp only [List.length_cons] at h3 hm
    simp only [List.cons_append, nameLoop]
    rw [if_neg (by omega)]
    have hi := ih (fun x hx => hn x (by simp [hx])) (len + 1) (by omega) (by omega)
    have he : len + 1 + n.length = len + (c :: n).length := by simp only [List.length_cons]; omega
    rw [he] at hi
    rcases hn c (by simp) with h | h
    · rw [if_pos h, hi]
    · by_cases ha : isAlpha c = true
      · rw [if_pos ha, hi]
      · rw [if_neg ha, if_pos, hi]
        rw [isDigit_iff]
        exact ⟨trivial, h⟩

theorem getname_name {isAlpha : Nat → Bool} (hL : Letters isAlpha) {max : Nat} {s n r : List Nat} (h : Name isAlpha max s n r) :
    getname isAlpha max s = some (n, r) := by
  unfold getname
  cases h with
  | plain h1 h2 h3 h4 =>
    have h60 : (n ++ r).head? ≠ some 60 := by
      match n, h1, h2 with
      | c :: n, h1, _ =>
        intro h
        injection h with h
        have := h1 c (by simp)
        rw [h, hL.punct 60 (by decide)] at this
        cases this
    rw [if_neg h60, nameLoop_plain n r h1 h4 0 (by omega) (by omega)]
    simp
  | quoted h1 h2 h3 =>
    rw [if_pos (by simp)]
    simp only [List.drop_succ_cons, List.drop_zero]
    rw [nameLoop_quoted (hL.punct 62 (by decide)) n r h1 0 (by omega) (by omega)]
    simp

/-- A name that is not the end of the text. -/
theorem name_getname {isAlpha : Nat → Bool} {max : Nat} {s n r : List Nat} (h : getname isAlpha max s = some (n, r)) :
    Name isAlpha max s n r ∨ r = [] := by
  unfold getname at h
  split at h
  · rename_i hc
    rw [bind_some] at h
    obtain ⟨⟨k, r'⟩, h1, h2⟩ := h
    injection h2 with h2
    injection h2 with e1 e2
    subst e1; subst e2
    obtain ⟨n, h3, h4, h5 | ⟨h5, h6, h7, -⟩⟩ := nameLoop_some h1
    · exact .inr h5.2
    · left
      rw [head_some hc, h7 rfl]
      simp only [List.drop_succ_cons, List.drop_zero]
      rw [show k = n.length by omega, List.take_left]
      refine .quoted (fun c hc => ?_) (by omega) (by omega)
      rcases h4 c hc with h | h
      · exact .inl h
      · exact .inr h.2
  · rw [bind_some] at h
    obtain ⟨⟨k, r'⟩, h1, h2⟩ := h
    injection h2 with h2
    injection h2 with e1 e2
    subst e1; subst e2
    obtain ⟨n, h3, h4, h5 | ⟨h5, h6, -, h7⟩⟩ := nameLoop_some h1
    · exact .inr h5.2
    · left
      obtain ⟨h8, h9, h10⟩ := h7 rfl
      rw [h8, show k = n.length by omega, List.take_left]
      refine .plain (fun c hc => ?_) (by omega) (by omega) h10
      rcases h4 c hc with h | h
      · exact h
      · cases h.1

/-! ## C69 -/

theorem Spec.Name.length {isAlpha : Nat → Bool} {max : Nat} {s n r : List Nat} (h : Name isAlpha max s n r) : n.length ≤ max := by
  cases h <;> assumption

theorem Spec.Name.head {isAlpha : Nat → Bool} (hL : Letters isAlpha) {max : Nat} {s n r : List Nat} (h : Name isAlpha max s n r) :
    s.head? ≠ some 58 := by
  cases h with
  | plain h1 h2 h3 h4 =>
    match n, h1, h2 with
    | c :: n, h1, _ =>
      intro h
      injection h with h
      have := h1 c (by simp)
      rw [h, hL.punct 58 (by decide)] at this
      cases this
  | quoted h1 h2 h3 => simp

/-- A text in the format of POSIX, with or without a colon before it, gives the zone it stands for. -/
theorem parse_zone {isAlpha : Nat → Bool} (hL : Letters isAlpha) {max : Nat} {s : List Nat} {z : Zone} (h : IsZone isAlpha max s z) :
    parseTz isAlpha max s = .ok (some z) ∧ parseTz isAlpha max (58 :: s) = .ok (some z) := by
  have key : ∀ s, IsZone isAlpha max s z → ∀ t, (if t.head? = some 58 then t.drop 1 else t) = s → parseTz isAlpha max t = .ok (some z) := by
    intro s h t ht
    unfold parseTz
    simp only [ht]
    cases h with
    | @fixed n r w h1 h2 =>
      rw [getname_name hL h1]
      simp only [Option.bind_some, (getoffset_iff r w []).2 h2]
      rw [if_neg (by have := h1.length; omega), if_pos trivial]
    | @summer n r w r' n' r'' v rs h1 h2 h3 h4 =>
      rw [getname_name hL h1]
      simp only [Option.bind_some, (getoffset_iff r w r').2 h2]
      have hne : r' ≠ [] := by
        cases h3 with
        | plain _ h _ _ => intro h'; rw [(List.append_eq_nil_iff.1 h').1] at h; simp at h
        | quoted => simp
      rw [if_neg (by have := h1.length; omega), if_neg hne, getname_name hL h3]
      simp only []
      rw [if_neg (by have := h3.length; omega), (getdst_iff w r'' v rs).2 h4]
  refine ⟨key s h s ?_, key s h (58 :: s) (by simp)⟩
  rw [if_neg]
  cases h with
  | fixed h1 _ => exact h1.head hL
  | summer h1 _ _ _ => exact h1.head hL

/-- The other direction: a text is taken as a zone exactly if (behind an optional colon) a proper name and an offset come
first; they are what `tzname[0]` and `timezone` are set to. All other texts are left to the zone files. -/
theorem parse_standard {isAlpha : Nat → Bool} (hL : Letters isAlpha) (max : Nat) (s : List Nat) (hc : s.head? ≠ some 58) :
    (parseTz isAlpha max s = .ok none ↔ ¬ ∃ n r w r', Name isAlpha max s n r ∧ Offset r w r') ∧
    ∀ z, parseTz isAlpha max s = .ok (some z) → ∃ n r w r', Name isAlpha max s n r ∧ Offset r w r' ∧ z.name = n ∧ z.offset = -w := by
  have hcases : (∃ n r w r', Name isAlpha max s n r ∧ Offset r w r' ∧
        ((getname isAlpha max s).bind fun n => (getoffset n.2).bind fun o => some (n.1, o.1, o.2)) = some (n, w, r')) ∨
      ((¬ ∃ n r w r', Name isAlpha max s n r ∧ Offset r w r') ∧
        ((getname isAlpha max s).bind fun n => (getoffset n.2).bind fun o => some (n.1, o.1, o.2)) = none) := by
    by_cases hex : ∃ n r w r', Name isAlpha max s n r ∧ Offset r w r'
    · obtain ⟨n, r, w, r', h1, h2⟩ := hex
      refine .inl ⟨n, r, w, r', h1, h2, ?_⟩
      rw [getname_name hL h1, Option.bind_some, (getoffset_iff r w r').2 h2]
      rfl
    · refine .inr ⟨hex, ?_⟩
      cases hg : getname isAlpha max s with
      | none => rfl
      | some n =>
        obtain ⟨n, r⟩ := n
        rw [Option.bind_some]
        cases ho : getoffset r with
        | none => simp [ho]
        | some o =>
          obtain ⟨w, r'⟩ := o
          rw [getoffset_iff] at ho
          rcases name_getname hg with h | rfl
          · exact absurd ⟨n, r, w, r', h, ho⟩ hex
          · obtain ⟨c, s', h, -⟩ := Offset.first ho
            cases h
  have hne : ∀ n w r', ((getname isAlpha max s).bind fun n => (getoffset n.2).bind fun o => some (n.1, o.1, o.2)) = some (n, w, r') →
      parseTz isAlpha max s ≠ .ok none ∧ ∀ z, parseTz isAlpha max s = .ok (some z) → z.name = n ∧ z.offset = -w := by
    intro n w r' h
    unfold parseTz
    simp only [if_neg hc, h]
    split
    · exact ⟨by simp, by simp⟩
    · split
      · refine ⟨by simp, ?_⟩
        rintro z ⟨⟩
        exact ⟨rfl, rfl⟩
      · split
        · refine ⟨by simp, ?_⟩
          rintro z ⟨⟩
          exact ⟨rfl, rfl⟩
        · split
          · exact ⟨by simp, by simp⟩
          · refine ⟨by simp, ?_⟩
            rintro z ⟨⟩
            exact ⟨rfl, rfl⟩
  rcases hcases with ⟨n, r, w, r', h1, h2, h3⟩ | ⟨h1, h2⟩
  · refine ⟨⟨fun h => absurd h (hne n w r' h3).1, fun h => absurd ⟨n, r, w, r', h1, h2⟩ h⟩, fun z hz => ?_⟩
    exact ⟨n, r, w, r', h1, h2, (hne n w r' h3).2 z hz⟩
  · have : parseTz isAlpha max s = .ok none := by
      unfold parseTz
      simp only [if_neg hc, h2]
    exact ⟨⟨fun _ => h1, fun _ => this⟩, fun z hz => by rw [this] at hz; cases hz⟩

/-- Summer time is in force only for texts of the full format, except that the name of the summer time is not checked if it
is the end of the text. -/
theorem parse_summer {isAlpha : Nat → Bool} (hL : Letters isAlpha) (max : Nat) (s : List Nat) (hc : s.head? ≠ some 58) (z : Zone)
    (h : parseTz isAlpha max s = .ok (some z)) (hd : z.dst ≠ none) :
    IsZone isAlpha max s z ∨ ∃ n r w r', Name isAlpha max s n r ∧ Offset r w r' ∧ r' ≠ [] ∧ z = ⟨n, -w, z.dstName, some (-(w - 3600), newYork)⟩ := by
  obtain ⟨n, r, w, r', h1, h2, -⟩ := (parse_standard hL max s hc).2 z h
  unfold parseTz at h
  simp only [if_neg hc, getname_name hL h1, Option.bind_some, (getoffset_iff r w r').2 h2] at h
  rw [if_neg (by have := h1.length; omega)] at h
  split at h
  · injection h with h
    injection h with h
    subst h
    exact absurd rfl hd
  · rename_i hr
    cases hg : getname isAlpha max r' with
    | none =>
      rw [hg] at h
      injection h with h
      injection h with h
      subst h
      exact absurd rfl hd
    | some x =>
      obtain ⟨n', r''⟩ := x
      rw [hg] at h
      simp only [] at h
      split at h
      · cases h
      · injection h with h
        injection h with h
        subst h
        cases hs : getdst w r'' with
        | none => exact absurd hs hd
        | some d =>
          obtain ⟨v, rs⟩ := d
          have hs' : getdst w r'' = some (-(-v), rs) := by rw [hs, Int.neg_neg]
          rw [getdst_iff] at hs'
          rcases name_getname hg with h3 | rfl
          · left
            have := IsZone.summer h1 h2 h3 hs'
            rwa [Int.neg_neg] at this
          · right
            refine ⟨n, r, w, r', h1, h2, hr, ?_⟩
            generalize hv : -v = v' at hs'
            cases hs' with
            | none => rw [show v = -(w - 3600) by omega]
            | rules h => cases h
            | offset h => obtain ⟨c, s', h, -⟩ := Offset.first h; cases h
            | both h => obtain ⟨c, s', h, -⟩ := Offset.first h; cases h

/-- Without summer time, localtime gives the date and time of day, in the Gregorian calendar, of the instant moved by the
offset; `tm_gmtoff` and `tm_zone` are those of the zone. -/
theorem localtime_fixed_partial {isAlpha : Nat → Bool} (hL : Letters isAlpha) {max : Nat} {s n r : List Nat} {w : Int}
    (h1 : Name isAlpha max s n r) (h2 : Offset r w []) (t : Int) (h0 : 0 ≤ t - w) (hb : (t - w) / 86400 ≤ 2147483647 - 719468) :
    ∃ z tm, parseTz isAlpha max s = .ok (some z) ∧ localtime z t = .ok (tm, -w, false, n) ∧
      (0 ≤ tm.sec ∧ tm.sec < 60) ∧ (0 ≤ tm.min ∧ tm.min < 60) ∧ (0 ≤ tm.hour ∧ tm.hour < 24) ∧
      t - w = (t - w) / 86400 * 86400 + tm.hour * 3600 + tm.min * 60 + tm.sec ∧
      Calendar.Spec.IsDay ((t - w) / 86400) ⟨tm.year + 1900, tm.mon + 1, tm.mday⟩ ∧ tm.wday = ((t - w) / 86400 + 4) % 7 := by
  obtain ⟨tm, g1, g2, g3, g4, g5, g6, g7, -⟩ := Calendar.gmtime_exact_partial (t - w) h0 hb
  refine ⟨_, tm, (parse_zone hL (.fixed h1 h2)).1, ?_, g2, g3, g4, g5, g6, g7⟩
  unfold localtime localOf Calendar.localtime
  unfold Calendar.gmtime at g1
  simp only [Res.bind]
  rw [show t + -w = t - w by omega, g1]

/-- With summer time, localtime uses one of the two offsets, with its name and flag. -/
theorem localtime_summer (z : Zone) (off : Int) (rs : Rule × Rule) (hz : z.dst = some (off, rs)) (t : Int) (tm : Calendar.Tm)
    (l : Int × Bool × List Nat) (h : localtime z t = .ok (tm, l)) :
    (l = (z.offset, false, z.name) ∨ l = (off, true, z.dstName)) ∧ Calendar.localtime l.1 t = .ok tm := by
  unfold localtime localOf at h
  rw [hz] at h
  simp only [] at h
  cases hi : isInDst rs t with
  | ok b =>
    rw [hi] at h
    simp only [Res.bind] at h
    cases b with
    | true =>
      simp only [if_true] at h
      cases hl : Calendar.localtime off t with
      | ok x =>
        rw [hl] at h
        injection h with h
        injection h with h3 h4
        subst h3; subst h4
        exact ⟨.inr rfl, hl⟩
      | ub => rw [hl] at h; cases h
      | panic => rw [hl] at h; cases h
    | false =>
      simp only [Bool.false_eq_true, if_false] at h
      cases hl : Calendar.localtime z.offset t with
      | ok x =>
        rw [hl] at h
        injection h with h
        injection h with h3 h4
        subst h3; subst h4
        exact ⟨.inl rfl, hl⟩
      | ub => rw [hl] at h; cases h
      | panic => rw [hl] at h; cases h
  | ub => rw [hi] at h; cases h
  | panic => rw [hi] at h; cases h

/-! ### Examples and where the code differs -/

def txt (s : String) : List Nat := s.toList.map Char.toNat
def letter (c : Nat) : Bool := (65 ≤ c && c ≤ 90) || (97 ≤ c && c ≤ 122)

theorem letter_ok : Letters letter := by
  refine ⟨fun c h => ?_, by decide⟩
  unfold Spec.digit at h
  simp only [letter, Bool.or_eq_false_iff, Bool.and_eq_false_iff, decide_eq_false_iff_not]
  omega

theorem number_text (lo hi : Nat) (s : List Nat) (v : Nat) (r : List Nat) (h : getnum lo hi s = some (v, r)) : Number lo hi s v r :=
  (getnum_iff _ _ _ _ _).1 h

/-- `NZST-12:00:00<NZDT>,M9.5.0/+2,J97/26:30` -/
theorem newZealand : IsZone letter 6 (txt "NZST-12:00:00<NZDT>-13,M9.5.0,J97/26:30")
    ⟨txt "NZST", 43200, txt "NZDT", some (46800, ⟨.month 9 5 0, 7200⟩, ⟨.julian 97, 95400⟩)⟩ := by
  refine .summer (n := txt "NZST") (r := txt "-12:00:00<NZDT>-13,M9.5.0,J97/26:30") (w := -43200)
    (r' := txt "<NZDT>-13,M9.5.0,J97/26:30") (n' := txt "NZDT") (r'' := txt "-13,M9.5.0,J97/26:30") (v := -46800) ?_ ?_ ?_ ?_
  · exact .plain (n := txt "NZST") (r := txt "-12:00:00<NZDT>-13,M9.5.0,J97/26:30") (by decide +kernel) (by decide) (by decide)
      (by rintro c ⟨⟩; rfl)
  · exact (getoffset_iff _ _ _).1 (by decide +kernel)
  · exact .quoted (n := txt "NZDT") (by unfold Spec.digit; decide +kernel) (by decide) (by decide)
  · exact (getdst_iff _ _ _ _).1 (by decide +kernel)

example : parseTz letter 6 (txt "NZST-12:00:00<NZDT>-13,M9.5.0,J97/26:30") =
    .ok (some ⟨txt "NZST", 43200, txt "NZDT", some (46800, ⟨.month 9 5 0, 7200⟩, ⟨.julian 97, 95400⟩)⟩) :=
  (parse_zone letter_ok newZealand).1

example : ∃ z tm, parseTz letter 6 (txt "IST-5:30") = .ok (some z) ∧ localtime z 1700000000 = .ok (tm, 19800, false, txt "IST") := by
  have := localtime_fixed_partial letter_ok (max := 6) (s := txt "IST-5:30") (n := txt "IST") (r := txt "-5:30") (w := -19800)
    (.plain (n := txt "IST") (r := txt "-5:30") (by decide +kernel) (by decide) (by decide) (by rintro c ⟨⟩; rfl))
    ((getoffset_iff _ _ _).1 (by decide +kernel)) 1700000000 (by decide) (by decide)
  obtain ⟨z, tm, h1, h2, -⟩ := this
  exact ⟨z, tm, h1, h2⟩

/-- The second Sunday of March 2024 was the 10th; the clocks of New York changed at 2024-03-10 07:00 UTC, 1710054000. The
code computes midnight (UTC) at the beginning of 8 March, as for every year: the weekday of the first of the month is never
looked at. At 2024-03-09 12:00 UTC it claims summer time. -/
theorem summer_violated : timeFromRule newYork.1 2024 = .ok 1709856000 ∧ timeFromRule newYork.1 2023 = .ok 1678233600 ∧
    Calendar.Spec.IsDay (1709856000 / 86400) ⟨2024, 3, 8⟩ ∧ Calendar.Spec.IsDay (1678233600 / 86400) ⟨2023, 3, 8⟩ ∧
    isInDst newYork 1709985600 = .ok true :=
  ⟨by decide +kernel, by decide +kernel, (Calendar.isDay_iff _ _).2 ⟨by unfold Calendar.Spec.Valid; decide, by decide⟩,
    (Calendar.isDay_iff _ _).2 ⟨by unfold Calendar.Spec.Valid; decide, by decide⟩, by decide +kernel⟩

/-- Rules with the number of a day always mean the last day of the year before. -/
theorem day_rule_violated (n : Nat) (t : Int) : timeFromRule ⟨.day n, t⟩ 2024 = .ok 1703980800 ∧
    Calendar.Spec.IsDay (1703980800 / 86400) ⟨2023, 12, 31⟩ := by
  refine ⟨?_, (Calendar.isDay_iff _ _).2 ⟨by unfold Calendar.Spec.Valid; decide, by decide⟩⟩
  have : timeFromRule ⟨.day n, t⟩ 2024 = timeFromRule ⟨.day 0, 0⟩ 2024 := rfl
  rw [this]
  decide +kernel

/-- The time of day in a rule has no effect. -/
theorem rule_time_violated (d : Date) (t t' : Int) (year : Int) : timeFromRule ⟨d, t⟩ year = timeFromRule ⟨d, t'⟩ year := rfl

/-- The name of the summer time at the end of the text: seven letters are stored in seven bytes without room for the
terminator, one letter is accepted, a bracket need not be closed. -/
theorem dst_name_violated : parseTz letter 6 (txt "EST5ABCDEFG") = .ub ∧
    parseTz letter 6 (txt "EST5E") = .ok (some ⟨txt "EST", -18000, txt "E", some (-14400, newYork)⟩) ∧
    parseTz letter 6 (txt "EST5<EDT") = .ok (some ⟨txt "EST", -18000, txt "EDT", some (-14400, newYork)⟩) := by
  refine ⟨?_, ?_, ?_⟩ <;> decide +kernel

end Mlibc.Tz
