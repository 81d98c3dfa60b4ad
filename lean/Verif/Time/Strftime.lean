import Verif.Net.Inet6

/-
strftime (options/internal/include/mlibc/time.hpp L79-465) for `char`. The format is the list of its characters without
the terminator; the buffer is a list as long as the caller's object, storing behind it is undefined. `vsnprintf` stands
for its contract (`Mlibc.Inet.snpr`, proved as `Mlibc.Printf.snprintf_exact_partial`) with the texts of the numbers.
Fields are unbounded integers, so the overflow of `1900 + tm_year` is not modelled. Property C53.
-/
namespace Mlibc.Strftime
open Mlibc Mlibc.Strtol Mlibc.Inet

/-- The fields of `struct tm`. -/
structure Tm where
  sec : Int
  min : Int
  hour : Int
  mday : Int
  mon : Int
  year : Int
  wday : Int
  yday : Int
  gmtoff : Int
  zone : List Nat

/-- What `nl_langinfo_l` and `tolower_l` give for the locale. -/
structure Locale where
  abday : Int → List Nat
  day : Int → List Nat
  abmon : Int → List Nat
  mon : Int → List Nat
  am : List Nat
  pm : List Nat
  dtFmt : List Nat
  dFmt : List Nat
  tFmt : List Nat
  lower : Nat → Nat

/-- `-` for negative numbers. -/
def sign (n : Int) : List Nat := if n < 0 then [45] else []

/-- `%.{p}d` and `%d` (`p = 1`): at least `p` digits. -/
def prec (p : Nat) (n : Int) : List Nat :=
  sign n ++ List.replicate (p - (decimal n.natAbs).length) 48 ++ decimal n.natAbs

/-- `%{w}d`: padded with spaces. -/
def spaces (w : Nat) (n : Int) : List Nat :=
  List.replicate (w - (sign n ++ decimal n.natAbs).length) 32 ++ (sign n ++ decimal n.natAbs)

/-- `%0{w}d`: padded with zeros, the sign counts. -/
def zeros (w : Nat) (n : Int) : List Nat :=
  sign n ++ List.replicate (w - (sign n ++ decimal n.natAbs).length) 48 ++ decimal n.natAbs

/-- The hour on a 12-hour clock. L316-320, L334-338, L396-400 -/
def hour12 (h : Int) : Int :=
  let h := if h = 0 then 12 else h
  if h > 12 then h - 12 else h

/-- What a conversion character does. -/
inductive Conv
  | text (t : List Nat)
  | restart (fmt : List Nat)
  | panic

/-- The `switch` over the conversion characters. L160-449 -/
def conv (l : Locale) (tm : Tm) (c : Nat) : Conv :=
  if c = 89 then .text (prec 1 (1900 + tm.year))                                                  -- Y
  else if c = 109 then .text (prec 2 (tm.mon + 1))                                                -- m
  else if c = 100 then .text (prec 2 tm.mday)                                                     -- d
  else if c = 122 then                                                                            -- z
    let min := tm.gmtoff.tdiv 60
    let diff := (min.tdiv 60) * 100 + min.tmod 60
    .text ((if diff ≥ 0 then 43 else 45) :: zeros 4 diff.natAbs)
  else if c = 90 then .text tm.zone                                                               -- Z
  else if c = 72 then .text (prec 2 tm.hour)                                                      -- H
  else if c = 77 then .text (prec 2 tm.min)                                                       -- M
  else if c = 83 then .text (prec 2 tm.sec)                                                       -- S
  else if c = 82 then .text (prec 2 tm.hour ++ 58 :: prec 2 tm.min)                               -- R
  else if c = 84 then .text (prec 2 tm.hour ++ 58 :: (prec 2 tm.min ++ 58 :: prec 2 tm.sec))      -- T
  else if c = 70 then .text (prec 1 (1900 + tm.year) ++ 45 :: (prec 2 (tm.mon + 1) ++ 45 :: prec 2 tm.mday)) -- F
  else if c = 68 then                                                                             -- D
    .text (prec 2 (tm.mon + 1) ++ 47 :: (prec 2 tm.mday ++ 47 :: prec 2 ((tm.year + 1900).tmod 100)))
  else if c = 97 then (if tm.wday < 0 ∨ tm.wday > 6 then .panic else .text (l.abday tm.wday))     -- a
  else if c = 98 ∨ c = 104 then (if tm.mon < 0 ∨ tm.mon > 11 then .panic else .text (l.abmon tm.mon)) -- b h
  else if c = 66 then (if tm.mon < 0 ∨ tm.mon > 11 then .panic else .text (l.mon tm.mon))         -- B
  else if c = 99 then .restart l.dtFmt                                                            -- c
  else if c = 101 then .text (spaces 2 tm.mday)                                                   -- e
  else if c = 108 then .text (spaces 2 (hour12 tm.hour))                                          -- l
  else if c = 107 then .text (spaces 2 tm.hour)                                                   -- k
  else if c = 73 then .text (prec 2 (hour12 tm.hour))                                             -- I
  else if c = 112 then .text (if tm.hour < 12 then l.am else l.pm)                                -- p
  else if c = 80 then .text ((if tm.hour < 12 then l.am else l.pm).map l.lower)                   -- P
  else if c = 67 then .text (prec 2 ((1900 + tm.year).tdiv 100))                                  -- C
  else if c = 121 then .text (prec 2 ((1900 + tm.year).tmod 100))                                 -- y
  else if c = 106 then .text (prec 3 (tm.yday + 1))                                               -- j
  else if c = 65 then .text (l.day tm.wday)                                                       -- A
  else if c = 114 then                                                                            -- r
    .text (prec 2 (hour12 tm.hour) ++ 58 :: (prec 2 tm.min ++ 58 :: (prec 2 tm.sec ++
      32 :: (if tm.hour < 12 then l.am else l.pm))))
  else if c = 37 then .text [37]                                                                  -- %
  else if c = 110 then .text [10]                                                                 -- n
  else if c = 116 then .text [9]                                                                  -- t
  else if c = 120 then .restart l.dFmt                                                            -- x
  else if c = 88 then .restart l.tFmt                                                             -- X
  else if c = 85 then .text (zeros 2 ((tm.yday + 7 - tm.wday).tdiv 7))                            -- U
  else .panic

/-- The characters allowed after `%O`. L121-123 -/
def validO : List Nat := [66, 98, 100, 101, 72, 73, 109, 77, 83, 117, 85, 86, 119, 87, 121]

/-- The characters allowed after `%E`. L138 -/
def validE : List Nat := [99, 67, 120, 88, 121, 89]

/-- A conversion: `nprintf` into the space left, the call fails if the text does not fit. -/
def emit (again : List Nat → Res (Nat × List Nat)) (size : Nat) (cv : Conv) (off : Nat) (buf : List Nat)
    (go : Nat → List Nat → Res (Nat × List Nat)) : Res (Nat × List Nat) :=
  match cv with
  | .panic => .panic
  | .restart f => again f
  | .text t => (snpr buf off (size - off) t).bind fun buf =>
    if t.length ≥ size - off then .ok (0, buf) else go (off + t.length) buf

/-- The loop of `strftime`; `off` is `p - dest`, `again` the call for another format into the whole buffer. L106-460 -/
def loop (again : List Nat → Res (Nat × List Nat)) (l : Locale) (tm : Tm) (size : Nat) :
    List Nat → Nat → List Nat → Res (Nat × List Nat)
  | [], off, buf => if off = size then .ok (0, buf) else (puts buf off [0]).bind fun b => .ok (off, b)
  | c :: rest, off, buf =>
    if off > size then .panic
    else if c ≠ 37 then
      if off = size then .ok (0, buf)
      else (puts buf off [c]).bind fun buf => loop again l tm size rest (off + 1) buf
    else match rest with
    | [] => emit again size (.text [37]) off buf fun off buf => loop again l tm size [] off buf
    | x :: rest =>
      if x = 79 ∨ x = 69 then
        match rest with
        | [] => (puts buf off [37, x]).bind fun buf => loop again l tm size [] (off + 2) buf
        | y :: rest =>
          if (x = 79 ∧ y ∈ validO) ∨ (x = 69 ∧ y ∈ validE) then
            emit again size (conv l tm y) off buf fun off buf => loop again l tm size rest off buf
          else (puts buf off [37, x]).bind fun buf => loop again l tm size (y :: rest) (off + 2) buf
      else emit again size (conv l tm x) off buf fun off buf => loop again l tm size rest off buf

/-- `strftime`: the return value and the buffer afterwards. `%c`, `%x` and `%X` start again with a format of the locale;
`depth` bounds how often (a locale whose format contains itself makes the code loop until the stack is used up). -/
def strftime (l : Locale) (tm : Tm) (size : Nat) (buf : List Nat) : Nat → List Nat → Res (Nat × List Nat)
  | 0, fmt => loop (fun _ => .panic) l tm size fmt 0 buf
  | depth + 1, fmt => loop (strftime l tm size buf depth) l tm size fmt 0 buf

/-! ## Specification -/

/-- A broken-down time as `gmtime` and `localtime` produce it, with a year of four digits and an offset from UTC of whole
minutes, less than a day. -/
structure Proper (tm : Tm) : Prop where
  sec : 0 ≤ tm.sec ∧ tm.sec ≤ 60
  min : 0 ≤ tm.min ∧ tm.min ≤ 59
  hour : 0 ≤ tm.hour ∧ tm.hour ≤ 23
  mday : 1 ≤ tm.mday ∧ tm.mday ≤ 31
  mon : 0 ≤ tm.mon ∧ tm.mon ≤ 11
  wday : 0 ≤ tm.wday ∧ tm.wday ≤ 6
  yday : 0 ≤ tm.yday ∧ tm.yday ≤ 365
  year : 1000 ≤ tm.year + 1900 ∧ tm.year + 1900 ≤ 9999
  gmtoff : ∃ m : Int, tm.gmtoff = 60 * m ∧ -1440 < m ∧ m < 1440

/-- The two decimal digits of a number below 100. -/
def d2 (n : Int) : List Nat := [48 + n.toNat / 10, 48 + n.toNat % 10]

/-- The same with a space in place of a leading zero. -/
def s2 (n : Int) : List Nat := [if n < 10 then 32 else 48 + n.toNat / 10, 48 + n.toNat % 10]

/-- The hour on a clock with twelve hours: 12, 1, 2, …, 11. -/
def clock (tm : Tm) : Int := (tm.hour + 11) % 12 + 1

/-- Before or after noon. -/
def half (l : Locale) (tm : Tm) : List Nat := if tm.hour < 12 then l.am else l.pm

/-- The year. -/
def yr (tm : Tm) : Int := tm.year + 1900

/-- What the standard says a conversion character stands for. -/
inductive Means (l : Locale) (tm : Tm) : Nat → List Nat → Prop
  | Y : Means l tm 89 (d2 (yr tm / 100) ++ d2 (yr tm % 100))
  | C : Means l tm 67 (d2 (yr tm / 100))
  | y : Means l tm 121 (d2 (yr tm % 100))
  | m : Means l tm 109 (d2 (tm.mon + 1))
  | d : Means l tm 100 (d2 tm.mday)
  | e : Means l tm 101 (s2 tm.mday)
  | H : Means l tm 72 (d2 tm.hour)
  | k : Means l tm 107 (s2 tm.hour)
  | I : Means l tm 73 (d2 (clock tm))
  | l : Means l tm 108 (s2 (clock tm))
  | M : Means l tm 77 (d2 tm.min)
  | S : Means l tm 83 (d2 tm.sec)
  | R : Means l tm 82 (d2 tm.hour ++ [58] ++ d2 tm.min)
  | T : Means l tm 84 (d2 tm.hour ++ [58] ++ d2 tm.min ++ [58] ++ d2 tm.sec)
  | r : Means l tm 114 (d2 (clock tm) ++ [58] ++ d2 tm.min ++ [58] ++ d2 tm.sec ++ [32] ++ half l tm)
  | F : Means l tm 70 (d2 (yr tm / 100) ++ d2 (yr tm % 100) ++ [45] ++ d2 (tm.mon + 1) ++ [45] ++ d2 tm.mday)
  | D : Means l tm 68 (d2 (tm.mon + 1) ++ [47] ++ d2 tm.mday ++ [47] ++ d2 (yr tm % 100))
  | a : Means l tm 97 (l.abday tm.wday)
  | A : Means l tm 65 (l.day tm.wday)
  | b : Means l tm 98 (l.abmon tm.mon)
  | h : Means l tm 104 (l.abmon tm.mon)
  | B : Means l tm 66 (l.mon tm.mon)
  | p : Means l tm 112 (half l tm)
  | P : Means l tm 80 ((half l tm).map l.lower)
  | j : Means l tm 106 ([48 + (tm.yday + 1).toNat / 100] ++ d2 ((tm.yday + 1) % 100))
  | U : Means l tm 85 (d2 ((tm.yday + 7 - tm.wday) / 7))
  | z : Means l tm 122 ([if tm.gmtoff < 0 then 45 else 43] ++ d2 (tm.gmtoff.natAbs / 3600 : Nat) ++
      d2 (tm.gmtoff.natAbs / 60 % 60 : Nat))
  | Z : Means l tm 90 tm.zone
  | percent : Means l tm 37 [37]
  | n : Means l tm 110 [10]
  | t : Means l tm 116 [9]

/-- The conversions POSIX allows after `%O` (with `b` and `B` as in POSIX 2024) and after `%E`. -/
def altO : List Nat := [66, 98, 100, 101, 72, 73, 109, 77, 83, 117, 85, 86, 119, 87, 121]
def altE : List Nat := [99, 67, 120, 88, 121, 89]

/-- `Expands l tm fmt t`: the format stands for the text `t`. The modifiers `O` and `E` are allowed before certain
conversions and have no effect. -/
inductive Expands (l : Locale) (tm : Tm) : List Nat → List Nat → Prop
  | nil : Expands l tm [] []
  | literal {c fmt t} : c ≠ 37 → Expands l tm fmt t → Expands l tm (c :: fmt) (c :: t)
  | conversion {c fmt t u} : Means l tm c u → Expands l tm fmt t → Expands l tm (37 :: c :: fmt) (u ++ t)
  | alternative {m c fmt t u} : (m = 79 ∧ c ∈ altO) ∨ (m = 69 ∧ c ∈ altE) → Means l tm c u →
      Expands l tm fmt t → Expands l tm (37 :: m :: c :: fmt) (u ++ t)
  | percent : Expands l tm [37] [37]

/-! ## The conversions -/

theorem prec2 (n : Int) (h1 : 0 ≤ n) (h2 : n < 100) : prec 2 n = d2 n := by
  obtain ⟨k, rfl⟩ := Int.eq_ofNat_of_zero_le h1
  have : ∀ k : Fin 100, prec 2 (k.val : Int) = d2 (k.val : Int) := by decide +kernel
  exact this ⟨k, by omega⟩

theorem spaces2 (n : Int) (h1 : 0 ≤ n) (h2 : n < 100) : spaces 2 n = s2 n := by
  obtain ⟨k, rfl⟩ := Int.eq_ofNat_of_zero_le h1
  have : ∀ k : Fin 100, spaces 2 (k.val : Int) = s2 (k.val : Int) := by decide +kernel
  exact this ⟨k, by omega⟩

theorem zeros2 (n : Int) (h1 : 0 ≤ n) (h2 : n < 100) : zeros 2 n = d2 n := by
  obtain ⟨k, rfl⟩ := Int.eq_ofNat_of_zero_le h1
  have : ∀ k : Fin 100, zeros 2 (k.val : Int) = d2 (k.val : Int) := by decide +kernel
  exact this ⟨k, by omega⟩

theorem prec3 (n : Int) (h1 : 0 ≤ n) (h2 : n < 400) : prec 3 n = [48 + n.toNat / 100] ++ d2 (n % 100) := by
  obtain ⟨k, rfl⟩ := Int.eq_ofNat_of_zero_le h1
  have : ∀ k : Fin 400, prec 3 (k.val : Int) = [48 + (k.val : Int).toNat / 100] ++ d2 ((k.val : Int) % 100) := by decide +kernel
  exact this ⟨k, by omega⟩

theorem prec4 (n : Int) (h1 : 1000 ≤ n) (h2 : n < 10000) : prec 1 n = d2 (n / 100) ++ d2 (n % 100) := by
  obtain ⟨k, rfl⟩ := Int.eq_ofNat_of_zero_le (show 0 ≤ n by omega)
  have e : decimal k = [k / 10 / 10 / 10 + 48, k / 10 / 10 % 10 + 48, k / 10 % 10 + 48, k % 10 + 48] := by
    rw [decimal, if_neg (by omega), decimal, if_neg (by omega), decimal, if_neg (by omega), decimal, if_pos (by omega)]
    rfl
  unfold prec
  rw [Int.natAbs_natCast, e]
  have hs : sign ((k : Nat) : Int) = [] := by unfold sign; rw [if_neg (by omega)]
  rw [hs]
  simp only [d2, List.length_cons, List.length_nil, List.nil_append, List.cons_append, List.cons.injEq, and_true, Nat.reduceAdd,
    Nat.reduceSub, List.replicate_zero]
  omega

theorem zeros4 (m : Nat) (h : m < 1440) : zeros 4 ((m / 60 * 100 + m % 60 : Nat) : Int) = d2 ((m / 60 : Nat) : Int) ++ d2 ((m % 60 : Nat) : Int) := by
  have : ∀ k : Fin 1440, zeros 4 ((k.val / 60 * 100 + k.val % 60 : Nat) : Int) =
      d2 ((k.val / 60 : Nat) : Int) ++ d2 ((k.val % 60 : Nat) : Int) := by decide +kernel
  exact this ⟨m, h⟩

theorem hour12_clock (tm : Tm) (h : 0 ≤ tm.hour ∧ tm.hour ≤ 23) : hour12 tm.hour = clock tm ∧ 0 ≤ clock tm ∧ clock tm < 100 := by
  unfold hour12 clock
  simp only
  refine ⟨?_, by omega, by omega⟩
  repeat' split
  all_goals omega

theorem offset (m : Int) (h1 : -1440 < m) (h2 : m < 1440) :
    ((if ((60 * m).tdiv 60).tdiv 60 * 100 + ((60 * m).tdiv 60).tmod 60 ≥ 0 then 43 else 45) ::
      zeros 4 (((60 * m).tdiv 60).tdiv 60 * 100 + ((60 * m).tdiv 60).tmod 60).natAbs : List Nat) =
    [if 60 * m < 0 then 45 else 43] ++ d2 ((60 * m).natAbs / 3600 : Nat) ++ d2 ((60 * m).natAbs / 60 % 60 : Nat) := by
  have e : (60 * m).tdiv 60 = m := Int.mul_tdiv_cancel_left _ (by decide)
  rw [e]
  have ha : (60 * m).natAbs / 3600 = m.natAbs / 60 := by omega
  have hb : (60 * m).natAbs / 60 % 60 = m.natAbs % 60 := by omega
  rw [ha, hb, List.append_assoc, ← zeros4 m.natAbs (by omega)]
  have hk : (m.tdiv 60 * 100 + m.tmod 60 ≥ 0 ↔ ¬ m < 0) ∧ (m.tdiv 60 * 100 + m.tmod 60).natAbs = m.natAbs / 60 * 100 + m.natAbs % 60 := by
    rcases Int.lt_or_le m 0 with hm | hm
    · obtain ⟨k, rfl⟩ : ∃ k : Nat, m = -(k : Int) := ⟨m.natAbs, by omega⟩
      rw [Int.neg_tdiv, Int.neg_tmod, Int.tdiv_eq_ediv_of_nonneg (by omega), Int.tmod_eq_emod_of_nonneg (by omega)]
      omega
    · rw [Int.tdiv_eq_ediv_of_nonneg hm, Int.tmod_eq_emod_of_nonneg hm]
      omega
  rw [hk.2]
  by_cases hm : m < 0
  · rw [if_neg (by rw [hk.1]; exact fun h => h hm), if_pos (by omega)]
    rfl
  · rw [if_pos (hk.1.2 hm), if_neg (by omega)]
    rfl

/-- Each conversion of the implementation gives the text of the standard. -/
theorem conv_means (l : Locale) (tm : Tm) (hp : Proper tm) {c : Nat} {u : List Nat} (h : Means l tm c u) :
    conv l tm c = .text u := by
  obtain ⟨s1, s2, s3, s4, s5, s6, s7, s8, m, hm, s9⟩ := hp
  have hy : (1900 + tm.year).tdiv 100 = yr tm / 100 := by
    unfold yr; rw [Int.tdiv_eq_ediv_of_nonneg (by omega)]; omega
  have hy' : (1900 + tm.year).tmod 100 = yr tm % 100 := by
    unfold yr; rw [Int.tmod_eq_emod_of_nonneg (by omega)]; omega
  have hy2 : (tm.year + 1900).tmod 100 = yr tm % 100 := by
    unfold yr; rw [Int.tmod_eq_emod_of_nonneg (by omega)]
  have hyy : prec 1 (1900 + tm.year) = d2 (yr tm / 100) ++ d2 (yr tm % 100) := by
    rw [show 1900 + tm.year = yr tm by unfold yr; omega]
    exact prec4 _ (by unfold yr; omega) (by unfold yr; omega)
  have hr : 1000 ≤ yr tm ∧ yr tm ≤ 9999 := by unfold yr; omega
  have hc := hour12_clock tm s3
  have hw : ¬ (tm.wday < 0 ∨ tm.wday > 6) := by omega
  have hmn : ¬ (tm.mon < 0 ∨ tm.mon > 11) := by omega
  have hU : (tm.yday + 7 - tm.wday).tdiv 7 = (tm.yday + 7 - tm.wday) / 7 := Int.tdiv_eq_ediv_of_nonneg (by omega)
  have p1 := prec2 tm.sec (by omega) (by omega)
  have p2 := prec2 tm.min (by omega) (by omega)
  have p3 := prec2 tm.hour (by omega) (by omega)
  have p4 := prec2 tm.mday (by omega) (by omega)
  have p5 := prec2 (tm.mon + 1) (by omega) (by omega)
  have p6 := prec2 (clock tm) hc.2.1 hc.2.2
  have p7 := prec2 (yr tm / 100) (by omega) (by omega)
  have p8 := prec2 (yr tm % 100) (by omega) (by omega)
  have q1 := spaces2 tm.mday (by omega) (by omega)
  have q2 := spaces2 tm.hour (by omega) (by omega)
  have q3 := spaces2 (clock tm) hc.2.1 hc.2.2
  have q4 := zeros2 ((tm.yday + 7 - tm.wday) / 7) (by omega) (by omega)
  have q5 := prec3 (tm.yday + 1) (by omega) (by omega)
  have q6 := offset m s9.1 s9.2
  rw [← hm] at q6
  clear hm s9 hr
  cases h
  case z =>
    simp only [conv, reduceIte, Nat.reduceEqDiff]
    rw [q6]
  all_goals simp [conv, hy, hy', hy2, hyy, hc.1, hw, hmn, hU, p1, p2, p3, p4, p5, p6, p7, p8, q1, q2, q3, q4, q5, half]

/-! ## Proof -/

theorem emit_fits (again : List Nat → Res (Nat × List Nat)) (size : Nat) (u w r : List Nat)
    (go : Nat → List Nat → Res (Nat × List Nat)) (hs : size ≤ (w ++ r).length) (hf : (w ++ u).length < size) :
    emit again size (.text u) w.length (w ++ r) go = go (w ++ u).length (w ++ u ++ 0 :: r.drop (u.length + 1)) := by
  simp only [List.length_append] at hs hf
  simp only [emit]
  rw [snpr_at _ _ _ _ (by omega) (by omega)]
  simp only [Res.bind]
  rw [if_neg (by omega), List.length_append]

theorem emit_cut (again : List Nat → Res (Nat × List Nat)) (size : Nat) (u w r : List Nat)
    (go : Nat → List Nat → Res (Nat × List Nat)) (hs : size ≤ (w ++ r).length) (hw : w.length ≤ size) (hf : size ≤ (w ++ u).length) :
    ∃ b, emit again size (.text u) w.length (w ++ r) go = .ok (0, b) ∧ b.length = (w ++ r).length ∧
      b.drop size = (w ++ r).drop size := by
  simp only [List.length_append] at hs hf
  simp only [emit]
  obtain ⟨r', e1, e2, e3⟩ := snpr_cut w r u (size - w.length) (by omega) (by omega)
  rw [e1]
  simp only [Res.bind]
  rw [if_pos (by omega)]
  refine ⟨_, rfl, by simp [e2], ?_⟩
  rw [List.drop_append, List.drop_append, e3]

/-- The outcome that the text `w ++ t` in a buffer of `size` bytes must have. -/
def Outcome (size : Nat) (buf text : List Nat) (r : Res (Nat × List Nat)) : Prop :=
  (text.length < size → r = .ok (text.length, text ++ 0 :: buf.drop (text.length + 1))) ∧
  (size ≤ text.length → ∃ b, r = .ok (0, b) ∧ b.length = buf.length ∧ b.drop size = buf.drop size)

theorem outcome_mono {size : Nat} {buf buf' text : List Nat} {r : Res (Nat × List Nat)} (h : Outcome size buf' text r) (k : Nat)
    (hk : k ≤ text.length + 1) (hk' : k ≤ size ∨ text.length < size) (hl : buf'.length = buf.length)
    (hd : buf'.drop k = buf.drop k) : Outcome size buf text r := by
  have hdrop : ∀ n, k ≤ n → buf'.drop n = buf.drop n := by
    intro n hn
    rw [show n = k + (n - k) by omega, ← List.drop_drop, hd, List.drop_drop]
  refine ⟨fun hf => ?_, fun hf => ?_⟩
  · rw [h.1 hf, hdrop _ (by omega)]
  · obtain ⟨b, e1, e2, e3⟩ := h.2 hf
    refine ⟨b, e1, by omega, ?_⟩
    rw [e3, hdrop _ (by omega)]

theorem loop_outcome (again : List Nat → Res (Nat × List Nat)) (l : Locale) (tm : Tm) (size : Nat) {fmt t : List Nat}
    (hp : Proper tm) (he : Expands l tm fmt t) : ∀ w r : List Nat, size ≤ (w ++ r).length → w.length ≤ size →
    Outcome size (w ++ r) (w ++ t) (loop again l tm size fmt w.length (w ++ r)) := by
  have hemit : ∀ (u t fmt : List Nat), (∀ w r : List Nat, size ≤ (w ++ r).length → w.length ≤ size →
        Outcome size (w ++ r) (w ++ t) (loop again l tm size fmt w.length (w ++ r))) →
      ∀ w r : List Nat, size ≤ (w ++ r).length → w.length ≤ size →
      Outcome size (w ++ r) (w ++ (u ++ t)) (emit again size (.text u) w.length (w ++ r)
        fun off buf => loop again l tm size fmt off buf) := by
    intro u t fmt ih w r hs hw
    by_cases hf : (w ++ u).length < size
    · rw [emit_fits again size u w r _ hs hf]
      simp only [List.length_append] at hs hf
      have := ih (w ++ u) (0 :: r.drop (u.length + 1)) (by simp; omega) (by simp; omega)
      rw [List.append_assoc w u t] at this
      refine outcome_mono this (w.length + u.length + 1) (by simp only [List.length_append]; omega) (Or.inl (by omega)) (by simp; omega) ?_
      have e1 : (w ++ u ++ 0 :: r.drop (u.length + 1)).drop (w.length + u.length + 1) = r.drop (u.length + 1) := by
        rw [show w.length + u.length + 1 = (w ++ u).length + 1 by simp, List.drop_length_add_append]
        rfl
      have e2 : (w ++ r).drop (w.length + u.length + 1) = r.drop (u.length + 1) := by
        rw [Nat.add_assoc, List.drop_length_add_append]
      rw [e1, e2]
    · obtain ⟨b, e1, e2, e3⟩ := emit_cut again size u w r (fun off buf => loop again l tm size fmt off buf) hs hw (by omega)
      refine ⟨fun h => absurd h ?_, fun _ => ⟨b, e1, e2, e3⟩⟩
      simp only [List.length_append] at hf ⊢
      omega
  have hnil : ∀ w r : List Nat, size ≤ (w ++ r).length → w.length ≤ size →
      Outcome size (w ++ r) (w ++ []) (loop again l tm size [] w.length (w ++ r)) := by
    intro w r hs hw
    rw [loop, List.append_nil]
    by_cases hf : w.length = size
    · rw [if_pos hf]
      exact ⟨fun h => by omega, fun _ => ⟨_, rfl, rfl, rfl⟩⟩
    · rw [if_neg hf, puts_at _ _ _ (by rintro rfl; simp at hs; omega)]
      simp only [Res.bind]
      refine ⟨fun _ => ?_, fun h => by omega⟩
      rw [List.drop_append]
      simp
  induction he with
  | nil => exact hnil
  | @literal c fmt t hc _ ih =>
    intro w r hs hw
    rw [loop.eq_def]; simp only []; rw [if_neg (by omega), if_pos hc]
    by_cases hf : w.length = size
    · rw [if_pos hf]
      exact ⟨fun h => by simp at h; omega, fun _ => ⟨_, rfl, rfl, rfl⟩⟩
    · rw [if_neg hf, puts_at _ _ _ (by rintro rfl; simp at hs; omega)]
      simp only [Res.bind]
      simp only [List.length_append] at hs
      have := ih (w ++ [c]) (r.drop 1) (by simp; omega) (by simp; omega)
      rw [List.append_assoc w [c] t, List.singleton_append, List.length_append, List.length_singleton] at this
      refine outcome_mono this (w.length + 1) (by simp) (Or.inl (by omega)) (by simp; omega) ?_
      rw [List.drop_append, List.drop_append]
      simp
  | @conversion c fmt t u hc _ ih =>
    intro w r hs hw
    have h1 : ¬ (c = 79 ∨ c = 69) := by
      rintro (rfl | rfl) <;> cases hc
    have := hemit u t fmt ih w r hs hw
    rw [loop.eq_def]; simp only []; rw [if_neg (by omega)]
    simp only [ne_eq, not_true_eq_false, if_false, h1]
    rw [conv_means l tm hp hc]
    exact this
  | @alternative m c fmt t u hm hc _ ih =>
    intro w r hs hw
    have h1 : m = 79 ∨ m = 69 := by omega
    have hm : (m = 79 ∧ c ∈ validO) ∨ (m = 69 ∧ c ∈ validE) := hm
    have := hemit u t fmt ih w r hs hw
    rw [loop.eq_def]; simp only []; rw [if_neg (by omega)]
    simp only [ne_eq, not_true_eq_false, if_false, h1, if_true, hm]
    rw [conv_means l tm hp hc]
    exact this
  | percent =>
    intro w r hs hw
    have := hemit [37] [] [] hnil w r hs hw
    rw [loop.eq_def]; simp only []; rw [if_neg (by omega)]
    simp only [ne_eq, not_true_eq_false, if_false]
    exact this

/-- C53, for formats without `%c`, `%x` and `%X`, without conversions that the implementation does not know and without
`%O` and `%E` before other characters than those they modify: the text is written with its terminator and its length
returned if it fits, otherwise the result is 0 and nothing is stored after the buffer. -/
theorem strftime_exact_partial (l : Locale) (tm : Tm) (size depth : Nat) (buf fmt t : List Nat) (hs : size ≤ buf.length)
    (hp : Proper tm) (he : Expands l tm fmt t) :
    (t.length < size → strftime l tm size buf depth fmt = .ok (t.length, t ++ 0 :: buf.drop (t.length + 1))) ∧
    (size ≤ t.length → ∃ b, strftime l tm size buf depth fmt = .ok (0, b) ∧ b.length = buf.length ∧
      b.drop size = buf.drop size) := by
  have : ∀ again, Outcome size buf t (loop again l tm size fmt 0 buf) := by
    intro again
    have := loop_outcome again l tm size hp he [] buf (by simpa using hs) (by simp)
    simpa using this
  cases depth with
  | zero => rw [strftime]; exact this _
  | succ n => rw [strftime]; exact this _

/-- C53: a format that is just `%c`, `%x` or `%X` stands for the format of the locale. -/
theorem strftime_locale (l : Locale) (tm : Tm) (size depth : Nat) (buf : List Nat) :
    strftime l tm size buf (depth + 1) [37, 99] = strftime l tm size buf depth l.dtFmt ∧
    strftime l tm size buf (depth + 1) [37, 120] = strftime l tm size buf depth l.dFmt ∧
    strftime l tm size buf (depth + 1) [37, 88] = strftime l tm size buf depth l.tFmt := by
  refine ⟨?_, ?_, ?_⟩ <;> simp [strftime, loop, conv, emit]

/-- The C locale. -/
def cLocale : Locale where
  abday _ := [83, 117, 110]
  day _ := [83, 117, 110, 100, 97, 121]
  abmon _ := [74, 97, 110]
  mon _ := [74, 97, 110]
  am := [65, 77]
  pm := [80, 77]
  dtFmt := [37, 97, 32, 37, 98]
  dFmt := [37, 109, 47, 37, 100]
  tFmt := [37, 72, 58, 37, 77]
  lower c := if 65 ≤ c ∧ c ≤ 90 then c + 32 else c

/-- 7 February 2024, 09:05. -/
def sample : Tm := ⟨0, 5, 9, 7, 1, 124, 3, 37, 3600, [67, 69, 84]⟩

example : Proper sample := ⟨by decide, by decide, by decide, by decide, by decide, by decide, by decide, by decide,
  60, by decide, by decide, by decide⟩

/-- "%F at%e, %OI" -/
example : Expands cLocale sample [37, 70, 32, 97, 116, 37, 101, 44, 32, 37, 79, 73]
    [50, 48, 50, 52, 45, 48, 50, 45, 48, 55, 32, 97, 116, 32, 55, 44, 32, 48, 57] :=
  .conversion .F (.literal (by decide) (.literal (by decide) (.literal (by decide) (.conversion .e
    (.literal (by decide) (.literal (by decide) (.alternative (Or.inl ⟨rfl, by decide⟩) .I .nil)))))))

/-- "a%cb" gives the text of the locale's date and time format only: what comes before and after is lost. -/
theorem restart_violated : cLocale.dtFmt = [37, 97, 32, 37, 98] ∧
    strftime cLocale sample 20 (List.replicate 20 0) 1 [97, 37, 99, 98] =
      .ok (7, [83, 117, 110, 32, 74, 97, 110] ++ List.replicate 13 0) ∧
    strftime cLocale sample 20 (List.replicate 20 0) 0 [37, 97, 32, 37, 98] =
      .ok (7, [83, 117, 110, 32, 74, 97, 110] ++ List.replicate 13 0) := by
  refine ⟨rfl, by decide +kernel, by decide +kernel⟩

/-- "%Of" stores two characters without looking at the size. -/
theorem modifier_violated : strftime cLocale sample 1 [0] 0 [37, 79, 102] = .ub := by decide +kernel

/-- "%u", the ISO weekday, ends the program. -/
theorem unknown_violated : strftime cLocale sample 20 (List.replicate 20 0) 0 [37, 117] = .panic := by decide +kernel

end Mlibc.Strftime
