/-
C94: strverscmp, the comparison of version strings.

Code: options/glibc/generic/string.cpp L35-70. A string is the list of its bytes (1 to 255), the reads `l[i]` past the end give the terminating 0.
-/
namespace Mlibc.Version

/-- The byte at the start of (what remains of) a string. `l[i]` -/
def hd (l : List Nat) : Nat := l.getD 0 0

/-- isdigit. ansi/generic/ctype.cpp L14-17 (ASCII digits) -/
def isdigit (c : Nat) : Bool := decide (48 ≤ c ∧ c ≤ 57)

/-- The loop over the common prefix: `i`, `dp` and `z` where the strings differ, `none` for `return 0`. L44-52 -/
def scan : List Nat → List Nat → Nat → Nat → Bool → Option (Nat × Nat × Bool)
  | [], r, i, dp, z => if hd r = 0 then none else some (i, dp, z)
  | c :: l, r, i, dp, z =>
    if c = hd r then
      if c = 0 then none
      else if !isdigit c then scan l r.tail (i + 1) (i + 1) true
      else if c ≠ 48 then scan l r.tail (i + 1) dp false
      else scan l r.tail (i + 1) dp z
    else some (i, dp, z)

/-- The comparison of the lengths of the digit strings. 0: it decides nothing. L57-62 -/
def runs : List Nat → List Nat → Int
  | [], r => if isdigit (hd r) then -1 else 0
  | c :: l, r => if isdigit c then (if !isdigit (hd r) then 1 else runs l r.tail) else if isdigit (hd r) then -1 else 0

/-- `(unsigned char)(c - '0')`. L66 -/
def fromZero (c : Nat) : Nat := (c + 208) % 256

/-- `strverscmp`. L36-70 -/
def strverscmp (l r : List Nat) : Int :=
  match scan l r 0 0 true with
  | none => 0
  | some (i, dp, z) =>
    let a := l.getD i 0
    let b := r.getD i 0
    if l.getD dp 0 ≠ 48 ∧ r.getD dp 0 ≠ 48 then
      let k := runs (l.drop i) (r.drop i)
      if k ≠ 0 then k else (a : Int) - b
    else if z && decide (dp < i) && (isdigit a || isdigit b) then (fromZero a : Int) - fromZero b
    else (a : Int) - b

/-! ### Specification -/

/-- A string of the C language. -/
def Str (s : List Nat) : Prop := ∀ c ∈ s, 0 < c ∧ c < 256

/-- A decimal digit. -/
def Digit (c : Nat) : Prop := '0'.toNat ≤ c ∧ c ≤ '9'.toNat
/-- A string of digits. -/
def Digits (ds : List Nat) : Prop := ∀ c ∈ ds, Digit c
/-- The number that a string of digits stands for. -/
def value (ds : List Nat) : Nat := ds.foldl (fun v c => 10 * v + (c - '0'.toNat)) 0
/-- A number without leading zeros. -/
def Numeral (ds : List Nat) : Prop := Digits ds ∧ ∃ d rest, ds = d :: rest ∧ d ≠ '0'.toNat
/-- The string does not begin with a digit. -/
def NoDigitFirst (s : List Nat) : Prop := ∀ c, s.head? = some c → ¬ Digit c
/-- The string does not end with a digit. -/
def NoDigitLast (s : List Nat) : Prop := ∀ c, s.getLast? = some c → ¬ Digit c

def txt (s : String) : List Nat := s.toList.map Char.toNat

/-! ### A form by states -/

/-- What the common prefix ends with: no digit; a number; zeros; zeros and then other digits. -/
inductive St where
  | plain | number | zeros | fraction
  deriving DecidableEq

def St.next : St → Nat → St
  | s, c => if !isdigit c then .plain else
    match s with
    | .plain => if c = 48 then .zeros else .number
    | .number => .number
    | .zeros => if c = 48 then .zeros else .fraction
    | .fraction => .fraction

def runLen : List Nat → Nat
  | [] => 0
  | c :: l => if isdigit c then 1 + runLen l else 0

/-- In each state, strings with different first bytes are ordered by a number. -/
def key : St → List Nat → Nat
  | .plain, l => if isdigit (hd l) ∧ hd l ≠ 48 then 256 * runLen l + hd l else hd l
  | .number, l => 256 * runLen l + hd l
  | .zeros, l => if isdigit (hd l) then hd l else 256 + hd l
  | .fraction, l => hd l

def sgn (x y : Nat) : Int := if x < y then -1 else if y < x then 1 else 0

/-- The comparison of what follows a common prefix. -/
def cmpS : St → List Nat → List Nat → Int
  | _, [], [] => 0
  | s, [], r => sgn (key s []) (key s r)
  | s, c :: l, [] => sgn (key s (c :: l)) (key s [])
  | s, c :: l, d :: r => if c = d then cmpS (s.next c) l r else sgn (key s (c :: l)) (key s (d :: r))

theorem cmpS_nil_cons (s : St) (d : Nat) (r : List Nat) : cmpS s [] (d :: r) = sgn (key s []) (key s (d :: r)) := by rw [cmpS]; simp
theorem cmpS_cons_nil (s : St) (c : Nat) (l : List Nat) : cmpS s (c :: l) [] = sgn (key s (c :: l)) (key s []) := by rw [cmpS]
theorem cmpS_cons_cons (s : St) (c d : Nat) (l r : List Nat) :
    cmpS s (c :: l) (d :: r) = if c = d then cmpS (s.next c) l r else sgn (key s (c :: l)) (key s (d :: r)) := by rw [cmpS]

def sign (x : Int) : Int := if x < 0 then -1 else if 0 < x then 1 else 0

theorem isdigit_zero : isdigit 0 = false := by decide
theorem runLen_nil : runLen [] = 0 := rfl

theorem runLen_digit {c : Nat} (l : List Nat) (h : isdigit c = true) : runLen (c :: l) = 1 + runLen l := by rw [runLen, if_pos h]
theorem runLen_other {c : Nat} (l : List Nat) (h : ¬ isdigit c = true) : runLen (c :: l) = 0 := by rw [runLen, if_neg h]

theorem runs_sign (l r : List Nat) : runs l r = sgn (runLen l) (runLen r) := by
  have s1 : ∀ n, sgn 0 (1 + n) = -1 := by intro n; simp [sgn]
  have s2 : ∀ n, sgn (1 + n) 0 = 1 := by intro n; simp [sgn]
  have s3 : sgn 0 0 = 0 := rfl
  have s4 : ∀ m n, sgn (1 + m) (1 + n) = sgn m n := by
    intro m n
    simp only [sgn, Nat.add_lt_add_iff_left]
  induction l generalizing r with
  | nil =>
    cases r with
    | nil => simp [runs, hd, isdigit, sgn, runLen]
    | cons d r =>
      rw [runs, runLen_nil]
      simp only [hd, List.getD_cons_zero]
      by_cases h : isdigit d = true
      · rw [if_pos h, runLen_digit _ h, s1]
      · rw [if_neg h, runLen_other _ h, s3]
  | cons c l ih =>
    cases r with
    | nil =>
      rw [runs, runLen_nil]
      simp only [hd, List.getD_nil, isdigit_zero]
      by_cases h : isdigit c = true
      · rw [if_pos h, runLen_digit _ h, s2]; rfl
      · rw [if_neg h, runLen_other _ h, s3]; rfl
    | cons d r =>
      rw [runs]
      simp only [hd, List.getD_cons_zero, List.tail_cons]
      by_cases h : isdigit c = true
      · rw [if_pos h, runLen_digit _ h]
        by_cases h2 : isdigit d = true
        · rw [if_neg (by simp [h2]), ih, runLen_digit _ h2, s4]
        · rw [if_pos (by simp [h2]), runLen_other _ h2, s2]
      · rw [if_neg h, runLen_other _ h]
        by_cases h2 : isdigit d = true
        · rw [if_pos h2, runLen_digit _ h2, s1]
        · rw [if_neg h2, runLen_other _ h2, s3]

theorem hd_lt {l : List Nat} (h : Str l) : hd l < 256 := by
  cases l with
  | nil => simp [hd]
  | cons c l => simpa [hd] using (h c (by simp)).2

theorem hd_zero {l : List Nat} (h : Str l) : hd l = 0 ↔ l = [] := by
  cases l with
  | nil => simp [hd]
  | cons c l =>
    have := (h c (by simp)).1
    simp [hd]; omega

theorem runLen_pos {l : List Nat} : 0 < runLen l ↔ isdigit (hd l) = true := by
  cases l with
  | nil => simp [runLen, hd, isdigit]
  | cons c l =>
    simp only [runLen, hd, List.getD_cons_zero]
    by_cases h : isdigit c = true
    · simp [h]; omega
    · simp [h]

/-- What the code does with the strings at the first difference. -/
def atDiff (s : St) (l r : List Nat) : Int :=
  let plainly : Int := (hd l : Int) - hd r
  match s with
  | .plain => if hd l ≠ 48 ∧ hd r ≠ 48 then (if runs l r ≠ 0 then runs l r else plainly) else plainly
  | .number => if runs l r ≠ 0 then runs l r else plainly
  | .zeros => if isdigit (hd l) || isdigit (hd r) then (fromZero (hd l) : Int) - fromZero (hd r) else plainly
  | .fraction => plainly

theorem sign_neg {x : Int} : sign x = -1 ↔ x < 0 := by unfold sign; split <;> (try split) <;> constructor <;> intro h <;> first | rfl | omega
theorem sign_pos {x : Int} : sign x = 1 ↔ 0 < x := by unfold sign; split <;> (try split) <;> constructor <;> intro h <;> first | rfl | omega
theorem sign_zero {x : Int} : sign x = 0 ↔ x = 0 := by unfold sign; split <;> (try split) <;> constructor <;> intro h <;> first | rfl | omega
theorem sgn_neg {x y : Nat} : sgn x y = -1 ↔ x < y := by unfold sgn; split <;> (try split) <;> constructor <;> intro h <;> first | rfl | omega
theorem sgn_pos {x y : Nat} : sgn x y = 1 ↔ y < x := by unfold sgn; split <;> (try split) <;> constructor <;> intro h <;> first | rfl | omega

theorem sign_eq_sgn {x : Int} {a b : Nat} (h1 : x < 0 ↔ a < b) (h2 : 0 < x ↔ b < a) : sign x = sgn a b := by
  unfold sign sgn
  by_cases p : x < 0
  · rw [if_pos p, if_pos (h1.mp p)]
  · rw [if_neg p, if_neg (fun h => p (h1.mpr h))]
    by_cases q : 0 < x
    · rw [if_pos q, if_pos (h2.mp q)]
    · rw [if_neg q, if_neg (fun h => q (h2.mpr h))]

theorem sign_atDiff (s : St) (l r : List Nat) (hl : Str l) (hr : Str r) (hne : hd l ≠ hd r) : sign (atDiff s l r) = sgn (key s l) (key s r) := by
  have h1 := hd_lt hl
  have h2 := hd_lt hr
  have p1 := @runLen_pos l
  have p2 := @runLen_pos r
  have r1 : runs l r < 0 ↔ runLen l < runLen r := by
    rw [runs_sign]; unfold sgn; split <;> (try split) <;> constructor <;> intro h <;> omega
  have r2 : 0 < runs l r ↔ runLen r < runLen l := by
    rw [runs_sign]; unfold sgn; split <;> (try split) <;> constructor <;> intro h <;> omega
  simp only [isdigit, decide_eq_true_eq] at p1 p2
  apply sign_eq_sgn
  all_goals
    cases s <;> simp only [atDiff, key, fromZero, isdigit, Bool.or_eq_true, decide_eq_true_eq]
    all_goals
      generalize hd l = a at *
      generalize hd r = b at *
      generalize runLen l = n at *
      generalize runLen r = k at *
      generalize runs l r = q at *
      (repeat' split) <;> constructor <;> intro h <;> omega

/-- What the code does after the loop. -/
def finish (l r : List Nat) : Option (Nat × Nat × Bool) → Int
  | none => 0
  | some (i, dp, z) =>
    let a := l.getD i 0
    let b := r.getD i 0
    if l.getD dp 0 ≠ 48 ∧ r.getD dp 0 ≠ 48 then
      let k := runs (l.drop i) (r.drop i)
      if k ≠ 0 then k else (a : Int) - b
    else if z && decide (dp < i) && (isdigit a || isdigit b) then (fromZero a : Int) - fromZero b
    else (a : Int) - b

theorem strverscmp_finish (l r : List Nat) : strverscmp l r = finish l r (scan l r 0 0 true) := by
  unfold strverscmp finish
  split <;> rfl

/-- The state of the loop. -/
def stOf (p : List Nat) (dp : Nat) (z : Bool) : St :=
  if dp = p.length then .plain else if p.getD dp 0 ≠ 48 then .number else if z then .zeros else .fraction

theorem finish_diff (p l r : List Nat) (dp : Nat) (z : Bool) (hdp : dp ≤ p.length) :
    finish (p ++ l) (p ++ r) (some (p.length, dp, z)) = atDiff (stOf p dp z) l r := by
  have gl : ∀ x : List Nat, (p ++ x).getD p.length 0 = hd x := by intro x; simp [hd, List.getD, List.getElem?_append_right]
  have dl : ∀ x : List Nat, (p ++ x).drop p.length = x := by intro x; simp
  simp only [finish, gl, dl]
  by_cases h : dp = p.length
  · subst h
    simp only [gl, stOf, if_true, atDiff, Nat.lt_irrefl, decide_false, Bool.and_false, Bool.false_and, Bool.false_eq_true, if_false]
  · have hlt : dp < p.length := by omega
    have g2 : ∀ x : List Nat, (p ++ x).getD dp 0 = p.getD dp 0 := by intro x; simp [List.getD, List.getElem?_append_left hlt]
    simp only [g2, stOf, if_neg h, and_self]
    by_cases h4 : p.getD dp 0 ≠ 48
    · rw [if_pos h4, if_pos h4]
      rfl
    · rw [if_neg h4, if_neg h4]
      cases z
      · simp [atDiff]
      · simp only [Bool.true_and, hlt, decide_true, if_true]
        rfl

theorem scan_spec : ∀ (l r p : List Nat) (dp : Nat) (z : Bool), Str l → Str r → dp ≤ p.length →
    (dp = p.length → z = true) → (z = true → ∀ i, dp ≤ i → i < p.length → p.getD i 0 = 48) → (dp < p.length → isdigit (p.getD dp 0) = true) →
    sign (finish (p ++ l) (p ++ r) (scan l r p.length dp z)) = cmpS (stOf p dp z) l r := by
  intro l
  induction l with
  | nil =>
    intro r p dp z hl hr hdp _ _ _
    rw [scan]
    by_cases h : hd r = 0
    · rw [if_pos h]
      have := (hd_zero hr).mp h
      subst this
      simp [finish, sign, cmpS]
    · rw [if_neg h, finish_diff _ _ _ _ _ hdp, sign_atDiff _ _ _ hl hr (by simpa [hd] using fun h' => h h'.symm)]
      cases r with
      | nil => simp [hd] at h
      | cons d r => rw [cmpS]; simp
  | cons c l ih =>
    intro r p dp z hl hr hdp hz hzz hdd
    have hc := hl c (by simp)
    have hl' : Str l := fun x hx => hl x (List.mem_cons_of_mem _ hx)
    rw [scan]
    by_cases h : c = hd r
    · rw [if_pos h, if_neg (by omega)]
      cases r with
      | nil => simp [hd] at h; omega
      | cons d r =>
        simp only [hd, List.getD_cons_zero] at h
        subst h
        have hr' : Str r := fun x hx => hr x (List.mem_cons_of_mem _ hx)
        rw [cmpS, if_pos rfl, List.tail_cons]
        have ap : ∀ x : List Nat, p ++ c :: x = (p ++ [c]) ++ x := by intro x; simp
        rw [ap l, ap r]
        have hlen : (p ++ [c]).length = p.length + 1 := by simp
        have gold : ∀ i, i < p.length → (p ++ [c]).getD i 0 = p.getD i 0 := by
          intro i hi
          simp [List.getD, List.getElem?_append_left hi]
        have gnew : (p ++ [c]).getD p.length 0 = c := by simp [List.getD]
        by_cases hdig : isdigit c = true
        · rw [if_neg (by simp [hdig])]
          by_cases h0 : c ≠ 48
          · rw [if_pos h0, ← hlen, ih r (p ++ [c]) dp false hl' hr' (by omega) (by omega) (by simp) (by
              intro _
              rcases Nat.lt_or_eq_of_le hdp with h | h
              · rw [gold dp h]; exact hdd h
              · rw [h, gnew]; exact hdig)]
            congr 1
            simp only [stOf, hlen, St.next, hdig, Bool.not_true, Bool.false_eq_true, if_false]
            rcases Nat.lt_or_eq_of_le hdp with h | h
            · rw [gold dp h, if_neg (show ¬ dp = p.length + 1 by omega), if_neg (show ¬ dp = p.length by omega)]
              by_cases h4 : p.getD dp 0 ≠ 48
              · rw [if_pos h4, if_pos h4]
              · rw [if_neg h4, if_neg h4]
                cases z <;> simp [h0]
            · rw [h, gnew, if_neg (show ¬ p.length = p.length + 1 by omega), if_pos h0, if_pos rfl]
              simp [h0]
          · rw [if_neg h0, ← hlen, ih r (p ++ [c]) dp z hl' hr' (by omega) (by omega) (by
              intro hzt i hi1 hi2
              rcases Nat.lt_or_eq_of_le (show i ≤ p.length by omega) with h | h
              · rw [gold i h]; exact hzz hzt i hi1 h
              · rw [h, gnew]; omega) (by
              intro _
              rcases Nat.lt_or_eq_of_le hdp with h | h
              · rw [gold dp h]; exact hdd h
              · rw [h, gnew]; exact hdig)]
            congr 1
            simp only [stOf, hlen, St.next, hdig, Bool.not_true, Bool.false_eq_true, if_false]
            have h48 : c = 48 := by omega
            rcases Nat.lt_or_eq_of_le hdp with h | h
            · rw [gold dp h, if_neg (show ¬ dp = p.length + 1 by omega), if_neg (show ¬ dp = p.length by omega)]
              by_cases h4 : p.getD dp 0 ≠ 48
              · rw [if_pos h4]
              · rw [if_neg h4]
                cases z <;> simp [h48]
            · have := hz h
              subst this
              rw [h, gnew, if_neg (show ¬ p.length = p.length + 1 by omega), if_neg h0, if_pos rfl]
              simp [h48]
        · rw [if_pos (by simp [hdig]), ← hlen, ih r (p ++ [c]) _ true hl' hr' (by omega) (by simp) (by intro _ i h1 h2; omega) (by omega)]
          congr 1
          simp [stOf, St.next, hdig]
    · rw [if_neg h, finish_diff _ _ _ _ _ hdp, sign_atDiff _ _ _ hl hr (by simpa [hd] using h)]
      cases r with
      | nil => rw [cmpS]
      | cons d r => rw [cmpS, if_neg (by simpa [hd] using h)]

theorem sign_strverscmp (l r : List Nat) (hl : Str l) (hr : Str r) : sign (strverscmp l r) = cmpS .plain l r := by
  rw [strverscmp_finish]
  have := scan_spec l r [] 0 true hl hr (by simp) (by simp) (by simp) (by simp)
  simpa [stOf] using this

/-! ### It is an order -/

theorem str_tail {c : Nat} {l : List Nat} (h : Str (c :: l)) : Str l := fun x hx => h x (List.mem_cons_of_mem _ hx)

theorem runLen_le {l r : List Nat} (hl : Str l) (hr : Str r) (h : cmpS .number l r = -1) : runLen l ≤ runLen r := by
  induction l generalizing r with
  | nil => simp [runLen]
  | cons c l ih =>
    have hc := (hl c (by simp)).2
    cases r with
    | nil =>
      rw [cmpS, sgn_neg] at h
      simp only [key, hd, List.getD_cons_zero, List.getD_nil, runLen_nil] at h
      omega
    | cons d r =>
      have hd' := (hr d (by simp)).2
      rw [cmpS] at h
      by_cases hcd : c = d
      · rw [if_pos hcd] at h
        subst hcd
        by_cases hd : isdigit c = true
        · rw [runLen_digit _ hd, runLen_digit _ hd]
          have : St.next .number c = .number := by simp [St.next, hd]
          rw [this] at h
          have := ih (str_tail hl) (str_tail hr) h
          omega
        · rw [runLen_other _ hd]; omega
      · rw [if_neg hcd, sgn_neg] at h
        simp only [key, hd, List.getD_cons_zero] at h
        omega

theorem sgn_swap (a b : Nat) : sgn b a = - sgn a b := by
  unfold sgn; split <;> (try split) <;> (try split) <;> first | rfl | omega

theorem cmpS_swap (s : St) (l r : List Nat) : cmpS s r l = - cmpS s l r := by
  induction l generalizing s r with
  | nil =>
    cases r with
    | nil => rfl
    | cons d r => rw [cmpS, cmpS, sgn_swap]; simp
  | cons c l ih =>
    cases r with
    | nil => rw [cmpS, cmpS, sgn_swap]; simp
    | cons d r =>
      rw [cmpS, cmpS]
      by_cases h : c = d
      · subst h
        rw [if_pos rfl, if_pos rfl, ih]
      · rw [if_neg h, if_neg (fun h' => h h'.symm), sgn_swap]

theorem cmpS_cases (s : St) (l r : List Nat) : cmpS s l r = -1 ∨ cmpS s l r = 0 ∨ cmpS s l r = 1 := by
  have hs : ∀ a b, sgn a b = -1 ∨ sgn a b = 0 ∨ sgn a b = 1 := by intro a b; unfold sgn; split <;> (try split) <;> simp
  induction l generalizing s r with
  | nil =>
    cases r with
    | nil => exact .inr (.inl rfl)
    | cons d r => rw [cmpS]; exact hs _ _; simp
  | cons c l ih =>
    cases r with
    | nil => rw [cmpS]; exact hs _ _
    | cons d r =>
      rw [cmpS]
      split
      · exact ih _ _
      · exact hs _ _

theorem key_ne {s : St} {l r : List Nat} (hl : Str l) (hr : Str r) (h : hd l ≠ hd r) : key s l ≠ key s r := by
  have h1 := hd_lt hl
  have h2 := hd_lt hr
  have p1 := @runLen_pos l
  have p2 := @runLen_pos r
  simp only [isdigit, decide_eq_true_eq] at p1 p2
  cases s <;> simp only [key, isdigit, decide_eq_true_eq] <;> (repeat' split) <;> omega

theorem cmpS_zero {s : St} {l r : List Nat} (hl : Str l) (hr : Str r) : cmpS s l r = 0 ↔ l = r := by
  have hs : ∀ a b, a ≠ b → sgn a b ≠ 0 := by
    intro a b h; unfold sgn; split <;> (try split) <;> first | omega | simp
  induction l generalizing s r with
  | nil =>
    cases r with
    | nil => simp [cmpS]
    | cons d r =>
      have := (hr d (by simp)).1
      rw [cmpS]
      · have := hs _ _ (key_ne (s := s) hl hr (by simp [hd]; omega))
        simp [this]
      · simp
  | cons c l ih =>
    have := (hl c (by simp)).1
    cases r with
    | nil =>
      rw [cmpS]
      have := hs _ _ (key_ne (s := s) hl hr (by simp [hd]; omega))
      simp [this]
    | cons d r =>
      rw [cmpS]
      by_cases h : c = d
      · subst h
        rw [if_pos rfl]
        have := ih (s := s.next c) (r := r) (str_tail hl) (str_tail hr)
        simp [this]
      · rw [if_neg h]
        have := hs _ _ (key_ne (s := s) hl hr (by simpa [hd] using h))
        simp [this, h]

theorem number_of_runLen {l r : List Nat} (hl : Str l) (hr : Str r) (h : runLen l < runLen r) : cmpS .number l r = -1 := by
  rcases cmpS_cases .number l r with h1 | h1 | h1
  · exact h1
  · rw [cmpS_zero hl hr] at h1
    subst h1
    omega
  · have := runLen_le hr hl (by rw [cmpS_swap, h1])
    omega

/-- Strings with the same first byte: the order of their keys does not contradict the order of the rest. -/
theorem key_le {s : St} {c : Nat} {l r : List Nat} (hl : Str l) (hr : Str r) (h : cmpS (s.next c) l r = -1) : key s (c :: l) ≤ key s (c :: r) := by
  have hn : isdigit c = true → (s = .plain ∧ c ≠ 48 ∨ s = .number) → runLen (c :: l) ≤ runLen (c :: r) := by
    intro hd hs
    have : s.next c = .number := by rcases hs with ⟨h1, h2⟩ | h1 <;> subst h1 <;> simp [St.next, hd, *]
    rw [this] at h
    rw [runLen_digit _ hd, runLen_digit _ hd]
    have := runLen_le hl hr h
    omega
  cases s with
  | fraction => simp [key, hd]
  | zeros => simp [key, hd]
  | number =>
    simp only [key, hd, List.getD_cons_zero]
    by_cases hd : isdigit c = true
    · have := hn hd (.inr rfl)
      omega
    · rw [runLen_other _ hd, runLen_other _ hd]; omega
  | plain =>
    simp only [key, hd, List.getD_cons_zero]
    by_cases hd : isdigit c = true ∧ c ≠ 48
    · rw [if_pos hd, if_pos hd]
      have := hn hd.1 (.inl ⟨rfl, hd.2⟩)
      omega
    · rw [if_neg hd, if_neg hd]; omega

/-- The same, the other way. -/
theorem key_lt {s : St} {c : Nat} {l r : List Nat} (hl : Str l) (hr : Str r) (h : key s (c :: l) < key s (c :: r)) : cmpS (s.next c) l r = -1 := by
  cases s with
  | fraction => simp [key, hd] at h
  | zeros => simp [key, hd] at h
  | number =>
    simp only [key, hd, List.getD_cons_zero] at h
    by_cases hd : isdigit c = true
    · have : St.next .number c = .number := by simp [St.next, hd]
      rw [this]
      rw [runLen_digit _ hd, runLen_digit _ hd] at h
      exact number_of_runLen hl hr (by omega)
    · rw [runLen_other _ hd, runLen_other _ hd] at h; omega
  | plain =>
    simp only [key, hd, List.getD_cons_zero] at h
    by_cases hd : isdigit c = true ∧ c ≠ 48
    · rw [if_pos hd, if_pos hd, runLen_digit _ hd.1, runLen_digit _ hd.1] at h
      have : St.next .plain c = .number := by simp [St.next, hd]
      rw [this]
      exact number_of_runLen hl hr (by omega)
    · rw [if_neg hd, if_neg hd] at h; omega

theorem cmpS_trans {s : St} {l m r : List Nat} (hl : Str l) (hm : Str m) (hr : Str r) (h1 : cmpS s l m = -1) (h2 : cmpS s m r = -1) : cmpS s l r = -1 := by
  induction l generalizing s m r with
  | nil =>
    cases m with
    | nil => simp [cmpS] at h1
    | cons d m =>
      cases r with
      | nil =>
        rw [cmpS_nil_cons, sgn_neg] at h1
        rw [cmpS_cons_nil, sgn_neg] at h2
        omega
      | cons e r =>
        rw [cmpS_nil_cons, sgn_neg] at h1 ⊢
        rw [cmpS_cons_cons] at h2
        by_cases hde : d = e
        · rw [if_pos hde] at h2
          subst hde
          have := key_le (str_tail hm) (str_tail hr) h2
          omega
        · rw [if_neg hde, sgn_neg] at h2
          omega
  | cons c l ih =>
    cases m with
    | nil =>
      rw [cmpS, sgn_neg] at h1
      cases r with
      | nil => simp [cmpS] at h2
      | cons e r =>
        rw [cmpS_nil_cons, sgn_neg] at h2
        rw [cmpS_cons_cons]
        by_cases hce : c = e
        · subst hce
          rw [if_pos rfl]
          exact key_lt (str_tail hl) (str_tail hr) (by omega)
        · rw [if_neg hce, sgn_neg]; omega
    | cons d m =>
      cases r with
      | nil =>
        rw [cmpS_cons_cons] at h1
        rw [cmpS_cons_nil, sgn_neg] at h2 ⊢
        by_cases hcd : c = d
        · rw [if_pos hcd] at h1
          subst hcd
          have := key_le (str_tail hl) (str_tail hm) h1
          omega
        · rw [if_neg hcd, sgn_neg] at h1
          omega
      | cons e r =>
        rw [cmpS_cons_cons] at h1 h2 ⊢
        by_cases hcd : c = d
        · subst hcd
          rw [if_pos rfl] at h1
          by_cases hce : c = e
          · subst hce
            rw [if_pos rfl] at h2 ⊢
            exact ih (str_tail hl) (str_tail hm) (str_tail hr) h1 h2
          · rw [if_neg hce, sgn_neg] at h2 ⊢
            have := key_le (str_tail hl) (str_tail hm) h1
            omega
        · rw [if_neg hcd, sgn_neg] at h1
          by_cases hde : d = e
          · subst hde
            rw [if_pos rfl] at h2
            rw [if_neg hcd, sgn_neg]
            have := key_le (str_tail hm) (str_tail hr) h2
            omega
          · rw [if_neg hde, sgn_neg] at h2
            by_cases hce : c = e
            · subst hce
              rw [if_pos rfl]
              exact key_lt (str_tail hl) (str_tail hr) (by omega)
            · rw [if_neg hce, sgn_neg]; omega

/-- **An order**: strverscmp gives 0 for equal strings only, swapping the strings swaps the order, and the order is transitive. So strverscmp can be used
to sort, and by versionsort. -/
theorem strverscmp_order (l m r : List Nat) (hl : Str l) (hm : Str m) (hr : Str r) :
    (strverscmp l r = 0 ↔ l = r) ∧ (strverscmp l r < 0 ↔ 0 < strverscmp r l) ∧ (strverscmp l m < 0 → strverscmp m r < 0 → strverscmp l r < 0) := by
  refine ⟨?_, ?_, ?_⟩
  · rw [← sign_zero, sign_strverscmp _ _ hl hr, cmpS_zero hl hr]
  · rw [← sign_neg, ← sign_pos, sign_strverscmp _ _ hl hr, sign_strverscmp _ _ hr hl, cmpS_swap .plain l r]
    omega
  · intro h1 h2
    rw [← sign_neg, sign_strverscmp _ _ hl hm] at h1
    rw [← sign_neg, sign_strverscmp _ _ hm hr] at h2
    rw [← sign_neg, sign_strverscmp _ _ hl hr]
    exact cmpS_trans hl hm hr h1 h2

/-! ### The order of versions -/

theorem cmpS_append (s : St) (p l r : List Nat) : cmpS s (p ++ l) (p ++ r) = cmpS (p.foldl St.next s) l r := by
  induction p generalizing s with
  | nil => rfl
  | cons c p ih => rw [List.cons_append, List.cons_append, cmpS, if_pos rfl, ih, List.foldl_cons]

theorem digit_iff (c : Nat) : isdigit c = true ↔ Digit c := by
  simp [isdigit, Digit]

theorem plain_of_last (p : List Nat) (h : NoDigitLast p) : p.foldl St.next .plain = .plain := by
  rcases List.eq_nil_or_concat p with rfl | ⟨q, c, rfl⟩
  · rfl
  · have hc := h c (by simp)
    rw [← digit_iff] at hc
    simp [List.foldl_append, St.next, hc]

theorem str_append {a b : List Nat} : Str (a ++ b) ↔ Str a ∧ Str b := by
  constructor
  · intro h
    exact ⟨fun c hc => h c (List.mem_append_left _ hc), fun c hc => h c (List.mem_append_right _ hc)⟩
  · rintro ⟨h1, h2⟩ c hc
    rcases List.mem_append.mp hc with h | h
    · exact h1 c h
    · exact h2 c h

theorem runLen_digits {ds x : List Nat} (h : Digits ds) (hx : NoDigitFirst x) : runLen (ds ++ x) = ds.length := by
  induction ds with
  | nil =>
    cases x with
    | nil => rfl
    | cons c x =>
      have := hx c rfl
      rw [← digit_iff] at this
      exact runLen_other _ this
  | cons d ds ih =>
    rw [List.cons_append, runLen_digit _ ((digit_iff d).mpr (h d (by simp))), ih (fun c hc => h c (List.mem_cons_of_mem _ hc)), List.length_cons]
    omega

theorem value_acc (ds : List Nat) (v : Nat) : ds.foldl (fun v c => 10 * v + (c - '0'.toNat)) v = v * 10 ^ ds.length + value ds := by
  induction ds generalizing v with
  | nil => simp [value]
  | cons d ds ih =>
    rw [List.foldl_cons, ih]
    have hv : value (d :: ds) = (10 * 0 + (d - '0'.toNat)) * 10 ^ ds.length + value ds := by
      rw [← ih]; rfl
    rw [hv]
    rw [List.length_cons, Nat.pow_succ, Nat.add_mul, Nat.add_mul]
    rw [show v * (10 ^ ds.length * 10) = 10 * v * 10 ^ ds.length by rw [Nat.mul_comm (10 ^ ds.length) 10, ← Nat.mul_assoc, Nat.mul_comm v 10]]
    omega

theorem value_cons (d : Nat) (ds : List Nat) : value (d :: ds) = (d - 48) * 10 ^ ds.length + value ds := by
  have := value_acc ds (d - 48)
  simp only [value, List.foldl_cons]
  rw [show 10 * 0 + (d - '0'.toNat) = d - 48 by simp]
  exact this

theorem value_lt {ds : List Nat} (h : Digits ds) : value ds < 10 ^ ds.length := by
  induction ds with
  | nil => simp [value]
  | cons d ds ih =>
    have h1 := ih (fun c hc => h c (List.mem_cons_of_mem _ hc))
    have h2 := h d (by simp)
    simp only [Digit] at h2
    have h3 : d - 48 ≤ 9 := by
      have : d ≤ 57 := h2.2
      omega
    rw [value_cons, List.length_cons, Nat.pow_succ]
    have := Nat.mul_le_mul_right (10 ^ ds.length) h3
    omega

/-- Digit strings of one length: the first difference shows the smaller number. -/
theorem same_length {s : St} {ds es x y : List Nat} (hd : Digits ds) (he : Digits es) (hlen : ds.length = es.length) (hv : value ds < value es)
    (hx : NoDigitFirst x) (hy : NoDigitFirst y) (hs : s = .number ∨ s = .plain ∧ ds.head? ≠ some 48 ∧ es.head? ≠ some 48) :
    cmpS s (ds ++ x) (es ++ y) = -1 := by
  induction ds generalizing es s with
  | nil =>
    cases es with
    | nil => simp at hv
    | cons e es => simp at hlen
  | cons d ds ih =>
    cases es with
    | nil => simp at hlen
    | cons e es =>
      have hdd := hd d (by simp)
      have hee := he e (by simp)
      have hd' : Digits ds := fun c hc => hd c (List.mem_cons_of_mem _ hc)
      have he' : Digits es := fun c hc => he c (List.mem_cons_of_mem _ hc)
      have hlen' : ds.length = es.length := by simpa using hlen
      rw [value_cons, value_cons, hlen'] at hv
      rw [List.cons_append, List.cons_append, cmpS]
      by_cases hde : d = e
      · subst hde
        rw [if_pos rfl]
        apply ih hd' he' hlen' (by omega)
        left
        have := (digit_iff d).mpr hdd
        rcases hs with h | ⟨h, h1, _⟩
        · subst h; simp [St.next, this]
        · subst h
          have : d ≠ 48 := by simpa using h1
          simp [St.next, *]
      · rw [if_neg hde, sgn_neg]
        have hlt : d < e := by
          rcases Nat.lt_or_gt_of_ne hde with h | h
          · exact h
          · exfalso
            have q1 : 48 ≤ d := hdd.1
            have q2 : 48 ≤ e := hee.1
            have h3 : e - 48 + 1 ≤ d - 48 := by omega
            have h4 := Nat.mul_le_mul_right (10 ^ es.length) h3
            have h5 := value_lt he'
            rw [Nat.add_mul] at h4
            omega
        have r1 := runLen_digits hd hx
        have r2 := runLen_digits he hy
        rw [List.cons_append, List.length_cons] at r1 r2
        rcases hs with h | ⟨h, h1, h2⟩
        · subst h
          simp only [key, Version.hd, List.getD_cons_zero, r1, r2]
          omega
        · subst h
          have n1 : d ≠ 48 := by simpa using h1
          have n2 : e ≠ 48 := by simpa using h2
          simp only [key, Version.hd, List.getD_cons_zero, r1, r2]
          rw [if_pos ⟨(digit_iff d).mpr hdd, n1⟩, if_pos ⟨(digit_iff e).mpr hee, n2⟩]
          omega

/-- **Numbers are ordered by value**: after a common beginning that does not end in a digit, the smaller number comes first, whatever follows. -/
theorem strverscmp_numbers (p ds es x y : List Nat) (hp : NoDigitLast p) (hd : Numeral ds) (he : Numeral es) (hx : NoDigitFirst x) (hy : NoDigitFirst y)
    (hl : Str (p ++ (ds ++ x))) (hr : Str (p ++ (es ++ y))) (hv : value ds < value es) : strverscmp (p ++ (ds ++ x)) (p ++ (es ++ y)) < 0 := by
  rw [← sign_neg, sign_strverscmp _ _ hl hr, cmpS_append, plain_of_last p hp]
  obtain ⟨hdd, d, ds', rfl, hd0⟩ := hd
  obtain ⟨hee, e, es', rfl, he0⟩ := he
  have n1 : d ≠ 48 := hd0
  have n2 : e ≠ 48 := he0
  have q1 : Digit d := hdd d (by simp)
  have q2 : Digit e := hee e (by simp)
  have hlen : (d :: ds').length ≤ (e :: es').length := by
    rcases Nat.lt_or_ge (e :: es').length (d :: ds').length with h | h
    · exfalso
      have h5 := value_lt hee
      rw [value_cons d ds'] at hv
      have h48 : 48 ≤ d := q1.1
      have h6 : 1 * 10 ^ ds'.length ≤ (d - 48) * 10 ^ ds'.length := Nat.mul_le_mul_right _ (by omega)
      have h7 : 10 ^ (e :: es').length ≤ 10 ^ ds'.length := Nat.pow_le_pow_right (by omega) (by simp only [List.length_cons] at h ⊢; omega)
      omega
    · exact h
  rcases Nat.lt_or_eq_of_le hlen with h | h
  · have r1 := runLen_digits hdd hx
    have r2 := runLen_digits hee hy
    rw [List.cons_append] at r1 r2
    have b1 := (str_append.mp hl).2
    have b2 := (str_append.mp hr).2
    rw [List.cons_append] at b1 b2
    rw [List.cons_append, List.cons_append, cmpS]
    by_cases hde : d = e
    · subst hde
      rw [if_pos rfl]
      have hdig := (digit_iff d).mpr q1
      have : St.next .plain d = .number := by simp [St.next, hdig, n1]
      rw [this]
      rw [runLen_digit _ hdig] at r1 r2
      exact number_of_runLen (str_tail b1) (str_tail b2) (by omega)
    · rw [if_neg hde, sgn_neg]
      have := (b1 d (by simp)).2
      simp only [key, Version.hd, List.getD_cons_zero, r1, r2]
      rw [if_pos ⟨(digit_iff d).mpr q1, n1⟩, if_pos ⟨(digit_iff e).mpr q2, n2⟩]
      omega
  · exact same_length hdd hee h hv hx hy (.inr ⟨rfl, by simpa using n1, by simpa using n2⟩)

/-- **Other bytes**: where the strings differ in bytes that are not digits, these decide; a string that ends before such a byte comes first. -/
theorem strverscmp_bytes (p x y : List Nat) (c d : Nat) (hc : ¬ Digit c) (hd : ¬ Digit d) (hcd : c < d) (hr : Str (p ++ d :: y)) :
    (Str (p ++ c :: x) → strverscmp (p ++ c :: x) (p ++ d :: y) < 0) ∧ strverscmp p (p ++ d :: y) < 0 := by
  rw [← digit_iff] at hc hd
  have hd0 : 0 < d := by omega
  constructor
  · intro hl
    rw [← sign_neg, sign_strverscmp _ _ hl hr, cmpS_append, cmpS, if_neg (by omega), sgn_neg]
    generalize p.foldl St.next .plain = s
    cases s <;> simp only [key, Version.hd, List.getD_cons_zero, runLen_other _ hc, runLen_other _ hd, hc, hd] <;> (try simp) <;> omega
  · have hp := (str_append.mp hr).1
    have h := cmpS_append .plain p [] (d :: y)
    rw [List.append_nil] at h
    rw [← sign_neg, sign_strverscmp _ _ hp hr, h, cmpS, sgn_neg]
    · generalize p.foldl St.next .plain = s
      have z := isdigit_zero
      cases s <;> simp only [key, Version.hd, List.getD_cons_zero, List.getD_nil, runLen_nil, runLen_other _ hd, z, hd] <;> simp <;> try omega
    · simp

theorem zeros_state (p : List Nat) (hp : NoDigitLast p) (n : Nat) (hn : 0 < n) : (p ++ List.replicate n 48).foldl St.next .plain = .zeros := by
  rw [List.foldl_append, plain_of_last p hp]
  cases n with
  | zero => omega
  | succ n =>
    rw [List.replicate_succ, List.foldl_cons]
    have : St.next .plain 48 = .zeros := by decide
    rw [this]
    clear this hn
    induction n with
    | zero => rfl
    | succ n ih =>
      rw [List.replicate_succ, List.foldl_cons]
      have : St.next .zeros 48 = .zeros := by decide
      rw [this, ih]

theorem fraction_state (cs : List Nat) (h : Digits cs) : ∀ s, s = .zeros ∨ s = .fraction → cs.foldl St.next s = .zeros ∨ cs.foldl St.next s = .fraction := by
  induction cs with
  | nil => intro s hs; exact hs
  | cons c cs ih =>
    intro s hs
    rw [List.foldl_cons]
    apply ih (fun x hx => h x (List.mem_cons_of_mem _ hx))
    have hc := (digit_iff c).mpr (h c (by simp))
    rcases hs with rfl | rfl <;> simp [St.next, hc]
    by_cases h48 : c = 48 <;> simp [h48]

/-- **Leading zeros**: digits after a 0 are like digits after a decimal point. More zeros come first (`000` < `00` < `01` < `0`), and after the same zeros the
first digit that differs decides (`010` < `09`). -/
theorem strverscmp_zeros (p x y : List Nat) (hp : NoDigitLast p) (b : Nat) (hb : 0 < b) :
    (∀ a, b < a → y.head? ≠ some '0'.toNat → Str (p ++ List.replicate a '0'.toNat ++ x) → Str (p ++ List.replicate b '0'.toNat ++ y) →
      strverscmp (p ++ List.replicate a '0'.toNat ++ x) (p ++ List.replicate b '0'.toNat ++ y) < 0) ∧
    (∀ cs c d, Digits cs → Digit c → Digit d → c < d → Str (p ++ List.replicate b '0'.toNat ++ (cs ++ c :: x)) →
      Str (p ++ List.replicate b '0'.toNat ++ (cs ++ d :: y)) →
      strverscmp (p ++ List.replicate b '0'.toNat ++ (cs ++ c :: x)) (p ++ List.replicate b '0'.toNat ++ (cs ++ d :: y)) < 0) ∧
    (∀ c, Digit c → NoDigitFirst y → Str (p ++ List.replicate b '0'.toNat ++ c :: x) → Str (p ++ List.replicate b '0'.toNat ++ y) →
      strverscmp (p ++ List.replicate b '0'.toNat ++ c :: x) (p ++ List.replicate b '0'.toNat ++ y) < 0) := by
  have z48 : '0'.toNat = 48 := rfl
  have third : ∀ x c, Digit c → NoDigitFirst y → Str (p ++ List.replicate b '0'.toNat ++ c :: x) → Str (p ++ List.replicate b '0'.toNat ++ y) →
      strverscmp (p ++ List.replicate b '0'.toNat ++ c :: x) (p ++ List.replicate b '0'.toNat ++ y) < 0 := by
    intro x c hc hy hl hr
    have hdig := (digit_iff c).mpr hc
    have hc57 : c ≤ 57 := hc.2
    rw [← sign_neg, sign_strverscmp _ _ hl hr, cmpS_append, z48, zeros_state p hp b hb]
    cases y with
    | nil =>
      rw [cmpS, sgn_neg]
      simp only [key, hd, List.getD_cons_zero, List.getD_nil, hdig, isdigit_zero]
      simp; omega
    | cons d y =>
      have hd' := hy d rfl
      rw [← digit_iff] at hd'
      rw [cmpS, if_neg (by intro h; subst h; exact hd' hdig), sgn_neg]
      simp only [key, hd, List.getD_cons_zero, hdig, hd']
      simp; omega
  refine ⟨?_, ?_, fun c => third x c⟩
  · intro a ha hy hl hr
    have hsplit : ∀ x : List Nat, p ++ List.replicate a 48 ++ x = p ++ List.replicate b 48 ++ 48 :: (List.replicate (a - b - 1) 48 ++ x) := by
      intro x
      have : List.replicate a 48 = List.replicate b 48 ++ 48 :: List.replicate (a - b - 1) 48 := by
        rw [← List.replicate_succ, List.replicate_append_replicate]
        congr 1
        omega
      rw [this]
      simp
    by_cases hnd : NoDigitFirst y
    · rw [z48] at hl hr ⊢
      rw [hsplit x] at hl ⊢
      exact third _ 48 (by unfold Digit; decide) hnd hl hr
    · cases y with
      | nil => exact absurd (fun c hc => by cases hc) hnd
      | cons d y =>
        have hd' : isdigit d = true := by
          false_or_by_contra
          next h =>
          apply hnd
          intro c hc
          cases hc
          rw [← digit_iff]
          exact h
        have hd48 : d ≠ 48 := by simpa [z48] using hy
        have hge : 48 ≤ d := ((digit_iff d).mp hd').1
        rw [z48] at hl hr ⊢
        rw [hsplit x] at hl ⊢
        rw [← sign_neg, sign_strverscmp _ _ hl hr, cmpS_append, zeros_state p hp b hb, cmpS, if_neg (by omega), sgn_neg]
        have h0 : isdigit 48 = true := by decide
        simp only [key, hd, List.getD_cons_zero, hd', h0, if_true]
        omega
  · intro cs c d hcs hc hd hcd hl hr
    have h1 := (digit_iff c).mpr hc
    have h2 := (digit_iff d).mpr hd
    rw [← sign_neg, sign_strverscmp _ _ hl hr, cmpS_append, z48, zeros_state p hp b hb, cmpS_append, cmpS, if_neg (by omega), sgn_neg]
    rcases fraction_state cs hcs .zeros (.inl rfl) with h | h <;> rw [h] <;> simp [key, Version.hd, h1, h2] <;> omega

/-- A number with a leading zero comes before one without. -/
theorem strverscmp_zero_first (p x y : List Nat) (hp : NoDigitLast p) (d : Nat) (hd : Digit d) (h0 : d ≠ '0'.toNat) (hl : Str (p ++ '0'.toNat :: x)) (hr : Str (p ++ d :: y)) :
    strverscmp (p ++ '0'.toNat :: x) (p ++ d :: y) < 0 := by
  have hge : 48 ≤ d := hd.1
  have hne : d ≠ 48 := h0
  have z48 : '0'.toNat = 48 := rfl
  rw [← sign_neg, sign_strverscmp _ _ hl hr, cmpS_append, plain_of_last p hp, z48, cmpS, if_neg (by omega), sgn_neg]
  simp only [key, Version.hd, List.getD_cons_zero]
  rw [if_neg (fun h => h.2 rfl), if_pos ⟨(digit_iff d).mpr hd, hne⟩]
  omega

/-- A fraction that ends before a letter does not come before its continuations: `.01` before `.011`, but `"011"` comes before `"01a"`. -/
theorem strverscmp_fraction_violated : strverscmp (txt "01") (txt "011") < 0 ∧ strverscmp (txt "01-") (txt "011") < 0 ∧ 0 < strverscmp (txt "01a") (txt "011") := by
  decide +kernel

/-- A digit against another byte, after a beginning that does not end in a digit: the other byte comes first if it is below `'0'`, as in the order of bytes.
Missing: bytes above `'9'`, see `strverscmp_mixed_violated`. -/
theorem strverscmp_mixed_partial (p x y : List Nat) (hp : NoDigitLast p) (c d : Nat) (hc : c < '0'.toNat) (hd : Digit d) (hl : Str (p ++ c :: x)) (hr : Str (p ++ d :: y)) :
    strverscmp (p ++ c :: x) (p ++ d :: y) < 0 := by
  have hc' : c < 48 := hc
  have hge : 48 ≤ d := hd.1
  have h1 : isdigit c = false := by simp [isdigit]; omega
  rw [← sign_neg, sign_strverscmp _ _ hl hr, cmpS_append, plain_of_last p hp, cmpS, if_neg (by omega), sgn_neg]
  simp only [key, Version.hd, List.getD_cons_zero, h1]
  simp
  split <;> omega

/-- A letter against a digit is not decided by the order of bytes, as the manual has it: `"ab"` comes before `"a1"` although `'1' < 'b'`. -/
theorem strverscmp_mixed_violated : 0 < strverscmp (txt "a1") (txt "ab") ∧ strverscmp (txt "a0") (txt "ab") < 0 ∧ '1'.toNat < 'b'.toNat := by
  decide +kernel

/-! The example of the manual: 000 < 00 < 01 < 010 < 09 < 0 < 1 < 9 < 10. -/
example : ([txt "000", txt "00", txt "01", txt "010", txt "09", txt "0", txt "1", txt "9"].zip
    [txt "00", txt "01", txt "010", txt "09", txt "0", txt "1", txt "9", txt "10"]).all (fun q => decide (strverscmp q.1 q.2 < 0)) = true := by decide +kernel
/-- `jan9.txt` comes before `jan10.txt`. -/
example : NoDigitLast (txt "jan") ∧ Numeral (txt "9") ∧ Numeral (txt "10") ∧ value (txt "9") < value (txt "10") ∧ NoDigitFirst (txt ".txt") ∧
    strverscmp (txt "jan" ++ (txt "9" ++ txt ".txt")) (txt "jan" ++ (txt "10" ++ txt ".txt")) < 0 := by
  refine ⟨?_, ⟨?_, _, _, rfl, by decide⟩, ⟨?_, _, _, rfl, by decide⟩, by decide, ?_, by decide⟩
  · intro c hc; simp [txt] at hc; subst hc; unfold Digit; decide
  · intro c hc; simp [txt] at hc; subst hc; unfold Digit; decide
  · intro c hc; simp [txt] at hc; rcases hc with rfl | rfl <;> unfold Digit <;> decide
  · intro c hc; simp [txt] at hc; subst hc; unfold Digit; decide
example : Str (txt "jan10.txt") := by unfold Str txt; decide

end Mlibc.Version
