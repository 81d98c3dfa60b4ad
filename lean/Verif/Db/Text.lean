import Verif.Base

/-
What the readers of /etc/group, /etc/passwd and /etc/shadow share: fgets (options/ansi/generic/stdio.cpp), seen as taking
pieces off the contents of a file, and numbers. A text is the list of its bytes.
-/
namespace Mlibc.Db
open Mlibc

/-- One `fgets` with room for `n` characters: up to a newline, and what is left. ansi/generic/stdio.cpp L2512-2535 (`fgets_unlocked`,
see `Verif.Stdio` and C29) -/
def chunk : Nat → List Nat → List Nat × List Nat
  | 0, s => ([], s)
  | _ + 1, [] => ([], [])
  | n + 1, c :: s => if c = 10 then ([c], s) else (c :: (chunk n s).1, (chunk n s).2)

/-- All that `while (fgets(line, n + 1, file))` reads. -/
def reads (n : Nat) : Nat → List Nat → List (List Nat)
  | 0, _ => []
  | fuel + 1, s => if s = [] then [] else (chunk n s).1 :: reads n fuel (chunk n s).2

/-- `to_number<int>` of frigg (not in the repository): decimal digits only; a value beyond the type is undefined. -/
def toNumber : List Nat → Nat → Res (Option Nat)
  | [], v => .ok (some v)
  | c :: s, v =>
    if 48 ≤ c ∧ c ≤ 57 then (if v * 10 + (c - 48) > 2147483647 then .ub else toNumber s (v * 10 + (c - 48)))
    else .ok none

/-- `%u`: decimal digits. -/
def dec (n : Nat) : List Nat := if n < 10 then [48 + n] else dec (n / 10) ++ [48 + n % 10]
termination_by n

/-- The value of decimal digits; specification. -/
def value (s : List Nat) : Nat := s.foldl (fun v c => v * 10 + (c - 48)) 0

/-! ## Lemmas -/

theorem chunk_line (l r : List Nat) (h : 10 ∉ l) (n : Nat) (hn : l.length < n) : chunk n (l ++ 10 :: r) = (l ++ [10], r) := by
  induction l generalizing n with
  | nil =>
    match n, hn with
    | n + 1, _ => simp [chunk]
  | cons c l ih =>
    match n, hn with
    | n + 1, hn =>
      simp only [List.mem_cons, not_or] at h
      simp only [List.length_cons] at hn
      simp only [List.cons_append, chunk]
      rw [if_neg (fun e => h.1 e.symm), ih h.2 n (by omega)]

theorem chunk_last (l : List Nat) (h : 10 ∉ l) (n : Nat) (hn : l.length ≤ n) : chunk n l = (l, []) := by
  induction l generalizing n with
  | nil => cases n <;> rfl
  | cons c l ih =>
    match n, hn with
    | n + 1, hn =>
      simp only [List.mem_cons, not_or] at h
      simp only [List.length_cons] at hn
      simp only [chunk]
      rw [if_neg (fun e => h.1 e.symm), ih h.2 n (by omega)]

/-- A file of lines. -/
def file (ls : List (List Nat)) : List Nat := ls.flatMap (fun l => l ++ [10])

theorem reads_file (n : Nat) (ls : List (List Nat)) (h : ∀ l ∈ ls, 10 ∉ l ∧ l.length < n) (fuel : Nat) (hf : (file ls).length ≤ fuel) :
    reads n fuel (file ls) = ls.map (fun l => l ++ [10]) := by
  induction ls generalizing fuel with
  | nil => cases fuel <;> simp [reads, file]
  | cons l ls ih =>
    have hfile : file (l :: ls) = l ++ 10 :: file ls := by simp [file]
    have hlen : (file (l :: ls)).length = l.length + 1 + (file ls).length := by rw [hfile]; simp; omega
    match fuel with
    | 0 => omega
    | fuel + 1 =>
      simp only [reads]
      rw [if_neg (by rw [hfile]; simp), hfile, chunk_line l _ (h l (by simp)).1 n (h l (by simp)).2]
      simp only [List.map_cons]
      rw [ih (fun x hx => h x (by simp [hx])) fuel (by omega)]

theorem toNumber_digits (s : List Nat) (hd : ∀ c ∈ s, 48 ≤ c ∧ c ≤ 57) (v : Nat) (hv : s.foldl (fun v c => v * 10 + (c - 48)) v ≤ 2147483647) :
    toNumber s v = .ok (some (s.foldl (fun v c => v * 10 + (c - 48)) v)) := by
  induction s generalizing v with
  | nil => rfl
  | cons c s ih =>
    have hmono : ∀ (s : List Nat) (v : Nat), v ≤ s.foldl (fun v c => v * 10 + (c - 48)) v := by
      intro s
      induction s with
      | nil => intro v; exact Nat.le_refl _
      | cons c s ih => intro v; exact Nat.le_trans (show v ≤ v * 10 + (c - 48) by omega) (ih _)
    simp only [List.foldl_cons] at hv ⊢
    simp only [toNumber]
    have := hmono s (v * 10 + (c - 48))
    rw [if_pos (hd c (by simp)), if_neg (by omega)]
    exact ih (fun x hx => hd x (by simp [hx])) _ hv

theorem toNumber_overflow (s : List Nat) (hd : ∀ c ∈ s, 48 ≤ c ∧ c ≤ 57) (v : Nat) (hv0 : v ≤ 2147483647) (hv : 2147483647 < s.foldl (fun v c => v * 10 + (c - 48)) v) :
    toNumber s v = .ub := by
  induction s generalizing v with
  | nil => exact absurd hv (by simpa using hv0)
  | cons c s ih =>
    simp only [List.foldl_cons] at hv
    simp only [toNumber]
    rw [if_pos (hd c (by simp))]
    split
    · rfl
    · exact ih (fun x hx => hd x (by simp [hx])) _ (by omega) hv

theorem dec_digits (n : Nat) : ∀ c ∈ dec n, 48 ≤ c ∧ c ≤ 57 := by
  induction n using Nat.strongRecOn with
  | ind n ih =>
    rw [dec]
    split
    · intro c hc; simp only [List.mem_singleton] at hc; omega
    · intro c hc
      rcases List.mem_append.1 hc with hc | hc
      · exact ih (n / 10) (by omega) c hc
      · simp only [List.mem_singleton] at hc; omega

theorem dec_value (n : Nat) : value (dec n) = n := by
  induction n using Nat.strongRecOn with
  | ind n ih =>
    rw [dec]
    split
    · simp [value]
    · have := ih (n / 10) (by omega)
      unfold value at this ⊢
      rw [List.foldl_append, this]
      simp only [List.foldl_cons, List.foldl_nil]
      omega

theorem dec_ne_nil (n : Nat) : dec n ≠ [] := by
  rw [dec]
  split <;> simp

theorem toNumber_dec (n : Nat) (h : n ≤ 2147483647) : toNumber (dec n) 0 = .ok (some n) := by
  have hv : (dec n).foldl (fun v c => v * 10 + (c - 48)) 0 = n := dec_value n
  rw [toNumber_digits _ (dec_digits n) 0 (by omega), hv]

/-- A decimal number beyond INT_MAX is undefined behaviour. -/
theorem toNumber_dec_overflow (n : Nat) (h : 2147483647 < n) : toNumber (dec n) 0 = .ub := by
  have hv : (dec n).foldl (fun v c => v * 10 + (c - 48)) 0 = n := dec_value n
  exact toNumber_overflow _ (dec_digits n) 0 (by omega) (by omega)

example : toNumber (dec 2147483648) 0 = .ub := toNumber_dec_overflow _ (by omega)

theorem takeWhile_no_nul (l : List Nat) (h : 0 ∉ l) : l.takeWhile (· ≠ 0) = l := by
  induction l with
  | nil => rfl
  | cons c l ih =>
    simp only [List.mem_cons, not_or] at h
    rw [List.takeWhile_cons_of_pos (by simp; exact fun e => h.1 e.symm), ih h.2]

end Mlibc.Db
