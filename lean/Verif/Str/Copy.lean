import Verif.Str.Search
/- C09: copying functions. The result is the exact content of the destination object. -/
set_option linter.unusedSectionVars false
set_option linter.unusedSimpArgs false
namespace Mlibc.Str
open Mlibc

variable {α : Type} [DecidableEq α] [OfNat α 0]

/-- C09. `strcpy`/`wcscpy`: the string and its terminator, the rest of the destination unchanged. -/
theorem strcpy_exact (d buf s : List α) (h : CStr buf s) (hd : s.length + 1 ≤ d.length) :
    strcpy d buf = .ok (s ++ 0 :: d.drop (s.length + 1)) := by
  induction s generalizing d buf with
  | nil =>
    obtain ⟨_, r, rfl⟩ := h
    match d, hd with
    | x :: d, _ => simp [strcpy]
  | cons c s ih =>
    obtain ⟨h0, r, rfl⟩ := h
    simp only [List.mem_cons, not_or] at h0
    match d, hd with
    | x :: d, hd =>
      simp only [List.length_cons, Nat.add_le_add_iff_right] at hd
      simp [strcpy, Ne.symm h0.1, ih d _ ⟨h0.2, r, rfl⟩ hd]

theorem fill_exact (c : α) (d : List α) (n : Nat) (h : n ≤ d.length) :
    fill c d n = .ok (List.replicate n c ++ d.drop n) := by
  induction n generalizing d with
  | zero => unfold fill; simp
  | succ n ih =>
    match d, h with
    | x :: d, h =>
      simp only [List.length_cons, Nat.add_le_add_iff_right] at h
      simp [fill, ih d h, List.replicate_succ]

/-- C09. `strncpy` with a terminated source: exactly `n` characters are written, the first `n` of the
string padded with NULs. -/
theorem strncpy_exact_partial (d buf s : List α) (n : Nat) (h : CStr buf s) (hd : n ≤ d.length) :
    strncpy d buf n = .ok (s.take n ++ List.replicate (n - s.length) 0 ++ d.drop n) := by
  induction s generalizing d buf n with
  | nil =>
    obtain ⟨_, r, rfl⟩ := h
    unfold strncpy
    simp [fill_exact 0 d n hd]
  | cons c s ih =>
    obtain ⟨h0, r, rfl⟩ := h
    simp only [List.mem_cons, not_or] at h0
    match n, d, hd with
    | 0, d, _ => simp [strncpy, Ne.symm h0.1]
    | n + 1, x :: d, hd =>
      simp only [List.length_cons, Nat.add_le_add_iff_right] at hd
      simp [strncpy, Ne.symm h0.1, ih d _ n ⟨h0.2, r, rfl⟩ hd]

/-- C09 (finding). `strncpy` reads `src[n]`: copying 2 characters from a 2-character array without
terminator (which C permits) reads outside the array. -/
theorem strncpy_overread_violated :
    strncpy ([9, 9] : List UInt8) [1, 2] 2 = .ub ∧ NStr 2 ([1, 2] : List UInt8) [1, 2] :=
  ⟨by decide, by decide, .inr ⟨rfl, [], rfl⟩⟩

/-- C09. `wcsncpy` (source limited to `n` characters, terminator not needed within `n`). -/
theorem wcsncpy_exact (d buf s : List α) (n : Nat) (h : NStr n buf s) (hd : n ≤ d.length) :
    wcsncpy d buf n = .ok (s ++ List.replicate (n - s.length) 0 ++ d.drop n) := by
  obtain ⟨h0, h⟩ := h
  induction s generalizing d buf n with
  | nil =>
    match n, h with
    | 0, _ => unfold wcsncpy; simp
    | n + 1, .inl ⟨_, r, e⟩ => subst e; unfold wcsncpy; simp [fill_exact 0 d (n + 1) hd]
    | n + 1, .inr ⟨e, _⟩ => simp at e
  | cons c s ih =>
    simp only [List.mem_cons, not_or] at h0
    match n, h with
    | 0, .inl ⟨e, _⟩ => simp at e
    | 0, .inr ⟨e, _⟩ => simp at e
    | n + 1, .inl ⟨hl, r, e⟩ =>
      subst e
      match d, hd with
      | x :: d, hd =>
        simp only [List.length_cons, Nat.add_le_add_iff_right] at hd
        simp [wcsncpy, Ne.symm h0.1, ih d _ n hd h0.2 (.inl ⟨by simpa using hl, r, rfl⟩)]
    | n + 1, .inr ⟨hl, r, e⟩ =>
      subst e
      match d, hd with
      | x :: d, hd =>
        simp only [List.length_cons, Nat.add_le_add_iff_right] at hd
        simp [wcsncpy, Ne.symm h0.1, ih d _ n hd h0.2 (.inr ⟨by simpa using hl, r, rfl⟩)]

/-- C09. `strcat`/`wcscat`. `t` is the old string in the destination. -/
theorem strcat_exact (d buf s t : List α) (h : CStr buf s) (ht : CStr d t)
    (hd : t.length + s.length + 1 ≤ d.length) :
    strcat d buf = .ok (t ++ s ++ 0 :: d.drop (t.length + s.length + 1)) := by
  have e := strcpy_exact (d.drop t.length) buf s h (by simp; omega)
  have htake : d.take t.length = t := by obtain ⟨_, r, rfl⟩ := ht; simp
  simp only [strcat, strlen_exact d t ht, atOff, Res.ok_bind, e, htake, List.drop_drop, Res.pure_eq,
    List.append_assoc]
  congr 4

theorem strncatLoop_exact (d buf s : List α) (n : Nat) (h : CStr buf s)
    (hd : min n s.length + 1 ≤ d.length) :
    strncatLoop d buf n = .ok (s.take n ++ 0 :: d.drop (min n s.length + 1)) := by
  induction s generalizing d buf n with
  | nil =>
    obtain ⟨_, r, rfl⟩ := h
    match d, hd with
    | x :: d, _ => simp [strncatLoop]
  | cons c s ih =>
    obtain ⟨h0, r, rfl⟩ := h
    simp only [List.mem_cons, not_or] at h0
    match n, d, hd with
    | 0, x :: d, hd => simp [strncatLoop]
    | n + 1, x :: d, hd =>
      have hd' : min n s.length + 1 ≤ d.length := by simp at hd; omega
      have hm : min (n + 1) (s.length + 1) = min n s.length + 1 := by omega
      simp [strncatLoop, Ne.symm h0.1, ih d _ n ⟨h0.2, r, rfl⟩ hd', hm]

/-- C09. `strncat`/`wcsncat` with a terminated source: at most `n` characters and a terminator. -/
theorem strncat_exact_partial (d buf s t : List α) (n : Nat) (h : CStr buf s) (ht : CStr d t)
    (hd : t.length + min n s.length + 1 ≤ d.length) :
    strncat d buf n = .ok (t ++ s.take n ++ 0 :: d.drop (t.length + min n s.length + 1)) := by
  have e := strncatLoop_exact (d.drop t.length) buf s n h (by simp; omega)
  have htake : d.take t.length = t := by obtain ⟨_, r, rfl⟩ := ht; simp
  simp only [strncat, strlen_exact d t ht, atOff, Res.ok_bind, e, htake, List.drop_drop, Res.pure_eq,
    List.append_assoc]
  congr 4

/-- C09 (finding). `strncat` reads `src[n]` as well. -/
theorem strncat_overread_violated :
    strncat ([0, 9, 9] : List UInt8) [1, 2] 2 = .ub ∧ NStr 2 ([1, 2] : List UInt8) [1, 2] :=
  ⟨by decide, by decide, .inr ⟨rfl, [], rfl⟩⟩

theorem strlcpyLoop_exact (d buf s : List α) (n : Nat) (h : CStr buf s) (hn : 1 ≤ n) (hd : n ≤ d.length) :
    strlcpyLoop d buf n =
      if s.length < n - 1 then .ok (s ++ 0 :: d.drop (s.length + 1), s.length + 1, true)
      else .ok (s.take (n - 1) ++ d.drop (n - 1), n - 1, false) := by
  induction s generalizing d buf n with
  | nil =>
    obtain ⟨_, r, rfl⟩ := h
    match n, d, hn, hd with
    | 1, d, _, _ => unfold strlcpyLoop; simp
    | n + 2, x :: d, _, hd => simp [strlcpyLoop]
  | cons c s ih =>
    obtain ⟨h0, r, rfl⟩ := h
    simp only [List.mem_cons, not_or] at h0
    match n, d, hn, hd with
    | 1, d, _, _ => unfold strlcpyLoop; simp
    | n + 2, x :: d, _, hd =>
      simp only [List.length_cons] at hd
      have := ih d (s ++ 0 :: r) (n + 1) ⟨h0.2, r, rfl⟩ (by omega) (by omega)
      simp only [strlcpyLoop, List.cons_append, Ne.symm h0.1, if_false, this]
      by_cases hl : s.length < n
      · simp [hl]
      · simp [hl]

/-- C09. `strlcpy`: with `n > 0` the first `n-1` characters are stored and terminated (nothing behind the
terminator changes); with `n = 0` nothing is written; the length of the source is returned. -/
theorem strlcpy_exact (d buf s : List α) (n : Nat) (h : CStr buf s) (hd : n ≤ d.length) :
    strlcpy d buf n = .ok (s.length,
      if n = 0 then d else s.take (n - 1) ++ 0 :: d.drop (min s.length (n - 1) + 1)) := by
  by_cases hn : n = 0
  · simp [strlcpy, hn, strlen_exact buf s h]
  · have e := strlcpyLoop_exact d buf s n h (by omega) hd
    simp only [strlcpy, hn, if_false, e]
    by_cases hl : s.length < n - 1
    · have h1 : min s.length (n - 1) = s.length := by omega
      simp [hl, h1, List.take_of_length_le (show s.length ≤ n - 1 by omega)]
    · have h1 : min s.length (n - 1) = n - 1 := by omega
      have hlen : (s.take (n - 1)).length = n - 1 := by simp; omega
      have hdrop : CStr (buf.drop (n - 1)) (s.drop (n - 1)) := by
        obtain ⟨h0, r, rfl⟩ := h
        exact ⟨fun hm => h0 (List.mem_of_mem_drop hm), r, by rw [List.drop_append_of_le_length (by omega)]⟩
      have hput : put (s.take (n - 1) ++ d.drop (n - 1)) (n - 1) 0 =
          .ok (s.take (n - 1) ++ 0 :: d.drop (n - 1 + 1)) := by
        have : n - 1 < (s.take (n - 1) ++ d.drop (n - 1)).length := by simp; omega
        simp only [put, this, if_true]
        congr 1
        rw [List.set_append_right _ _ (by omega)]
        congr 1
        rw [hlen, Nat.sub_self]
        rw [List.drop_eq_getElem_cons (by omega)]
        rfl
      simp only [hl, if_false, Res.ok_bind, hput, Res.pure_eq, h1, Bool.false_eq_true,
        strlen_exact _ _ hdrop]
      congr 2
      simp; omega

/-- C09. `strlcat`: `t` is the destination's string limited to `n`. If the destination is not terminated
within `n` nothing is written; the result is the length it tried to create. -/
theorem strlcat_exact (d buf s t : List α) (n : Nat) (h : CStr buf s) (ht : NStr n d t)
    (hd : n ≤ d.length) :
    strlcat d buf n = .ok (t.length + s.length,
      if t.length = n then d
      else t ++ s.take (n - t.length - 1) ++
        0 :: d.drop (t.length + (min s.length (n - t.length - 1) + 1))) := by
  have htake : d.take t.length = t := by
    obtain ⟨_, ⟨_, r, rfl⟩ | ⟨_, r, rfl⟩⟩ := ht <;> simp
  simp only [strlcat, strnlen_exact d t n ht, Res.ok_bind]
  by_cases hl : t.length = n
  · simp [hl, strlen_exact buf s h]
  · have hlt : t.length < n := by
      rcases ht.2 with ⟨h, _⟩ | ⟨h, _⟩ <;> omega
    have e := strlcpy_exact (d.drop t.length) buf s (n - t.length) h (by simp; omega)
    have hne : n - t.length ≠ 0 := by omega
    simp only [hl, if_false, e, Res.ok_bind, Res.pure_eq, hne, htake, List.drop_drop, List.append_assoc]

theorem copyN_exact (d s : List α) (n : Nat) (hs : n ≤ s.length) (hd : n ≤ d.length) :
    copyN d s n = .ok (s.take n ++ d.drop n) := by
  induction n generalizing d s with
  | zero => unfold copyN; simp
  | succ n ih =>
    match d, s, hs, hd with
    | x :: d, c :: s, hs, hd =>
      simp only [List.length_cons, Nat.add_le_add_iff_right] at hs hd
      simp [copyN, ih d s hs hd]

/-- C09. `stpcpy`: as strcpy, returning the address of the terminator. -/
theorem stpcpy_exact (d buf s : List α) (h : CStr buf s) (hd : s.length + 1 ≤ d.length) :
    stpcpy d buf = .ok (s.length, s ++ 0 :: d.drop (s.length + 1)) := by
  have hb : s.length + 1 ≤ buf.length := by obtain ⟨_, r, rfl⟩ := h; simp
  simp only [stpcpy, strlen_exact buf s h, Res.ok_bind, copyN_exact d buf _ hb hd, Res.pure_eq]
  obtain ⟨_, r, rfl⟩ := h
  have ht : (s ++ 0 :: r).take (s.length + 1) = s ++ [0] := by
    rw [List.take_append, List.take_of_length_le (by omega)]; simp
  simp [ht]

/-- C09. `stpncpy` with a terminated source: as strncpy, returning the address of the first padding NUL
(or `dest + n`). -/
theorem stpncpy_exact_partial (d buf s : List α) (n : Nat) (h : CStr buf s) (hd : n ≤ d.length) :
    stpncpy d buf n =
      .ok (min n s.length, s.take n ++ List.replicate (n - s.length) 0 ++ d.drop n) := by
  have hb : s.length + 1 ≤ buf.length := by obtain ⟨_, r, rfl⟩ := h; simp
  by_cases hn : n ≥ s.length
  · have e1 := copyN_exact d buf s.length (by omega) (by omega)
    have hbt : buf.take s.length = s := by obtain ⟨_, r, rfl⟩ := h; simp
    rw [hbt] at e1
    have e2 := fill_exact 0 (d.drop s.length) (n - s.length) (by simp; omega)
    simp only [stpncpy, strlen_exact buf s h, Res.ok_bind, hn, if_true, e1, List.drop_left,
      List.take_left, e2, Res.pure_eq, List.drop_drop, List.take_of_length_le (show s.length ≤ n from hn)]
    rw [show s.length + (n - s.length) = n by omega, show n - (n - s.length) = min n s.length by omega]
    simp
  · have e1 := copyN_exact d buf n (by omega) hd
    have hbt : buf.take n = s.take n := by
      obtain ⟨_, r, rfl⟩ := h; rw [List.take_append_of_le_length (by omega)]
    rw [hbt] at e1
    have hf : ∀ l : List α, fill 0 l 0 = .ok l := fun l => by unfold fill; rfl
    have hz : n - s.length = 0 := by omega
    have hm : min n s.length = n := by omega
    simp [stpncpy, strlen_exact buf s h, hn, e1, hf, hz, hm]

/-- C09 (finding). `stpncpy` measures the whole source with strlen and so reads outside an unterminated
array of `n` characters. -/
theorem stpncpy_overread_violated :
    stpncpy ([9, 9] : List UInt8) [1, 2] 2 = .ub ∧ NStr 2 ([1, 2] : List UInt8) [1, 2] :=
  ⟨by decide, by decide, .inr ⟨rfl, [], rfl⟩⟩

/-- C09. `memccpy`: copies up to and including the first `c` among the first `n` characters and returns the
address after the copy of `c`; NULL after copying `n` characters if there is none. The source need only
extend to the first `c`. -/
theorem memccpy_found (d s : List α) (c : α) (n i : Nat) (hi : i < n) (hd : i < d.length)
    (h : FirstIdx (· = c) s i) :
    memccpy d s c n = .ok (some (i + 1), s.take (i + 1) ++ d.drop (i + 1)) := by
  obtain ⟨⟨c', hc, rfl⟩, h2⟩ := h
  induction i generalizing d s n with
  | zero =>
    match n, d, s, hi, hd with
    | n + 1, x :: d, b :: s, _, _ =>
      simp at hc; subst hc
      simp [memccpy]
    | n + 1, x :: d, [], _, _ => simp at hc
  | succ i ih =>
    match n, d, s, hi, hd with
    | n + 1, x :: d, b :: s, hi, hd =>
      have hb : b ≠ c' := h2 0 (by omega) b rfl
      have := ih d s n (by omega) (by simpa using hd) (by simpa using hc)
        (fun j hj x hx => h2 (j + 1) (by omega) x (by simpa using hx))
      simp [memccpy, hb, this]
    | n + 1, x :: d, [], _, _ => simp at hc

theorem memccpy_notFound (d s : List α) (c : α) (n : Nat) (hs : n ≤ s.length) (hd : n ≤ d.length)
    (h : c ∉ s.take n) : memccpy d s c n = .ok (none, s.take n ++ d.drop n) := by
  induction n generalizing d s with
  | zero => unfold memccpy; simp
  | succ n ih =>
    match d, s, hs, hd with
    | x :: d, b :: s, hs, hd =>
      simp only [List.length_cons, Nat.add_le_add_iff_right] at hs hd
      simp only [List.take_succ_cons, List.mem_cons, not_or] at h
      simp [memccpy, Ne.symm h.1, ih d s hs hd h.2]

/-- C09. `strdup`: a fresh object of exactly the needed size holding the string. -/
theorem strdup_exact (fresh : Nat → List α) (hf : ∀ n, (fresh n).length = n) (buf s : List α)
    (h : CStr buf s) : strdup fresh buf = .ok (s ++ [0]) := by
  have hb : s.length + 1 ≤ buf.length := by obtain ⟨_, r, rfl⟩ := h; simp
  have hbt : buf.take s.length = s := by obtain ⟨_, r, rfl⟩ := h; simp
  have e := copyN_exact (fresh (s.length + 1)) buf s.length (by omega) (by rw [hf]; omega)
  have hl : ∃ x, (fresh (s.length + 1)).drop s.length = [x] := by
    have : ((fresh (s.length + 1)).drop s.length).length = 1 := by simp [hf]
    exact List.length_eq_one_iff.1 this
  obtain ⟨x, hx⟩ := hl
  simp [strdup, strlen_exact buf s h, e, hbt, hx, put]

/-- C09. `strndup`. -/
theorem strndup_exact (fresh : Nat → List α) (hf : ∀ n, (fresh n).length = n) (buf s : List α) (n : Nat)
    (h : NStr n buf s) : strndup fresh buf n = .ok (s ++ [0]) := by
  have hb : s.length ≤ buf.length := by
    obtain ⟨_, ⟨_, r, rfl⟩ | ⟨_, r, rfl⟩⟩ := h <;> simp
  have hbt : buf.take s.length = s := by
    obtain ⟨_, ⟨_, r, rfl⟩ | ⟨_, r, rfl⟩⟩ := h <;> simp
  have e := copyN_exact (fresh (s.length + 1)) buf s.length (by omega) (by rw [hf]; omega)
  have hl : ∃ x, (fresh (s.length + 1)).drop s.length = [x] := by
    have : ((fresh (s.length + 1)).drop s.length).length = 1 := by simp [hf]
    exact List.length_eq_one_iff.1 this
  obtain ⟨x, hx⟩ := hl
  simp [strndup, strnlen_exact buf s n h, e, hbt, hx, put]

example : strlcpy ([9, 9, 9, 9] : List UInt8) [1, 2, 3, 4, 0] 3 = .ok (4, [1, 2, 0, 9]) :=
  strlcpy_exact _ _ [1, 2, 3, 4] 3 ⟨by decide, [], rfl⟩ (by decide)
example : strlcat ([1, 0, 9, 9] : List UInt8) [2, 3, 4, 0] 4 = .ok (4, [1, 2, 3, 0]) :=
  strlcat_exact _ _ [2, 3, 4] [1] 4 ⟨by decide, [], rfl⟩ ⟨by decide, .inl ⟨by decide, [9, 9], rfl⟩⟩ (by decide)
example : strncpy ([9, 9, 9, 9, 9] : List UInt8) [1, 2, 0] 4 = .ok [1, 2, 0, 0, 9] :=
  strncpy_exact_partial _ _ [1, 2] 4 ⟨by decide, [], rfl⟩ (by decide)
example : stpncpy ([9, 9, 9, 9, 9] : List UInt8) [1, 2, 0] 4 = .ok (2, [1, 2, 0, 0, 9]) :=
  stpncpy_exact_partial _ _ [1, 2] 4 ⟨by decide, [], rfl⟩ (by decide)
example : strncat ([7, 0, 9, 9, 9] : List UInt8) [1, 2, 3, 0] 2 = .ok [7, 1, 2, 0, 9] :=
  strncat_exact_partial _ _ [1, 2, 3] [7] 2 ⟨by decide, [], rfl⟩ ⟨by decide, [9, 9, 9], rfl⟩ (by decide)
example : memccpy ([9, 9, 9] : List UInt8) [1, 2] 2 7 = .ok (some 2, [1, 2, 9]) :=
  memccpy_found _ [1, 2] 2 7 1 (by decide) (by decide)
    ⟨⟨2, rfl, rfl⟩, by intro j hj c hc; obtain rfl : j = 0 := by omega
                       simp at hc; subst hc; decide⟩
/-- Sensitivity: one character too little room is undefined behaviour. -/
example : strcpy ([9, 9] : List UInt8) [1, 2, 0] = .ub := by decide

end Mlibc.Str
