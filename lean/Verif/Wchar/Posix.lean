import Verif.Str.Copy
import Verif.Str.LenCmp

/-
The wide string functions of options/posix/generic/wchar.cpp: wcsdup, wcscasecmp, wcsncasecmp, wcslcat, wcpcpy, wcpncpy (wcsnlen and wcslcpy have the
statements of strnlen and strlcpy in Verif/Str). Property C88.
-/
namespace Mlibc.Wchar
open Mlibc Mlibc.Str

/-! ## The code -/

/-- wchar.cpp L552-567 `wcsncasecmp` and L569-584 `wcsncasecmp_l`, from the loop on (for `s1 == s2` the code returns 0 without looking, which is also what
the loop gives, see `wcsncasecmp_same`); `low` is towlower, an unsigned number. -/
def wcsncasecmp (low : Int → Nat) : List Int → List Int → Nat → Res Int
  | _, _, 0 => .ok 0
  | a :: as, b :: bs, n + 1 =>
    if low a = 0 ∧ low b = 0 then .ok 0
    else if low a < low b then .ok (-1)
    else if low a > low b then .ok 1
    else wcsncasecmp low as bs n
  | _, _, _ + 1 => .ub

/-- wchar.cpp L586-604 `wcscasecmp` and L606-624 `wcscasecmp_l`, from the loop on. -/
def wcscasecmp (low : Int → Nat) : List Int → List Int → Res Int
  | a :: as, b :: bs =>
    if low a = 0 ∧ low b = 0 then .ok 0
    else if low a < low b then .ok (-1)
    else if low a > low b then .ok 1
    else wcscasecmp low as bs
  | _, _ => .ub

/-- wchar.cpp L635-636, the loop `while (n-- && *dst)`: how far it goes. -/
def skipDst : List Int → Nat → Res Nat
  | _, 0 => .ok 0
  | [], _ + 1 => .ub
  | c :: d, n + 1 => if c ≠ 0 then (skipDst d n).bind fun k => .ok (k + 1) else .ok 0

/-- wchar.cpp L646-654, the copy loop of wcslcat and the terminator; the room, and the characters of the source that were read. -/
def wcslcatLoop : List Int → List Int → Nat → Res (Nat × List Int)
  | _, [], _ => .ub
  | d, c :: s, n =>
    if c ≠ 0 then
      if n ≠ 0 then
        match d with
        | [] => .ub
        | _ :: d => (wcslcatLoop d s (n - 1)).bind fun r => .ok (r.1 + 1, c :: r.2)
      else (wcslcatLoop d s n).bind fun r => .ok (r.1 + 1, r.2)
    else
      match d with
      | [] => .ub
      | _ :: d => .ok (0, 0 :: d)

/-- wchar.cpp L630-656 `wcslcat`. -/
def wcslcat (dst src : List Int) (dstsize : Nat) : Res (Nat × List Int) :=
  (skipDst dst dstsize).bind fun dstlen =>
    if dstsize - dstlen = 0 then (strlen src).bind fun k => .ok (dstlen + k, dst)
    else (wcslcatLoop (dst.drop dstlen) src (dstsize - dstlen - 1)).bind fun r => .ok (dstlen + r.1, dst.take dstlen ++ r.2)

/-- wchar.cpp L678-681 `wcpcpy`. -/
def wcpcpy : List Int → List Int → Res (Nat × List Int)
  | _ :: d, c :: s => if c ≠ 0 then (wcpcpy d s).bind fun r => .ok (r.1 + 1, c :: r.2) else .ok (0, c :: d)
  | _, _ => .ub

/-- internal/generic/wide.cpp L31-41 `wcpncpy`. -/
def wcpncpy : List Int → List Int → Nat → Res (Nat × List Int)
  | d, _, 0 => .ok (0, d)
  | _ :: d, c :: s, n + 1 =>
    if c = 0 then (fill 0 d n).bind fun r => .ok (0, c :: r)
    else (wcpncpy d s n).bind fun r => .ok (r.1 + 1, c :: r.2)
  | _, _, _ + 1 => .ub

/-- wchar.cpp L543-550 `wcsdup`, when the allocation (of `len + 1` characters) succeeds. -/
def wcsdup (fresh : Nat → List Int) (s : List Int) : Res (List Int) :=
  (strlen s).bind fun len => copyN (fresh (len + 1)) s (len + 1)

/-! ## Proofs -/

theorem nat_irr : ∀ a : Nat, ¬ a < a := fun _ => Nat.lt_irrefl _
theorem nat_asym : ∀ a b : Nat, a < b → ¬ b < a := fun _ _ h => Nat.lt_asymm h

theorem NStr.shape {n : Nat} {a s : List Int} (h : NStr (n + 1) a s) :
    (s = [] ∧ ∃ r, a = 0 :: r) ∨ (∃ c s' a', s = c :: s' ∧ a = c :: a' ∧ c ≠ 0 ∧ NStr n a' s') := by
  obtain ⟨h0, h⟩ := h
  match s with
  | [] =>
    rcases h with ⟨_, r, rfl⟩ | ⟨h, _⟩
    · exact .inl ⟨rfl, r, rfl⟩
    · simp at h
  | c :: s' =>
    simp only [List.mem_cons, not_or] at h0
    rcases h with ⟨hl, r, rfl⟩ | ⟨hl, r, rfl⟩
    · exact .inr ⟨c, s', _, rfl, rfl, Ne.symm h0.1, h0.2, .inl ⟨by simpa using hl, r, rfl⟩⟩
    · exact .inr ⟨c, s', _, rfl, rfl, Ne.symm h0.1, h0.2, .inr ⟨by simpa using hl, r, rfl⟩⟩

theorem CStr.shape {a s : List Int} (h : CStr a s) :
    (s = [] ∧ ∃ r, a = 0 :: r) ∨ (∃ c s' a', s = c :: s' ∧ a = c :: a' ∧ c ≠ 0 ∧ CStr a' s') := by
  obtain ⟨h0, r, rfl⟩ := h
  match s with
  | [] => exact .inl ⟨rfl, r, rfl⟩
  | c :: s' =>
    simp only [List.mem_cons, not_or] at h0
    exact .inr ⟨c, s', _, rfl, rfl, Ne.symm h0.1, h0.2, r, rfl⟩

/-- **C88**: wcsncasecmp has the sign of the comparison of the folded strings, limited to `n` characters; it does not look further. -/
theorem wcsncasecmp_sign (low : Int → Nat) (hlow : ∀ c, low c = 0 ↔ c = 0) (n : Nat) (a b s t : List Int) (ha : NStr n a s) (hb : NStr n b t) :
    ∃ r, wcsncasecmp low a b n = .ok r ∧ SignOfCompare r (s.map low) (t.map low) := by
  have hlow0 : low 0 = 0 := (hlow 0).2 rfl
  induction n generalizing a b s t with
  | zero =>
    have hs : s = [] := by rcases ha.2 with ⟨h, _⟩ | ⟨h, _⟩ <;> simp_all
    have ht : t = [] := by rcases hb.2 with ⟨h, _⟩ | ⟨h, _⟩ <;> simp_all
    subst hs ht
    exact ⟨0, by unfold wcsncasecmp; rfl, by simpa using SignOfCompare.nil'⟩
  | succ n ih =>
    rcases NStr.shape ha with ⟨rfl, ra, rfl⟩ | ⟨c, s', a', rfl, rfl, hc, ha'⟩ <;>
      rcases NStr.shape hb with ⟨rfl, rb, rfl⟩ | ⟨d, t', b', rfl, rfl, hd, hb'⟩
    · exact ⟨0, by simp [wcsncasecmp, hlow0], by simpa using SignOfCompare.nil'⟩
    · have hd' : low d ≠ 0 := fun e => hd ((hlow d).1 e)
      exact ⟨-1, by simp [wcsncasecmp, hlow0, hd', Nat.pos_of_ne_zero hd'], by simpa using SignOfCompare.nil_cons⟩
    · have hc' : low c ≠ 0 := fun e => hc ((hlow c).1 e)
      exact ⟨1, by simp [wcsncasecmp, hlow0, hc', Nat.pos_of_ne_zero hc'], by simpa using SignOfCompare.cons_nil⟩
    · have hc' : low c ≠ 0 := fun e => hc ((hlow c).1 e)
      rcases Nat.lt_trichotomy (low c) (low d) with h | h | h
      · exact ⟨-1, by simp [wcsncasecmp, hc', h], by simpa using SignOfCompare.lt nat_irr nat_asym h⟩
      · obtain ⟨r, e, hr⟩ := ih a' b' s' t' ha' hb'
        refine ⟨r, by simp [wcsncasecmp, h, e, show ¬ (low d = 0) from h ▸ hc'], ?_⟩
        simp only [List.map_cons, h]
        exact hr.cons nat_irr _
      · exact ⟨1, by simp [wcsncasecmp, hc', h, Nat.lt_asymm h], by simpa using SignOfCompare.gt nat_irr nat_asym h⟩

/-- **C88**: wcscasecmp has the sign of the comparison of the folded strings. -/
theorem wcscasecmp_sign (low : Int → Nat) (hlow : ∀ c, low c = 0 ↔ c = 0) (a b s t : List Int) (ha : CStr a s) (hb : CStr b t) :
    ∃ r, wcscasecmp low a b = .ok r ∧ SignOfCompare r (s.map low) (t.map low) := by
  have hlow0 : low 0 = 0 := (hlow 0).2 rfl
  induction s generalizing a b t with
  | nil =>
    rcases CStr.shape ha with ⟨_, ra, rfl⟩ | ⟨c, s', a', h, _⟩
    · rcases CStr.shape hb with ⟨rfl, rb, rfl⟩ | ⟨d, t', b', rfl, rfl, hd, hb'⟩
      · exact ⟨0, by simp [wcscasecmp, hlow0], by simpa using SignOfCompare.nil'⟩
      · have hd' : low d ≠ 0 := fun e => hd ((hlow d).1 e)
        exact ⟨-1, by simp [wcscasecmp, hlow0, hd', Nat.pos_of_ne_zero hd'], by simpa using SignOfCompare.nil_cons⟩
    · cases h
  | cons x s ih =>
    rcases CStr.shape ha with ⟨h, _⟩ | ⟨c, s', a', h, rfl, hc, ha'⟩
    · cases h
    · injection h with h1 h2
      subst h1 h2
      have hc' : low x ≠ 0 := fun e => hc ((hlow x).1 e)
      rcases CStr.shape hb with ⟨rfl, rb, rfl⟩ | ⟨d, t', b', rfl, rfl, hd, hb'⟩
      · exact ⟨1, by simp [wcscasecmp, hlow0, hc', Nat.pos_of_ne_zero hc'], by simpa using SignOfCompare.cons_nil⟩
      · rcases Nat.lt_trichotomy (low x) (low d) with h | h | h
        · exact ⟨-1, by simp [wcscasecmp, hc', h], by simpa using SignOfCompare.lt nat_irr nat_asym h⟩
        · obtain ⟨r, e, hr⟩ := ih a' b' t' ha' hb'
          refine ⟨r, by simp [wcscasecmp, h, e, show ¬ (low d = 0) from h ▸ hc'], ?_⟩
          simp only [List.map_cons, h]
          exact hr.cons nat_irr _
        · exact ⟨1, by simp [wcscasecmp, hc', h, Nat.lt_asymm h], by simpa using SignOfCompare.gt nat_irr nat_asym h⟩

/-- The shortcut for equal pointers is what the loop gives. -/
theorem wcsncasecmp_same (low : Int → Nat) (hlow : ∀ c, low c = 0 ↔ c = 0) (n : Nat) (a s : List Int) (ha : NStr n a s) : wcsncasecmp low a a n = .ok 0 := by
  obtain ⟨r, e, hr⟩ := wcsncasecmp_sign low hlow n a a s s ha ha
  rw [e, hr.1.2 rfl]

theorem skipDst_exact (d t : List Int) (n : Nat) (h : NStr n d t) : skipDst d n = .ok t.length := by
  induction n generalizing d t with
  | zero =>
    have ht : t = [] := by rcases h.2 with ⟨h, _⟩ | ⟨h, _⟩ <;> simp_all
    subst ht
    unfold skipDst
    rfl
  | succ n ih =>
    rcases NStr.shape h with ⟨rfl, r, rfl⟩ | ⟨c, t', d', rfl, rfl, hc, h'⟩
    · simp [skipDst]
    · rw [skipDst, if_pos hc, ih d' t' h']
      rfl

theorem wcslcatLoop_exact (d buf s : List Int) (n : Nat) (h : CStr buf s) (hd : n < d.length) :
    wcslcatLoop d buf n = .ok (s.length, s.take n ++ 0 :: d.drop (min s.length n + 1)) := by
  induction s generalizing d buf n with
  | nil =>
    obtain ⟨_, r, rfl⟩ := h
    match d, hd with
    | x :: d, _ => simp [wcslcatLoop]
  | cons c s ih =>
    obtain ⟨h0, r, rfl⟩ := h
    simp only [List.mem_cons, not_or] at h0
    have hc : c ≠ 0 := Ne.symm h0.1
    rw [List.cons_append, wcslcatLoop.eq_def]
    dsimp only
    rw [if_pos hc]
    cases n with
    | zero =>
      rw [if_neg (by simp), ih d _ 0 ⟨h0.2, r, rfl⟩ hd]
      simp [Res.bind]
    | succ n =>
      match d, hd with
      | x :: d, hd =>
        rw [if_pos (by omega)]
        dsimp only
        rw [Nat.add_sub_cancel, ih d _ n ⟨h0.2, r, rfl⟩ (by simpa using hd)]
        have hm : min (s.length + 1) (n + 1) = min s.length n + 1 := by omega
        simp [Res.bind, hm]

/-- **C88**: wcslcat adds what fits of the source to the string `t` in the destination, with a terminator and nothing behind it changed, and returns the
length it tried to make; a destination without a terminator within the size is unchanged. -/
theorem wcslcat_exact (d buf s t : List Int) (n : Nat) (h : CStr buf s) (ht : NStr n d t) (hd : n ≤ d.length) :
    wcslcat d buf n = .ok (t.length + s.length,
      if t.length = n then d
      else t ++ s.take (n - t.length - 1) ++ 0 :: d.drop (t.length + (min s.length (n - t.length - 1) + 1))) := by
  have htake : d.take t.length = t := by
    obtain ⟨_, ⟨_, r, rfl⟩ | ⟨_, r, rfl⟩⟩ := ht <;> simp
  have hle : t.length ≤ n := by rcases ht.2 with ⟨h, _⟩ | ⟨h, _⟩ <;> omega
  unfold wcslcat
  rw [skipDst_exact d t n ht]
  show (if n - t.length = 0 then _ else _) = _
  by_cases hl : t.length = n
  · rw [if_pos (by omega), if_pos hl, strlen_exact buf s h]
    rfl
  · rw [if_neg (by omega), if_neg hl, wcslcatLoop_exact (d.drop t.length) buf s _ h (by rw [List.length_drop]; omega)]
    simp only [Res.bind, htake, List.drop_drop, List.append_assoc]

/-- **C88**: wcpcpy copies the string and returns where the terminator is. -/
theorem wcpcpy_exact (d buf s : List Int) (h : CStr buf s) (hd : s.length < d.length) : wcpcpy d buf = .ok (s.length, s ++ 0 :: d.drop (s.length + 1)) := by
  induction s generalizing d buf with
  | nil =>
    obtain ⟨_, r, rfl⟩ := h
    match d, hd with
    | x :: d, _ => simp [wcpcpy]
  | cons c s ih =>
    obtain ⟨h0, r, rfl⟩ := h
    simp only [List.mem_cons, not_or] at h0
    match d, hd with
    | x :: d, hd =>
      rw [List.cons_append, wcpcpy, if_pos (Ne.symm h0.1), ih d _ ⟨h0.2, r, rfl⟩ (by simpa using hd)]
      simp [Res.bind]

/-- **C88**: wcpncpy writes exactly `n` characters (the source limited to `n`, then zeros), reads no further than the source limited to `n`, and returns
where the first zero is, or the end. -/
theorem wcpncpy_exact (d buf s : List Int) (n : Nat) (h : NStr n buf s) (hd : n ≤ d.length) :
    wcpncpy d buf n = .ok (s.length, s ++ List.replicate (n - s.length) 0 ++ d.drop n) := by
  induction n generalizing d buf s with
  | zero =>
    have hs : s = [] := by rcases h.2 with ⟨h, _⟩ | ⟨h, _⟩ <;> simp_all
    subst hs
    unfold wcpncpy
    simp
  | succ n ih =>
    match d, hd with
    | x :: d, hd =>
      have hd' : n ≤ d.length := by simpa using hd
      rcases NStr.shape h with ⟨rfl, r, rfl⟩ | ⟨c, s', b', rfl, rfl, hc, h'⟩
      · rw [wcpncpy, if_pos rfl, fill_exact 0 d n hd']
        simp [Res.bind, List.replicate_succ]
      · rw [wcpncpy, if_neg hc, ih d b' s' h' hd']
        simp [Res.bind]

/-- **C88**: wcsdup gives a new block that holds exactly the string. -/
theorem wcsdup_exact (fresh : Nat → List Int) (hf : ∀ n, (fresh n).length = n) (buf s : List Int) (h : CStr buf s) : wcsdup fresh buf = .ok (s ++ [0]) := by
  have hb : s.length + 1 ≤ buf.length := by obtain ⟨_, r, rfl⟩ := h; simp
  unfold wcsdup
  rw [strlen_exact buf s h]
  show copyN _ _ _ = _
  rw [copyN_exact _ buf _ hb (by rw [hf]; omega), List.drop_eq_nil_of_le (by rw [hf]; omega), List.append_nil]
  obtain ⟨_, r, rfl⟩ := h
  rw [List.take_append, List.take_of_length_le (by omega)]
  simp

/-- **C88**: wcslcpy (the statements of strlcpy) stores what fits, with a terminator, and returns the length of the source; wcsnlen the length up to the
limit. -/
theorem wcslcpy_exact (d buf s : List Int) (n : Nat) (h : CStr buf s) (hd : n ≤ d.length) :
    strlcpy d buf n = .ok (s.length, if n = 0 then d else s.take (n - 1) ++ 0 :: d.drop (min s.length (n - 1) + 1)) :=
  strlcpy_exact d buf s n h hd

example : wcslcat [104, 0, 9, 9] [8364, 233, 5, 0] 4 = .ok (4, [104, 8364, 233, 0]) :=
  wcslcat_exact _ _ [8364, 233, 5] [104] 4 ⟨by decide, [], rfl⟩ ⟨by decide, .inl ⟨by decide, [9, 9], rfl⟩⟩ (by decide)

example : wcpncpy [9, 9, 9, 9, 9] [104, 8364, 0] 4 = .ok (2, [104, 8364, 0, 0, 9]) :=
  wcpncpy_exact _ _ [104, 8364] 4 ⟨by decide, .inl ⟨by decide, [], rfl⟩⟩ (by decide)

example : wcpncpy [9, 9, 9] [104, 8364] 2 = .ok (2, [104, 8364, 9]) :=
  wcpncpy_exact _ _ [104, 8364] 2 ⟨by decide, .inr ⟨by decide, [], rfl⟩⟩ (by decide)

example : wcpcpy [9, 9, 9, 9] [104, 8364, 0] = .ok (2, [104, 8364, 0, 9]) := wcpcpy_exact _ _ [104, 8364] ⟨by decide, [], rfl⟩ (by decide)

example : wcsdup (fun n => List.replicate n 9) [104, 8364, 0, 7] = .ok [104, 8364, 0] :=
  wcsdup_exact _ (by simp) _ [104, 8364] ⟨by decide, [7], rfl⟩

/-- Folding of the English letters. -/
def foldAscii (c : Int) : Nat := if 65 ≤ c ∧ c ≤ 90 then (c + 32).toNat else if c < 0 then 4294967295 else c.toNat

/-- "aB" and "Ab!": equal, then shorter. -/
example : ∃ r, wcscasecmp foldAscii [97, 66, 0] [65, 98, 33, 0] = .ok r ∧ SignOfCompare r ([97, 66].map foldAscii) ([65, 98, 33].map foldAscii) :=
  wcscasecmp_sign foldAscii (by intro c; unfold foldAscii; split <;> (try split) <;> omega) _ _ _ _ ⟨by decide, [], rfl⟩ ⟨by decide, [], rfl⟩

example : wcsncasecmp foldAscii [97, 66, 1] [65, 98] 2 = .ok 0 := by decide

end Mlibc.Wchar
