import Verif.Net.Inet4

/-
Writing IPv6 address texts: `inet_ntop(AF_INET6)` (options/posix/generic/arpa-inet.cpp L163-239). An address is the
list of its eight 16-bit groups in host order. Property C49.
-/
namespace Mlibc.Inet
open Mlibc Mlibc.Strtol

/-- The check for an IPv4 address mapped into IPv6, on groups instead of octets. L166-173 -/
def mapped (g : List Nat) : Bool := g.take 5 = [0, 0, 0, 0, 0] ∧ g[5]? = some 0xffff

/-- The search for the longest run of zero groups; the variables of the loop are `i`, `cur_zeroes_off`,
`cur_zeroes_len`, `max_zeroes_off` and `max_zeroes_len`. L182-201 -/
def zeroScan : List Nat → Nat → Nat → Nat → Nat → Nat → Nat × Nat
  | [], _, _, _, mo, ml => (mo, ml)
  | x :: xs, i, co, cl, mo, ml =>
    if x = 0 then
      if ml < cl + 1 ∧ cl + 1 > 1 then zeroScan xs (i + 1) co (cl + 1) co (cl + 1)
      else zeroScan xs (i + 1) co (cl + 1) mo ml
    else zeroScan xs (i + 1) (i + 1) 0 mo ml

/-- `if(off < size) dst[off++] = c;` -/
def putIf (buf : List Nat) (off size c : Nat) : Res (Nat × List Nat) :=
  if off < size then (puts buf off [c]).bind fun b => .ok (off + 1, b) else .ok (off, buf)

/-- `off && dst[off - 1] != ':'` -/
def wantsColon (buf : List Nat) (off : Nat) : Res Bool :=
  if off = 0 then .ok false else (Str.rd buf (off - 1)).bind fun c => .ok (c ≠ 58)

/-- The output loop over the groups; `skip` counts the groups that `i += max_zeroes_len - 1` steps over. `none` is the
ENOSPC return. L203-234 -/
def ntop6Loop (size mo ml : Nat) : List Nat → Nat → Nat → Nat → List Nat → Res (Option Nat × List Nat)
  | [], _, off, _, buf => .ok (some off, buf)
  | x :: xs, i, off, skip, buf =>
    if skip > 0 then ntop6Loop size mo ml xs (i + 1) off (skip - 1) buf
    else if i = mo ∧ ml ≥ 2 then
      (putIf buf off size 58).bind fun p => (putIf p.2 p.1 size 58).bind fun q =>
      ntop6Loop size mo ml xs (i + 1) q.1 (ml - 1) q.2
    else
      (wantsColon buf off).bind fun colon =>
      (if colon then putIf buf off size 58 else .ok (off, buf)).bind fun p =>
      (snpr p.2 p.1 (size - p.1) (hexa x)).bind fun buf =>
      if (hexa x).length ≥ size - p.1 then .ok (none, buf)
      else ntop6Loop size mo ml xs (i + 1) (p.1 + (hexa x).length) 0 buf

/-- "::ffff:" -/
def mappedPrefix : List Nat := [58, 58, 102, 102, 102, 102, 58]

/-- The text of the last two groups as an IPv4 address. -/
def tail4 (g : List Nat) : List Nat :=
  dotted (g.getD 6 0 / 256) (g.getD 6 0 % 256) (g.getD 7 0 / 256) (g.getD 7 0 % 256)

/-- `inet_ntop(AF_INET6)`: whether it succeeds (the alternative is ENOSPC) and the buffer afterwards. L163-239, L245 -/
def ntop6 (buf : List Nat) (size : Nat) (g : List Nat) : Res (Bool × List Nat) :=
  if mapped g then
    (snpr buf 0 size (mappedPrefix ++ tail4 g)).bind fun b => .ok ((mappedPrefix ++ tail4 g).length < size, b)
  else
    (ntop6Loop size (zeroScan g 0 0 0 0 0).1 (zeroScan g 0 0 0 0 0).2 g 0 0 0 buf).bind fun r =>
    match r with
    | (none, b) => .ok (false, b)
    | (some off, b) => (puts b off [0]).bind fun b => .ok (true, b)

/-! ## Specification -/

/-- Groups in hexadecimal, with colons between them. -/
def colons : List Nat → List Nat
  | [] => []
  | [x] => hexa x
  | x :: xs => hexa x ++ 58 :: colons xs

/-- All groups from position `a` up to `a + n` are zero. -/
def Zeros (g : List Nat) (a n : Nat) : Prop := ∀ j, a ≤ j → j < a + n → g[j]? = some 0

/-- The text of an address as RFC 5952 prescribes it: the first of the longest runs of two or more zero groups is
written as "::", mapped IPv4 addresses are written in dotted form. -/
def Text6 (g t : List Nat) : Prop :=
  (g.take 5 = [0, 0, 0, 0, 0] ∧ g[5]? = some 0xffff ∧ t = mappedPrefix ++ tail4 g) ∨
  (¬ (g.take 5 = [0, 0, 0, 0, 0] ∧ g[5]? = some 0xffff) ∧ (∀ a n, Zeros g a n → n < 2) ∧ t = colons g) ∨
  (¬ (g.take 5 = [0, 0, 0, 0, 0] ∧ g[5]? = some 0xffff) ∧ ∃ a n, 2 ≤ n ∧ Zeros g a n ∧
    (∀ a' n', Zeros g a' n' → n' ≤ n ∧ (n' = n → a ≤ a')) ∧ t = colons (g.take a) ++ [58, 58] ++ colons (g.drop (a + n)))

/-! ## The search for zeros -/

theorem Zeros.bound {g : List Nat} {a n : Nat} (h : Zeros g a n) (hn : 0 < n) : a + n ≤ g.length := by
  have := h (a + n - 1) (by omega) (by omega)
  by_cases hl : a + n - 1 < g.length
  · omega
  · rw [List.getElem?_eq_none (by omega)] at this; simp at this

/-- What the search knows after `i` groups. -/
structure ScanInv (g : List Nat) (i co cl mo ml : Nat) : Prop where
  pos : co + cl = i
  cur : Zeros g co cl
  start : co = 0 ∨ g[co - 1]? ≠ some 0
  best : ∀ a n, a + n ≤ i → Zeros g a n → 2 ≤ n → n ≤ ml ∧ (n = ml → mo ≤ a)
  real : ml = 0 ∨ (2 ≤ ml ∧ Zeros g mo ml ∧ mo + ml ≤ i)

theorem scan_inv (g : List Nat) : ∀ (xs : List Nat) (i co cl mo ml : Nat), g.drop i = xs → i ≤ g.length →
    ScanInv g i co cl mo ml → ∃ co' cl', ScanInv g g.length co' cl' (zeroScan xs i co cl mo ml).1 (zeroScan xs i co cl mo ml).2 := by
  intro xs
  induction xs with
  | nil =>
    intro i co cl mo ml e hi h
    have : i = g.length := by
      have := congrArg List.length e
      rw [List.length_drop] at this
      simp at this; omega
    subst this
    exact ⟨co, cl, h⟩
  | cons x xs ih =>
    intro i co cl mo ml e hi h
    have hlen := congrArg List.length e
    rw [List.length_drop, List.length_cons] at hlen
    have hx : g[i]? = some x := by
      have : (g.drop i)[0]? = some x := by rw [e]; rfl
      rw [List.getElem?_drop] at this
      simpa using this
    have hdrop : g.drop (i + 1) = xs := by
      rw [← List.drop_drop, e]; rfl
    obtain ⟨h1, h2, h3, h4, h5⟩ := h
    rw [zeroScan]
    have window : ∀ a n, a + n = i + 1 → Zeros g a n → 1 ≤ n → n ≤ cl + 1 ∧ x = 0 := by
      intro a n ha hz hn
      have hx0 := hz i (by omega) (by omega)
      rw [hx] at hx0
      refine ⟨?_, by simpa using hx0⟩
      rcases h3 with h3 | h3
      · omega
      · by_cases hac : a < co
        · exact absurd (hz (co - 1) (by omega) (by omega)) h3
        · omega
    by_cases h0 : x = 0
    · rw [if_pos h0]
      subst h0
      have hcur : Zeros g co (cl + 1) := by
        intro j hj hj'
        by_cases hji : j = i
        · rw [hji]; exact hx
        · exact h2 j hj (by omega)
      split
      · rename_i hc
        refine ih _ _ _ _ _ hdrop (by omega) ⟨by omega, hcur, h3, ?_, Or.inr ⟨by omega, hcur, by omega⟩⟩
        intro a n ha hz hn
        by_cases hai : a + n = i + 1
        · have := (window a n hai hz (by omega)).1
          omega
        · have := h4 a n (by omega) hz hn
          omega
      · rename_i hc
        refine ih _ _ _ _ _ hdrop (by omega) ⟨by omega, hcur, h3, ?_, ?_⟩
        · intro a n ha hz hn
          by_cases hai : a + n = i + 1
          · have := (window a n hai hz (by omega)).1
            rcases h5 with h5 | h5
            · omega
            · refine ⟨by omega, fun hnm => ?_⟩
              have : n = cl + 1 := by omega
              omega
          · exact h4 a n (by omega) hz hn
        · rcases h5 with h5 | h5
          · exact Or.inl h5
          · exact Or.inr ⟨h5.1, h5.2.1, by omega⟩
    · rw [if_neg h0]
      refine ih _ _ _ _ _ hdrop (by omega) ⟨by omega, fun j hj hj' => by omega, Or.inr ?_, ?_, ?_⟩
      · rw [show i + 1 - 1 = i by omega, hx]
        simpa using h0
      · intro a n ha hz hn
        by_cases hai : a + n = i + 1
        · exact absurd (window a n hai hz (by omega)).2 h0
        · exact h4 a n (by omega) hz hn
      · rcases h5 with h5 | h5
        · exact Or.inl h5
        · exact Or.inr ⟨h5.1, h5.2.1, by omega⟩

/-- The search finds the first of the longest runs of two or more zero groups, or reports length 0. -/
theorem scan_spec (g : List Nat) (mo ml : Nat) (h : zeroScan g 0 0 0 0 0 = (mo, ml)) :
    (ml = 0 ∧ ∀ a n, Zeros g a n → n < 2) ∨
    (2 ≤ ml ∧ Zeros g mo ml ∧ ∀ a n, Zeros g a n → n ≤ ml ∧ (n = ml → mo ≤ a)) := by
  obtain ⟨co, cl, h1, h2, h3, h4, h5⟩ := scan_inv g g 0 0 0 0 0 rfl (by omega)
    ⟨rfl, fun j hj hj' => by omega, Or.inl rfl, fun a n ha _ hn => by omega, Or.inl rfl⟩
  rw [h] at h4 h5
  rcases h5 with h5 | ⟨h5, h6, h7⟩
  · refine Or.inl ⟨h5, fun a n hz => ?_⟩
    by_cases hn : 2 ≤ n
    · have := (h4 a n (hz.bound (by omega)) hz hn).1
      simp only at h5 this
      omega
    · omega
  · refine Or.inr ⟨h5, h6, fun a n hz => ?_⟩
    by_cases hn : 2 ≤ n
    · exact h4 a n (hz.bound (by omega)) hz hn
    · simp only at h5; exact ⟨by omega, fun h => by omega⟩

/-! ## The output loop -/

/-- The colon before the next group, after the text `w`. -/
def sep (w : List Nat) : List Nat := if w = [] ∨ w.getLast? = some 58 then [] else [58]

/-- The text after some more groups. -/
def grow : List Nat → List Nat → List Nat
  | w, [] => w
  | w, x :: xs => grow (w ++ sep w ++ hexa x) xs

theorem grow_length (xs : List Nat) : ∀ w, w.length ≤ (grow w xs).length := by
  induction xs with
  | nil => intro w; exact Nat.le_refl _
  | cons x xs ih => intro w; rw [grow]; exact Nat.le_trans (by simp) (ih _)

theorem hexa_last (n : Nat) : (hexa n).getLast? ≠ some 58 ∧ ∀ w : List Nat, (w ++ hexa n).getLast? ≠ some 58 := by
  have h : (hexa n).getLast? ≠ some 58 := by
    intro h
    have := hexa_digits n 58 (List.mem_of_getLast? h)
    simp [Spec.isDigitIn, Spec.digitOf] at this
  refine ⟨h, fun w => ?_⟩
  rw [List.getLast?_append, List.getLast?_eq_some_getLast (hexa_ne_nil n)] at *
  simpa using h

theorem grow_colon (xs : List Nat) : ∀ (w : List Nat) (x : Nat), w ≠ [] → w.getLast? ≠ some 58 →
    grow w (x :: xs) = w ++ 58 :: colons (x :: xs) := by
  induction xs with
  | nil => intro w x h1 h2; simp [grow, sep, h1, h2, colons]
  | cons y xs ih =>
    intro w x h1 h2
    rw [grow, ih _ _ (by simp [hexa_ne_nil]) ((hexa_last x).2 _)]
    simp [sep, h1, h2, colons]

theorem grow_colons (w xs : List Nat) (h : w = [] ∨ w.getLast? = some 58) : grow w xs = w ++ colons xs := by
  cases xs with
  | nil => simp [grow, colons]
  | cons x xs =>
    have hs : sep w = [] := by simp [sep, h]
    cases xs with
    | nil => simp [grow, hs, colons]
    | cons y xs =>
      rw [grow, grow_colon _ _ _ (by simp [hexa_ne_nil]) ((hexa_last x).2 _), hs]
      simp [colons]

theorem puts_at (w r : List Nat) (c : Nat) (h : r ≠ []) : puts (w ++ r) w.length [c] = .ok (w ++ [c] ++ r.drop 1) := by
  rw [puts_ok _ _ _ (by cases r with | nil => exact absurd rfl h | cons a r => simp)]
  simp

theorem snpr_at (w r text : List Nat) (n : Nat) (h : n ≤ r.length) (hl : text.length < n) :
    snpr (w ++ r) w.length n text = .ok (w ++ text ++ 0 :: r.drop (text.length + 1)) := by
  rw [snpr_ok _ _ _ _ (by simp; omega), if_neg (by omega)]
  rw [List.take_of_length_le (l := text) (by omega), show min (n - 1) text.length = text.length by omega]
  simp

theorem snpr_cut (w r text : List Nat) (n : Nat) (h : n ≤ r.length) (hl : n ≤ text.length) : ∃ r',
    snpr (w ++ r) w.length n text = .ok (w ++ r') ∧ r'.length = r.length ∧ r'.drop n = r.drop n := by
  rw [snpr_ok _ _ _ _ (by simp; omega)]
  by_cases hn : n = 0
  · exact ⟨r, by rw [if_pos hn], rfl, rfl⟩
  · rw [if_neg hn]
    refine ⟨text.take (n - 1) ++ [0] ++ r.drop n, ?_, ?_, ?_⟩
    · rw [show min (n - 1) text.length + 1 = n by omega]; simp
    · simp; omega
    · rw [List.drop_append_of_le_length (by simp; omega)]
      rw [List.drop_of_length_le (by simp; omega)]; simp

theorem wantsColon_at (w r : List Nat) : wantsColon (w ++ r) w.length = .ok (sep w ≠ []) := by
  unfold wantsColon sep
  cases hw : w with
  | nil => simp
  | cons a l =>
    rw [← hw]
    have hne : w ≠ [] := by simp [hw]
    have hl : w.length ≠ 0 := by simp [hw]
    rw [if_neg hl]
    have hlast : w.getLast? = some (w.getLast hne) := List.getLast?_eq_some_getLast hne
    have hrd : Str.rd (w ++ r) (w.length - 1) = .ok (w.getLast hne) := by
      unfold Str.rd
      rw [List.getElem?_append_left (by omega), ← List.getLast?_eq_getElem?, hlast]
    rw [hrd, hlast]
    simp only [Res.bind, hne, false_or, Option.some.injEq]
    by_cases h : w.getLast hne = 58 <;> simp [h]

theorem round_fits (size mo ml x i : Nat) (xs w r : List Nat) (hi : ¬ (i = mo ∧ ml ≥ 2)) (hs : size ≤ (w ++ r).length)
    (hf : (w ++ sep w ++ hexa x).length < size) : ∃ r',
    ntop6Loop size mo ml (x :: xs) i w.length 0 (w ++ r) =
      ntop6Loop size mo ml xs (i + 1) (w ++ sep w ++ hexa x).length 0 (w ++ sep w ++ hexa x ++ r') ∧
    (w ++ sep w ++ hexa x ++ r').length = (w ++ r).length ∧
    r'.drop 1 = (w ++ r).drop ((w ++ sep w ++ hexa x).length + 1) := by
  rw [ntop6Loop, if_neg (by omega), if_neg hi, wantsColon_at]
  simp only [List.length_append] at hf hs
  have hput : (if decide (sep w ≠ []) = true then putIf (w ++ r) w.length size 58 else .ok (w.length, w ++ r)) =
      .ok ((w ++ sep w).length, w ++ sep w ++ r.drop (sep w).length) := by
    by_cases h : sep w = []
    · simp [h]
    · have hs58 : sep w = [58] := by
        unfold sep at h ⊢
        split
        · rename_i h'; rw [if_pos h'] at h; exact absurd rfl h
        · rfl
      simp only [ne_eq, h, not_false_eq_true, decide_true, if_true]
      rw [hs58] at hf ⊢
      unfold putIf
      rw [if_pos (by simp at hf; omega), puts_at _ _ _ (by intro hr; rw [hr] at hs; simp at hs hf; omega)]
      simp [Res.bind]
  simp only [Res.bind]
  rw [hput]
  simp only [List.length_append]
  have hsep : (sep w).length ≤ 1 := by unfold sep; split <;> simp
  rw [← List.length_append, snpr_at _ _ _ _ (by simp; omega) (by simp; omega)]
  simp only
  rw [if_neg (by simp; omega)]
  refine ⟨0 :: (r.drop (sep w).length).drop ((hexa x).length + 1), rfl, ?_, ?_⟩
  · simp; omega
  · have e : w.length + (sep w).length + (hexa x).length + 1 = w.length + ((sep w).length + ((hexa x).length + 1)) := by omega
    rw [List.length_append, e, List.drop_append]
    simp

theorem round_cut (size mo ml x i : Nat) (xs w r : List Nat) (hi : ¬ (i = mo ∧ ml ≥ 2)) (hs : size ≤ (w ++ r).length)
    (hw : w.length ≤ size) (hf : size ≤ (w ++ sep w ++ hexa x).length) : ∃ b,
    ntop6Loop size mo ml (x :: xs) i w.length 0 (w ++ r) = .ok (none, b) ∧ b.length = (w ++ r).length ∧
      b.drop size = (w ++ r).drop size := by
  rw [ntop6Loop, if_neg (by omega), if_neg hi, wantsColon_at]
  simp only [List.length_append] at hf hs
  simp only [Res.bind]
  by_cases h : sep w = []
  · simp only [h, ne_eq, not_true_eq_false, decide_false, Bool.false_eq_true, if_false]
    rw [h] at hf
    obtain ⟨r', e1, e2, e3⟩ := snpr_cut w r (hexa x) (size - w.length) (by omega) (by simp at hf; omega)
    rw [e1]
    simp only
    rw [if_pos (by simp at hf; omega)]
    refine ⟨_, rfl, by simp [e2], ?_⟩
    rw [List.drop_append, List.drop_append, e3]
  · have hs58 : sep w = [58] := by
      unfold sep at h ⊢
      split
      · rename_i h'; rw [if_pos h'] at h; exact absurd rfl h
      · rfl
    simp only [ne_eq, h, not_false_eq_true, decide_true, if_true]
    rw [hs58] at hf
    unfold putIf
    by_cases hws : w.length < size
    · rw [if_pos hws, puts_at _ _ _ (by intro hr; rw [hr] at hs; simp at hs; omega)]
      simp only [Res.bind]
      have hl : w.length + 1 = (w ++ [58]).length := by simp
      rw [hl]
      obtain ⟨r', e1, e2, e3⟩ := snpr_cut (w ++ [58]) (r.drop 1) (hexa x) (size - (w ++ [58]).length) (by simp; omega)
        (by simp at hf ⊢; omega)
      rw [e1]
      simp only
      rw [if_pos (by simp at hf ⊢; omega)]
      refine ⟨_, rfl, by simp [e2]; omega, ?_⟩
      rw [List.drop_append, e3, List.drop_of_length_le (by simp; omega), List.drop_append,
        List.drop_of_length_le (by omega : w.length ≤ size), List.drop_drop]
      simp
      congr 1
      omega
    · rw [if_neg hws]
      simp only
      have e1 : size - w.length = 0 := by omega
      unfold snpr
      rw [if_pos e1]
      simp only
      rw [if_pos (by omega)]
      exact ⟨_, rfl, rfl, rfl⟩

/-- The loop over groups that are not the beginning of the run: it either writes all of them and goes on, or fails. -/
theorem run_groups (size mo ml : Nat) (ys : List Nat) : ∀ (xs : List Nat) (i : Nat) (w r : List Nat),
    (∀ j, i ≤ j → j < i + xs.length → ¬ (j = mo ∧ ml ≥ 2)) → size ≤ (w ++ r).length → w.length ≤ size →
    ((xs = [] ∨ (grow w xs).length < size) → ∃ r',
      ntop6Loop size mo ml (xs ++ ys) i w.length 0 (w ++ r) =
        ntop6Loop size mo ml ys (i + xs.length) (grow w xs).length 0 (grow w xs ++ r') ∧
      (grow w xs ++ r').length = (w ++ r).length ∧ r'.drop 1 = (w ++ r).drop ((grow w xs).length + 1) ∧
      (xs = [] → r' = r)) ∧
    (xs ≠ [] → size ≤ (grow w xs).length → ∃ b, ntop6Loop size mo ml (xs ++ ys) i w.length 0 (w ++ r) = .ok (none, b) ∧
      b.length = (w ++ r).length ∧ b.drop size = (w ++ r).drop size) := by
  intro xs
  induction xs with
  | nil =>
    intro i w r hm hs hw
    refine ⟨fun _ => ⟨r, rfl, rfl, ?_, fun _ => rfl⟩, fun h => absurd rfl h⟩
    show r.drop 1 = (w ++ r).drop (w.length + 1)
    rw [List.drop_append]; simp
  | cons x xs ih =>
    intro i w r hm hs hw
    have hi := hm i (Nat.le_refl _) (by simp)
    have hm' : ∀ j, i + 1 ≤ j → j < i + 1 + xs.length → ¬ (j = mo ∧ ml ≥ 2) :=
      fun j h1 h2 => hm j (by omega) (by simp; omega)
    rw [grow]
    constructor
    · intro hf
      simp only [reduceCtorEq, false_or] at hf
      have := grow_length xs (w ++ sep w ++ hexa x)
      obtain ⟨r1, e1, e2, e3⟩ := round_fits size mo ml x i (xs ++ ys) w r hi hs (by omega)
      obtain ⟨r2, f1, f2, f3, -⟩ := (ih (i + 1) (w ++ sep w ++ hexa x) r1 hm' (by omega) (by omega)).1 (Or.inr hf)
      refine ⟨r2, ?_, by omega, ?_, fun h => by simp at h⟩
      · rw [List.cons_append, e1, f1, List.length_cons, show i + 1 + xs.length = i + (xs.length + 1) by omega]
      · rw [f3]
        generalize w ++ sep w ++ hexa x = w' at *
        generalize grow w' xs = w'' at *
        have k : (w' ++ r1).drop (w'.length + 1) = (w ++ r).drop (w'.length + 1) := by
          rw [List.drop_append, ← e3]; simp
        rw [show w''.length + 1 = (w'.length + 1) + (w''.length - w'.length) by omega, ← List.drop_drop, k, List.drop_drop]
    · intro _ hf
      by_cases hr : (w ++ sep w ++ hexa x).length < size
      · obtain ⟨r1, e1, e2, e3⟩ := round_fits size mo ml x i (xs ++ ys) w r hi hs hr
        have hne : xs ≠ [] := by
          rintro rfl
          rw [grow] at hf; omega
        obtain ⟨b, f1, f2, f3⟩ := (ih (i + 1) (w ++ sep w ++ hexa x) r1 hm' (by omega) (by omega)).2 hne hf
        refine ⟨b, by rw [List.cons_append, e1, f1], by omega, ?_⟩
        rw [f3]
        generalize w ++ sep w ++ hexa x = w' at *
        have k : (w' ++ r1).drop (w'.length + 1) = (w ++ r).drop (w'.length + 1) := by
          rw [List.drop_append, ← e3]; simp
        rw [show size = (w'.length + 1) + (size - (w'.length + 1)) by omega, ← List.drop_drop, k, List.drop_drop]
      · exact round_cut size mo ml x i (xs ++ ys) w r hi hs hw (by omega)

/-- The groups of the run are stepped over. -/
theorem run_skip (size mo ml : Nat) (ys : List Nat) : ∀ (zs : List Nat) (i off : Nat) (buf : List Nat),
    ntop6Loop size mo ml (zs ++ ys) i off zs.length buf = ntop6Loop size mo ml ys (i + zs.length) off 0 buf := by
  intro zs
  induction zs with
  | nil => intro i off buf; rfl
  | cons z zs ih =>
    intro i off buf
    rw [List.cons_append, ntop6Loop, if_pos (by simp), List.length_cons, Nat.add_sub_cancel, ih]
    congr 1
    omega

/-- The step at the beginning of the run. -/
theorem run_colons (size mo ml : Nat) (z : Nat) (zs ys w r : List Nat) (hz : zs.length + 1 = ml) (hml : 2 ≤ ml)
    (hs : size ≤ (w ++ r).length) (hw : w.length ≤ size) :
    (w.length + 2 ≤ size → ntop6Loop size mo ml (z :: (zs ++ ys)) mo w.length 0 (w ++ r) =
      ntop6Loop size mo ml ys (mo + ml) (w ++ [58, 58]).length 0 (w ++ [58, 58] ++ r.drop 2)) ∧
    (size < w.length + 2 → ∃ w', w'.length = size ∧ ∃ r', ntop6Loop size mo ml (z :: (zs ++ ys)) mo w.length 0 (w ++ r) =
      ntop6Loop size mo ml ys (mo + ml) w'.length 0 (w' ++ r') ∧ (w' ++ r').length = (w ++ r).length ∧
      (w' ++ r').drop size = (w ++ r).drop size) := by
  rw [ntop6Loop, if_neg (by omega), if_pos ⟨rfl, by omega⟩]
  have hz' : ml - 1 = zs.length := by omega
  simp only [List.length_append] at hs
  constructor
  · intro h
    unfold putIf
    rw [if_pos (by omega), puts_at _ _ _ (by intro hr; rw [hr] at hs; simp at hs; omega)]
    simp only [Res.bind]
    have hl : w.length + 1 = (w ++ [58]).length := by simp
    rw [if_pos (by omega), hl, puts_at _ _ _ (by intro hr; have := congrArg List.length hr; simp at this; omega)]
    simp only [Res.bind]
    rw [hz', run_skip]
    simp only [List.append_assoc, List.cons_append, List.nil_append, List.length_append, List.length_cons, List.length_nil,
      List.drop_drop]
    congr 1
    omega
  · intro h
    unfold putIf
    by_cases hws : w.length < size
    · have hl : w.length + 1 = (w ++ [58]).length := by simp
      rw [if_pos (by omega), puts_at _ _ _ (by intro hr; rw [hr] at hs; simp at hs; omega)]
      simp only [Res.bind]
      rw [if_neg (by omega)]
      simp only
      rw [hz', run_skip]
      refine ⟨w ++ [58], by simp; omega, r.drop 1, by rw [← hl]; congr 1; omega, by simp; omega, ?_⟩
      rw [show size = (w ++ [58]).length by simp; omega, List.drop_left]
      simp
    · rw [if_neg hws]
      simp only [Res.bind]
      rw [if_neg hws]
      simp only
      rw [hz', run_skip]
      exact ⟨w, by omega, r, by congr 1; omega, by simp, rfl⟩

/-! ## Theorems -/

theorem mapped_iff (g : List Nat) : mapped g = true ↔ g.take 5 = [0, 0, 0, 0, 0] ∧ g[5]? = some 0xffff := by simp [mapped]

/-- The loop started at the first group, for an address whose longest run of zeros is `n ≥ 2` groups from `a`. -/
theorem split_run (g : List Nat) (a n : Nat) (hn : 2 ≤ n) (hz : Zeros g a n) : ∃ z zs, zs.length + 1 = n ∧
    g = g.take a ++ (z :: (zs ++ g.drop (a + n))) ∧ (g.take a).length = a := by
  have hb := hz.bound (by omega)
  have h1 : g = g.take a ++ g.drop a := (List.take_append_drop a g).symm
  have h2 : g.drop a = (g.drop a).take n ++ g.drop (a + n) := by
    rw [← List.drop_drop, List.take_append_drop]
  cases hc : (g.drop a).take n with
  | nil =>
    have := congrArg List.length hc
    simp at this; omega
  | cons z zs =>
    refine ⟨z, zs, ?_, ?_, by simp; omega⟩
    · have := congrArg List.length hc
      simp at this; omega
    · rw [hc] at h2
      rw [← List.cons_append, ← h2, ← h1]

theorem colons_last (xs : List Nat) (h : xs ≠ []) : colons xs ≠ [] ∧ (colons xs).getLast? ≠ some 58 := by
  induction xs with
  | nil => exact absurd rfl h
  | cons x xs ih =>
    cases xs with
    | nil => exact ⟨hexa_ne_nil x, (hexa_last x).1⟩
    | cons y xs =>
      have := ih (by simp)
      rw [colons]
      · refine ⟨by simp, ?_⟩
        have h2 := this.2
        rw [List.getLast?_eq_some_getLast this.1] at h2
        rw [List.getLast?_append, List.getLast?_cons, List.getLast?_eq_some_getLast this.1]
        simpa using h2
      · simp

/-- C49, IPv6: a text that fits with its terminator is written exactly, and nothing after it changes. -/
theorem ntop6_fits (buf g t : List Nat) (size : Nat) (hg : g.length = 8) (ht : Text6 g t) (hs : size ≤ buf.length)
    (hf : t.length < size) : ntop6 buf size g = .ok (true, t ++ 0 :: buf.drop (t.length + 1)) := by
  unfold ntop6
  rcases ht with ⟨h1, h2, rfl⟩ | ⟨hm, hz, rfl⟩ | ⟨hm, a, n, hn, hz, hbest, rfl⟩
  · rw [if_pos ((mapped_iff g).2 ⟨h1, h2⟩)]
    have := snpr_at [] buf (mappedPrefix ++ tail4 g) size hs hf
    rw [List.nil_append, List.length_nil] at this
    rw [this]
    simp only [Res.bind, hf, decide_true]
    rfl
  · rw [if_neg (by rw [mapped_iff]; exact hm)]
    obtain ⟨mo, ml, e⟩ : ∃ mo ml, zeroScan g 0 0 0 0 0 = (mo, ml) := ⟨_, _, rfl⟩
    rw [e]
    simp only
    have hml : ml = 0 := by
      rcases scan_spec g mo ml e with h | h
      · exact h.1
      · have := hz _ _ h.2.1; omega
    subst hml
    have hgrow : grow [] g = colons g := by rw [grow_colons _ _ (Or.inl rfl)]; rfl
    obtain ⟨r', e1, e2, e3, -⟩ := (run_groups size mo 0 [] g 0 [] buf (fun j _ _ h => by omega) (by simpa using hs) (by simp)).1
      (Or.inr (by rw [hgrow]; exact hf))
    rw [List.append_nil, List.nil_append, List.length_nil] at e1
    rw [e1, hgrow]
    simp only [ntop6Loop, Res.bind]
    rw [hgrow] at e2 e3
    simp only [List.length_append, List.nil_append] at e2
    rw [puts_at _ _ _ (by rintro rfl; simp at e2; omega)]
    simp only [e3]
    simp
  · rw [if_neg (by rw [mapped_iff]; exact hm)]
    obtain ⟨mo, ml, e⟩ : ∃ mo ml, zeroScan g 0 0 0 0 0 = (mo, ml) := ⟨_, _, rfl⟩
    rw [e]
    simp only
    obtain ⟨rfl, rfl⟩ : mo = a ∧ ml = n := by
      rcases scan_spec g mo ml e with h | ⟨h1, h2, h3⟩
      · have := h.2 _ _ hz; omega
      · have k1 := hbest _ _ h2
        have k2 := h3 _ _ hz
        omega
    obtain ⟨z, zs, hzl, hsplit, hal⟩ := split_run g mo ml hn hz
    have hgrow : grow [] (g.take mo) = colons (g.take mo) := by rw [grow_colons _ _ (Or.inl rfl)]; rfl
    simp only [List.length_append, List.length_cons, List.length_nil] at hf
    obtain ⟨r1, e1, e2, e3, -⟩ := (run_groups size mo ml (z :: (zs ++ g.drop (mo + ml))) (g.take mo) 0 [] buf
      (fun j _ h1 h2 => by omega) (by simpa using hs) (by simp)).1 (Or.inr (by rw [hgrow]; omega))
    rw [List.nil_append, List.length_nil, ← hsplit, hgrow, hal, Nat.zero_add] at e1
    rw [hgrow, List.nil_append] at e2 e3
    have e4 := (run_colons size mo ml z zs (g.drop (mo + ml)) (colons (g.take mo)) r1 hzl hn (by omega) (by omega)).1 (by omega)
    rw [e1, e4]
    generalize hw : colons (g.take mo) ++ [58, 58] = w at *
    have hwl : w.length = (colons (g.take mo)).length + 2 := by rw [← hw]; simp
    have hgrow2 : grow w (g.drop (mo + ml)) = w ++ colons (g.drop (mo + ml)) := grow_colons _ _ (Or.inr (by rw [← hw]; simp))
    have hlen : (w ++ r1.drop 2).length = buf.length := by
      rw [← e2]; simp only [List.length_append, List.length_drop]
      simp only [List.length_append] at e2
      omega
    obtain ⟨r2, f1, f2, f3, -⟩ := (run_groups size mo ml [] (g.drop (mo + ml)) (mo + ml) w (r1.drop 2)
      (fun j h1 h2 h3 => by omega) (by omega) (by omega)).1 (Or.inr (by rw [hgrow2]; simp; omega))
    rw [List.append_nil] at f1
    rw [f1, hgrow2]
    rw [hgrow2] at f2 f3
    simp only [ntop6Loop, Res.bind]
    rw [puts_at _ _ _ (by rintro rfl; simp at f2 hlen; omega)]
    simp only [f3]
    have k : (w ++ r1.drop 2).drop w.length = buf.drop w.length := by
      rw [List.drop_left, show 2 = 1 + 1 from rfl, ← List.drop_drop, e3, List.drop_drop, hwl]
    have k2 : (w ++ r1.drop 2).drop ((w ++ colons (g.drop (mo + ml))).length + 1) =
        buf.drop ((w ++ colons (g.drop (mo + ml))).length + 1) := by
      rw [List.length_append, show w.length + (colons (g.drop (mo + ml))).length + 1 =
        w.length + ((colons (g.drop (mo + ml))).length + 1) by omega, ← List.drop_drop, k, List.drop_drop]
    rw [k2]
    simp

/-- C49, IPv6: a text that does not fit is refused and nothing after the buffer changes; provided the text does not end
in "::" (see `ntop6_overflow_violated`). -/
theorem ntop6_refuses_partial (buf g t : List Nat) (size : Nat) (hg : g.length = 8) (ht : Text6 g t) (hs : size ≤ buf.length)
    (hf : size ≤ t.length) (hlast : t.getLast? ≠ some 58) : ∃ buf', ntop6 buf size g = .ok (false, buf') ∧
    buf'.length = buf.length ∧ buf'.drop size = buf.drop size := by
  unfold ntop6
  rcases ht with ⟨h1, h2, rfl⟩ | ⟨hm, hz, rfl⟩ | ⟨hm, a, n, hn, hz, hbest, rfl⟩
  · rw [if_pos ((mapped_iff g).2 ⟨h1, h2⟩)]
    obtain ⟨r', e1, e2, e3⟩ := snpr_cut [] buf (mappedPrefix ++ tail4 g) size hs hf
    rw [List.nil_append, List.length_nil] at e1
    rw [e1]
    have : ¬ (mappedPrefix ++ tail4 g).length < size := by omega
    simp only [Res.bind, this, decide_false]
    exact ⟨_, rfl, by simpa using e2, by simpa using e3⟩
  · rw [if_neg (by rw [mapped_iff]; exact hm)]
    obtain ⟨mo, ml, e⟩ : ∃ mo ml, zeroScan g 0 0 0 0 0 = (mo, ml) := ⟨_, _, rfl⟩
    rw [e]
    simp only
    have hml : ml = 0 := by
      rcases scan_spec g mo ml e with h | h
      · exact h.1
      · have := hz _ _ h.2.1; omega
    subst hml
    have hgrow : grow [] g = colons g := by rw [grow_colons _ _ (Or.inl rfl)]; rfl
    obtain ⟨b, e1, e2, e3⟩ := (run_groups size mo 0 [] g 0 [] buf (fun j _ _ h => by omega) (by simpa using hs) (by simp)).2
      (by rintro rfl; simp at hg) (by rw [hgrow]; exact hf)
    rw [List.append_nil, List.nil_append, List.length_nil] at e1
    rw [e1]
    simp only [Res.bind]
    exact ⟨b, rfl, by simpa using e2, by simpa using e3⟩
  · rw [if_neg (by rw [mapped_iff]; exact hm)]
    obtain ⟨mo, ml, e⟩ : ∃ mo ml, zeroScan g 0 0 0 0 0 = (mo, ml) := ⟨_, _, rfl⟩
    rw [e]
    simp only
    obtain ⟨rfl, rfl⟩ : mo = a ∧ ml = n := by
      rcases scan_spec g mo ml e with h | ⟨h1, h2, h3⟩
      · have := h.2 _ _ hz; omega
      · have k1 := hbest _ _ h2
        have k2 := h3 _ _ hz
        omega
    obtain ⟨z, zs, hzl, hsplit, hal⟩ := split_run g mo ml hn hz
    have hgrow : grow [] (g.take mo) = colons (g.take mo) := by rw [grow_colons _ _ (Or.inl rfl)]; rfl
    have hpost : g.drop (mo + ml) ≠ [] := by
      intro hp
      rw [hp] at hlast
      simp [colons] at hlast
    have pre := run_groups size mo ml (z :: (zs ++ g.drop (mo + ml))) (g.take mo) 0 [] buf
      (fun j _ h1 h2 => by omega) (by simpa using hs) (by simp)
    rw [List.nil_append, List.length_nil, ← hsplit, hgrow, hal, Nat.zero_add] at pre
    by_cases hpre : g.take mo = [] ∨ (colons (g.take mo)).length < size
    · obtain ⟨r1, e1, e2, e3, e0⟩ := pre.1 hpre
      have hwle : (colons (g.take mo)).length ≤ size := by
        rcases hpre with h | h
        · rw [h]; simp [colons]
        · omega
      have col := run_colons size mo ml z zs (g.drop (mo + ml)) (colons (g.take mo)) r1 hzl hn (by omega) hwle
      have k0 : (colons (g.take mo) ++ r1).drop ((colons (g.take mo)).length + 1) = buf.drop ((colons (g.take mo)).length + 1) := by
        rw [← e3, List.drop_append]; simp
      rw [e1]
      by_cases hc : (colons (g.take mo)).length + 2 ≤ size
      · rw [col.1 hc]
        generalize hw : colons (g.take mo) ++ [58, 58] = w at *
        have hwl : w.length = (colons (g.take mo)).length + 2 := by rw [← hw]; simp
        have hgrow2 : grow w (g.drop (mo + ml)) = w ++ colons (g.drop (mo + ml)) := grow_colons _ _ (Or.inr (by rw [← hw]; simp))
        have hlen : (w ++ r1.drop 2).length = buf.length := by
          rw [← e2]; simp only [List.length_append, List.length_drop]
          simp only [List.length_append] at e2
          omega
        obtain ⟨b, f1, f2, f3⟩ := (run_groups size mo ml [] (g.drop (mo + ml)) (mo + ml) w (r1.drop 2)
          (fun j h1 h2 h3 => by omega) (by omega) (by omega)).2 hpost (by rw [hgrow2]; exact hf)
        rw [List.append_nil] at f1
        rw [f1]
        simp only [Res.bind]
        refine ⟨b, rfl, by omega, ?_⟩
        rw [f3]
        have k : (w ++ r1.drop 2).drop w.length = buf.drop w.length := by
          rw [List.drop_left, show 2 = 1 + 1 from rfl, ← List.drop_drop, e3, List.drop_drop, hwl]
        rw [show size = w.length + (size - w.length) by omega, ← List.drop_drop, k, List.drop_drop]
      · obtain ⟨w', hw', r2, e4, e5, e6⟩ := col.2 (by omega)
        rw [e4]
        have hpl : (grow w' (g.drop (mo + ml))).length ≥ size := by
          have := grow_length (g.drop (mo + ml)) w'; omega
        obtain ⟨b, f1, f2, f3⟩ := (run_groups size mo ml [] (g.drop (mo + ml)) (mo + ml) w' r2
          (fun j h1 h2 h3 => by omega) (by omega) (by omega)).2 hpost hpl
        rw [List.append_nil] at f1
        rw [f1]
        simp only [Res.bind]
        refine ⟨b, rfl, by omega, ?_⟩
        rw [f3, e6]
        by_cases hsz : (colons (g.take mo)).length = size
        · rcases hpre with h | h
          · have hr0 : (colons (g.take mo)) = [] := by rw [h]; rfl
            rw [hr0, e0 h]; rfl
          · omega
        · rw [show size = (colons (g.take mo)).length + 1 by omega, k0]
    · simp only [not_or, Nat.not_lt] at hpre
      obtain ⟨b, e1, e2, e3⟩ := pre.2 hpre.1 hpre.2
      rw [e1]
      simp only [Res.bind]
      exact ⟨b, rfl, e2, e3⟩

/-- Every address has a text. -/
theorem text6_exists (g : List Nat) : ∃ t, Text6 g t := by
  by_cases h : g.take 5 = [0, 0, 0, 0, 0] ∧ g[5]? = some 0xffff
  · exact ⟨_, Or.inl ⟨h.1, h.2, rfl⟩⟩
  · rcases scan_spec g _ _ rfl with h' | h'
    · exact ⟨_, Or.inr (Or.inl ⟨h, h'.2, rfl⟩)⟩
    · exact ⟨_, Or.inr (Or.inr ⟨h, _, _, h'.1, h'.2.1, h'.2.2, rfl⟩)⟩

/-- "2001:db8::1:0:0:1" -/
example : ntop6 (List.replicate 20 9) 18 [0x2001, 0xdb8, 0, 0, 1, 0, 0, 1] =
    .ok (true, [50, 48, 48, 49, 58, 100, 98, 56, 58, 58, 49, 58, 48, 58, 48, 58, 49, 0, 9, 9]) := by decide +kernel

example : ntop6 (List.replicate 20 9) 17 [0x2001, 0xdb8, 0, 0, 1, 0, 0, 1] =
    .ok (false, [50, 48, 48, 49, 58, 100, 98, 56, 58, 58, 49, 58, 48, 58, 48, 58, 0, 9, 9, 9]) := by decide +kernel

/-- For "1::" and a buffer of 3 bytes the terminator is stored behind the buffer and the call succeeds. -/
theorem ntop6_overflow_violated : ntop6 [9, 9, 9] 3 [1, 0, 0, 0, 0, 0, 0, 0] = .ub ∧
    ntop6 [9, 9, 9, 9] 3 [1, 0, 0, 0, 0, 0, 0, 0] = .ok (true, [49, 58, 58, 0]) := by decide +kernel

end Mlibc.Inet
