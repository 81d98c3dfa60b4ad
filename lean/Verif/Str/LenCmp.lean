import Verif.Str.Model
import Verif.Str.Spec
/- C04 and C05: length and comparison functions. -/
namespace Mlibc.Str
open Mlibc

section generic
variable {α : Type} [DecidableEq α] [OfNat α 0]

/-- C04. `strlen`/`wcslen` return the length and read nothing behind the terminator. -/
theorem strlen_exact (buf s : List α) (h : CStr buf s) : strlen buf = .ok s.length := by
  obtain ⟨h0, rest, rfl⟩ := h
  induction s with
  | nil => simp [strlen]
  | cons c s ih =>
    simp only [List.mem_cons, not_or] at h0
    simp [strlen, ih h0.2, Ne.symm h0.1]

/-- C04. `strnlen`: the minimum of length and bound; reads neither behind the terminator nor at or
behind the bound. -/
theorem strnlen_exact (buf s : List α) (n : Nat) (h : NStr n buf s) : strnlen buf n = .ok s.length := by
  obtain ⟨h0, h⟩ := h
  induction s generalizing n buf with
  | nil =>
    rcases h with ⟨hn, rest, rfl⟩ | ⟨hn, rest, rfl⟩
    · obtain ⟨k, rfl⟩ : ∃ k, n = k + 1 := ⟨n - 1, by simp at hn; omega⟩
      simp [strnlen]
    · simp only [List.length_nil] at hn; subst hn; unfold strnlen; rfl
  | cons c s ih =>
    simp only [List.mem_cons, not_or] at h0
    obtain ⟨k, rfl⟩ : ∃ k, n = k + 1 := by
      rcases h with ⟨hn, _⟩ | ⟨hn, _⟩ <;> simp only [List.length_cons] at hn <;> exact ⟨n - 1, by omega⟩
    rcases h with ⟨hn, rest, rfl⟩ | ⟨hn, rest, rfl⟩
    · simp [strnlen, Ne.symm h0.1, ih _ k h0.2 (.inl ⟨by simpa using hn, rest, rfl⟩)]
    · simp [strnlen, Ne.symm h0.1, ih _ k h0.2 (.inr ⟨by simpa using hn, rest, rfl⟩)]

/-- C04. For a terminated string the bounded length is `min`. -/
theorem strnlen_min (buf s : List α) (n : Nat) (h : CStr buf s) :
    strnlen buf n = .ok (min n s.length) := by
  obtain ⟨h0, rest, rfl⟩ := h
  by_cases hn : s.length < n
  · rw [strnlen_exact _ s n ⟨h0, .inl ⟨hn, rest, rfl⟩⟩]; congr 1; omega
  · rw [strnlen_exact _ (s.take n) n ⟨fun hm => h0 (List.mem_of_mem_take hm), .inr ⟨by simp; omega,
      s.drop n ++ 0 :: rest, by rw [← List.append_assoc, List.take_append_drop]⟩⟩]
    simp

end generic

example : strlen ([104, 105, 0, 7] : List UInt8) = .ok 2 :=
  strlen_exact _ [104, 105] ⟨by decide, [7], rfl⟩
example : strnlen ([104, 105] : List UInt8) 2 = .ok 2 :=
  strnlen_exact _ [104, 105] 2 ⟨by decide, .inr ⟨rfl, [], rfl⟩⟩
/-- Sensitivity: an unterminated string is an over-read. -/
example : strlen ([104, 105] : List UInt8) = .ub := by decide

/-! ### C05 -/

theorem u8_tri (a b : UInt8) : a < b ∨ a = b ∨ b < a := by
  rcases Nat.lt_trichotomy a.toNat b.toNat with h | h | h
  · exact .inl (UInt8.lt_iff_toNat_lt.2 h)
  · exact .inr (.inl (UInt8.toNat_inj.1 h))
  · exact .inr (.inr (UInt8.lt_iff_toNat_lt.2 h))

theorem SignOfCompare.nil : SignOfCompare (α := UInt8) 0 [] [] := by
  simp [SignOfCompare, List.not_lt_nil]

theorem SignOfCompare.cons {α : Type} [LT α] (irr : ∀ a : α, ¬ a < a) {r : Int} {s t : List α} (c : α)
    (h : SignOfCompare r s t) : SignOfCompare r (c :: s) (c :: t) := by
  obtain ⟨h1, h2, h3⟩ := h
  refine ⟨by simp [h1], ?_, ?_⟩
  · rw [h2, List.cons_lt_cons_iff]; simp [irr c]
  · rw [h3, List.cons_lt_cons_iff]; simp [irr c]

theorem SignOfCompare.lt {α : Type} [LT α] (irr : ∀ a : α, ¬ a < a)
    (asym : ∀ a b : α, a < b → ¬ b < a) {s t : List α} {c d : α}
    (h : c < d) : SignOfCompare (-1) (c :: s) (d :: t) := by
  have hne : c ≠ d := fun e => irr d (e ▸ h)
  refine ⟨by simp [hne], ?_, ?_⟩
  · simp [List.cons_lt_cons_iff, h]
  · simp [List.cons_lt_cons_iff, asym _ _ h, hne.symm]

theorem SignOfCompare.gt {α : Type} [LT α] (irr : ∀ a : α, ¬ a < a)
    (asym : ∀ a b : α, a < b → ¬ b < a) {s t : List α} {c d : α}
    (h : d < c) : SignOfCompare 1 (c :: s) (d :: t) := by
  have hne : c ≠ d := fun e => irr d (e ▸ h)
  refine ⟨by simp [hne], ?_, ?_⟩
  · simp [List.cons_lt_cons_iff, asym _ _ h, hne]
  · simp [List.cons_lt_cons_iff, h]

theorem SignOfCompare.nil_cons {α : Type} [LT α] {t : List α} {d : α} :
    SignOfCompare (-1) [] (d :: t) := by
  simp [SignOfCompare, List.not_lt_nil]

theorem SignOfCompare.cons_nil {α : Type} [LT α] {t : List α} {d : α} :
    SignOfCompare 1 (d :: t) [] := by
  simp [SignOfCompare, List.not_lt_nil]

theorem u8_irr : ∀ a : UInt8, ¬ a < a := fun a => UInt8.lt_irrefl a
theorem u8_asym : ∀ a b : UInt8, a < b → ¬ b < a := fun _ _ h => UInt8.lt_asymm h
theorem u8_pos {a : UInt8} (h : a ≠ 0) : 0 < a := UInt8.pos_iff_ne_zero.2 h

/-- C05. `memcmp`: sign of the lexicographic comparison, as unsigned bytes, of the first `n` bytes. -/
theorem memcmp_sign (a b : List UInt8) (n : Nat) (ha : n ≤ a.length) (hb : n ≤ b.length) :
    ∃ r, memcmp a b n = .ok r ∧ SignOfCompare r (a.take n) (b.take n) := by
  induction n generalizing a b with
  | zero => exact ⟨0, by unfold memcmp; rfl, by simpa using SignOfCompare.nil⟩
  | succ n ih =>
    match a, b, ha, hb with
    | x :: a, y :: b, ha, hb =>
      simp only [List.length_cons, Nat.add_le_add_iff_right] at ha hb
      simp only [memcmp, List.take_succ_cons]
      rcases u8_tri x y with h | h | h
      · exact ⟨-1, by simp [h], .lt u8_irr u8_asym h⟩
      · subst h
        obtain ⟨r, e, hr⟩ := ih a b ha hb
        exact ⟨r, by simp [e], hr.cons u8_irr x⟩
      · exact ⟨1, by simp [h, u8_asym _ _ h], .gt u8_irr u8_asym h⟩

/-- Common core of the comparison loops. -/
theorem strncasecmp_sign (low : UInt8 → UInt8) (hlow : ∀ c, low c = 0 ↔ c = 0) (n : Nat)
    (a b s t : List UInt8) (ha : NStr n a s) (hb : NStr n b t) :
    ∃ r, strncasecmp low a b n = .ok r ∧ SignOfCompare r (s.map low) (t.map low) := by
  have hlow0 : low 0 = 0 := (hlow 0).2 rfl
  induction n generalizing a b s t with
  | zero =>
    have hs : s = [] := by rcases ha.2 with ⟨h, _⟩ | ⟨h, _⟩ <;> simp_all
    have ht : t = [] := by rcases hb.2 with ⟨h, _⟩ | ⟨h, _⟩ <;> simp_all
    subst hs ht
    exact ⟨0, by unfold strncasecmp; rfl, by simpa using SignOfCompare.nil⟩
  | succ n ih =>
    -- shape of each buffer
    have shape : ∀ a s : List UInt8, NStr (n + 1) a s →
        (s = [] ∧ ∃ r, a = 0 :: r) ∨ (∃ c s' a', s = c :: s' ∧ a = c :: a' ∧ c ≠ 0 ∧ NStr n a' s') := by
      intro a s h
      obtain ⟨h0, h⟩ := h
      match s with
      | [] =>
        rcases h with ⟨_, r, rfl⟩ | ⟨h, _⟩
        · exact .inl ⟨rfl, r, rfl⟩
        · simp at h
      | c :: s' =>
        simp only [List.mem_cons, not_or] at h0
        rcases h with ⟨hl, r, rfl⟩ | ⟨hl, r, rfl⟩
        · exact .inr ⟨c, s', _, rfl, rfl, Ne.symm h0.1, h0.2, .inl ⟨by simpa using hl, r, rfl⟩⟩
        · exact .inr ⟨c, s', _, rfl, rfl, Ne.symm h0.1, h0.2, .inr ⟨by simpa using hl, r, rfl⟩⟩
    rcases shape a s ha with ⟨rfl, ra, rfl⟩ | ⟨c, s', a', rfl, rfl, hc, ha'⟩ <;>
      rcases shape b t hb with ⟨rfl, rb, rfl⟩ | ⟨d, t', b', rfl, rfl, hd, hb'⟩
    · exact ⟨0, by simp [strncasecmp, hlow0], by simpa using SignOfCompare.nil⟩
    · have hd' : low d ≠ 0 := fun e => hd ((hlow d).1 e)
      exact ⟨-1, by simp [strncasecmp, hlow0, hd', u8_pos hd'], by simpa using SignOfCompare.nil_cons⟩
    · have hc' : low c ≠ 0 := fun e => hc ((hlow c).1 e)
      exact ⟨1, by simp [strncasecmp, hlow0, hc', u8_pos hc'], by
        simpa using SignOfCompare.cons_nil⟩
    · have hc' : low c ≠ 0 := fun e => hc ((hlow c).1 e)
      rcases u8_tri (low c) (low d) with h | h | h
      · exact ⟨-1, by simp [strncasecmp, hc', h], by simpa using SignOfCompare.lt u8_irr u8_asym h⟩
      · obtain ⟨r, e, hr⟩ := ih a' b' s' t' ha' hb'
        refine ⟨r, by simp [strncasecmp, h, e, show ¬ (low d = 0) from h ▸ hc'], ?_⟩
        simp only [List.map_cons, h]
        exact hr.cons u8_irr _
      · exact ⟨1, by simp [strncasecmp, hc', h, u8_asym _ _ h], by
          simpa using SignOfCompare.gt u8_irr u8_asym h⟩

theorem strncmp_eq (a b : List UInt8) (n : Nat) : strncmp a b n = strncasecmp id a b n := by
  induction n generalizing a b with
  | zero => unfold strncmp strncasecmp; rfl
  | succ n ih =>
    match a, b with
    | x :: a, y :: b => simp [strncmp, strncasecmp, ih]
    | [], _ => simp [strncmp, strncasecmp]
    | _ :: _, [] => simp [strncmp, strncasecmp]

/-- C05. `strncmp`: sign of the comparison of the two strings limited to `n` characters. The arrays need
not be terminated when they have `n` characters. -/
theorem strncmp_sign (a b s t : List UInt8) (n : Nat) (ha : NStr n a s) (hb : NStr n b t) :
    ∃ r, strncmp a b n = .ok r ∧ SignOfCompare r s t := by
  rw [strncmp_eq]
  simpa using strncasecmp_sign id (by simp) n a b s t ha hb

/-- C05. `strcasecmp`: sign of the comparison of the case-folded strings. -/
theorem strcasecmp_sign (low : UInt8 → UInt8) (hlow : ∀ c, low c = 0 ↔ c = 0)
    (a b s t : List UInt8) (ha : CStr a s) (hb : CStr b t) :
    ∃ r, strcasecmp low a b = .ok r ∧ SignOfCompare r (s.map low) (t.map low) := by
  have key : ∀ (n : Nat) (a b : List UInt8), n ≥ a.length → strcasecmp low a b ≠ .ub →
      strncasecmp low a b n = strcasecmp low a b := by
    intro n
    induction n with
    | zero => intro a b h hu; match a, h with | [], _ => simp [strcasecmp] at hu
    | succ n ih =>
      intro a b h hu
      match a, b with
      | [], _ => simp [strcasecmp] at hu
      | _ :: _, [] => simp [strcasecmp] at hu
      | x :: a, y :: b =>
        simp only [strcasecmp, strncasecmp] at *
        split
        · rfl
        · rename_i h1
          rw [if_neg h1] at hu
          split
          · rfl
          · rename_i h2
            rw [if_neg h2] at hu
            split
            · rfl
            · rename_i h3
              rw [if_neg h3] at hu
              apply ih
              · simp at h; omega
              · exact hu
  -- `strcasecmp` on terminated strings does not fault
  have safe : ∀ (s t a b : List UInt8), CStr a s → CStr b t → strcasecmp low a b ≠ .ub := by
    have hlow0 : low 0 = 0 := (hlow 0).2 rfl
    intro s
    induction s with
    | nil =>
      rintro t a b ⟨_, ra, rfl⟩ ⟨hb0, rb, rfl⟩
      match t with
      | [] => simp [strcasecmp, hlow0]
      | d :: t =>
        simp only [List.mem_cons, not_or] at hb0
        have hd' : low d ≠ 0 := fun e => hb0.1 ((hlow d).1 e).symm
        simp [strcasecmp, hlow0, hd', u8_pos hd']
    | cons c s ih =>
      rintro t a b ⟨ha0, ra, rfl⟩ ⟨hb0, rb, rfl⟩
      simp only [List.mem_cons, not_or] at ha0
      have hc' : low c ≠ 0 := fun e => ha0.1 ((hlow c).1 e).symm
      match t with
      | [] => simp [strcasecmp, hlow0, hc', u8_pos hc']
      | d :: t =>
        simp only [List.mem_cons, not_or] at hb0
        simp only [List.cons_append, strcasecmp]
        split
        · simp
        · split
          · simp
          · split
            · simp
            · exact ih t _ _ ⟨ha0.2, ra, rfl⟩ ⟨hb0.2, rb, rfl⟩
  have hsafe := safe s t a b ha hb
  obtain ⟨h0a, ra, rfl⟩ := ha
  obtain ⟨h0b, rb, rfl⟩ := hb
  let n := (s ++ 0 :: ra).length + t.length + 1
  have e := key n (s ++ 0 :: ra) (t ++ 0 :: rb) (by omega) hsafe
  rw [← e]
  exact strncasecmp_sign low hlow n _ _ s t ⟨h0a, .inl ⟨by simp [n]; omega, ra, rfl⟩⟩
    ⟨h0b, .inl ⟨by omega, rb, rfl⟩⟩

theorem strcmp_eq (a b : List UInt8) : strcmp a b = strcasecmp id a b := by
  induction a generalizing b with
  | nil => simp [strcmp, strcasecmp]
  | cons x a ih => cases b <;> simp [strcmp, strcasecmp, ih]

/-- C05. `strcmp`: sign of the lexicographic comparison as unsigned bytes. -/
theorem strcmp_sign (a b s t : List UInt8) (ha : CStr a s) (hb : CStr b t) :
    ∃ r, strcmp a b = .ok r ∧ SignOfCompare r s t := by
  rw [strcmp_eq]
  simpa using strcasecmp_sign id (by simp) a b s t ha hb

/-- C05. `strcmp` is antisymmetric: exchanging the arguments reverses the sign. -/
theorem strcmp_antisymm (a b s t : List UInt8) (ha : CStr a s) (hb : CStr b t) (r r' : Int)
    (h1 : strcmp a b = .ok r) (h2 : strcmp b a = .ok r') : (r < 0 ↔ r' > 0) ∧ (r = 0 ↔ r' = 0) := by
  obtain ⟨q, e, hq⟩ := strcmp_sign a b s t ha hb
  obtain ⟨q', e', hq'⟩ := strcmp_sign b a t s hb ha
  obtain rfl : q = r := by rw [e] at h1; simpa using h1
  obtain rfl : q' = r' := by rw [e'] at h2; simpa using h2
  exact ⟨by rw [hq.2.1, hq'.2.2], by rw [hq.1, hq'.1]; exact ⟨Eq.symm, Eq.symm⟩⟩

/-- C05. `strcmp` is transitive. -/
theorem strcmp_trans (a b c s t u : List UInt8) (ha : CStr a s) (hb : CStr b t) (hc : CStr c u)
    (h1 : ∃ r, strcmp a b = .ok r ∧ r < 0) (h2 : ∃ r, strcmp b c = .ok r ∧ r < 0) :
    ∃ r, strcmp a c = .ok r ∧ r < 0 := by
  obtain ⟨r1, e1, l1⟩ := h1
  obtain ⟨r2, e2, l2⟩ := h2
  obtain ⟨q1, f1, g1⟩ := strcmp_sign a b s t ha hb
  obtain ⟨q2, f2, g2⟩ := strcmp_sign b c t u hb hc
  obtain ⟨q3, f3, g3⟩ := strcmp_sign a c s u ha hc
  obtain rfl : q1 = r1 := by rw [f1] at e1; simpa using e1
  obtain rfl : q2 = r2 := by rw [f2] at e2; simpa using e2
  exact ⟨q3, f3, g3.2.1.2 (List.lt_trans (g1.2.1.1 l1) (g2.2.1.1 l2))⟩

example : strcmp [97, 200, 0] [97, 98, 0, 5] = .ok 1 := by decide
example : ∃ r, strcmp [97, 200, 0] [97, 98, 0, 5] = .ok r ∧
    SignOfCompare r ([97, 200] : List UInt8) [97, 98] :=
  strcmp_sign _ _ [97, 200] [97, 98] ⟨by decide, [], rfl⟩ ⟨by decide, [5], rfl⟩
example : ∃ r, strncmp [97, 98] [97, 99, 0] 2 = .ok r ∧
    SignOfCompare r ([97, 98] : List UInt8) [97, 99] :=
  strncmp_sign _ _ [97, 98] [97, 99] 2 ⟨by decide, .inr ⟨rfl, [], rfl⟩⟩ ⟨by decide, .inr ⟨rfl, [0], rfl⟩⟩

/-! ### Wide comparison -/

theorem i32_irr : ∀ a : Int32, ¬ a < a := fun _ => Int32.lt_irrefl
theorem i32_asym : ∀ a b : Int32, a < b → ¬ b < a := fun _ _ h => Int32.lt_asymm h
theorem i32_tri (a b : Int32) : a < b ∨ a = b ∨ b < a := by
  by_cases h : a < b
  · exact .inl h
  · by_cases h' : b < a
    · exact .inr (.inr h')
    · exact .inr (.inl (Int32.le_antisymm (Int32.not_lt.1 h') (Int32.not_lt.1 h)))

theorem SignOfCompare.nil' {α : Type} [LT α] : SignOfCompare (α := α) 0 [] [] := by
  simp [SignOfCompare, List.not_lt_nil]

/-- C05. `wmemcmp`. -/
theorem wmemcmp_sign (a b : List Int32) (n : Nat) (ha : n ≤ a.length) (hb : n ≤ b.length) :
    ∃ r, wmemcmp a b n = .ok r ∧ SignOfCompare r (a.take n) (b.take n) := by
  induction n generalizing a b with
  | zero => exact ⟨0, by unfold wmemcmp; rfl, by simpa using SignOfCompare.nil'⟩
  | succ n ih =>
    match a, b, ha, hb with
    | x :: a, y :: b, ha, hb =>
      simp only [List.length_cons, Nat.add_le_add_iff_right] at ha hb
      simp only [wmemcmp, List.take_succ_cons]
      rcases i32_tri x y with h | h | h
      · exact ⟨-1, by simp [h], .lt i32_irr i32_asym h⟩
      · subst h
        obtain ⟨r, e, hr⟩ := ih a b ha hb
        exact ⟨r, by simp [e], hr.cons i32_irr x⟩
      · exact ⟨1, by simp [h, i32_asym _ _ h], .gt i32_irr i32_asym h⟩

/-- C05 (finding). `wcscmp` computes `*l - *r` in `int`, which overflows for characters far apart:
the comparison is undefined behaviour instead of a sign. -/
theorem wcscmp_overflow_violated :
    wcscmp [2147483647, 0] [-5, 0] = .ub ∧ CStr ([2147483647, 0] : List Int32) [2147483647] ∧
      CStr ([-5, 0] : List Int32) [-5] :=
  ⟨by decide, ⟨by decide, [], rfl⟩, ⟨by decide, [], rfl⟩⟩

/-- C05. `wcscmp` on strings of non-negative characters (every valid Unicode string): correct sign.
Missing for the full statement: negative `wchar_t` values (see `wcscmp_overflow_violated`). -/
theorem wcscmp_sign_partial (a b s t : List Int32) (ha : CStr a s) (hb : CStr b t)
    (hs : ∀ c ∈ s, 0 ≤ c) (ht : ∀ c ∈ t, 0 ≤ c) :
    ∃ r, wcscmp a b = .ok r ∧ SignOfCompare r s t := by
  obtain ⟨h0a, ra, rfl⟩ := ha
  obtain ⟨h0b, rb, rfl⟩ := hb
  have bound : ∀ c : Int32, 0 ≤ c → 0 ≤ c.toInt ∧ c.toInt ≤ 2147483647 := by
    intro c hc
    have h1 := Int32.le_iff_toInt_le.1 hc
    have h2 := c.toInt_lt
    simp at h1
    omega
  induction s generalizing t with
  | nil =>
    match t with
    | [] => exact ⟨0, by simp [wcscmp], SignOfCompare.nil'⟩
    | d :: t =>
      simp only [List.mem_cons, not_or] at h0b
      have hd := bound d (ht d (by simp))
      have hpos : 0 < d.toInt := by
        rcases Int.lt_or_eq_of_le hd.1 with h | h
        · exact h
        · exact absurd (Int32.toInt_inj.1 (by simpa using h)) h0b.1
      refine ⟨-d.toInt, ?_, ?_⟩
      · simp [wcscmp]; omega
      · obtain ⟨h1, h2, h3⟩ := SignOfCompare.nil_cons (t := t) (d := d)
        exact ⟨by simp; omega, by simp [List.nil_lt_cons]; omega, by simp [List.not_lt_nil]; omega⟩
  | cons c s ih =>
    simp only [List.mem_cons, not_or] at h0a
    have hc := bound c (hs c (by simp))
    match t with
    | [] =>
      have hpos : 0 < c.toInt := by
        rcases Int.lt_or_eq_of_le hc.1 with h | h
        · exact h
        · exact absurd (Int32.toInt_inj.1 (by simpa using h)) h0a.1
      refine ⟨c.toInt, ?_, ?_⟩
      · simp [wcscmp]; omega
      · exact ⟨by simp; omega, by simp [List.not_lt_nil]; omega, by simp [List.nil_lt_cons]; omega⟩
    | d :: t =>
      simp only [List.mem_cons, not_or] at h0b
      have hd := bound d (ht d (by simp))
      by_cases hcd : c = d
      · subst hcd
        obtain ⟨r, e, hr⟩ := ih t (fun c h => hs c (List.mem_cons_of_mem _ h))
          (fun c h => ht c (List.mem_cons_of_mem _ h)) h0a.2 h0b.2
        exact ⟨r, by simp [wcscmp, Ne.symm h0a.1, e], hr.cons i32_irr c⟩
      · refine ⟨c.toInt - d.toInt, by simp [wcscmp, hcd]; omega, ?_⟩
        rcases i32_tri c d with h | h | h
        · obtain ⟨h1, h2, h3⟩ := SignOfCompare.lt (s := s) (t := t) i32_irr i32_asym h
          have := Int32.lt_iff_toInt_lt.1 h
          exact ⟨by rw [← h1]; omega, by rw [← h2]; omega, by rw [← h3]; omega⟩
        · exact absurd h hcd
        · obtain ⟨h1, h2, h3⟩ := SignOfCompare.gt (s := s) (t := t) i32_irr i32_asym h
          have := Int32.lt_iff_toInt_lt.1 h
          exact ⟨by rw [← h1]; omega, by rw [← h2]; omega, by rw [← h3]; omega⟩

example : ∃ r, wcscmp [104, 8364, 0] [104, 233, 0] = .ok r ∧
    SignOfCompare r ([104, 8364] : List Int32) [104, 233] :=
  wcscmp_sign_partial _ _ [104, 8364] [104, 233] ⟨by decide, [], rfl⟩ ⟨by decide, [], rfl⟩
    (by decide) (by decide)

/-- C05. `wcsncmp`: sign of the comparison (in the order of `wchar_t`) of the two character sequences up to
and including the terminator, limited to `n`. -/
theorem wcsncmp_sign (a b s t : List Int32) (n : Nat) (ha : NStr n a s) (hb : NStr n b t) :
    ∃ r, wcsncmp a b n = .ok r ∧ SignOfCompare r ((s ++ [0]).take n) ((t ++ [0]).take n) := by
  induction n generalizing a b s t with
  | zero => exact ⟨0, by unfold wcsncmp; rfl, by simpa using SignOfCompare.nil'⟩
  | succ n ih =>
    have shape : ∀ a s : List Int32, NStr (n + 1) a s →
        (s = [] ∧ ∃ r, a = 0 :: r) ∨ (∃ c s' a', s = c :: s' ∧ a = c :: a' ∧ c ≠ 0 ∧ NStr n a' s') := by
      intro a s h
      obtain ⟨h0, h⟩ := h
      match s with
      | [] =>
        rcases h with ⟨_, r, rfl⟩ | ⟨h, _⟩
        · exact .inl ⟨rfl, r, rfl⟩
        · simp at h
      | c :: s' =>
        simp only [List.mem_cons, not_or] at h0
        rcases h with ⟨hl, r, rfl⟩ | ⟨hl, r, rfl⟩
        · exact .inr ⟨c, s', _, rfl, rfl, Ne.symm h0.1, h0.2, .inl ⟨by simpa using hl, r, rfl⟩⟩
        · exact .inr ⟨c, s', _, rfl, rfl, Ne.symm h0.1, h0.2, .inr ⟨by simpa using hl, r, rfl⟩⟩
    -- one step on different leading characters
    have step : ∀ (x y : Int32) (as bs ss ts : List Int32), x ≠ y →
        ∃ r, wcsncmp (x :: as) (y :: bs) (n + 1) = .ok r ∧ SignOfCompare r (x :: ss) (y :: ts) := by
      intro x y as bs ss ts hne
      rcases i32_tri x y with h | h | h
      · exact ⟨-1, by simp [wcsncmp, hne, h], .lt i32_irr i32_asym h⟩
      · exact absurd h hne
      · exact ⟨1, by simp [wcsncmp, hne, h, i32_asym _ _ h], .gt i32_irr i32_asym h⟩
    rcases shape a s ha with ⟨rfl, ra, rfl⟩ | ⟨c, s', a', rfl, rfl, hc, ha'⟩ <;>
      rcases shape b t hb with ⟨rfl, rb, rfl⟩ | ⟨d, t', b', rfl, rfl, hd, hb'⟩
    · exact ⟨0, by simp [wcsncmp], by simpa using SignOfCompare.nil'.cons i32_irr 0⟩
    · simpa using step 0 d _ _ [] ((t' ++ [0]).take n) (Ne.symm hd)
    · simpa using step c 0 _ _ ((s' ++ [0]).take n) [] hc
    · by_cases hcd : c = d
      · subst hcd
        obtain ⟨r, e, hr⟩ := ih a' b' s' t' ha' hb'
        exact ⟨r, by simp [wcsncmp, hc, e], by simpa using hr.cons i32_irr c⟩
      · simpa using step c d a' b' ((s' ++ [0]).take n) ((t' ++ [0]).take n) hcd

example : ∃ r, wcsncmp [104, 8364] [104, 233, 0] 2 = .ok r ∧
    SignOfCompare r ([104, 8364] : List Int32) [104, 233] :=
  wcsncmp_sign _ _ [104, 8364] [104, 233] 2 ⟨by decide, .inr ⟨rfl, [], rfl⟩⟩
    ⟨by decide, .inr ⟨rfl, [0], rfl⟩⟩

end Mlibc.Str
