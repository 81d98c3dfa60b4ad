import Verif.Strtol.Props

/-
Numbers in address texts: hexadecimal text as `snprintf("%x")` writes it, and what `strtol` makes of a number followed
by something else. Used for properties C49.
-/
namespace Mlibc.Inet
open Mlibc Mlibc.Strtol

/-- A lower-case hexadecimal digit. -/
def hexDigit (d : Nat) : Nat := if d < 10 then d + 48 else d + 87

/-- The text of `n` in hexadecimal, without leading zeros. -/
def hexa (n : Nat) : List Nat :=
  if n < 16 then [hexDigit n] else hexa (n / 16) ++ [hexDigit (n % 16)]

/-- `strtol` -/
abbrev strtol (s : List Nat) (base : Nat) : Res (Int × Nat × Bool) := stringToInteger ⟨64, true⟩ cSpace s base

theorem digitOf_hex {d : Nat} (h : d < 16) : Spec.digitOf (hexDigit d) = some d := by
  unfold Spec.digitOf hexDigit
  by_cases h1 : d < 10
  · rw [if_pos h1, if_pos (by omega)]; simp
  · rw [if_neg h1, if_neg (by omega), if_neg (by omega), if_pos (by omega)]; simp

theorem hexa_digits (n : Nat) : ∀ c ∈ hexa n, Spec.isDigitIn 16 c = true := by
  induction n using hexa.induct with
  | case1 n h =>
    rw [hexa, if_pos h]
    intro c hc
    rw [List.mem_singleton.1 hc, Spec.isDigitIn, digitOf_hex h]
    simpa using h
  | case2 n h ih =>
    rw [hexa, if_neg h]
    intro c hc
    rcases List.mem_append.1 hc with hc | hc
    · exact ih c hc
    · rw [List.mem_singleton.1 hc, Spec.isDigitIn, digitOf_hex (by omega)]
      simp; omega

theorem valueOf_snoc (b : Nat) (ds : List Nat) (c : Nat) :
    Spec.valueOf b (ds ++ [c]) = Spec.valueOf b ds * b + (Spec.digitOf c).getD 0 := by
  simp [Spec.valueOf, List.foldl_append]

theorem hexa_value (n : Nat) : Spec.valueOf 16 (hexa n) = n := by
  induction n using hexa.induct with
  | case1 n h =>
    rw [hexa, if_pos h]
    simp [Spec.valueOf, digitOf_hex h]
  | case2 n h ih =>
    rw [hexa, if_neg h, valueOf_snoc, ih, digitOf_hex (by omega)]
    simp; omega

theorem hexa_ne_nil (n : Nat) : hexa n ≠ [] := by
  rw [hexa]; split <;> simp

theorem hexa_length {n : Nat} (h : n < 65536) : (hexa n).length ≤ 4 := by
  rw [hexa]; split
  · simp
  rw [hexa]; split
  · simp
  rw [hexa]; split
  · simp
  rw [hexa]; split
  · simp
  · omega

theorem decimal_length {n : Nat} (h : n < 1000) : (decimal n).length ≤ 3 := by
  rw [decimal]; split
  · simp
  rw [decimal]; split
  · simp
  rw [decimal]; split
  · simp
  · omega

/-- Only the number zero begins with the digit zero. -/
theorem decimal_head (n : Nat) : (decimal n).head? = some 48 → n = 0 := by
  induction n using decimal.induct with
  | case1 n h => rw [decimal, if_pos h]; simp
  | case2 n h ih =>
    rw [decimal, if_neg h]
    intro hh
    have hne := decimal_ne_nil (n / 10)
    have : (decimal (n / 10)).head? = some 48 := by
      cases hd : decimal (n / 10) with
      | nil => exact absurd hd hne
      | cons a l => rw [hd] at hh; simpa using hh
    have := ih this
    omega

theorem decimal_zero : decimal 0 = [48] := by rw [decimal]; rfl

theorem isDigitIn_10 (c : Nat) : Spec.isDigitIn 10 c = true ↔ 48 ≤ c ∧ c ≤ 57 := by
  unfold Spec.isDigitIn Spec.digitOf
  by_cases h1 : 48 ≤ c ∧ c ≤ 57
  · rw [if_pos h1]; simp; omega
  · rw [if_neg h1]
    by_cases h2 : 65 ≤ c ∧ c ≤ 90
    · rw [if_pos h2]; simp; omega
    · rw [if_neg h2]
      by_cases h3 : 97 ≤ c ∧ c ≤ 122
      · rw [if_pos h3]; simp; omega
      · rw [if_neg h3]; simp; omega

theorem isDigitIn_16 (c : Nat) : Spec.isDigitIn 16 c = true ↔ (48 ≤ c ∧ c ≤ 57) ∨ (65 ≤ c ∧ c ≤ 70) ∨ (97 ≤ c ∧ c ≤ 102) := by
  unfold Spec.isDigitIn Spec.digitOf
  by_cases h1 : 48 ≤ c ∧ c ≤ 57
  · rw [if_pos h1]; simp; omega
  · rw [if_neg h1]
    by_cases h2 : 65 ≤ c ∧ c ≤ 90
    · rw [if_pos h2]; simp; omega
    · rw [if_neg h2]
      by_cases h3 : 97 ≤ c ∧ c ≤ 122
      · rw [if_pos h3]; simp; omega
      · rw [if_neg h3]; simp; omega

theorem takeWhile_app (p : Nat → Bool) (l t : List Nat) (hl : ∀ x ∈ l, p x = true) (ht : ∀ x, t.head? = some x → p x = false) :
    (l ++ t).takeWhile p = l := by
  induction l with
  | nil =>
    cases t with
    | nil => rfl
    | cons x t => rw [List.nil_append, List.takeWhile_cons, ht x rfl]; rfl
  | cons a l ih =>
    rw [List.cons_append, List.takeWhile_cons, hl a (by simp)]
    simp [ih (fun x hx => hl x (by simp [hx]))]

/-- A number in base 10 or 16 followed by text that is neither a digit nor `x`, whatever its size. -/
theorem strtol_any (b : Nat) (hb : b = 10 ∨ b = 16) (ds t rest : List Nat) (hne : ds ≠ [])
    (hd : ∀ x ∈ ds, Spec.isDigitIn b x = true) (h0 : 0 ∉ t)
    (ht : ∀ x, t.head? = some x → Spec.isDigitIn b x = false ∧ (b = 16 → x ≠ 120 ∧ x ≠ 88)) :
    strtol (ds ++ t ++ 0 :: rest) b = .ok (if Spec.valueOf b ds < 2 ^ 63 then (Spec.valueOf b ds : Int) else 2 ^ 63 - 1,
      ds.length, ¬ Spec.valueOf b ds < 2 ^ 63) := by
  have hdig : ∀ x ∈ ds, (48 ≤ x ∧ x ≤ 57) ∨ (65 ≤ x ∧ x ≤ 70) ∨ (97 ≤ x ∧ x ≤ 102) := by
    intro x hx
    rcases hb with rfl | rfl
    · exact Or.inl ((isDigitIn_10 x).1 (hd x hx))
    · exact (isDigitIn_16 x).1 (hd x hx)
  unfold strtol
  rw [strtol_exact_partial ⟨64, true⟩ (by decide) cSpace (by decide) _ (ds ++ t)
    ⟨by
      intro h
      rcases List.mem_append.1 h with h | h
      · have := hdig 0 h; omega
      · exact h0 h, rest, rfl⟩ b (by omega) (by omega)]
  have htw := takeWhile_app (Spec.isDigitIn b) ds t hd (fun x hx => (ht x hx).1)
  obtain ⟨c, ds, rfl⟩ : ∃ c ds', ds = c :: ds' := by
    cases ds with
    | nil => exact absurd rfl hne
    | cons c d => exact ⟨c, d, rfl⟩
  have hc := hdig c (by simp)
  have hsp : cSpace c = false := by
    unfold cSpace
    simp; omega
  have hsw : (c :: ds ++ t).takeWhile cSpace = [] := by
    rw [List.cons_append, List.takeWhile_cons, hsp]; rfl
  have hbp : Spec.baseAndPrefix b (c :: ds ++ t) = (b, 0) := by
    have hx : ∀ x r, ds ++ t = x :: r → b = 16 → x ≠ 120 ∧ x ≠ 88 := by
      intro x r e h16
      cases ds with
      | nil => exact (ht x (by rw [List.nil_append] at e; rw [e]; rfl)).2 h16
      | cons y ys =>
        simp only [List.cons_append, List.cons.injEq] at e
        have := hdig y (by simp)
        omega
    rw [List.cons_append]
    unfold Spec.baseAndPrefix
    split
    · rename_i x h r e
      simp only [List.cons.injEq] at e
      obtain ⟨-, e⟩ := e
      have := hx _ _ e
      rw [if_neg (by omega), if_neg (by omega)]
      simp; omega
    · simp; omega
    · simp; omega
  have hparse : Spec.parse cSpace b (c :: ds ++ t) = some ((c :: ds).length, false, Spec.valueOf b (c :: ds)) := by
    unfold Spec.parse
    rw [hsw]
    have h1 : ¬ (c = 45) := by omega
    have h2 : ¬ (c = 43) := by omega
    simp only [List.length_nil, List.drop_zero, List.cons_append, List.head?_cons, Option.some.injEq, h1, h2, or_self, if_false]
    rw [← List.cons_append, hbp]
    simp only [List.drop_zero, htw]
    simp
  rw [hparse]
  simp only [Spec.signedResult]
  simp only [if_true, Bool.false_eq_true, if_false]
  rw [if_neg (by omega)]
  by_cases h : Spec.valueOf b (c :: ds) < 2 ^ 63
  · rw [if_neg (by omega), if_pos h]; simp [h]
  · rw [if_pos (by omega), if_neg h]; simp [h]

/-- A number in base 10 or 16 followed by text that is neither a digit nor `x`. -/
theorem strtol_num (b : Nat) (hb : b = 10 ∨ b = 16) (ds t rest : List Nat) (hne : ds ≠ [])
    (hd : ∀ x ∈ ds, Spec.isDigitIn b x = true) (h0 : 0 ∉ t)
    (ht : ∀ x, t.head? = some x → Spec.isDigitIn b x = false ∧ (b = 16 → x ≠ 120 ∧ x ≠ 88))
    (hv : Spec.valueOf b ds < 2 ^ 63) :
    strtol (ds ++ t ++ 0 :: rest) b = .ok (Spec.valueOf b ds, ds.length, false) := by
  rw [strtol_any b hb ds t rest hne hd h0 ht, if_pos hv]
  simp [hv]

/-- Text that does not begin with a number. -/
theorem strtol_none (b : Nat) (hb : b = 10 ∨ b = 16) (t rest : List Nat) (h0 : 0 ∉ t)
    (ht : ∀ x, t.head? = some x → Spec.isDigitIn b x = false ∧ cSpace x = false ∧ x ≠ 45 ∧ x ≠ 43) :
    strtol (t ++ 0 :: rest) b = .ok (0, 0, false) := by
  unfold strtol
  rw [strtol_exact_partial ⟨64, true⟩ (by decide) cSpace (by decide) _ t ⟨h0, rest, rfl⟩ b (by omega) (by omega)]
  have hparse : Spec.parse cSpace b t = none := by
    cases t with
    | nil => rcases hb with rfl | rfl <;> decide
    | cons c t =>
      obtain ⟨h1, h2, h3, h4⟩ := ht c rfl
      have hc : c ≠ 48 := by
        rintro rfl
        rcases hb with rfl | rfl <;> simp [Spec.isDigitIn, Spec.digitOf] at h1
      unfold Spec.parse
      rw [List.takeWhile_cons, h2]
      simp only [Bool.false_eq_true, if_false, List.length_nil, List.drop_zero, List.head?_cons, Option.some.injEq, h3, h4, or_self]
      have hbp : Spec.baseAndPrefix b (c :: t) = (b, 0) := by
        unfold Spec.baseAndPrefix
        split
        · simp_all
        · simp_all
        · simp; omega
      rw [hbp]
      simp only [List.drop_zero]
      rw [List.takeWhile_cons, h1]
      simp
  rw [hparse]

end Mlibc.Inet
