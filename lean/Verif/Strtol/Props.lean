import Verif.Strtol.Model
import Verif.Strtol.Spec
import Verif.Str.Spec
/-
C10: the strtol family.
-/
set_option linter.unusedSimpArgs false
namespace Mlibc.Strtol
open Mlibc Mlibc.Str

/-- Value of appending the digits `ds` to the number `v`. -/
def app (b v : Nat) (ds : List Nat) : Nat :=
  ds.foldl (fun acc c => acc * b + (Spec.digitOf c).getD 0) v

theorem app_ge (b : Nat) (hb : 1 ≤ b) (ds : List Nat) : ∀ v, v ≤ app b v ds := by
  induction ds with
  | nil => intro v; simp [app]
  | cons c ds ih =>
    intro v
    have h1 : v ≤ v * b + (Spec.digitOf c).getD 0 :=
      Nat.le_trans (Nat.le_mul_of_pos_right v hb) (Nat.le_add_right _ _)
    exact Nat.le_trans h1 (ih _)

/-- What one character is to the loop. -/
theorem dv_eq (c : Nat) :
    (if isDigit c then some (c - 48)
        else if isUpper c then some (c - 65 + 10)
        else if isLower c then some (c - 97 + 10)
        else none) = Spec.digitOf c := by
  unfold isDigit isUpper isLower Spec.digitOf
  simp only [Bool.and_eq_true, decide_eq_true_eq]
  split
  · rfl
  · split
    · congr 1; omega
    · split
      · congr 1; omega
      · rfl

theorem digitLoop_cons (W b co cl c : Nat) (s : List Nat) (a : Acc) (hc : c ≠ 0) :
    digitLoop W b co cl (c :: s) a =
      if Spec.isDigitIn b c then
        (do
          let (n, r) ← digitLoop W b co cl s
            (if a.oor then a
            else if a.total > co ∨ (a.total = co ∧ (Spec.digitOf c).getD 0 > cl) then
              { a with oor := true }
            else { a with total := (a.total * b + (Spec.digitOf c).getD 0) % W, any := true })
          return (n + 1, r))
      else .ok (0, a) := by
  have h := dv_eq c
  rw [digitLoop, if_neg hc]
  simp only [h]
  unfold Spec.isDigitIn
  cases hd : Spec.digitOf c with
  | none => simp
  | some v =>
    by_cases hv : v < b
    · have : ¬ v ≥ b := by omega
      simp [hv, this]
    · have : v ≥ b := by omega
      simp [hv, this]

theorem digitLoop_zero (W b co cl : Nat) (s : List Nat) (a : Acc) :
    digitLoop W b co cl (0 :: s) a = .ok (0, a) := by
  unfold digitLoop; simp

theorem loop_oor (W b co cl : Nat) (rest : List Nat) (u : List Nat) (h0 : 0 ∉ u) :
    ∀ a : Acc, a.oor = true →
      digitLoop W b co cl (u ++ 0 :: rest) a = .ok ((u.takeWhile (Spec.isDigitIn b)).length, a) := by
  induction u with
  | nil => intro a _; simp [digitLoop_zero]
  | cons c u ih =>
    intro a ha
    simp only [List.mem_cons, not_or] at h0
    rw [List.cons_append, digitLoop_cons _ _ _ _ _ _ _ (fun h => h0.1 h.symm)]
    by_cases hd : Spec.isDigitIn b c
    · simp [hd, ha, ih h0.2 a ha, List.takeWhile_cons]
    · simp [hd, List.takeWhile_cons]

theorem fits_iff (b co cl t d : Nat) (hb : 1 ≤ b) (hcl : cl < b) (hd : d < b) :
    (t > co ∨ (t = co ∧ d > cl)) ↔ t * b + d > co * b + cl := by
  constructor
  · rintro (h | ⟨h, h'⟩)
    · have : (co + 1) * b ≤ t * b := Nat.mul_le_mul_right b h
      rw [Nat.add_mul] at this; omega
    · subst h; omega
  · intro h
    rcases Nat.lt_trichotomy t co with h1 | h1 | h1
    · exfalso
      have : (t + 1) * b ≤ co * b := Nat.mul_le_mul_right b h1
      rw [Nat.add_mul] at this; omega
    · subst h1; right; exact ⟨rfl, by omega⟩
    · exact Or.inl h1

theorem digit_lt (b c : Nat) (h : Spec.isDigitIn b c) : (Spec.digitOf c).getD 0 < b := by
  unfold Spec.isDigitIn at h
  cases hd : Spec.digitOf c with
  | none => simp [hd] at h
  | some v => simpa [hd] using h

/-- The digit loop computes the number exactly, or reports that it exceeds `co * b + cl`. -/
theorem loop_spec (W b co cl : Nat) (hb : 1 ≤ b) (hcl : cl < b) (hW : co * b + cl < W)
    (rest : List Nat) (u : List Nat) (h0 : 0 ∉ u) :
    ∀ a : Acc, a.oor = false → a.any = true → a.total ≤ co * b + cl →
      ∃ r : Acc, digitLoop W b co cl (u ++ 0 :: rest) a
          = .ok ((u.takeWhile (Spec.isDigitIn b)).length, r) ∧ r.any = true ∧
        (r.oor = true ↔ app b a.total (u.takeWhile (Spec.isDigitIn b)) > co * b + cl) ∧
        (r.oor = false → r.total = app b a.total (u.takeWhile (Spec.isDigitIn b))) := by
  induction u with
  | nil =>
    intro a ho ha ht
    refine ⟨a, by simp [digitLoop_zero], ha, ?_, ?_⟩
    · simp [ho, app]; omega
    · simp [app]
  | cons c u ih =>
    intro a ho ha ht
    simp only [List.mem_cons, not_or] at h0
    rw [List.cons_append, digitLoop_cons _ _ _ _ _ _ _ (fun h => h0.1 h.symm)]
    by_cases hd : Spec.isDigitIn b c
    · have hlt := digit_lt b c hd
      have hf := fits_iff b co cl a.total _ hb hcl hlt
      have happ : app b a.total (c :: u.takeWhile (Spec.isDigitIn b))
          = app b (a.total * b + (Spec.digitOf c).getD 0) (u.takeWhile (Spec.isDigitIn b)) := rfl
      rw [List.takeWhile_cons_of_pos hd, happ]
      by_cases hfit : a.total * b + (Spec.digitOf c).getD 0 > co * b + cl
      · refine ⟨{ a with oor := true }, ?_, ha, ?_, ?_⟩
        · have := loop_oor W b co cl rest u h0.2 { a with oor := true } rfl
          simp only [hd, ho, hf.2 hfit, if_true, this]
          simp [this]
        · have := app_ge b hb (u.takeWhile (Spec.isDigitIn b))
            (a.total * b + (Spec.digitOf c).getD 0)
          simp; omega
        · simp
      · have hnf : ¬ (a.total > co ∨ (a.total = co ∧ (Spec.digitOf c).getD 0 > cl)) :=
          fun h => hfit (hf.1 h)
        have hmod : (a.total * b + (Spec.digitOf c).getD 0) % W
            = a.total * b + (Spec.digitOf c).getD 0 := Nat.mod_eq_of_lt (by omega)
        obtain ⟨r, h1, h2, h3, h4⟩ := ih h0.2
          { a with total := a.total * b + (Spec.digitOf c).getD 0, any := true } ho rfl
          (by simpa using Nat.le_of_not_gt hfit)
        refine ⟨r, ?_, h2, h3, h4⟩
        rw [ho] at h1
        simp only [hd, ho, if_true, if_neg hnf, hmod]
        simp [h1]
    · refine ⟨a, ?_, ha, ?_, ?_⟩
      · simp [hd, List.takeWhile_cons]
      · simp [ho, app, List.takeWhile_cons, hd]; omega
      · simp [app, List.takeWhile_cons, hd]

/-- The same from the loop's initial state, given that one digit always fits. -/
theorem loop_start (W b co cl : Nat) (hb : 1 ≤ b) (hcl : cl < b) (hW : co * b + cl < W)
    (hone : b ≤ co * b + cl + 1)
    (rest : List Nat) (u : List Nat) (h0 : 0 ∉ u) :
      ∃ r : Acc, digitLoop W b co cl (u ++ 0 :: rest) ⟨0, false, false⟩
          = .ok ((u.takeWhile (Spec.isDigitIn b)).length, r) ∧
        (r.any = true ↔ u.takeWhile (Spec.isDigitIn b) ≠ []) ∧
        (r.oor = true ↔ Spec.valueOf b (u.takeWhile (Spec.isDigitIn b)) > co * b + cl) ∧
        (r.oor = false → r.total = Spec.valueOf b (u.takeWhile (Spec.isDigitIn b))) := by
  cases u with
  | nil => exact ⟨⟨0, false, false⟩, by simp [digitLoop_zero], by simp, by simp [Spec.valueOf], by simp [Spec.valueOf]⟩
  | cons c u =>
    simp only [List.mem_cons, not_or] at h0
    rw [List.cons_append, digitLoop_cons _ _ _ _ _ _ _ (fun h => h0.1 h.symm)]
    by_cases hd : Spec.isDigitIn b c
    · have hlt := digit_lt b c hd
      have hf := fits_iff b co cl 0 _ hb hcl hlt
      have hnf : ¬ (0 > co ∨ (0 = co ∧ (Spec.digitOf c).getD 0 > cl)) := by
        rw [hf]; omega
      have hmod : (0 * b + (Spec.digitOf c).getD 0) % W = (Spec.digitOf c).getD 0 := by
        rw [Nat.zero_mul, Nat.zero_add]; exact Nat.mod_eq_of_lt (by omega)
      obtain ⟨r, h1, h2, h3, h4⟩ := loop_spec W b co cl hb hcl hW rest u h0.2
        ⟨(Spec.digitOf c).getD 0, true, false⟩ rfl rfl (by show (Spec.digitOf c).getD 0 ≤ _; omega)
      have hval : Spec.valueOf b (c :: u.takeWhile (Spec.isDigitIn b))
          = app b ((Spec.digitOf c).getD 0) (u.takeWhile (Spec.isDigitIn b)) := by
        simp [Spec.valueOf, app]
      rw [List.takeWhile_cons_of_pos hd, hval]
      refine ⟨r, ?_, by simp [h2], h3, h4⟩
      simp only [hd, if_true, if_neg hnf, hmod]
      simp [h1]
    · refine ⟨⟨0, false, false⟩, ?_, ?_, ?_, ?_⟩ <;>
        simp [hd, List.takeWhile_cons, Spec.valueOf]

theorem skipSpace_spec (isSpace : Nat → Bool) (h0 : isSpace 0 = false) (rest : List Nat) (s : List Nat) :
    skipSpace isSpace (s ++ 0 :: rest)
      = .ok ((s.takeWhile isSpace).length, s.drop (s.takeWhile isSpace).length ++ 0 :: rest) := by
  induction s with
  | nil => simp [skipSpace, h0]
  | cons c s ih =>
    rw [List.cons_append]; unfold skipSpace
    by_cases hc : isSpace c
    · simp [hc, ih]
    · simp [hc]

/-- `0b` or `0B` not followed by a binary digit. -/
def bareBinPrefix (u : List Nat) : Prop :=
  ∃ x r, u = 48 :: x :: r ∧ (x = 98 ∨ x = 66) ∧ ∀ d, r.head? = some d → Spec.isDigitIn 2 d = false

theorem hex_iff (c : Nat) : isHexDigit c = Spec.isDigitIn 16 c := by
  rw [Bool.eq_iff_iff]
  unfold isHexDigit isDigit Spec.isDigitIn Spec.digitOf
  simp only [Bool.or_eq_true, Bool.and_eq_true, decide_eq_true_eq]
  split <;> rename_i h
  · split at h
    · simp at h ⊢; omega
    · split at h
      · simp at h ⊢; omega
      · split at h <;> simp at h ⊢; omega
  · split at h
    · simp at h
    · split at h
      · simp at h
      · split at h <;> simp at h ⊢; omega

theorem prefix_spec (base : Nat) (rest u : List Nat)
    (hbin : (base = 0 ∨ base = 2) → ¬ bareBinPrefix u) :
    prefixOf base (u ++ 0 :: rest)
      = .ok ((Spec.baseAndPrefix base u).2, (Spec.baseAndPrefix base u).1) := by
  have hz : isHexDigit 0 = false := by decide
  unfold prefixOf Spec.baseAndPrefix
  match u with
  | [] =>
    simp [rd]
    by_cases h : base = 0 <;> simp [h]
  | [a] =>
    by_cases ha : a = 48
    · subst ha
      simp [rd]
      by_cases h : base = 0 <;> simp [h]
      intro h; exact h.symm
    · simp [rd, ha]
      by_cases h : base = 0 <;> simp [h]
  | [a, x] =>
    by_cases ha : a = 48
    · subst ha
      have hnb : (base = 0 ∨ base = 2) → ¬ (x = 98 ∨ x = 66) := by
        intro hb hx
        exact hbin hb ⟨x, [], rfl, hx, by simp⟩
      simp only [rd, List.cons_append, List.nil_append, List.getElem?_cons_zero, Res.ok_bind, if_true,
        List.getElem?_cons_succ, true_and]
      by_cases hh : (base = 0 ∨ base = 16) ∧ (x = 120 ∨ x = 88)
      · have hx : ¬ (x = 98 ∨ x = 66) := by omega
        simp only [hh, hz, hx, and_self, and_false, if_true, if_false, Res.ok_bind]
        by_cases h : base = 0
        · simp [h]
        · by_cases h8 : base = 8 <;> simp [h, h8]
      · simp only [hh, if_false, Res.ok_bind]
        have h1 : ¬ ((base = 0 ∨ base = 16) ∧ (x = 120 ∨ x = 88) ∧ isHexDigit 0 = true) := by simp [hz]
        have h2 : ¬ ((base = 0 ∨ base = 2) ∧ (x = 98 ∨ x = 66)) := fun h => hnb h.1 h.2
        simp only [h1, h2, if_false]
        by_cases h : base = 0
        · simp [h]
        · by_cases h8 : base = 8 <;> simp [h, h8]
    · simp [rd, ha]
      by_cases h : base = 0 <;> simp [h]
  | a :: x :: y :: r =>
    by_cases ha : a = 48
    · subst ha
      have hnb : (base = 0 ∨ base = 2) → (x = 98 ∨ x = 66) → Spec.isDigitIn 2 y = true := by
        intro hb hx
        cases hy : Spec.isDigitIn 2 y with
        | true => rfl
        | false => exact absurd ⟨x, y :: r, rfl, hx, by simp [hy]⟩ (hbin hb)
      simp only [rd, List.cons_append, List.getElem?_cons_zero, Res.ok_bind, if_true,
        List.getElem?_cons_succ, true_and]
      by_cases hh : (base = 0 ∨ base = 16) ∧ (x = 120 ∨ x = 88)
      · have hx : ¬ (x = 98 ∨ x = 66) := by omega
        simp only [hh, and_self, if_true, Res.ok_bind, true_and, hex_iff, hx, and_false, if_false, false_and]
        by_cases hy : Spec.isDigitIn 16 y = true
        · simp [hy]
        · simp only [hy, if_false]
          by_cases h : base = 0
          · simp [h]
          · by_cases h8 : base = 8 <;> simp [h, h8]
      · have h1 : ∀ p : Prop, ¬ ((base = 0 ∨ base = 16) ∧ (x = 120 ∨ x = 88) ∧ p) :=
          fun p h => hh ⟨h.1, h.2.1⟩
        simp only [hh, if_false, Res.ok_bind, h1]
        by_cases h2 : (base = 0 ∨ base = 2) ∧ (x = 98 ∨ x = 66)
        · have hy := hnb h2.1 h2.2
          simp [h2, hy]
        · have h3 : ∀ p : Prop, ¬ ((base = 0 ∨ base = 2) ∧ (x = 98 ∨ x = 66) ∧ p) :=
            fun p h => h2 ⟨h.1, h.2.1⟩
          simp only [h2, h3, if_false]
          by_cases h : base = 0
          · simp [h]
          · by_cases h8 : base = 8 <;> simp [h, h8]
    · simp [rd, ha]
      by_cases h : base = 0 <;> simp [h]

/-- The limits are `max = cutoff * base + cutlim` (`-min` for negative numbers). -/
theorem cutoffs_spec (t : IntType) (hw : 1 ≤ t.w) (neg : Bool) (b : Nat) (hb : 2 ≤ b) :
    (cutoffs t neg b).2 < b ∧
    (cutoffs t neg b).1 * b + (cutoffs t neg b).2
      = if t.signed then (if neg then 2 ^ (t.w - 1) else 2 ^ (t.w - 1) - 1) else 2 ^ t.w - 1 := by
  have key : ∀ m : Nat, ((m : Int).tmod b).toNat = m % b ∧ ((m : Int).tdiv b).toNat = m / b := by
    intro m
    constructor
    · rw [Int.tmod_eq_emod_of_nonneg (by omega), ← Int.natCast_emod]; rfl
    · rw [Int.tdiv_eq_ediv_of_nonneg (by omega), ← Int.natCast_ediv]; rfl
  have fin : ∀ m : Nat, m % b < b ∧ m / b * b + m % b = m := fun m =>
    ⟨Nat.mod_lt _ (by omega), by rw [Nat.mul_comm]; exact Nat.div_add_mod m b⟩
  have p1 : 1 ≤ 2 ^ (t.w - 1) := Nat.one_le_two_pow
  have p2 : 1 ≤ 2 ^ t.w := Nat.one_le_two_pow
  unfold cutoffs IntType.min IntType.max
  cases hs : t.signed <;> cases neg
  · have e : (2 : Int) ^ t.w - 1 = ((2 ^ t.w - 1 : Nat) : Int) := by
      rw [Int.natCast_sub p2]; simp
    simp only [Bool.false_eq_true, if_false, e, (key _).1, (key _).2]; exact fin _
  · have e : (2 : Int) ^ t.w - 1 = ((2 ^ t.w - 1 : Nat) : Int) := by
      rw [Int.natCast_sub p2]; simp
    simp only [Bool.false_eq_true, if_false, e, (key _).1, (key _).2]; exact fin _
  · have e : (2 : Int) ^ (t.w - 1) - 1 = ((2 ^ (t.w - 1) - 1 : Nat) : Int) := by
      rw [Int.natCast_sub p1]; simp
    simp only [Bool.false_eq_true, if_false, if_true, e, (key _).1, (key _).2]; exact fin _
  · have e : (2 : Int) ^ (t.w - 1) = ((2 ^ (t.w - 1) : Nat) : Int) := by simp
    simp only [if_true, e, Int.neg_tmod, Int.neg_neg, Int.neg_tdiv, Int.tdiv_neg, (key _).1, (key _).2]
    exact fin _

theorem parse_prefix_bounds (base : Nat) (u : List Nat) (hb : base = 0 ∨ (2 ≤ base ∧ base ≤ 36)) :
    2 ≤ (Spec.baseAndPrefix base u).1 ∧ (Spec.baseAndPrefix base u).1 ≤ 36 := by
  unfold Spec.baseAndPrefix
  repeat' split
  all_goals simp <;> omega

/-- **C10** (everything except the `0b` prefix without digits).
For a base of 0 or 2..36 and any NUL-terminated string, the function never reads behind the
terminator, and

* if the string starts with no number, returns 0 with `*endptr = nptr` and leaves errno alone;
* otherwise sets `*endptr` behind the number and returns its value if representable, or the bound of the
  type on the side of the number's sign together with ERANGE (signed types); for unsigned types the value
  modulo `2^w` of the signed number, or the maximum with ERANGE if the magnitude exceeds it.

Missing: a text in which (after space and sign) `0b`/`0B` is not followed by a binary digit, for base 0
or 2; see `strtol_bare_bin_prefix_violated`. -/
theorem strtol_exact_partial (t : IntType) (hw : 8 ≤ t.w) (isSpace : Nat → Bool) (hsp : isSpace 0 = false)
    (nptr s : List Nat) (hs : CStr nptr s) (base : Nat) (hbase : base = 0 ∨ (2 ≤ base ∧ base ≤ 36))
    (hbin : (base = 0 ∨ base = 2) → ¬ bareBinPrefix (Spec.afterSign isSpace s)) :
    stringToInteger t isSpace nptr base =
      .ok (match Spec.parse isSpace base s with
        | none => (0, 0, false)
        | some (consumed, neg, mag) =>
          let r := if t.signed then Spec.signedResult (-(2 ^ (t.w - 1))) (2 ^ (t.w - 1) - 1) neg mag
            else Spec.unsignedResult (2 ^ t.w - 1) neg mag
          (r.1, consumed, r.2)) := by
  obtain ⟨h0, rest, rfl⟩ := hs
  unfold stringToInteger Spec.parse
  rw [if_neg (by omega), skipSpace_spec isSpace hsp]
  simp only [Res.ok_bind]
  generalize hws : (s.takeWhile isSpace).length = n1
  have hsplit : s = s.take n1 ++ s.drop n1 := (List.take_append_drop n1 s).symm
  generalize hv : s.drop n1 = v at *
  have h0v : 0 ∉ v := by
    rw [← hv]; exact fun h => h0 (List.mem_of_mem_drop h)
  -- the sign
  have hrd : rd (v ++ 0 :: rest) 0 = .ok (v.head?.getD 0) := by
    cases v <;> simp [rd]
  rw [hrd]
  simp only [Res.ok_bind]
  have hneg : (v.head?.getD 0 = 45) = (v.head? = some 45) := by
    cases v <;> simp
  have hpos : (v.head?.getD 0 = 43) = (v.head? = some 43) := by
    cases v <;> simp
  simp only [hneg, hpos]
  generalize hn2 : (if v.head? = some 45 ∨ v.head? = some 43 then 1 else 0) = n2
  have hn2le : n2 ≤ v.length := by
    rw [← hn2]; cases v with
    | nil => simp
    | cons a v => simp; split <;> omega
  have hn2le1 : n2 ≤ 1 := by rw [← hn2]; split <;> omega
  rw [List.drop_append_of_le_length hn2le]
  generalize hu : v.drop n2 = u
  have h0u : 0 ∉ u := by
    rw [← hu]; exact fun h => h0v (List.mem_of_mem_drop h)
  -- the prefix
  have hnb : (base = 0 ∨ base = 2) → ¬ bareBinPrefix u := by
    intro hb
    have := hbin hb
    unfold Spec.afterSign at this
    simpa only [hws, hv, hn2, hu] using this
  rw [prefix_spec base rest u hnb]
  simp only [Res.ok_bind]
  have hbb := parse_prefix_bounds base u hbase
  have hple : (Spec.baseAndPrefix base u).2 ≤ u.length := by
    unfold Spec.baseAndPrefix
    repeat' split
    all_goals simp
  generalize Spec.baseAndPrefix base u = bp at *
  obtain ⟨b, n3⟩ := bp
  simp only at hbb hple ⊢
  rw [List.drop_append_of_le_length hple]
  have h0d : 0 ∉ u.drop n3 := fun h => h0u (List.mem_of_mem_drop h)
  generalize hneg' : decide (v.head? = some 45) = neg
  obtain ⟨hc1, hc2⟩ := cutoffs_spec t (by omega) neg b hbb.1
  have p1 : 2 * 2 ^ (t.w - 1) = 2 ^ t.w := by
    rw [← Nat.pow_succ']; congr 1; omega
  have p7 : 128 ≤ 2 ^ (t.w - 1) := by
    have := Nat.pow_le_pow_right (n := 2) (by omega) (show 7 ≤ t.w - 1 by omega)
    omega
  generalize hcc : cutoffs t neg b = cc at *
  obtain ⟨co, cl⟩ := cc
  simp only at hc1 hc2 ⊢
  have hM : co * b + cl < 2 ^ t.w ∧ b ≤ co * b + cl + 1 := by
    rw [hc2]; split
    · split <;> omega
    · omega
  obtain ⟨r, hr1, hr2, hr3, hr4⟩ := loop_start (2 ^ t.w) b co cl (by omega) hc1 hM.1 hM.2 rest _ h0d
  rw [hr1]
  simp only [Res.ok_bind]
  generalize (u.drop n3).takeWhile (Spec.isDigitIn b) = ds at *
  by_cases hds : ds = []
  · have ha : r.any = false := by simpa [hds] using hr2
    have hv0 : Spec.valueOf b ds = 0 := by simp [hds, Spec.valueOf]
    have ho : r.oor = false := by
      cases h : r.oor with
      | false => rfl
      | true => have := hr3.1 h; omega
    have ht := hr4 ho
    rw [hv0] at ht
    simp [hds, ha, ho, ht, IntType.ofBits]
  · have ha : r.any = true := hr2.2 hds
    rw [if_neg hds]
    simp only [ha, if_true]
    generalize Spec.valueOf b ds = m at *
    have hneg2 : (v.head? = some 45) = (neg = true) := by rw [← hneg']; simp
    simp only [hneg2]
    have e1 : (2 : Int) ^ (t.w - 1) = ((2 ^ (t.w - 1) : Nat) : Int) := by simp
    have e2 : (2 : Int) ^ t.w = ((2 ^ t.w : Nat) : Int) := by simp
    unfold IntType.min IntType.max IntType.ofBits Spec.signedResult Spec.unsignedResult
    rw [e1, e2]
    generalize 2 ^ t.w = W at *
    generalize 2 ^ (t.w - 1) = H at *
    have hmod : m < W → (W - m) % W = if m = 0 then 0 else W - m := by
      intro hm
      split
      · next h => subst h; simp
      · exact Nat.mod_eq_of_lt (by omega)
    cases ho : r.oor with
    | true =>
      have hgt := hr3.1 ho
      rw [hc2] at hgt
      cases hsg : t.signed <;> cases neg <;> simp [hsg] at hgt ⊢
      · rw [if_pos hgt]; simp; omega
      · rw [if_pos hgt]; simp; omega
      · rw [if_neg (by omega), if_pos (by omega)]; simp
      · rw [if_pos (by omega)]; simp
    | false =>
      have ht := hr4 ho
      have hle : ¬ m > co * b + cl := fun h => by simp [hr3.2 h] at ho
      rw [ht, hmod (by omega)]
      rw [hc2] at hle
      by_cases hm : m = 0
      · subst hm
        cases hsg : t.signed <;> cases neg <;> simp [hsg] at hle ⊢ <;> repeat' (first | split | omega)
        all_goals first | (simp; done) | (exfalso; omega)
      · rw [if_neg hm]
        cases hsg : t.signed <;> cases neg <;> simp [hsg] at hle ⊢
        · rw [if_neg (by omega)]; simp
        · rw [if_neg (by omega)]; simp [hm]; omega
        · rw [if_neg (by omega), if_neg (by omega), if_neg (by omega)]; simp
        · rw [if_pos (by omega), if_neg (by omega), if_neg (by omega)]; simp; omega

/-- isspace of the C locale. -/
def cSpace (c : Nat) : Bool := c == 32 || (9 ≤ c && c ≤ 13)

/-- The hypotheses of `strtol_exact_partial` are met by `" -0x1F;"` read as a `long` in base 0. -/
example : CStr [32, 45, 48, 120, 49, 70, 59, 0, 7] [32, 45, 48, 120, 49, 70, 59] ∧
    ¬ bareBinPrefix (Spec.afterSign cSpace [32, 45, 48, 120, 49, 70, 59]) := by
  refine ⟨⟨by decide, [7], rfl⟩, ?_⟩
  rintro ⟨x, r, h, hx, _⟩
  have h' : [48, 120, 49, 70, 59] = 48 :: x :: r := h
  simp at h'
  omega

example : Spec.parse cSpace 0 [32, 45, 48, 120, 49, 70, 59] = some (6, true, 31) := by decide
example : stringToInteger ⟨64, true⟩ cSpace [32, 45, 48, 120, 49, 70, 59, 0, 7] 0 = .ok (-31, 6, false) := by
  decide
/-- LONG_MIN itself is accepted; one less saturates with ERANGE (8-bit type for brevity). -/
example : stringToInteger ⟨8, true⟩ cSpace [45, 49, 50, 56, 0] 10 = .ok (-128, 4, false) := by decide
example : stringToInteger ⟨8, true⟩ cSpace [45, 49, 50, 57, 0] 10 = .ok (-128, 4, true) := by decide
example : stringToInteger ⟨64, false⟩ cSpace [45, 49, 0] 10 = .ok (18446744073709551615, 2, false) := by decide

/-- **C10 does not hold of the code for a bare `0b`.** `strtol("0b", &end, 0)` must convert the `0` and
leave `end` at the `b`; the code skips the prefix without looking for a digit and reports that nothing was
converted. (strtol.hpp:99-101 has no check analogous to the one for `0x`.) -/
theorem strtol_bare_bin_prefix_violated :
    Spec.parse cSpace 0 [48, 98] = some (1, false, 0) ∧
    stringToInteger ⟨64, true⟩ cSpace [48, 98, 0] 0 = .ok (0, 0, false) := by
  decide

/-- Decimal digits of `n`, most significant first, as ASCII codes. -/
def decimal (n : Nat) : List Nat :=
  if n < 10 then [n + 48] else decimal (n / 10) ++ [n % 10 + 48]

theorem decimal_digits (n : Nat) : ∀ c ∈ decimal n, 48 ≤ c ∧ c ≤ 57 := by
  induction n using decimal.induct with
  | case1 n h => unfold decimal; simp [h]; omega
  | case2 n h ih =>
    unfold decimal; rw [if_neg h]
    intro c hc
    rw [List.mem_append] at hc
    rcases hc with hc | hc
    · exact ih c hc
    · simp at hc; omega

theorem decimal_value (n : Nat) : Spec.valueOf 10 (decimal n) = n := by
  induction n using decimal.induct with
  | case1 n h =>
    unfold decimal
    rw [if_pos h]
    simp [Spec.valueOf, Spec.digitOf]
    rw [if_pos (by omega)]; simp
  | case2 n h ih =>
    unfold decimal
    rw [if_neg h]
    unfold Spec.valueOf at ih ⊢
    rw [List.foldl_append, ih]
    have : Spec.digitOf (n % 10 + 48) = some (n % 10) := by
      unfold Spec.digitOf
      rw [if_pos (by omega)]; simp
    simp [this]; omega

theorem takeWhile_all (p : Nat → Bool) (l : List Nat) (h : ∀ x ∈ l, p x = true) : l.takeWhile p = l := by
  induction l with
  | nil => rfl
  | cons a l ih =>
    rw [List.takeWhile_cons_of_pos (h a (by simp)), ih (fun x hx => h x (by simp [hx]))]

theorem decimal_ne_nil (n : Nat) : decimal n ≠ [] := by
  unfold decimal; split <;> simp

/-- **C10, round trip.** Every natural number in the range of the type, written in decimal, is read back
as itself, with the end pointer at the terminator. -/
theorem strtol_decimal_roundtrip (t : IntType) (hw : 8 ≤ t.w) (isSpace : Nat → Bool)
    (hsp : ∀ c, (c = 0 ∨ (48 ≤ c ∧ c ≤ 57)) → isSpace c = false) (n : Nat) (hn : (n : Int) ≤ t.max)
    (rest : List Nat) :
    stringToInteger t isSpace (decimal n ++ 0 :: rest) 10 = .ok (n, (decimal n).length, false) := by
  have hd := decimal_digits n
  have hne := decimal_ne_nil n
  rw [strtol_exact_partial t hw isSpace (hsp 0 (Or.inl rfl)) _ (decimal n)
    ⟨fun h => by have := hd 0 h; omega, rest, rfl⟩ 10 (by omega) (by omega)]
  have hv := decimal_value n
  generalize decimal n = ds at *
  obtain ⟨c, ds, rfl⟩ : ∃ c ds', ds = c :: ds' := by
    cases ds with
    | nil => exact absurd rfl hne
    | cons c d => exact ⟨c, d, rfl⟩
  have hc := hd c (by simp)
  have hdig : ∀ x ∈ c :: ds, Spec.isDigitIn 10 x = true := by
    intro x hx
    have := hd x hx
    unfold Spec.isDigitIn Spec.digitOf
    rw [if_pos this]; simp; omega
  have hbp : Spec.baseAndPrefix 10 (c :: ds) = (10, 0) := by
    unfold Spec.baseAndPrefix; repeat' split
    all_goals simp_all
  have htw : (c :: ds).takeWhile (Spec.isDigitIn 10) = c :: ds :=
    takeWhile_all _ _ hdig
  have hsw : (c :: ds).takeWhile isSpace = [] := by
    simp [List.takeWhile_cons, hsp c (Or.inr hc)]
  have hparse : Spec.parse isSpace 10 (c :: ds) = some ((c :: ds).length, false, n) := by
    unfold Spec.parse
    rw [hsw]
    have h1 : ¬ (c = 45) := by omega
    have h2 : ¬ (c = 43) := by omega
    simp only [List.length_nil, List.drop_zero, List.head?_cons, Option.some.injEq, h1, h2, or_self, if_false]
    rw [hbp]
    simp only [List.drop_zero, htw, hv]
    simp
  rw [hparse]
  unfold IntType.max at hn
  simp only [Spec.signedResult, Spec.unsignedResult]
  have p1 : 0 < (2 : Int) ^ (t.w - 1) := Int.pow_pos (by omega)
  have p2 : 1 ≤ 2 ^ t.w := Nat.one_le_two_pow
  have e2 : (2 : Int) ^ t.w = ((2 ^ t.w : Nat) : Int) := by simp
  cases hs : t.signed
  · simp only [hs, Bool.false_eq_true, if_false] at hn ⊢
    rw [e2] at hn
    rw [if_neg (by omega)]; simp
  · simp only [hs, if_true] at hn
    simp only [if_true, Bool.false_eq_true, if_false]
    rw [if_neg (by omega), if_neg (by omega)]

example : decimal 1203 = [49, 50, 48, 51] := by
  simp [decimal]

end Mlibc.Strtol
