import Verif.Strtod.Value
/-!
# strtod with binary64 rounded to nearest, and what goes wrong

A concrete binary64 arithmetic, to show that the hypothesis `Binary64` of `integer_exact` and
`hex_exact` is met by the arithmetic of the hardware and to compute the witnesses of the violations.
Simplification: the two zeros are one, and NaNs carry no payload.
-/

namespace Mlibc.Strtod

/-- Binary64: a finite number, an infinity with its sign, or a NaN. -/
inductive F64 where
  | fin (q : ℚ)
  | inf (neg : Bool)
  | nan
  deriving DecidableEq

/-- The largest `k` with `2^k ≤ a / b`, for positive `a` and `b`. -/
def ilog2 (a b : ℕ) : ℤ :=
  let k : ℤ := (Nat.log2 a : ℤ) - Nat.log2 b
  if (2 : ℚ) ^ k ≤ (a : ℚ) / b then k else k - 1

/-- The nearest integer, the even one of two. -/
def nearestEven (m : ℚ) : ℤ :=
  let f := ⌊m⌋
  if m - f < 1 / 2 then f
  else if 1 / 2 < m - f then f + 1
  else if f % 2 = 0 then f else f + 1

/-- The exponent of the last place of the binary64 numbers around `q ≠ 0`. -/
def lastPlace (q : ℚ) : ℤ := max (-1074) (ilog2 q.num.natAbs q.den - 52)

/-- Round to nearest, ties to even; overflow gives an infinity. -/
def round64 (q : ℚ) : F64 :=
  if q = 0 then .fin 0
  else
    let e := lastPlace q
    let v := (nearestEven (q / (2 : ℚ) ^ e) : ℚ) * (2 : ℚ) ^ e
    if |v| < (2 : ℚ) ^ (1024 : ℤ) then .fin v else .inf (decide (q < 0))

/-- The sum. -/
def F64.add : F64 → F64 → F64
  | .fin a, .fin b => round64 (a + b)
  | .inf a, .inf b => if a = b then .inf a else .nan
  | .inf a, .fin _ => .inf a
  | .fin _, .inf b => .inf b
  | _, _ => .nan

/-- The product. -/
def F64.mul : F64 → F64 → F64
  | .fin a, .fin b => round64 (a * b)
  | .inf a, .inf b => .inf (a != b)
  | .inf a, .fin b => if b = 0 then .nan else .inf (a != decide (b < 0))
  | .fin a, .inf b => if a = 0 then .nan else .inf (b != decide (a < 0))
  | _, _ => .nan

/-- The quotient. -/
def F64.div : F64 → F64 → F64
  | .fin a, .fin b =>
    if b = 0 then (if a = 0 then .nan else .inf (decide (a < 0))) else round64 (a / b)
  | .inf a, .fin b => .inf (a != decide (b < 0))
  | .fin _, .inf _ => .fin 0
  | _, _ => .nan

/-- The negation. -/
def F64.neg : F64 → F64
  | .fin a => .fin (-a)
  | .inf a => .inf (!a)
  | .nan => .nan

/-- Binary64, rounding to nearest. -/
def b64 : Arith F64 where
  ofInt i := round64 i
  add := F64.add
  mul := F64.mul
  div := F64.div
  neg := F64.neg
  inf := .inf false
  nan := .nan

/-- The number a finite binary64 stands for. -/
def F64.val : F64 → Option ℚ
  | .fin q => some q
  | _ => none

theorem ilog2_spec (a b : ℕ) (ha : a ≠ 0) (hb : b ≠ 0) :
    (2 : ℚ) ^ ilog2 a b ≤ (a : ℚ) / b ∧ (a : ℚ) / b < (2 : ℚ) ^ (ilog2 a b + 1) := by
  have two : (2 : ℚ) ≠ 0 := by norm_num
  have a1 := Nat.log2_self_le ha
  have a2 := @Nat.lt_log2_self a
  have b1 := Nat.log2_self_le hb
  have b2 := @Nat.lt_log2_self b
  have a1' : (2 : ℚ) ^ (Nat.log2 a) ≤ a := by exact_mod_cast a1
  have a2' : (a : ℚ) < (2 : ℚ) ^ (Nat.log2 a + 1) := by exact_mod_cast a2
  have b1' : (2 : ℚ) ^ (Nat.log2 b) ≤ b := by exact_mod_cast b1
  have b2' : (b : ℚ) < (2 : ℚ) ^ (Nat.log2 b + 1) := by exact_mod_cast b2
  have hbp : (0 : ℚ) < b := by positivity
  have up : (a : ℚ) / b < (2 : ℚ) ^ ((Nat.log2 a : ℤ) - Nat.log2 b + 1) := by
    rw [div_lt_iff₀ hbp]
    calc (a : ℚ) < (2 : ℚ) ^ (Nat.log2 a + 1) := a2'
      _ = (2 : ℚ) ^ ((Nat.log2 a : ℤ) - Nat.log2 b + 1) * (2 : ℚ) ^ (Nat.log2 b) := by
        rw [← zpow_natCast, ← zpow_natCast, ← zpow_add₀ two]; congr 1; push_cast; ring
      _ ≤ _ := by apply mul_le_mul_of_nonneg_left b1'; positivity
  have lo : (2 : ℚ) ^ ((Nat.log2 a : ℤ) - Nat.log2 b - 1) ≤ (a : ℚ) / b := by
    rw [le_div_iff₀ hbp]
    calc (2 : ℚ) ^ ((Nat.log2 a : ℤ) - Nat.log2 b - 1) * b
        ≤ (2 : ℚ) ^ ((Nat.log2 a : ℤ) - Nat.log2 b - 1) * (2 : ℚ) ^ (Nat.log2 b + 1) := by
          apply mul_le_mul_of_nonneg_left b2'.le; positivity
      _ = (2 : ℚ) ^ (Nat.log2 a) := by
        rw [← zpow_natCast, ← zpow_natCast, ← zpow_add₀ two]; congr 1; push_cast; ring
      _ ≤ a := a1'
  unfold ilog2
  simp only
  split
  · rename_i h; exact ⟨h, up⟩
  · rename_i h
    refine ⟨lo, ?_⟩
    have : (Nat.log2 a : ℤ) - Nat.log2 b - 1 + 1 = (Nat.log2 a : ℤ) - Nat.log2 b := by ring
    rw [this]
    exact not_le.1 h

theorem nearestEven_int (i : ℤ) : nearestEven (i : ℚ) = i := by
  unfold nearestEven
  simp

/-- Binary64 numbers are not changed by rounding. -/
theorem round64_rep (q : ℚ) (h : Rep q) : round64 q = .fin q := by
  have two : (2 : ℚ) ≠ 0 := by norm_num
  obtain ⟨n, k, hq, hn, hk1, hk2⟩ := h
  unfold round64
  by_cases h0 : q = 0
  · rw [if_pos h0, h0]
  rw [if_neg h0]
  simp only
  -- the exponent of the last place is at most `k`
  have habs : |q| = (q.num.natAbs : ℚ) / q.den := by
    rw [← Rat.num_div_den q, abs_div]
    have : |(q.den : ℚ)| = q.den := abs_of_nonneg (by positivity)
    rw [Rat.num_div_den, this]
    congr 1
    rw [← Int.cast_abs, Int.abs_eq_natAbs]; exact Int.cast_natCast _
  have hlog := ilog2_spec q.num.natAbs q.den (by simpa using h0) q.den_nz
  rw [← habs] at hlog
  have hle : lastPlace q ≤ k := by
    unfold lastPlace
    apply max_le hk1
    have h1 : |q| < (2 : ℚ) ^ (53 + k) := by
      rw [hq, abs_mul, abs_of_pos (by positivity : (0 : ℚ) < 2 ^ k), zpow_add₀ two]
      apply mul_lt_mul_of_pos_right _ (by positivity)
      rw [← Int.cast_abs]
      have : ((|n| : ℤ) : ℚ) < ((2 ^ 53 : ℤ) : ℚ) := by exact_mod_cast hn
      calc ((|n| : ℤ) : ℚ) < ((2 ^ 53 : ℤ) : ℚ) := this
        _ = (2 : ℚ) ^ (53 : ℤ) := by norm_num
    have h2 := lt_of_le_of_lt hlog.1 h1
    have h3 := (zpow_lt_zpow_iff_right₀ (by norm_num : (1 : ℚ) < 2)).1 h2
    omega
  have hint : ∃ i : ℤ, q / (2 : ℚ) ^ lastPlace q = i := by
    refine ⟨n * 2 ^ (k - lastPlace q).toNat, ?_⟩
    have h' : ((k - lastPlace q).toNat : ℤ) = k - lastPlace q := by omega
    generalize lastPlace q = e at *
    rw [hq]
    push_cast
    rw [← zpow_natCast, h', zpow_sub₀ two]
    ring
  obtain ⟨i, hi⟩ := hint
  have hv : (nearestEven (q / (2 : ℚ) ^ lastPlace q) : ℚ) * (2 : ℚ) ^ lastPlace q = q := by
    rw [hi, nearestEven_int, ← hi]
    field_simp
  rw [hv]
  rw [if_pos]
  have h1 : |q| < (2 : ℚ) ^ (53 + k) := by
    rw [hq, abs_mul, abs_of_pos (by positivity : (0 : ℚ) < 2 ^ k), zpow_add₀ two]
    apply mul_lt_mul_of_pos_right _ (by positivity)
    rw [← Int.cast_abs]
    have : ((|n| : ℤ) : ℚ) < ((2 ^ 53 : ℤ) : ℚ) := by exact_mod_cast hn
    calc ((|n| : ℤ) : ℚ) < ((2 ^ 53 : ℤ) : ℚ) := this
      _ = (2 : ℚ) ^ (53 : ℤ) := by norm_num
  apply lt_of_lt_of_le h1
  apply zpow_le_zpow_right₀ (by norm_num)
  omega

theorem rep_int (i : ℤ) (h : |i| < 2 ^ 53) : Rep (i : ℚ) :=
  ⟨i, 0, by simp, h, by norm_num, by norm_num⟩

/-- The hardware's arithmetic meets the hypothesis of `integer_exact` and `hex_exact`. -/
theorem b64_binary64 : Binary64 b64 F64.val where
  ofInt i h := by
    show (round64 (i : ℚ)).val = _
    rw [round64_rep _ (rep_int i h)]; rfl
  add a b p q ha hb h := by
    cases a with
    | fin x => cases b with
      | fin y =>
        injection ha with ha; injection hb with hb; subst ha; subst hb
        show (round64 (x + y)).val = _
        rw [round64_rep _ h]; rfl
      | inf _ => cases hb
      | nan => cases hb
    | inf _ => cases ha
    | nan => cases ha
  mul a b p q ha hb h := by
    cases a with
    | fin x => cases b with
      | fin y =>
        injection ha with ha; injection hb with hb; subst ha; subst hb
        show (round64 (x * y)).val = _
        rw [round64_rep _ h]; rfl
      | inf _ => cases hb
      | nan => cases hb
    | inf _ => cases ha
    | nan => cases ha
  div a b p q ha hb h0 h := by
    cases a with
    | fin x => cases b with
      | fin y =>
        injection ha with ha; injection hb with hb; subst ha; subst hb
        show (F64.div (.fin x) (.fin y)).val = _
        rw [F64.div, if_neg h0, round64_rep _ h]; rfl
      | inf _ => cases hb
      | nan => cases hb
    | inf _ => cases ha
    | nan => cases ha
  neg a p ha := by
    cases a with
    | fin x => injection ha with ha; subst ha; rfl
    | inf _ => cases ha
    | nan => cases ha

/-! ## Examples that meet the hypotheses -/

/-- ` -0X1.8p-3;` -/
def sampleHex : Numeral := ⟨true, txt "-", txt "0X", txt "1", some (txt "8"), some (112, txt "-", txt "3")⟩

example : sampleHex.text (txt ".") = txt "-0X1.8p-3" ∧ sampleHex.value = -3 / 16 ∧
    strtofp b64 cspace (txt ".") (txt " -0X1.8p-3;") = .ok (.fin (-3 / 16), txt ";") := by
  decide +kernel

/-- `  1250.50e+2x` -/
def sampleDec : Numeral := ⟨false, [], [], txt "1250", some (txt "50"), some (101, txt "+", txt "2")⟩

example : sampleDec.text (txt ".") = txt "1250.50e+2" ∧ sampleDec.value = 125050 ∧
    strtofp exact cspace (txt ".") (txt "  1250.50e+2x") = .ok (125050, txt "x") := by
  decide +kernel

example : sampleHex.WF ∧ sampleHex.Ends (txt ".") (txt ";") := by
  refine ⟨⟨.inr (.inr (by decide)), .inr ⟨rfl, .inr (by decide)⟩, ?_, ?_, .inl (by decide), ?_⟩,
    ⟨?_, ?_, ?_, ?_, ?_⟩⟩
  · intro c hc; have : c = 49 := by simpa [sampleHex, txt] using hc
    subst this; exact .inl ⟨by decide, by decide⟩
  · intro f hf c hc
    have : txt "8" = f := by simpa [sampleHex] using hf
    subst this
    have : c = 56 := by simpa [txt] using hc
    subst this; exact .inl ⟨by decide, by decide⟩
  · intro l sg ds h
    have h' : 112 = l ∧ txt "-" = sg ∧ txt "3" = ds := by simpa [sampleHex] using h
    obtain ⟨rfl, rfl, rfl⟩ := h'
    refine ⟨.inr ⟨rfl, .inl rfl⟩, .inr (.inr (by decide)), by decide, ?_⟩
    intro c hc; have : c = 51 := by simpa [txt] using hc
    subst this; exact ⟨by decide, by decide⟩
  · intro _ c hc
    have : 59 = c := by simpa [txt] using hc
    subst this; rintro ⟨h1, h2⟩; omega
  all_goals intro h; simp [sampleHex] at h

example : digitsValue 16 (sampleHex.int ++ sampleHex.frac.getD []) < 2 ^ 53 ∧
    (sampleHex.frac.getD []).length ≤ 200 ∧ expNeg sampleHex.exp = true ∧
    -1074 ≤ -(4 * (sampleHex.frac.getD []).length : ℤ) - expAbs sampleHex.exp := by
  decide +kernel

/-! ## Violations -/

/-- C, F.5: a decimal numeral of at most 17 digits is rounded correctly.  `0.12` is not: the result
is the rounding of the sum of two rounded numbers, one unit in the last place too large. -/
theorem correct_rounding_violated :
    ∃ x, strtofp b64 cspace (txt ".") (txt "0.12") = .ok (x, []) ∧ x ≠ round64 (12 / 100) :=
  ⟨.fin (8646911284551353 / 72057594037927936), by decide +kernel, by decide +kernel⟩

/-- A one, 309 zeros, and an exponent that undoes them: the number is 1, the result an infinity. -/
theorem intermediate_overflow_violated :
    strtofp b64 cspace (txt ".") (49 :: (List.replicate 309 48 ++ txt "e-309")) =
      .ok (.inf false, []) := by
  decide +kernel

/-- C, 7.24.1.5: if the subject sequence is empty, no conversion is performed and the string itself
is stored through the end pointer.  Here the end pointer is past the white space and the sign. -/
theorem no_conversion_violated :
    strtofp b64 cspace (txt ".") (txt "  -x") = .ok (.fin 0, txt "x") := by
  decide +kernel

/-- A lone decimal point is no numeral, but is consumed. -/
theorem lone_point_violated :
    strtofp b64 cspace (txt ".") (txt ".x") = .ok (.fin 0, txt "x") := by
  decide +kernel

/-- `0x` without a hexadecimal digit after it is the numeral `0`; the `x` does not belong to it, but
is consumed. -/
theorem hex_prefix_violated :
    strtofp b64 cspace (txt ".") (txt "0xg") = .ok (.fin 0, txt "g") := by
  decide +kernel

/-- The words are to be recognised ignoring case, and whatever follows them. -/
theorem inf_word_violated :
    strtofp b64 cspace (txt ".") (txt "inf,") = .ok (.fin 0, txt "inf,") ∧
    strtofp b64 cspace (txt ".") (txt "Infinity") = .ok (.fin 0, txt "Infinity") ∧
    strtofp b64 cspace (txt ".") (txt "NaN") = .ok (.fin 0, txt "NaN") ∧
    strtofp b64 cspace (txt ".") (txt "nan(1)") = .ok (.nan, txt "(1)") := by
  decide +kernel

end Mlibc.Strtod
