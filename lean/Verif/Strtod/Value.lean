import Verif.Strtod.Parse
import Mathlib.Algebra.Order.Field.Power
import Mathlib.Data.Rat.Floor
import Mathlib.Tactic.FieldSimp
import Mathlib.Tactic.Ring
import Mathlib.Tactic.Linarith
import Mathlib.Tactic.Positivity
/-!
# strtod: the value

First with exact arithmetic: the algorithm computes the number the numeral denotes.  Then with any
binary64 arithmetic that is exact when the exact result is a binary64 number, whatever it does
otherwise (every IEEE rounding mode): integers below 2^53 and hexadecimal numerals that denote a
binary64 number are read exactly.
-/

namespace Mlibc.Strtod

/-! ## Specification -/

/-- The base of the digits of a numeral. -/
def radix (hex : Bool) : ℕ := if hex then 16 else 10

/-- The base of the exponent of a numeral. -/
def expRadix (hex : Bool) : ℕ := if hex then 2 else 10

/-- The number the digits denote, before the exponent and the sign are applied. -/
def Numeral.mantissa (n : Numeral) : ℚ :=
  digitsValue (radix n.hex) n.int +
    digitsValue (radix n.hex) (n.frac.getD []) / (radix n.hex : ℚ) ^ (n.frac.getD []).length

/-- The exponent is written with a minus sign. -/
def expNeg : Option (Nat × List Nat × List Nat) → Bool
  | none => false
  | some (_, s, _) => s == [45]

/-- The number a numeral denotes. -/
def Numeral.value (n : Numeral) : ℚ :=
  (if n.sign = [45] then -1 else 1) *
    (if expNeg n.exp then n.mantissa / (expRadix n.hex : ℚ) ^ expAbs n.exp
     else n.mantissa * (expRadix n.hex : ℚ) ^ expAbs n.exp)

/-! ## Exact arithmetic -/

/-- Arithmetic without rounding. -/
def exact : Arith ℚ where
  ofInt i := i
  add a b := a + b
  mul a b := a * b
  div a b := a / b
  neg a := -a
  inf := 0
  nan := 0

theorem base_radix (hex : Bool) : base hex = (radix hex : ℤ) := by cases hex <;> rfl
theorem expBase_radix (hex : Bool) : expBase hex = (expRadix hex : ℤ) := by cases hex <;> rfl
theorem radix_pos (hex : Bool) : (0 : ℚ) < radix hex := by cases hex <;> norm_num [radix]

/-- Digits continued from a start value. -/
theorem foldl_digits (b : ℕ) (ds : List ℕ) (v : ℕ) :
    ds.foldl (fun v c => v * b + digitValue c) v = v * b ^ ds.length + digitsValue b ds := by
  unfold digitsValue
  induction ds generalizing v with
  | nil => simp
  | cons c ds ih =>
    simp only [List.foldl_cons, List.length_cons]
    rw [ih, ih (0 * b + digitValue c)]
    ring

theorem digitsValue_cons (b c : ℕ) (ds : List ℕ) :
    digitsValue b (c :: ds) = digitValue c * b ^ ds.length + digitsValue b ds := by
  have := foldl_digits b ds (0 * b + digitValue c)
  simpa [digitsValue] using this

theorem digitsValue_append (b : ℕ) (xs ys : List ℕ) :
    digitsValue b (xs ++ ys) = digitsValue b xs * b ^ ys.length + digitsValue b ys := by
  have := foldl_digits b ys (digitsValue b xs)
  rw [← this]; unfold digitsValue; rw [List.foldl_append]

theorem intFold_exact (hex : Bool) (ds : List ℕ) (v : ℕ) :
    intFold exact hex ds (v : ℚ) =
      (ds.foldl (fun v c => v * radix hex + digitValue c) v : ℕ) := by
  induction ds generalizing v with
  | nil => rfl
  | cons c ds ih =>
    simp only [intFold, List.foldl_cons]
    rw [← ih]
    congr 1
    simp [exact, base_radix]

theorem fracFold_exact (hex : Bool) (ds : List ℕ) (r d : ℚ) (hd : d ≠ 0) :
    fracFold exact hex ds r d =
      r + digitsValue (radix hex) ds / ((radix hex : ℚ) ^ ds.length) * ((radix hex : ℚ) / d) := by
  have hb := (radix_pos hex).ne'
  induction ds generalizing r d with
  | nil => simp [fracFold, digitsValue]
  | cons c ds ih =>
    simp only [fracFold]
    rw [ih _ _ (by
      simp only [exact, base_radix]
      exact mul_ne_zero hd (by exact_mod_cast hb)), digitsValue_cons]
    simp only [exact, base_radix, List.length_cons]
    push_cast
    field_simp
    ring

theorem scale_exact (hex neg : Bool) (e : ℕ) (r : ℚ) :
    scale exact hex neg e r =
      if neg then r / (expRadix hex : ℚ) ^ e else r * (expRadix hex : ℚ) ^ e := by
  have hb : (expRadix hex : ℚ) ≠ 0 := by cases hex <;> norm_num [expRadix]
  induction e generalizing r with
  | zero => cases neg <;> simp [scale]
  | succ e ih =>
    rw [scale, ih]
    cases neg <;> simp [exact, expBase_radix] <;> field_simp <;> ring

theorem computed_exact (n : Numeral) : computed exact n = n.value := by
  have hi := intFold_exact n.hex n.int 0
  have hbq := (radix_pos n.hex).ne'
  have h0 : exact.ofInt 0 = ((0 : ℕ) : ℚ) := by simp [exact]
  have hm : fracApply exact n.hex (intFold exact n.hex n.int (exact.ofInt 0)) n.frac = n.mantissa := by
    unfold Numeral.mantissa
    rw [h0, hi]
    cases hf : n.frac with
    | none => simp [fracApply, digitsValue]
    | some f =>
      have hb : exact.ofInt (base n.hex) = (radix n.hex : ℚ) := by simp [exact, base_radix]
      simp only [fracApply, Option.getD_some]
      rw [hb, fracFold_exact _ _ _ _ hbq]
      unfold digitsValue
      field_simp
  unfold computed Numeral.value
  simp only
  rw [hm]
  have he : expApply exact n.hex n.mantissa n.exp =
      if expNeg n.exp then n.mantissa / (expRadix n.hex : ℚ) ^ expAbs n.exp
      else n.mantissa * (expRadix n.hex : ℚ) ^ expAbs n.exp := by
    cases n.exp with
    | none => simp [expApply, expNeg, expAbs]
    | some x =>
      obtain ⟨l, s, ds⟩ := x
      exact scale_exact n.hex (s == [45]) (digitsValue 10 ds) n.mantissa
  rw [he]
  by_cases hs : n.sign = [45]
  · rw [hs, if_pos (by decide), if_pos rfl, neg_one_mul]; rfl
  · rw [if_neg (by simpa using hs), if_neg hs, one_mul]

/-- **With exact arithmetic the value is the value.**  Every numeral, decimal or hexadecimal, is
converted to the number it denotes. -/
theorem strtofp_exact (space : Nat → Bool) (dp ws rest : List Nat) (n : Numeral) (hw : n.WF)
    (he : n.Ends dp rest) (hdp : GoodPoint dp) (hsp : GoodSpace space dp)
    (hws : ∀ c ∈ ws, space c = true) (hb : expAbs n.exp ≤ 2147483647) :
    strtofp exact space dp (ws ++ n.text dp ++ rest) = .ok (n.value, rest) := by
  rw [strtofp_numeral exact space dp ws rest n hw he hdp hsp hws hb, computed_exact]

/-! ## Binary64 -/

/-- The finite binary64 numbers. -/
def Rep (q : ℚ) : Prop :=
  ∃ n k : ℤ, q = n * (2 : ℚ) ^ k ∧ |n| < 2 ^ 53 ∧ -1074 ≤ k ∧ k ≤ 971

/-- An arithmetic of binary64 numbers: `val x` is the number `x` stands for, if it is finite; an
operation whose exact result is a binary64 number returns it.  Nothing is said of the other results,
so this holds in every rounding mode. -/
structure Binary64 {T : Type} (ar : Arith T) (val : T → Option ℚ) : Prop where
  ofInt : ∀ i : ℤ, |i| < 2 ^ 53 → val (ar.ofInt i) = some (i : ℚ)
  add : ∀ a b p q, val a = some p → val b = some q → Rep (p + q) → val (ar.add a b) = some (p + q)
  mul : ∀ a b p q, val a = some p → val b = some q → Rep (p * q) → val (ar.mul a b) = some (p * q)
  div : ∀ a b p q, val a = some p → val b = some q → q ≠ 0 → Rep (p / q) →
    val (ar.div a b) = some (p / q)
  neg : ∀ a p, val a = some p → val (ar.neg a) = some (-p)

theorem rep_nat (m : ℕ) (k : ℤ) (hm : m < 2 ^ 53) (h1 : -1074 ≤ k) (h2 : k ≤ 971) :
    Rep (m * (2 : ℚ) ^ k) := by
  refine ⟨m, k, by simp, ?_, h1, h2⟩
  rw [abs_of_nonneg (by positivity)]
  exact_mod_cast hm

theorem rep_nat0 (m : ℕ) (hm : m < 2 ^ 53) : Rep (m : ℚ) := by
  have := rep_nat m 0 hm (by norm_num) (by norm_num)
  simpa using this

theorem digitValue_lt (hex : Bool) (c : ℕ) (h : Digit hex c) : digitValue c < radix hex := by
  unfold Digit DecDigit at h
  unfold digitValue radix
  rcases h with h | ⟨h1, h2⟩
  · rw [if_pos h.2]; cases hex <;> simp <;> omega
  · subst h1
    rw [if_neg (by omega), if_pos rfl]
    split <;> omega

theorem foldl_mono (b : ℕ) (hb : 0 < b) (ds : List ℕ) (v : ℕ) :
    v ≤ ds.foldl (fun v c => v * b + digitValue c) v := by
  rw [foldl_digits]
  have : v * 1 ≤ v * b ^ ds.length := Nat.mul_le_mul_left _ (Nat.one_le_pow _ _ hb)
  omega

section
variable {T : Type} {ar : Arith T} {val : T → Option ℚ}

theorem intFold_b64 (hB : Binary64 ar val) (hex : Bool) (ds : List ℕ)
    (hd : ∀ c ∈ ds, Digit hex c) (v : ℕ) (t : T) (ht : val t = some (v : ℚ))
    (hlt : ds.foldl (fun v c => v * radix hex + digitValue c) v < 2 ^ 53) :
    val (intFold ar hex ds t) =
      some ((ds.foldl (fun v c => v * radix hex + digitValue c) v : ℕ) : ℚ) := by
  induction ds generalizing v t with
  | nil => exact ht
  | cons c ds ih =>
    simp only [intFold, List.foldl_cons] at *
    have hr : 0 < radix hex := by cases hex <;> decide
    have hm := foldl_mono (radix hex) hr ds (v * radix hex + digitValue c)
    apply ih (fun c hc => hd c (by simp [hc]))
    · have hdv := digitValue_lt hex c (hd c (by simp))
      have hrl : radix hex ≤ 16 := by cases hex <;> decide
      have hb : val (ar.ofInt (base hex)) = some ((radix hex : ℕ) : ℚ) := by
        rw [base_radix]
        have := hB.ofInt (radix hex : ℤ) (by
          rw [abs_of_nonneg (by positivity)]
          have : ((radix hex : ℕ) : ℤ) ≤ 16 := by exact_mod_cast hrl
          omega)
        rw [this]; simp
      have hv : val (ar.ofInt (digitValue c)) = some ((digitValue c : ℕ) : ℚ) := by
        have := hB.ofInt (digitValue c : ℤ) (by
          rw [abs_of_nonneg (by positivity)]
          have : ((digitValue c : ℕ) : ℤ) ≤ 16 := by exact_mod_cast (by omega)
          omega)
        rw [this]; simp
      have e1 : (v : ℚ) * (radix hex : ℕ) = ((v * radix hex : ℕ) : ℚ) := by push_cast; rfl
      have h1 := hB.mul t _ _ _ ht hb (by rw [e1]; exact rep_nat0 _ (by omega))
      rw [e1] at h1
      have e2 : ((v * radix hex : ℕ) : ℚ) + (digitValue c : ℕ) =
          ((v * radix hex + digitValue c : ℕ) : ℚ) := by push_cast; rfl
      have h2 := hB.add _ _ _ _ h1 hv (by rw [e2]; exact rep_nat0 _ (by omega))
      rw [e2] at h2
      exact h2
    · exact hlt

/-- The digits after the point of a hexadecimal numeral: `v` is what has been read, in units of the
last place, `j` the number of places so far. -/
theorem fracFold_b64 (hB : Binary64 ar val) (ds : List ℕ) (hd : ∀ c ∈ ds, Digit true c)
    (v j : ℕ) (t d : T) (ht : val t = some ((v : ℚ) * (2 : ℚ) ^ (-(4 * j : ℤ))))
    (hdv : val d = some ((2 : ℚ) ^ (4 * (j + 1) : ℤ)))
    (hlt : ds.foldl (fun v c => v * 16 + digitValue c) v < 2 ^ 53)
    (hj : j + ds.length ≤ 200) :
    val (fracFold ar true ds t d) =
      some (((ds.foldl (fun v c => v * 16 + digitValue c) v : ℕ) : ℚ) *
        (2 : ℚ) ^ (-(4 * (j + ds.length) : ℤ))) := by
  induction ds generalizing v j t d with
  | nil => simpa [fracFold] using ht
  | cons c ds ih =>
    simp only [fracFold, List.foldl_cons, List.length_cons] at *
    have hm := foldl_mono 16 (by decide) ds (v * 16 + digitValue c)
    have hc16 : digitValue c < 16 := digitValue_lt true c (hd c (by simp))
    have hvc : val (ar.ofInt (digitValue c)) = some ((digitValue c : ℕ) : ℚ) := by
      have := hB.ofInt (digitValue c : ℤ) (by
        rw [abs_of_nonneg (by positivity)]
        have : ((digitValue c : ℕ) : ℤ) < 16 := by exact_mod_cast hc16
        omega)
      rw [this]; simp
    have h16 : val (ar.ofInt (base true)) = some (16 : ℚ) := by
      have := hB.ofInt 16 (by norm_num)
      have e : base true = 16 := rfl
      rw [e, this]; norm_num
    have two : (2 : ℚ) ≠ 0 := by norm_num
    have e1 : ((digitValue c : ℕ) : ℚ) / (2 : ℚ) ^ (4 * (j + 1) : ℤ) =
        (digitValue c : ℕ) * (2 : ℚ) ^ (-(4 * (j + 1)) : ℤ) := by
      rw [zpow_neg]; rfl
    have h1 := hB.div _ _ _ _ hvc hdv (zpow_ne_zero _ two) (by
      rw [e1]; exact rep_nat _ _ (by omega) (by omega) (by omega))
    rw [e1] at h1
    have e2 : (v : ℚ) * (2 : ℚ) ^ (-(4 * j : ℤ)) + (digitValue c : ℕ) * (2 : ℚ) ^ (-(4 * (j + 1)) : ℤ) =
        ((v * 16 + digitValue c : ℕ) : ℚ) * (2 : ℚ) ^ (-(4 * ((j + 1 : ℕ) : ℤ))) := by
      have : (-(4 * j : ℤ)) = (-(4 * ((j + 1 : ℕ) : ℤ))) + 4 := by push_cast; ring
      rw [this, zpow_add₀ two]
      push_cast
      ring
    have h2 := hB.add _ _ _ _ ht h1 (by
      rw [e2]; exact rep_nat _ _ (by omega) (by push_cast; omega) (by push_cast; omega))
    rw [e2] at h2
    have e3 : (2 : ℚ) ^ (4 * (j + 1) : ℤ) * 16 = (2 : ℚ) ^ (4 * (((j + 1 : ℕ) : ℤ) + 1) : ℤ) := by
      have : (4 * (((j + 1 : ℕ) : ℤ) + 1)) = (4 * ((j : ℤ) + 1)) + 4 := by push_cast; ring
      rw [this, zpow_add₀ two]
      norm_num
    have h3 := hB.mul _ _ _ _ hdv h16 (by
      rw [e3]
      have := rep_nat 1 (4 * (((j + 1 : ℕ) : ℤ) + 1)) (by norm_num) (by push_cast; omega)
        (by push_cast; omega)
      simpa using this)
    rw [e3] at h3
    rw [ih (fun c hc => hd c (by simp [hc])) _ (j + 1) _ _ h2 h3 hlt (by omega)]
    congr 3
    push_cast
    ring

theorem scale_b64 (hB : Binary64 ar val) (e : ℕ) (v : ℕ) (k : ℤ) (neg : Bool) (t : T)
    (ht : val t = some ((v : ℚ) * (2 : ℚ) ^ k)) (hv : v < 2 ^ 53)
    (h1 : -1074 ≤ k) (h2 : k ≤ 971)
    (he : if neg then -1074 ≤ k - e else k + e ≤ 971) :
    val (scale ar true neg e t) =
      some ((v : ℚ) * (2 : ℚ) ^ (if neg then k - e else k + e)) := by
  have two : (2 : ℚ) ≠ 0 := by norm_num
  have h2v : val (ar.ofInt (expBase true)) = some (2 : ℚ) := by
    have := hB.ofInt 2 (by norm_num)
    have e : expBase true = 2 := rfl
    rw [e, this]; norm_num
  induction e generalizing k t with
  | zero => cases neg <;> simpa [scale] using ht
  | succ e ih =>
    rw [scale]
    cases neg
    · simp only [Bool.false_eq_true, if_false] at *
      have e1 : (v : ℚ) * (2 : ℚ) ^ k * 2 = (v : ℚ) * (2 : ℚ) ^ (k + 1) := by
        rw [zpow_add₀ two]; ring
      have h := hB.mul _ _ _ _ ht h2v (by
        rw [e1]; exact rep_nat _ _ hv (by omega) (by push_cast at he; omega))
      rw [e1] at h
      rw [ih (k + 1) _ h (by omega) (by push_cast at he; omega) (by push_cast at he; omega)]
      congr 3
      push_cast
      ring
    · simp only [if_true] at *
      have e1 : (v : ℚ) * (2 : ℚ) ^ k / 2 = (v : ℚ) * (2 : ℚ) ^ (k - 1) := by
        rw [zpow_sub₀ two]; ring
      have h := hB.div _ _ _ _ ht h2v two (by
        rw [e1]; exact rep_nat _ _ hv (by push_cast at he; omega) (by omega))
      rw [e1] at h
      rw [ih (k - 1) _ h (by push_cast at he; omega) (by omega) (by push_cast at he; omega)]
      congr 3
      push_cast
      ring

/-- **Integers are exact.**  A decimal numeral without point and exponent that denotes an integer
below 2^53 in magnitude is converted to exactly that integer, in every rounding mode. -/
theorem integer_exact (hB : Binary64 ar val) (space : Nat → Bool) (dp ws rest : List Nat)
    (n : Numeral) (hw : n.WF) (he : n.Ends dp rest) (hdp : GoodPoint dp) (hsp : GoodSpace space dp)
    (hws : ∀ c ∈ ws, space c = true) (hhex : n.hex = false) (hf : n.frac = none)
    (hx : n.exp = none) (hlt : digitsValue 10 n.int < 2 ^ 53) :
    ∃ t, strtofp ar space dp (ws ++ n.text dp ++ rest) = .ok (t, rest) ∧
      val t = some (if n.sign = [45] then -(digitsValue 10 n.int : ℚ) else digitsValue 10 n.int) := by
  refine ⟨_, strtofp_numeral ar space dp ws rest n hw he hdp hsp hws (by simp [hx, expAbs]), ?_⟩
  have h0 : val (ar.ofInt 0) = some ((0 : ℕ) : ℚ) := by
    have := hB.ofInt 0 (by norm_num)
    rw [this]; simp
  have hi := intFold_b64 hB n.hex n.int hw.int 0 _ h0 (by rw [hhex]; exact hlt)
  unfold computed
  rw [hf, hx]
  simp only [fracApply, expApply]
  have hi' : val (intFold ar n.hex n.int (ar.ofInt 0)) = some (digitsValue 10 n.int : ℚ) := by
    rw [hi, hhex]; rfl
  by_cases hs : n.sign = [45]
  · rw [hs, if_pos (by decide), if_pos rfl]
    exact hB.neg _ _ hi'
  · rw [if_neg (by simpa using hs), if_neg hs]
    exact hi'

/-- **Hexadecimal numerals are exact.**  A hexadecimal numeral whose digits, read without the point,
are below 2^53, and whose last place and scaled last place are in the range of binary64, is
converted to exactly the number it denotes, in every rounding mode.  All texts that `%a` gives for
finite doubles are of this form. -/
theorem hex_exact (hB : Binary64 ar val) (space : Nat → Bool) (dp ws rest : List Nat)
    (n : Numeral) (hw : n.WF) (he : n.Ends dp rest) (hdp : GoodPoint dp) (hsp : GoodSpace space dp)
    (hws : ∀ c ∈ ws, space c = true) (hhex : n.hex = true)
    (hlt : digitsValue 16 (n.int ++ n.frac.getD []) < 2 ^ 53)
    (hlen : (n.frac.getD []).length ≤ 200)
    (hrange : if expNeg n.exp then -1074 ≤ -(4 * (n.frac.getD []).length : ℤ) - expAbs n.exp
      else -(4 * (n.frac.getD []).length : ℤ) + expAbs n.exp ≤ 971) :
    ∃ t, strtofp ar space dp (ws ++ n.text dp ++ rest) = .ok (t, rest) ∧ val t = some n.value := by
  have two : (2 : ℚ) ≠ 0 := by norm_num
  refine ⟨_, strtofp_numeral ar space dp ws rest n hw he hdp hsp hws (by
    split at hrange <;> omega), ?_⟩
  have h0 : val (ar.ofInt 0) = some ((0 : ℕ) : ℚ) := by
    have := hB.ofInt 0 (by norm_num)
    rw [this]; simp
  have happ := digitsValue_append 16 n.int (n.frac.getD [])
  have hle : digitsValue 16 n.int ≤ digitsValue 16 (n.int ++ n.frac.getD []) := by
    rw [happ]
    have : digitsValue 16 n.int * 1 ≤ digitsValue 16 n.int * 16 ^ (n.frac.getD []).length :=
      Nat.mul_le_mul_left _ (Nat.one_le_pow _ _ (by decide))
    omega
  have hi := intFold_b64 hB n.hex n.int hw.int 0 _ h0 (by
    rw [hhex]; exact lt_of_le_of_lt hle hlt)
  have hi' : val (intFold ar n.hex n.int (ar.ofInt 0)) = some (digitsValue 16 n.int : ℚ) := by
    rw [hi, hhex]; rfl
  have hm : val (fracApply ar n.hex (intFold ar n.hex n.int (ar.ofInt 0)) n.frac) =
      some ((digitsValue 16 (n.int ++ n.frac.getD []) : ℕ) *
        (2 : ℚ) ^ (-(4 * (n.frac.getD []).length : ℤ))) := by
    cases hf : n.frac with
    | none =>
      rw [hf] at hlt
      simp only [fracApply, Option.getD_none, List.append_nil, List.length_nil]
      simpa using hi'
    | some f =>
      rw [hf] at hlt hlen
      simp only [fracApply, Option.getD_some] at *
      have hb : val (ar.ofInt (base n.hex)) = some ((2 : ℚ) ^ (4 * (((0 : ℕ) : ℤ) + 1) : ℤ)) := by
        rw [hhex]
        have := hB.ofInt 16 (by norm_num)
        have e : base true = 16 := rfl
        rw [e, this]; norm_num
      have hfd := hw.frac f hf
      rw [hhex] at hfd hb
      rw [hhex] at hi'
      rw [hhex]
      have e0 : f.foldl (fun v c => v * 16 + digitValue c) (digitsValue 16 n.int) =
          digitsValue 16 (n.int ++ f) := by
        unfold digitsValue; rw [List.foldl_append]
      have := fracFold_b64 hB f hfd (digitsValue 16 n.int) 0 _ _ (by simpa using hi') hb
        (by rw [e0]; exact hlt) (by omega)
      rw [this, e0]
      simp
  set v := digitsValue 16 (n.int ++ n.frac.getD []) with hv
  set L := (n.frac.getD []).length with hL
  have hx : val (expApply ar n.hex (fracApply ar n.hex (intFold ar n.hex n.int (ar.ofInt 0)) n.frac)
      n.exp) = some ((v : ℚ) *
        (2 : ℚ) ^ (if expNeg n.exp then -(4 * L : ℤ) - expAbs n.exp else -(4 * L : ℤ) + expAbs n.exp)) := by
    cases hxe : n.exp with
    | none =>
      simp only [expApply, expNeg, expAbs]
      simpa using hm
    | some x =>
      obtain ⟨l, s, ds⟩ := x
      rw [hxe] at hrange
      simp only [expApply, expNeg, expAbs] at *
      rw [hhex] at hm ⊢
      exact scale_b64 hB _ v _ _ _ hm hlt (by omega) (by omega) hrange
  have hval : n.value = (if n.sign = [45] then -1 else 1) * ((v : ℚ) *
        (2 : ℚ) ^ (if expNeg n.exp then -(4 * L : ℤ) - expAbs n.exp else -(4 * L : ℤ) + expAbs n.exp)) := by
    have hman : n.mantissa = (v : ℚ) * (2 : ℚ) ^ (-(4 * L : ℤ)) := by
      unfold Numeral.mantissa
      rw [hhex]
      have hr : radix true = 16 := rfl
      rw [hr, happ, ← hL]
      have e16 : (2 : ℚ) ^ (-(4 * L : ℤ)) = ((16 : ℚ) ^ L)⁻¹ := by
        rw [zpow_neg, zpow_mul]
        norm_num
      rw [e16]
      push_cast
      field_simp
    unfold Numeral.value
    rw [hman, hhex]
    have hr : expRadix true = 2 := rfl
    rw [hr]
    congr 1
    by_cases hn : expNeg n.exp = true
    · rw [if_pos hn, if_pos hn, zpow_sub₀ two]
      push_cast
      rw [zpow_natCast]
      ring
    · rw [if_neg hn, if_neg hn, zpow_add₀ two]
      push_cast
      rw [zpow_natCast]
      ring
  rw [hval]
  unfold computed
  simp only
  by_cases hs : n.sign = [45]
  · rw [hs, if_pos (by decide), if_pos rfl, neg_one_mul]
    exact hB.neg _ _ hx
  · rw [if_neg (by simpa using hs), if_neg hs, one_mul]
    exact hx

end

end Mlibc.Strtod
