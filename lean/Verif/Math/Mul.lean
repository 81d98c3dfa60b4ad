import Verif.Math.Rem

/-
IEEE rounding of an exact result to a number of the format, with overflow and underflow, and the product of two numbers. This is arithmetic of the machine, not
code of mlibc; it is defined here by a computation and shown to be what IEEE 754 asks for.
-/
namespace Mlibc.Math

/-! ## Specification -/

/-- Whether results of this sign are rounded toward zero. -/
def Mode.Inward (mode : Mode) (neg : Bool) : Prop := mode = .zero ∨ (mode = .up ∧ neg = true) ∨ (mode = .down ∧ neg = false)
/-- Whether results of this sign are rounded away from zero. -/
def Mode.Outward (mode : Mode) (neg : Bool) : Prop := (mode = .up ∧ neg = false) ∨ (mode = .down ∧ neg = true)

/-- IEEE 754, 4.3: `r` is the exact magnitude `a / 2^j`, with this sign, rounded to a number of the format. For overflow, infinity counts as the number that
would follow the largest finite one (4.3.1). -/
structure Rounded (f : Fmt) (mode : Mode) (neg : Bool) (a j r : Nat) : Prop where
  lt : r < 2 ^ f.width
  nan : ¬IsNan f r
  sign : sgn f r = if neg then 1 else 0
  /-- toward zero: the largest finite number that is not larger -/
  inward : mode.Inward neg → Finite f r ∧ units f r * 2 ^ j ≤ a ∧ ∀ z, Finite f z → units f z * 2 ^ j ≤ a → units f z ≤ units f r
  /-- away from zero: the smallest number that is not smaller, or infinity -/
  outward : mode.Outward neg → (a ≤ units f r * 2 ^ j ∨ IsInf f r) ∧ ∀ z, ¬IsNan f z → a ≤ units f z * 2 ^ j → units f r ≤ units f z
  /-- to nearest: no number is nearer, and if another one is as near this one is even -/
  nearest : mode = .nearest → ∀ z, ¬IsNan f z →
    |(units f r * 2 ^ j - a : Int)| ≤ |(units f z * 2 ^ j - a : Int)| ∧
    (|(units f r * 2 ^ j - a : Int)| = |(units f z * 2 ^ j - a : Int)| → units f z ≠ units f r → man f r % 2 = 0)

/-! ## The model -/

/-- What a result that is too large becomes: infinity, or the largest number, IEEE 754 7.4. -/
def tooLarge (f : Fmt) (mode : Mode) (neg : Bool) : Nat :=
  let s := if neg then 1 else 0
  let away : Bool := match mode with
    | .nearest => true
    | .up => !neg
    | .down => neg
    | .zero => false
  if away then pack f s f.emax 0 else pack f s (f.emax - 1) (2 ^ f.mb - 1)

/-- The exponent, in units of 2^-j, of the last place of a number near `a / 2^j`. -/
def lastPlace (f : Fmt) (a j : Nat) : Nat := max (Nat.log2 a - f.mb) j

/-- The magnitude `a / 2^j` rounded to the last place, without limit of the exponent. -/
def roundMag (f : Fmt) (mode : Mode) (neg : Bool) (a j : Nat) : Nat :=
  let t := lastPlace f a j
  (a / 2 ^ t + if roundsUp mode neg (a / 2 ^ t) (a % 2 ^ t) (2 ^ t) then 1 else 0) * 2 ^ (t - j)

/-- The number that an exact result `a / 2^j` is rounded to. -/
def roundTo (f : Fmt) (mode : Mode) (neg : Bool) (a j : Nat) : Nat :=
  let m := roundMag f mode neg a j
  if m < 2 ^ (f.mb + 2 * f.bias) then enc f ⟨neg, m⟩ else tooLarge f mode neg

/-- The product of two numbers: the operator * of scalbn.c L31, frexp.c L11. -/
def fmul (f : Fmt) (mode : Mode) (u v : Nat) : Out :=
  let neg : Bool := decide (sgn f u ≠ sgn f v)
  if (ex f u = f.emax ∧ man f u ≠ 0) ∨ (ex f v = f.emax ∧ man f v ≠ 0) then .nan
  else if ex f u = f.emax ∨ ex f v = f.emax then
    if units f u = 0 ∨ units f v = 0 then .nan else .bits (pack f (if neg then 1 else 0) f.emax 0)
  else .bits (roundTo f mode neg (units f u * units f v) (f.bias + f.mb - 1))

section
variable {f : Fmt} {mode : Mode}

/-! ## Proofs -/

theorem log2_bounds {a : Nat} (h : a ≠ 0) : 2 ^ Nat.log2 a ≤ a ∧ a < 2 ^ (Nat.log2 a + 1) := ⟨Nat.log2_self_le h, Nat.lt_log2_self⟩

/-- Above the last place there is no number between two multiples of it. -/
theorem gap (hf : f.Ok) {a j z : Nat} : units f z * 2 ^ j ≤ a / 2 ^ lastPlace f a j * 2 ^ lastPlace f a j ∨
    (a / 2 ^ lastPlace f a j + 1) * 2 ^ lastPlace f a j ≤ units f z * 2 ^ j := by
  have hj : j ≤ lastPlace f a j := by unfold lastPlace; omega
  have hor : lastPlace f a j = j ∨ lastPlace f a j = Nat.log2 a - f.mb := by unfold lastPlace; omega
  generalize lastPlace f a j = t at *
  obtain ⟨k, rfl⟩ : ∃ k, t = j + k := ⟨t - j, by omega⟩
  generalize hq : a / 2 ^ (j + k) = q
  have hs : 2 ^ (j + k) = 2 ^ k * 2 ^ j := by rw [← Nat.pow_add, Nat.add_comm]
  have hk0 : 0 < 2 ^ k := by positivity
  by_cases hz : units f z * 2 ^ j ≤ q * 2 ^ (j + k)
  · exact .inl hz
  refine .inr ?_
  rw [hs, ← Nat.mul_assoc] at hz ⊢
  have hz' : q * 2 ^ k < units f z := by
    by_contra hc
    exact hz (Nat.mul_le_mul_right _ (by omega))
  refine Nat.mul_le_mul_right _ ?_
  by_cases ht : k = 0
  · subst ht
    simp at hz' ⊢
    omega
  · have hl : j + k = Nat.log2 a - f.mb := by omega
    have ha : a ≠ 0 := by
      rintro rfl
      rw [show Nat.log2 0 = 0 by decide] at hl
      omega
    have hqb : 2 ^ f.mb ≤ q := by
      rw [← hq, Nat.le_div_iff_mul_le (by positivity), ← Nat.pow_add]
      have := (log2_bounds ha).1
      rwa [show f.mb + (j + k) = Nat.log2 a by omega]
    have hzb : 2 ^ (f.mb + k) ≤ units f z := by
      have : 2 ^ f.mb * 2 ^ k ≤ q * 2 ^ k := Nat.mul_le_mul_right _ hqb
      rw [Nat.pow_add]; omega
    have hz0 : units f z ≠ 0 := by
      have : 0 < 2 ^ (f.mb + k) := by positivity
      omega
    have hd : 2 ^ k ∣ units f z := by
      refine Nat.dvd_trans ?_ (ulp_dvd (units_rep (f := f) z))
      have := (Nat.le_log2 hz0).2 hzb
      exact Nat.pow_dvd_pow _ (by omega)
    obtain ⟨c, hc⟩ := hd
    rw [hc, Nat.mul_comm (2 ^ k)] at hz' ⊢
    exact Nat.mul_le_mul_right _ (Nat.lt_of_mul_lt_mul_right hz')

theorem roundMag_rep (a j : Nat) (neg : Bool) : Rep f (roundMag f mode neg a j) := by
  unfold roundMag
  simp only
  generalize ht : lastPlace f a j = t
  refine ⟨t - j, Nat.dvd_mul_left _ _, ?_⟩
  rw [Nat.pow_add]
  refine Nat.mul_le_mul_right _ ?_
  have : a / 2 ^ t < 2 ^ (f.mb + 1) := by
    rw [Nat.div_lt_iff_lt_mul (by positivity), ← Nat.pow_add]
    by_cases h0 : a = 0
    · subst h0; positivity
    · refine Nat.lt_of_lt_of_le (log2_bounds h0).2 (Nat.pow_le_pow_right (by omega) ?_)
      unfold lastPlace at ht
      omega
  split <;> omega

theorem man_even (hf : f.Ok) {u c k : Nat} (h : units f u = 2 * c * 2 ^ k) (hc : 2 * c ≤ 2 ^ (f.mb + 1)) : man f u % 2 = 0 := by
  have hmb := hf.mb2
  obtain ⟨b, hb⟩ : ∃ b, f.mb = b + 1 := ⟨f.mb - 1, by omega⟩
  unfold units at h
  split at h
  · rw [h, Nat.mul_assoc]; omega
  · generalize ex f u - 1 = e at h
    have hp : 0 < 2 ^ e := by positivity
    rcases Nat.lt_or_ge k e with hk | hk
    · -- only 2^(mb+1) itself is so large
      have h1 : 2 ^ (f.mb + 1) * 2 ^ k ≤ 2 ^ f.mb * 2 ^ e := by
        rw [← Nat.pow_add, ← Nat.pow_add]
        exact Nat.pow_le_pow_right (by omega) (by omega)
      have h2 : 2 * c * 2 ^ k ≤ 2 ^ (f.mb + 1) * 2 ^ k := Nat.mul_le_mul_right _ hc
      have h3 : man f u * 2 ^ e = 0 := by
        have : (2 ^ f.mb + man f u) * 2 ^ e = 2 ^ f.mb * 2 ^ e + man f u * 2 ^ e := Nat.add_mul _ _ _
        omega
      have : man f u = 0 := by
        rcases Nat.mul_eq_zero.1 h3 with h | h <;> omega
      omega
    · have h1 : 2 ^ k = 2 ^ (k - e) * 2 ^ e := by rw [← Nat.pow_add]; congr 1; omega
      rw [h1, ← Nat.mul_assoc] at h
      have h2 := Nat.eq_of_mul_eq_mul_right hp h
      rw [hb, Nat.pow_succ, Nat.mul_assoc] at h2
      omega

theorem units_inf (hf : f.Ok) {u : Nat} (h : IsInf f u) : units f u = 2 ^ (f.mb + 2 * f.bias) := by
  have hE := hf.emax_eq
  rw [units, h.1, h.2, if_neg (by omega), Nat.add_zero, ← Nat.pow_add, hE, Nat.add_sub_cancel]

theorem inf_or_finite {u : Nat} (h : ¬IsNan f u) : IsInf f u ∨ Finite f u := by
  unfold IsNan IsInf Finite at *
  by_cases h1 : ex f u = f.emax
  · exact .inl ⟨h1, by_contra fun h2 => h ⟨h1, h2⟩⟩
  · exact .inr h1

theorem sgn_inf {s : Nat} : sgn f (pack f s f.emax 0) = s := sgn_pack (emax_lt f) (by positivity)

theorem isInf_pack (s : Nat) : IsInf f (pack f s f.emax 0) := ⟨ex_pack (emax_lt f) (by positivity), man_pack (by positivity)⟩

theorem max_fields (hf : f.Ok) {s : Nat} (hs : s < 2) : let r := pack f s (f.emax - 1) (2 ^ f.mb - 1)
    r < 2 ^ f.width ∧ Finite f r ∧ sgn f r = s ∧ ex f r = f.emax - 1 ∧ man f r = 2 ^ f.mb - 1 := by
  have hE := hf.emax_eq
  have h1 := emax_lt f
  have hp : 0 < 2 ^ f.mb := by positivity
  have e1 : f.emax - 1 < 2 ^ f.eb := by omega
  have m1 : 2 ^ f.mb - 1 < 2 ^ f.mb := by omega
  refine ⟨pack_lt hs e1 m1, ?_, sgn_pack e1 m1, ex_pack e1 m1, man_pack m1⟩
  rw [Finite, ex_pack e1 m1]
  omega

theorem finite_le_max (hf : f.Ok) {s z : Nat} (hs : s < 2) (hz : Finite f z) : units f z ≤ units f (pack f s (f.emax - 1) (2 ^ f.mb - 1)) := by
  obtain ⟨_, _, _, h4, h5⟩ := max_fields hf hs
  have he := ex_lt (f := f) z
  have hm := man_lt (f := f) z
  have hle : ex f z ≤ f.emax - 1 := by unfold Finite Fmt.emax at *; omega
  have h6 : ex f z * 2 ^ f.mb ≤ (f.emax - 1) * 2 ^ f.mb := Nat.mul_le_mul_right _ hle
  have h7 : ex f z * 2 ^ f.mb + man f z ≤ (f.emax - 1) * 2 ^ f.mb + (2 ^ f.mb - 1) := by omega
  rcases Nat.lt_or_eq_of_le h7 with h | h
  · exact Nat.le_of_lt (units_lt (by rw [h4, h5]; exact h))
  · exact Nat.le_of_eq (units_eq (by rw [h4, h5]; exact h))

theorem max_lt (hf : f.Ok) {s : Nat} (hs : s < 2) : units f (pack f s (f.emax - 1) (2 ^ f.mb - 1)) < 2 ^ (f.mb + 2 * f.bias) :=
  finite_units_lt hf (max_fields hf hs).2.1

theorem roundsUp_inward {neg : Bool} {q r u : Nat} (h : mode.Inward neg) : roundsUp mode neg q r u = false := by
  rcases h with rfl | ⟨rfl, rfl⟩ | ⟨rfl, rfl⟩ <;> simp [roundsUp]

theorem roundsUp_outward {neg : Bool} {q r u : Nat} (h : mode.Outward neg) : roundsUp mode neg q r u = decide (r ≠ 0) := by
  rcases h with ⟨rfl, rfl⟩ | ⟨rfl, rfl⟩ <;> simp [roundsUp]

/-- **The rounding of this model is that of IEEE 754.** -/
theorem roundTo_spec (hf : f.Ok) (neg : Bool) (a j : Nat) : Rounded f mode neg a j (roundTo f mode neg a j) := by
  have hgap := fun z => gap (f := f) hf (a := a) (j := j) (z := z)
  have hrep := roundMag_rep (f := f) (mode := mode) a j neg
  have hj : j ≤ lastPlace f a j := by unfold lastPlace; omega
  have hqlt : a / 2 ^ lastPlace f a j < 2 ^ (f.mb + 1) := by
    rw [Nat.div_lt_iff_lt_mul (by positivity), ← Nat.pow_add]
    by_cases h0 : a = 0
    · subst h0; positivity
    · refine Nat.lt_of_lt_of_le (log2_bounds h0).2 (Nat.pow_le_pow_right (by omega) ?_)
      unfold lastPlace
      omega
  unfold roundTo
  simp only
  generalize hM : roundMag f mode neg a j = M at *
  unfold roundMag at hM
  simp only at hM
  generalize lastPlace f a j = t at *
  obtain ⟨k, rfl⟩ : ∃ k, t = j + k := ⟨t - j, by omega⟩
  rw [Nat.add_sub_cancel_left] at hM
  have hs : 2 ^ (j + k) = 2 ^ k * 2 ^ j := by rw [← Nat.pow_add, Nat.add_comm]
  have hdm := Nat.div_add_mod' a (2 ^ (j + k))
  have hr := Nat.mod_lt a (show 2 ^ (j + k) > 0 by positivity)
  generalize a / 2 ^ (j + k) = q at *
  generalize a % 2 ^ (j + k) = r at *
  have hJ : 0 < 2 ^ j := by positivity
  have hMJ : M * 2 ^ j = q * 2 ^ (j + k) + (if roundsUp mode neg q r (2 ^ (j + k)) then 2 ^ (j + k) else 0) := by
    rw [← hM, hs]
    split <;> ring
  have hq1 : (q + 1) * 2 ^ (j + k) = q * 2 ^ (j + k) + 2 ^ (j + k) := by ring
  rw [hq1] at hgap
  have cancel : ∀ x y : Nat, x * 2 ^ j ≤ y * 2 ^ j → x ≤ y := fun x y h => Nat.le_of_mul_le_mul_right h hJ
  by_cases hlt : M < 2 ^ (f.mb + 2 * f.bias)
  · rw [if_pos hlt]
    obtain ⟨e1, e2, e3⟩ := enc_fields hf (a := ⟨neg, M⟩) hrep hlt
    have hu : units f (enc f ⟨neg, M⟩) = M := by rw [← dec_mag, e3]
    have hsg : sgn f (enc f ⟨neg, M⟩) = if neg then 1 else 0 := by
      have h1 := congrArg Num.neg e3
      simp only [dec] at h1
      have := sgn_lt e1
      cases neg
      · simp at h1 ⊢; omega
      · simpa using h1
    generalize enc f ⟨neg, M⟩ = R at *
    refine ⟨e1, fun h => e2 h.1, hsg, ?_, ?_, ?_⟩
    · intro hi
      rw [roundsUp_inward hi] at hMJ
      simp only [Bool.false_eq_true, if_false] at hMJ
      rw [hu]
      refine ⟨e2, by omega, fun z _ hz => cancel _ _ ?_⟩
      rcases hgap z with h | h <;> omega
    · intro ho
      rw [roundsUp_outward ho] at hMJ
      rw [hu]
      by_cases h0 : r = 0
      · simp only [h0, ne_eq, not_true_eq_false, decide_false, Bool.false_eq_true, if_false] at hMJ
        exact ⟨.inl (by omega), fun z _ hz => cancel _ _ (by omega)⟩
      · simp only [h0, ne_eq, not_false_eq_true, decide_true, if_true] at hMJ
        refine ⟨.inl (by omega), fun z _ hz => cancel _ _ ?_⟩
        rcases hgap z with h | h <;> omega
    · intro hn z _
      subst hn
      rw [hu]
      have hz := hgap z
      have hcast : ∀ x : Nat, (x : Int) * 2 ^ j = ((x * 2 ^ j : Nat) : Int) := fun x => by push_cast; rfl
      rw [hcast, hcast]
      by_cases hup : roundsUp .nearest neg q r (2 ^ (j + k)) = true
      · rw [hup] at hMJ hM
        simp only [if_true] at hMJ hM
        simp only [roundsUp, Bool.or_eq_true, Bool.and_eq_true, decide_eq_true_eq] at hup
        constructor
        · rw [abs_of_nonneg (by omega)]
          rcases hz with h | h
          · rw [abs_of_nonpos (by omega)]; omega
          · rw [abs_of_nonneg (by omega)]; omega
        · intro heq hne
          rw [abs_of_nonneg (by omega)] at heq
          have hne' : units f z * 2 ^ j ≠ M * 2 ^ j := fun h => hne (Nat.eq_of_mul_eq_mul_right hJ h)
          have hodd : q % 2 = 1 := by
            rcases hz with h | h
            · rw [abs_of_nonpos (by omega)] at heq; omega
            · rw [abs_of_nonneg (by omega)] at heq; omega
          exact man_even hf (c := (q + 1) / 2) (k := k) (by rw [hu, ← hM]; congr 1; omega) (by omega)
      · have hup' : roundsUp .nearest neg q r (2 ^ (j + k)) = false := by simpa using hup
        rw [hup'] at hMJ hM
        simp only [Bool.false_eq_true, if_false, Nat.add_zero] at hMJ hM
        simp only [roundsUp, Bool.or_eq_true, Bool.and_eq_true, decide_eq_true_eq] at hup
        constructor
        · rw [abs_of_nonpos (by omega)]
          rcases hz with h | h
          · rw [abs_of_nonpos (by omega)]; omega
          · rw [abs_of_nonneg (by omega)]; omega
        · intro heq hne
          rw [abs_of_nonpos (by omega)] at heq
          have hne' : units f z * 2 ^ j ≠ M * 2 ^ j := fun h => hne (Nat.eq_of_mul_eq_mul_right hJ h)
          have heven : q % 2 = 0 := by
            rcases hz with h | h
            · rw [abs_of_nonpos (by omega)] at heq; omega
            · rw [abs_of_nonneg (by omega)] at heq; omega
          exact man_even hf (c := q / 2) (k := k) (by rw [hu, ← hM]; congr 1; omega) (by omega)
  · rw [if_neg hlt]
    have hs2 : (if neg then 1 else 0) < 2 := by split <;> omega
    have hB : 2 ^ (f.mb + 2 * f.bias) * 2 ^ j ≤ M * 2 ^ j := Nat.mul_le_mul_right _ (by omega)
    have hfin : ∀ z, Finite f z → units f z * 2 ^ j < 2 ^ (f.mb + 2 * f.bias) * 2 ^ j := fun z hz =>
      Nat.mul_lt_mul_of_pos_right (finite_units_lt hf hz) hJ
    have inf_case : (mode.Outward neg ∨ mode = .nearest) → Rounded f mode neg a j (pack f (if neg then 1 else 0) f.emax 0) := by
      intro hmode
      have hinf := isInf_pack (f := f) (if neg then 1 else 0)
      have hui := units_inf hf hinf
      have hman : man f (pack f (if neg then 1 else 0) f.emax 0) = 0 := hinf.2
      refine ⟨pack_lt hs2 (emax_lt f) (by positivity), fun h => h.2 hinf.2, sgn_inf, ?_, ?_, ?_⟩
      · intro hi
        exfalso
        rcases hmode with h | h
        · rcases h with ⟨rfl, rfl⟩ | ⟨rfl, rfl⟩ <;> simp [Mode.Inward] at hi
        · subst h; simp [Mode.Inward] at hi
      · intro ho
        refine ⟨.inr hinf, fun z hz hza => ?_⟩
        rcases inf_or_finite hz with h | h
        · rw [hui, units_inf hf h]
        · exfalso
          have h1 := hfin z h
          rw [roundsUp_outward ho] at hMJ
          by_cases h0 : r = 0
          · simp only [h0, ne_eq, not_true_eq_false, decide_false, Bool.false_eq_true, if_false] at hMJ
            omega
          · simp only [h0, ne_eq, not_false_eq_true, decide_true, if_true] at hMJ
            rcases hgap z with h | h <;> omega
      · intro hn z hz
        refine ⟨?_, fun _ _ => by rw [hman]⟩
        subst hn
        rcases inf_or_finite hz with h | h
        · rw [hui, units_inf hf h]
        · have h1 := hfin z h
          have hcast : ∀ x : Nat, (x : Int) * 2 ^ j = ((x * 2 ^ j : Nat) : Int) := fun x => by push_cast; rfl
          rw [hcast, hcast, hui]
          have hz := hgap z
          generalize units f z * 2 ^ j = Z at *
          generalize 2 ^ (f.mb + 2 * f.bias) * 2 ^ j = B at *
          by_cases hup : roundsUp .nearest neg q r (2 ^ (j + k)) = true
          · rw [hup] at hMJ
            simp only [if_true] at hMJ
            simp only [roundsUp, Bool.or_eq_true, Bool.and_eq_true, decide_eq_true_eq] at hup
            by_cases hab : B ≤ a
            · rw [abs_of_nonpos (by omega), abs_of_nonpos (by omega)]; omega
            · rw [abs_of_nonneg (by omega), abs_of_nonpos (by omega)]; omega
          · have hup' : roundsUp .nearest neg q r (2 ^ (j + k)) = false := by simpa using hup
            rw [hup'] at hMJ
            simp only [Bool.false_eq_true, if_false, Nat.add_zero] at hMJ
            rw [abs_of_nonpos (by omega), abs_of_nonpos (by omega)]; omega
    have max_case : mode.Inward neg → Rounded f mode neg a j (pack f (if neg then 1 else 0) (f.emax - 1) (2 ^ f.mb - 1)) := by
      intro hi
      obtain ⟨m1, m2, m3, _, _⟩ := max_fields hf hs2
      refine ⟨m1, fun h => m2 h.1, m3, ?_, ?_, ?_⟩
      · intro _
        rw [roundsUp_inward hi] at hMJ
        simp only [Bool.false_eq_true, if_false, Nat.add_zero] at hMJ
        have := hfin _ m2
        exact ⟨m2, by omega, fun z hz _ => finite_le_max hf hs2 hz⟩
      · intro ho
        exfalso
        rcases ho with ⟨rfl, rfl⟩ | ⟨rfl, rfl⟩ <;> simp [Mode.Inward] at hi
      · intro hn
        subst hn; simp [Mode.Inward] at hi
    unfold tooLarge
    simp only
    cases mode with
    | nearest => exact inf_case (.inr rfl)
    | up =>
      cases neg with
      | true => exact max_case (.inr (.inl ⟨rfl, rfl⟩))
      | false => exact inf_case (.inl (.inl ⟨rfl, rfl⟩))
    | down =>
      cases neg with
      | true => exact inf_case (.inl (.inr ⟨rfl, rfl⟩))
      | false => exact max_case (.inr (.inr ⟨rfl, rfl⟩))
    | zero => exact max_case (.inl rfl)

/-- The bits without the sign; they are ordered as the magnitudes are. -/
def code (f : Fmt) (u : Nat) : Nat := ex f u * 2 ^ f.mb + man f u

theorem code_lt (u : Nat) : code f u < 2 ^ (f.mb + f.eb) := by
  have h1 := ex_lt (f := f) u
  have h2 := man_lt (f := f) u
  have : (ex f u + 1) * 2 ^ f.mb ≤ 2 ^ f.eb * 2 ^ f.mb := Nat.mul_le_mul_right _ h1
  have h3 : (ex f u + 1) * 2 ^ f.mb = ex f u * 2 ^ f.mb + 2 ^ f.mb := by ring
  rw [code, Nat.add_comm f.mb, Nat.pow_add]
  omega

theorem code_self {c : Nat} (h : c < 2 ^ (f.mb + f.eb)) : code f c = c ∧ sgn f c = 0 := by
  have h1 : sgn f c = 0 := by rw [sgn, Nat.shiftRight_eq_div_pow, Nat.div_eq_of_lt h]
  have h2 := pack_fields (f := f) c
  rw [h1, pack, Nat.zero_mul, Nat.zero_add] at h2
  exact ⟨h2, h1⟩

theorem code_pos_lt {u v : Nat} : units f u < units f v ↔ code f u < code f v := by
  constructor
  · intro h
    by_contra hc
    rcases Nat.lt_or_eq_of_le (Nat.le_of_not_lt hc) with h1 | h1
    · have := units_lt h1; omega
    · have := units_eq h1; omega
  · exact fun h => units_lt h

theorem not_nan_code (hf : f.Ok) {u : Nat} : ¬IsNan f u ↔ code f u ≤ f.emax * 2 ^ f.mb := by
  have h1 := ex_lt (f := f) u
  have h2 := man_lt (f := f) u
  have h3 : ex f u ≤ f.emax := by unfold Fmt.emax; omega
  unfold IsNan code
  constructor
  · intro h
    by_cases he : ex f u = f.emax
    · have : man f u = 0 := by_contra fun h0 => h ⟨he, h0⟩
      rw [he, this, Nat.add_zero]
    · have : (ex f u + 1) * 2 ^ f.mb ≤ f.emax * 2 ^ f.mb := Nat.mul_le_mul_right _ (by omega)
      have : (ex f u + 1) * 2 ^ f.mb = ex f u * 2 ^ f.mb + 2 ^ f.mb := by ring
      omega
  · rintro h ⟨he, hm⟩
    rw [he] at h
    omega

theorem code_parity (hf : f.Ok) (u : Nat) : code f u % 2 = man f u % 2 := by
  have := hf.mb2
  obtain ⟨b, hb⟩ : ∃ b, f.mb = b + 1 := ⟨f.mb - 1, by omega⟩
  unfold code
  have : ex f u * 2 ^ f.mb = 2 * (ex f u * 2 ^ b) := by rw [hb, Nat.pow_succ]; ring
  omega

/-- Two even numbers are not neighbours. -/
theorem between (hf : f.Ok) {r r' : Nat} (h : units f r < units f r') (h' : ¬IsNan f r') (e : man f r % 2 = 0) (e' : man f r' % 2 = 0) :
    ∃ z, ¬IsNan f z ∧ units f r < units f z ∧ units f z < units f r' := by
  have h1 := code_pos_lt.1 h
  have p1 := code_parity hf r
  have p2 := code_parity hf r'
  have h2 := code_lt (f := f) r'
  obtain ⟨c1, _⟩ := code_self (f := f) (c := code f r + 1) (by omega)
  refine ⟨code f r + 1, ?_, code_pos_lt.2 (by omega), code_pos_lt.2 (by omega)⟩
  have := (not_nan_code hf).1 h'
  exact (not_nan_code hf).2 (by omega)

/-- The specification leaves no choice. -/
theorem rounded_unique (hf : f.Ok) {neg : Bool} {a j r r' : Nat} (h : Rounded f mode neg a j r) (h' : Rounded f mode neg a j r') : r = r' := by
  have hJ : 0 < 2 ^ j := by positivity
  refine bits_ext hf h.lt h'.lt (by rw [h.sign, h'.sign]) ?_
  by_cases hi : mode.Inward neg
  · obtain ⟨a1, a2, a3⟩ := h.inward hi
    obtain ⟨b1, b2, b3⟩ := h'.inward hi
    exact Nat.le_antisymm (b3 _ a1 a2) (a3 _ b1 b2)
  by_cases ho : mode.Outward neg
  · obtain ⟨a1, a2⟩ := h.outward ho
    obtain ⟨b1, b2⟩ := h'.outward ho
    have big : ∀ x y, (∀ z, ¬IsNan f z → a ≤ units f z * 2 ^ j → units f y ≤ units f z) → ¬IsNan f x → ¬IsNan f y →
        (a ≤ units f x * 2 ^ j ∨ IsInf f x) → units f y ≤ units f x := by
      intro x y hy hx hyn hor
      rcases hor with h | h
      · exact hy x hx h
      · rw [units_inf hf h]
        rcases inf_or_finite hyn with h | h
        · exact Nat.le_of_eq (units_inf hf h)
        · exact Nat.le_of_lt (finite_units_lt hf h)
    exact Nat.le_antisymm (big r' r a2 h'.nan h.nan b1) (big r r' b2 h.nan h'.nan a1)
  · have hn : mode = .nearest := by
      cases mode <;> cases neg <;> simp [Mode.Inward, Mode.Outward] at hi ho ⊢
    by_contra hne
    have h1 := h.nearest hn r' h'.nan
    have h2 := h'.nearest hn r h.nan
    have heq := le_antisymm h1.1 h2.1
    have e1 := h1.2 heq (Ne.symm hne)
    have e2 := h2.2 heq.symm hne
    -- both are even, and a number lies between them
    have key : ∀ x y, units f x < units f y → |(units f x * 2 ^ j - a : Int)| = |(units f y * 2 ^ j - a : Int)| → ¬IsNan f y →
        man f x % 2 = 0 → man f y % 2 = 0 → (∀ z, ¬IsNan f z → |(units f x * 2 ^ j - a : Int)| ≤ |(units f z * 2 ^ j - a : Int)|) → False := by
      intro x y hxy he hy ex ey hall
      obtain ⟨z, z1, z2, z3⟩ := between hf hxy hy ex ey
      have h3 := hall z z1
      have hcast : ∀ x : Nat, (x : Int) * 2 ^ j = ((x * 2 ^ j : Nat) : Int) := fun x => by push_cast; rfl
      rw [hcast, hcast] at he h3
      have h4 : units f x * 2 ^ j < units f z * 2 ^ j := Nat.mul_lt_mul_of_pos_right z2 hJ
      have h5 : units f z * 2 ^ j < units f y * 2 ^ j := Nat.mul_lt_mul_of_pos_right z3 hJ
      generalize units f x * 2 ^ j = X at *
      generalize units f y * 2 ^ j = Y at *
      generalize units f z * 2 ^ j = Z at *
      rcases abs_cases ((X : Int) - a) with ⟨q1, q2⟩ | ⟨q1, q2⟩ <;> rcases abs_cases ((Y : Int) - a) with ⟨q3, q4⟩ | ⟨q3, q4⟩ <;>
        rcases abs_cases ((Z : Int) - a) with ⟨q5, q6⟩ | ⟨q5, q6⟩ <;> omega
    rcases Nat.lt_or_gt_of_ne hne with h | h
    · exact key r r' h heq h'.nan e1 e2 (fun z hz => (‹Rounded f mode neg a j r›.nearest hn z hz).1)
    · exact key r' r h heq.symm (‹Rounded f mode neg a j r›.nan) e2 e1 (fun z hz => (h'.nearest hn z hz).1)

/-- 1.5 of the smallest number is a tie, to even. -/
example : Rounded float .nearest false 3 1 2 := by
  have : roundTo float .nearest false 3 1 = 2 := by decide +kernel
  rw [← this]; exact roundTo_spec float_ok _ _ _

/-- Half a unit above the largest number is too large. -/
example : Rounded float .nearest true (2 ^ 278 - 2 ^ 253) 0 0xff800000 := by
  have : roundTo float .nearest true (2 ^ 278 - 2 ^ 253) 0 = 0xff800000 := by decide +kernel
  rw [← this]; exact roundTo_spec float_ok true _ _

/-- **Products are rounded correctly.** -/
theorem fmul_spec (hf : f.Ok) {u v : Nat} (fu : Finite f u) (fv : Finite f v) :
    ∃ r, fmul f mode u v = .bits r ∧ Rounded f mode (decide (sgn f u ≠ sgn f v)) (units f u * units f v) (f.bias + f.mb - 1) r := by
  refine ⟨_, ?_, roundTo_spec hf _ _ _⟩
  unfold fmul
  simp only
  rw [if_neg (by rintro (h | h); exact fu h.1; exact fv h.1), if_neg (by rintro (h | h); exact fu h; exact fv h)]

theorem rounded_scale {neg : Bool} {a j a' j' r : Nat} (he : a * 2 ^ j' = a' * 2 ^ j) (h : Rounded f mode neg a j r) : Rounded f mode neg a' j' r := by
  have hJ : 0 < 2 ^ j := by positivity
  have hJ' : 0 < 2 ^ j' := by positivity
  have le1 : ∀ x : Nat, x * 2 ^ j ≤ a ↔ x * 2 ^ j' ≤ a' := by
    intro x
    rw [← Nat.mul_le_mul_right_iff hJ', he, Nat.mul_right_comm, Nat.mul_le_mul_right_iff hJ]
  have le2 : ∀ x : Nat, a ≤ x * 2 ^ j ↔ a' ≤ x * 2 ^ j' := by
    intro x
    rw [← Nat.mul_le_mul_right_iff hJ', he, Nat.mul_right_comm, Nat.mul_le_mul_right_iff hJ]
  have ab : ∀ x : Nat, |(x * 2 ^ j - a : Int)| * 2 ^ j' = |(x * 2 ^ j' - a' : Int)| * 2 ^ j := by
    intro x
    have p1 : (0 : Int) < 2 ^ j := by positivity
    have p2 : (0 : Int) < 2 ^ j' := by positivity
    have he' : (a : Int) * 2 ^ j' = a' * 2 ^ j := by exact_mod_cast he
    have : ((x : Int) * 2 ^ j - a) * 2 ^ j' = ((x : Int) * 2 ^ j' - a') * 2 ^ j := by
      rw [sub_mul, sub_mul, he']; ring
    have g : ∀ y c : Int, 0 < c → |y| * c = |y * c| := by
      intro y c hc
      rcases abs_cases y with ⟨q1, q2⟩ | ⟨q1, q2⟩
      · rw [q1, abs_of_nonneg (mul_nonneg q2 hc.le)]
      · rw [q1, abs_of_nonpos (by nlinarith)]; ring
    rw [g _ _ p2, g _ _ p1, this]
  have p1 : (0 : Int) < 2 ^ j := by positivity
  have p2 : (0 : Int) < 2 ^ j' := by positivity
  refine ⟨h.lt, h.nan, h.sign, fun hi => ?_, fun ho => ?_, fun hn z hz => ?_⟩
  · obtain ⟨h1, h2, h3⟩ := h.inward hi
    exact ⟨h1, (le1 _).1 h2, fun z hz hza => h3 z hz ((le1 _).2 hza)⟩
  · obtain ⟨h1, h2⟩ := h.outward ho
    exact ⟨h1.imp (le2 _).1 id, fun z hz hza => h2 z hz ((le2 _).2 hza)⟩
  · obtain ⟨h1, h2⟩ := h.nearest hn z hz
    have e1 := ab (units f r)
    have e2 := ab (units f z)
    refine ⟨?_, fun heq hne => h2 ?_ hne⟩
    · refine le_of_mul_le_mul_right ?_ p1
      rw [← e1, ← e2]
      exact mul_le_mul_of_nonneg_right h1 p2.le
    · refine mul_right_cancel₀ (ne_of_gt p2) ?_
      rw [e1, e2, heq]

theorem roundTo_scale (hf : f.Ok) {neg : Bool} {a j a' j' : Nat} (he : a * 2 ^ j' = a' * 2 ^ j) : roundTo f mode neg a j = roundTo f mode neg a' j' :=
  rounded_unique hf (rounded_scale he (roundTo_spec hf neg a j)) (roundTo_spec hf neg a' j')

theorem roundTo_exact {neg : Bool} {m : Nat} (j : Nat) (hf : f.Ok) (hr : Rep f m) (hl : m < 2 ^ (f.mb + 2 * f.bias)) :
    roundTo f mode neg (m * 2 ^ j) j = enc f ⟨neg, m⟩ := by
  rw [roundTo_scale hf (a' := m) (j' := 0) (by ring)]
  have : roundMag f mode neg m 0 = m := by
    have h := rnd_exact (mode := mode) (neg := neg) hr
    unfold rnd ulp at h
    unfold roundMag lastPlace
    simpa using h
  unfold roundTo
  rw [this]
  exact if_pos hl

theorem roundTo_zero {neg : Bool} (j : Nat) (hf : f.Ok) : roundTo f mode neg 0 j = enc f ⟨neg, 0⟩ := by
  have := roundTo_exact (mode := mode) (neg := neg) j hf (m := 0) ⟨0, by simp, by simp⟩ (by positivity)
  rwa [Nat.zero_mul] at this

open Classical in
theorem roundTo_tiny (hf : f.Ok) {neg : Bool} {a j : Nat} (h : 2 * a < 2 ^ j) (h0 : a ≠ 0 ∨ ¬mode.Outward neg) :
    roundTo f mode neg a j = enc f ⟨neg, if mode.Outward neg then 1 else 0⟩ := by
  have hl : lastPlace f a j = j := by
    unfold lastPlace
    by_cases ha : a = 0
    · subst ha; rw [show Nat.log2 0 = 0 by decide]; omega
    · have := (Nat.log2_lt ha).2 (show a < 2 ^ j by omega)
      omega
  have hq : a / 2 ^ j = 0 := Nat.div_eq_of_lt (by omega)
  have hm : a % 2 ^ j = a := Nat.mod_eq_of_lt (by omega)
  have hM : roundMag f mode neg a j = if mode.Outward neg then 1 else 0 := by
    unfold roundMag
    simp only [hl, hq, hm, Nat.sub_self, Nat.pow_zero, Nat.mul_one, Nat.zero_add]
    have : roundsUp mode neg 0 a (2 ^ j) = decide (mode.Outward neg) := by
      cases mode <;> cases neg <;> simp [roundsUp, Mode.Outward] at h0 ⊢ <;> omega
    rw [this]
    simp
  unfold roundTo
  rw [hM]
  refine if_pos ?_
  have := hf.mb2
  have : 1 < 2 ^ (f.mb + 2 * f.bias) := Nat.one_lt_two_pow (by omega)
  split <;> omega

theorem roundTo_large {neg : Bool} {a j : Nat} (h : 2 ^ (f.mb + 2 * f.bias) * 2 ^ j ≤ a) : roundTo f mode neg a j = tooLarge f mode neg := by
  unfold roundTo
  refine if_neg ?_
  have ha : a ≠ 0 := by
    have : 0 < 2 ^ (f.mb + 2 * f.bias) * 2 ^ j := by positivity
    omega
  rw [← Nat.pow_add] at h
  have hl := (Nat.le_log2 ha).2 h
  have ht : lastPlace f a j = Nat.log2 a - f.mb := by unfold lastPlace; omega
  unfold roundMag
  simp only
  have hq : 2 ^ f.mb ≤ a / 2 ^ lastPlace f a j := by
    rw [Nat.le_div_iff_mul_le (by positivity), ← Nat.pow_add, ht, show f.mb + (Nat.log2 a - f.mb) = Nat.log2 a by omega]
    exact (log2_bounds ha).1
  have h1 : 2 ^ f.mb * 2 ^ (lastPlace f a j - j) ≤
      (a / 2 ^ lastPlace f a j + if roundsUp mode neg (a / 2 ^ lastPlace f a j) (a % 2 ^ lastPlace f a j) (2 ^ lastPlace f a j) then 1 else 0) *
        2 ^ (lastPlace f a j - j) := Nat.mul_le_mul_right _ (by omega)
  have h2 : 2 ^ (f.mb + 2 * f.bias) ≤ 2 ^ f.mb * 2 ^ (lastPlace f a j - j) := by
    rw [← Nat.pow_add]
    exact Nat.pow_le_pow_right (by omega) (by omega)
  omega

end

end Mlibc.Math
