import Verif.Math.Mul

/-
options/ansi/musl-generic-math: scalbn, ldexp, scalbln, and their variants for float.
-/
namespace Mlibc.Math

/-! ## The model -/

/-- A product of which one factor is a result. scalbn.c L10-L31 -/
def omul (f : Fmt) (mode : Mode) (x : Out) (v : Nat) : Out :=
  match x with
  | .nan => .nan
  | .bits u => fmul f mode u v

/-- `0x1p1023`, `0x1p127f`: the largest power of two. scalbn.c L10, scalbnf.c L10 -/
def bigPow (f : Fmt) : Nat := pack f 0 (f.bias + f.bias) 0
/-- `0x1p-1022 * 0x1p53`, `0x1p-126f * 0x1p24f`. scalbn.c L21, scalbnf.c L19 -/
def smallPow (f : Fmt) : Nat := pack f 0 (f.bias - (f.bias - 1) + (f.mb + 1)) 0

/-- The last product: `u.i = (uint64_t)(0x3ff+n)<<52`. scalbn.c L30-L32 -/
def lastMul (f : Fmt) (mode : Mode) (y : Out) (n : Int) : Out := omul f mode y (((f.bias : Int) + n).toNat <<< f.mb)

/-- `scalbn`, with `double_t` the same type as double (FLT_EVAL_METHOD 0). scalbn.c L4-L33; scalbnf.c L4-L31, which has the same shape -/
def scalbn (f : Fmt) (mode : Mode) (x : Nat) (n : Int) : Out :=
  if n > f.bias then
    let y := fmul f mode x (bigPow f)
    let n := n - f.bias
    if n > f.bias then
      let y := omul f mode y (bigPow f)
      let n := n - f.bias
      if n > f.bias then lastMul f mode y f.bias else lastMul f mode y n
    else lastMul f mode y n
  else if n < -((f.bias : Int) - 1) then
    let y := fmul f mode x (smallPow f)
    let n := n + (f.bias - 1) - (f.mb + 1)
    if n < -((f.bias : Int) - 1) then
      let y := omul f mode y (smallPow f)
      let n := n + (f.bias - 1) - (f.mb + 1)
      if n < -((f.bias : Int) - 1) then lastMul f mode y (-((f.bias : Int) - 1)) else lastMul f mode y n
    else lastMul f mode y n
  else lastMul f mode (.bits x) n

/-- The conversion of a long to int. scalbln.c L11 -/
def toInt32 (n : Int) : Int := (n + 2147483648) % 4294967296 - 2147483648

/-- `scalbln` of a 64 bit long. scalbln.c L5-L12 -/
def scalbln (f : Fmt) (mode : Mode) (x : Nat) (n : Int) : Out :=
  if n > 2147483647 then scalbn f mode x 2147483647
  else if n < -2147483648 then scalbn f mode x (-2147483648)
  else scalbn f mode x (toInt32 n)

section
variable {f : Fmt} {mode : Mode}

/-- Whether a number is negative. -/
def neg (f : Fmt) (u : Nat) : Bool := decide (sgn f u = 1)

theorem neg_sgn {u v : Nat} (hu : u < 2 ^ f.width) (hv : v < 2 ^ f.width) (h : neg f u = neg f v) : sgn f u = sgn f v := by
  have h1 := sgn_lt hu
  have h2 := sgn_lt hv
  unfold neg at h
  by_cases h3 : sgn f u = 1 <;> by_cases h4 : sgn f v = 1 <;> simp [h3, h4] at h <;> omega

/-- What `scalbn` is to return for `x` of this sign and `u` units: `x 2^n`, rounded. -/
def scaled (f : Fmt) (mode : Mode) (s : Bool) (u : Nat) (n : Int) : Nat := roundTo f mode s (u * 2 ^ n.toNat) (-n).toNat

/-- The product with a power of two. -/
theorem mul_pow (hf : f.Ok) {y : Nat} {e : Nat} (hy : y < 2 ^ f.width) (fy : Finite f y) (h1 : 1 ≤ e) (h2 : e < f.emax) :
    fmul f mode y (pack f 0 e 0) = .bits (scaled f mode (neg f y) (units f y) ((e : Int) - f.bias)) := by
  have hB := hf.bias_big
  have hE := hf.emax_eq
  have he := emax_lt f
  have hp : 0 < 2 ^ f.mb := by positivity
  have e1 := ex_pack (f := f) (s := 0) (e := e) (m := 0) (by omega) hp
  have s1 := sgn_pack (f := f) (s := 0) (e := e) (m := 0) (by omega) hp
  have hs := sgn_lt hy
  unfold fmul
  simp only
  rw [if_neg (by rintro (h | h); exact fy h.1; rw [e1] at h; omega), if_neg (by rintro (h | h); exact fy h; rw [e1] at h; omega), s1,
    units_pack (by omega) hp, if_neg (by omega), Nat.add_zero]
  have hn : decide (sgn f y ≠ 0) = neg f y := by
    unfold neg
    by_cases h : sgn f y = 1 <;> simp [h]
    omega
  rw [hn, scaled]
  congr 1
  refine roundTo_scale hf ?_
  rw [← Nat.pow_add]
  rw [Nat.mul_assoc, Nat.mul_assoc, ← Nat.pow_add, ← Nat.pow_add]
  congr 2
  omega

theorem scaled_scaled (hf : f.Ok) {s : Bool} {u v : Nat} {n m : Int} (h : v * 2 ^ (-n).toNat = u * 2 ^ n.toNat) :
    scaled f mode s v m = scaled f mode s u (n + m) := by
  unfold scaled
  refine roundTo_scale hf ?_
  have hp : 0 < 2 ^ (-n).toNat := by positivity
  refine Nat.eq_of_mul_eq_mul_right hp ?_
  calc v * 2 ^ m.toNat * 2 ^ (-(n + m)).toNat * 2 ^ (-n).toNat = v * 2 ^ (-n).toNat * (2 ^ m.toNat * 2 ^ (-(n + m)).toNat) := by ring
    _ = u * 2 ^ n.toNat * (2 ^ m.toNat * 2 ^ (-(n + m)).toNat) := by rw [h]
    _ = u * (2 ^ n.toNat * (2 ^ m.toNat * 2 ^ (-(n + m)).toNat)) := by ring
    _ = u * (2 ^ (n + m).toNat * (2 ^ (-m).toNat * 2 ^ (-n).toNat)) := by
      rw [← Nat.pow_add, ← Nat.pow_add, ← Nat.pow_add, ← Nat.pow_add]; congr 2; omega
    _ = u * 2 ^ (n + m).toNat * 2 ^ (-m).toNat * 2 ^ (-n).toNat := by ring

/-- What holds after multiplications with large powers: the product is exact, or too large. -/
def Grown (f : Fmt) (mode : Mode) (x y s : Nat) : Prop :=
  (2 ^ (f.mb + 2 * f.bias) ≤ units f x * 2 ^ s ∧ y = tooLarge f mode (neg f x)) ∨
  (y < 2 ^ f.width ∧ Finite f y ∧ neg f y = neg f x ∧ units f y = units f x * 2 ^ s)

theorem grown_start {x : Nat} (hx : x < 2 ^ f.width) (fx : Finite f x) : Grown f mode x x 0 := .inr ⟨hx, fx, rfl, by simp⟩

theorem rep_mul {a s : Nat} (h : Rep f a) : Rep f (a * 2 ^ s) := by
  obtain ⟨k, h1, h2⟩ := h
  refine ⟨k + s, ?_, ?_⟩
  · rw [Nat.pow_add]; exact Nat.mul_dvd_mul_right h1 _
  · rw [← Nat.add_assoc, Nat.pow_add]; exact Nat.mul_le_mul_right _ h2

theorem neg_pack {s e m : Nat} {b : Bool} (hs : s = if b then 1 else 0) (he : e < 2 ^ f.eb) (hm : m < 2 ^ f.mb) : neg f (pack f s e m) = b := by
  unfold neg
  rw [sgn_pack he hm, hs]
  cases b <;> simp

theorem enc_neg (hf : f.Ok) {b : Bool} {m : Nat} (hr : Rep f m) (hl : m < 2 ^ (f.mb + 2 * f.bias)) : enc f ⟨b, m⟩ < 2 ^ f.width ∧ Finite f (enc f ⟨b, m⟩) ∧
    neg f (enc f ⟨b, m⟩) = b ∧ units f (enc f ⟨b, m⟩) = m := by
  obtain ⟨e1, e2, e3⟩ := enc_fields hf (a := ⟨b, m⟩) hr hl
  exact ⟨e1, e2, congrArg Num.neg e3, congrArg Num.mag e3⟩

/-- What is too large stays so. -/
theorem large_mul (hf : f.Ok) {b : Bool} {m : Nat} (h1 : 1 ≤ m) (h2 : m ≤ f.bias) :
    fmul f mode (tooLarge f mode b) (pack f 0 (f.bias + m) 0) = .bits (tooLarge f mode b) := by
  have hE := hf.emax_eq
  have hB := hf.bias_big
  have hs2 : (if b then 1 else 0) < 2 := by split <;> omega
  have inf_case : fmul f mode (pack f (if b then 1 else 0) f.emax 0) (pack f 0 (f.bias + m) 0) = .bits (pack f (if b then 1 else 0) f.emax 0) := by
    have hi := isInf_pack (f := f) (if b then 1 else 0)
    have he := emax_lt f
    have hp : 0 < 2 ^ f.mb := by positivity
    have e1 := ex_pack (f := f) (s := 0) (e := f.bias + m) (m := 0) (by omega) hp
    have s1 := sgn_pack (f := f) (s := 0) (e := f.bias + m) (m := 0) (by omega) hp
    have u1 := units_pack (f := f) (s := 0) (e := f.bias + m) (m := 0) (by omega) hp
    rw [if_neg (by omega)] at u1
    have u2 := units_inf hf hi
    unfold fmul
    simp only
    rw [if_neg (by rintro (h | h); exact h.2 hi.2; rw [e1] at h; omega), if_pos (.inl hi.1), if_neg, s1, sgn_inf]
    · congr 2
      cases b <;> simp
    · rintro (h | h)
      · rw [u2] at h
        have : 0 < 2 ^ (f.mb + 2 * f.bias) := by positivity
        omega
      · rw [u1] at h
        have : 0 < (2 ^ f.mb + 0) * 2 ^ (f.bias + m - 1) := by positivity
        omega
  have max_case : tooLarge f mode b = pack f (if b then 1 else 0) (f.emax - 1) (2 ^ f.mb - 1) →
      fmul f mode (pack f (if b then 1 else 0) (f.emax - 1) (2 ^ f.mb - 1)) (pack f 0 (f.bias + m) 0) = .bits (pack f (if b then 1 else 0) (f.emax - 1) (2 ^ f.mb - 1)) := by
    intro ht
    obtain ⟨m1, m2, m3, m4, m5⟩ := max_fields hf hs2
    rw [mul_pow hf m1 m2 (by omega) (by omega), scaled]
    have hn : neg f (pack f (if b then 1 else 0) (f.emax - 1) (2 ^ f.mb - 1)) = b := by
      unfold neg; rw [m3]; cases b <;> simp
    rw [hn, roundTo_large, ht]
    have hu : units f (pack f (if b then 1 else 0) (f.emax - 1) (2 ^ f.mb - 1)) = (2 ^ f.mb + (2 ^ f.mb - 1)) * 2 ^ (f.emax - 1 - 1) := by
      rw [units, m4, m5, if_neg (by omega)]
    rw [hu]
    rw [show ((f.bias + m : Nat) : Int) - f.bias = m by omega, show (-(m : Int)).toNat = 0 by omega, Int.toNat_natCast, Nat.pow_zero, Nat.mul_one]
    have q1 : 2 ^ f.mb ≤ 2 ^ f.mb + (2 ^ f.mb - 1) := by omega
    calc 2 ^ (f.mb + 2 * f.bias) = 2 ^ f.mb * 2 ^ (f.emax - 1 - 1) * 2 ^ 1 := by
          rw [← Nat.pow_add, ← Nat.pow_add]; congr 1; omega
      _ ≤ (2 ^ f.mb + (2 ^ f.mb - 1)) * 2 ^ (f.emax - 1 - 1) * 2 ^ m :=
          Nat.mul_le_mul (Nat.mul_le_mul_right _ q1) (Nat.pow_le_pow_right (by omega) h1)
  have hor : tooLarge f mode b = pack f (if b then 1 else 0) f.emax 0 ∨ tooLarge f mode b = pack f (if b then 1 else 0) (f.emax - 1) (2 ^ f.mb - 1) := by
    unfold tooLarge
    simp only
    cases mode <;> cases b <;> simp
  rcases hor with h | h
  · rw [h]; exact inf_case
  · rw [h]; exact max_case h

theorem grown_step (hf : f.Ok) {x y s m : Nat} (h : Grown f mode x y s) (h1 : 1 ≤ m) (h2 : m ≤ f.bias) :
    ∃ y', fmul f mode y (pack f 0 (f.bias + m) 0) = .bits y' ∧ Grown f mode x y' (s + m) := by
  have hE := hf.emax_eq
  rcases h with ⟨a1, rfl⟩ | ⟨a1, a2, a3, a4⟩
  · refine ⟨_, large_mul hf h1 h2, .inl ⟨Nat.le_trans a1 ?_, rfl⟩⟩
    exact Nat.mul_le_mul_left _ (Nat.pow_le_pow_right (by omega) (by omega))
  · refine ⟨_, mul_pow hf a1 a2 (by omega) (by omega), ?_⟩
    rw [scaled, show ((f.bias + m : Nat) : Int) - f.bias = m by omega, show (-(m : Int)).toNat = 0 by omega, Int.toNat_natCast]
    have e : units f y * 2 ^ m = units f x * 2 ^ (s + m) := by rw [a4, Nat.pow_add, Nat.mul_assoc]
    rcases Nat.lt_or_ge (units f y * 2 ^ m) (2 ^ (f.mb + 2 * f.bias)) with hl | hl
    · have hr := rep_mul (s := m) (units_rep (f := f) y)
      have := roundTo_exact (mode := mode) (neg := neg f y) 0 hf hr hl
      rw [Nat.pow_zero, Nat.mul_one] at this
      rw [this]
      obtain ⟨b1, b2, b3, b4⟩ := enc_neg hf (b := neg f y) hr hl
      exact .inr ⟨b1, b2, by rw [b3, a3], by rw [b4, e]⟩
    · rw [roundTo_large (by rw [Nat.pow_zero, Nat.mul_one]; exact hl), a3]
      exact .inl ⟨by omega, rfl⟩

theorem grown_end (hf : f.Ok) {x y s : Nat} (h : Grown f mode x y s) : y = scaled f mode (neg f x) (units f x) s := by
  rw [scaled, show (-(s : Int)).toNat = 0 by omega, Int.toNat_natCast]
  rcases h with ⟨a1, rfl⟩ | ⟨a1, a2, a3, a4⟩
  · rw [roundTo_large (by rw [Nat.pow_zero, Nat.mul_one]; exact a1)]
  · have hr := rep_mul (s := s) (units_rep (f := f) x)
    have hl : units f x * 2 ^ s < 2 ^ (f.mb + 2 * f.bias) := by rw [← a4]; exact finite_units_lt hf a2
    have := roundTo_exact (mode := mode) (neg := neg f x) 0 hf hr hl
    rw [Nat.pow_zero, Nat.mul_one] at this
    rw [this, ← a3, ← a4]
    exact (enc_dec hf a1).symm

/-- What holds after multiplications with small powers: the product is exact, or both it and the exact product are subnormal. -/
def Shrunk (f : Fmt) (mode : Mode) (x y s : Nat) : Prop :=
  y < 2 ^ f.width ∧ Finite f y ∧ neg f y = neg f x ∧
  (units f y * 2 ^ s = units f x ∨
    (units f y ≤ 2 ^ f.mb ∧ units f x < 2 ^ f.mb * 2 ^ s ∧ units f x ≠ 0 ∧ (mode.Outward (neg f x) → units f y ≠ 0)))

theorem shrunk_start {x : Nat} (hx : x < 2 ^ f.width) (fx : Finite f x) : Shrunk f mode x x 0 := ⟨hx, fx, rfl, .inl (by simp)⟩

/-- Subnormal results: at most the smallest normal number, and not 0 if rounded away from it. -/
theorem roundTo_sub (hf : f.Ok) {b : Bool} {a j : Nat} (h : a < 2 ^ f.mb * 2 ^ j) :
    roundTo f mode b a j < 2 ^ f.width ∧ Finite f (roundTo f mode b a j) ∧ neg f (roundTo f mode b a j) = b ∧
      units f (roundTo f mode b a j) ≤ 2 ^ f.mb ∧ (a ≠ 0 → mode.Outward b → units f (roundTo f mode b a j) ≠ 0) := by
  have hB := hf.bias_big
  have hmb := hf.mb2
  have ht : lastPlace f a j = j := by
    unfold lastPlace
    by_cases h0 : a = 0
    · subst h0; rw [show Nat.log2 0 = 0 by decide]; omega
    · rw [← Nat.pow_add] at h
      have := (Nat.log2_lt h0).2 h
      omega
  have hrep := roundMag_rep (f := f) (mode := mode) a j b
  have hle : roundMag f mode b a j ≤ 2 ^ f.mb := by
    unfold roundMag
    simp only [ht, Nat.sub_self, Nat.pow_zero, Nat.mul_one]
    have : a / 2 ^ j < 2 ^ f.mb := by rwa [Nat.div_lt_iff_lt_mul (by positivity)]
    split <;> omega
  have hlt : roundMag f mode b a j < 2 ^ (f.mb + 2 * f.bias) :=
    Nat.lt_of_le_of_lt hle (Nat.pow_lt_pow_right (by omega) (by omega))
  have hne : a ≠ 0 → mode.Outward b → roundMag f mode b a j ≠ 0 := by
    intro h0 ho
    unfold roundMag
    simp only [ht, Nat.sub_self, Nat.pow_zero, Nat.mul_one]
    rw [roundsUp_outward ho]
    have := Nat.div_add_mod' a (2 ^ j)
    by_cases hr : a % 2 ^ j = 0
    · have hq : a / 2 ^ j ≠ 0 := by
        intro hc
        rw [hc, hr] at this
        omega
      exact Nat.ne_of_gt (Nat.lt_of_lt_of_le (Nat.pos_of_ne_zero hq) (Nat.le_add_right _ _))
    · simp [hr]
  have heq : roundTo f mode b a j = enc f ⟨b, roundMag f mode b a j⟩ := if_pos hlt
  obtain ⟨e1, e2, e3, e4⟩ := enc_neg hf (b := b) hrep hlt
  rw [heq]
  exact ⟨e1, e2, e3, by rw [e4]; exact hle, by rw [e4]; exact hne⟩

theorem shrunk_step (hf : f.Ok) {x y s K : Nat} (h : Shrunk f mode x y s) (hK : K < f.bias) :
    ∃ y', fmul f mode y (pack f 0 (f.bias - K) 0) = .bits y' ∧ Shrunk f mode x y' (s + K) := by
  have hE := hf.emax_eq
  obtain ⟨a1, a2, a3, a4⟩ := h
  refine ⟨_, mul_pow hf a1 a2 (by omega) (by omega), ?_⟩
  rw [scaled, show (((f.bias - K : Nat) : Int) - f.bias).toNat = 0 by omega, show (-(((f.bias - K : Nat) : Int) - f.bias)).toNat = K by omega, Nat.pow_zero, Nat.mul_one, a3]
  have hsp : 0 < 2 ^ s := by positivity
  have hkp : 0 < 2 ^ K := by positivity
  by_cases hd : 2 ^ K ∣ units f y
  · -- exact
    obtain ⟨c, hc⟩ := hd
    have hrep : Rep f c := by
      obtain ⟨k, r1, r2⟩ := units_rep (f := f) y
      by_cases hk : K ≤ k
      · refine ⟨k - K, ?_, ?_⟩
        · have : 2 ^ k = 2 ^ K * 2 ^ (k - K) := pow_split hk
          rw [this, hc] at r1
          exact Nat.dvd_of_mul_dvd_mul_left hkp r1
        · have : 2 ^ (f.mb + 1 + k) = 2 ^ K * 2 ^ (f.mb + 1 + (k - K)) := by rw [← Nat.pow_add]; congr 1; omega
          rw [this, hc] at r2
          exact Nat.le_of_mul_le_mul_left r2 hkp
      · refine ⟨0, by simp, ?_⟩
        have : 2 ^ (f.mb + 1 + k) ≤ 2 ^ K * 2 ^ (f.mb + 1 + 0) := by rw [← Nat.pow_add]; exact Nat.pow_le_pow_right (by omega) (by omega)
        rw [hc] at r2
        exact Nat.le_of_mul_le_mul_left (Nat.le_trans r2 this) hkp
    have hle : c ≤ units f y := by rw [hc]; exact Nat.le_mul_of_pos_left _ hkp
    have hlt : c < 2 ^ (f.mb + 2 * f.bias) := Nat.lt_of_le_of_lt hle (finite_units_lt hf a2)
    rw [hc, Nat.mul_comm, roundTo_exact K hf hrep hlt]
    obtain ⟨e1, e2, e3, e4⟩ := enc_neg hf (b := neg f x) hrep hlt
    refine ⟨e1, e2, e3, ?_⟩
    rw [e4]
    rcases a4 with h | ⟨b1, b2, b3, b4⟩
    · refine .inl ?_
      rw [← h, hc, Nat.pow_add]; ring
    · refine .inr ⟨by omega, Nat.lt_of_lt_of_le b2 ?_, b3, fun ho hc0 => b4 ho (by rw [hc, hc0, Nat.mul_zero])⟩
      exact Nat.mul_le_mul_left _ (Nat.pow_le_pow_right (by omega) (by omega))
  · -- subnormal
    have hlt : units f y < 2 ^ f.mb * 2 ^ K := by
      by_contra hc
      apply hd
      have h0 : units f y ≠ 0 := by
        have : 0 < 2 ^ f.mb * 2 ^ K := by positivity
        omega
      have := (Nat.le_log2 h0).2 (show 2 ^ (f.mb + K) ≤ units f y by rw [Nat.pow_add]; omega)
      exact Nat.dvd_trans (Nat.pow_dvd_pow _ (by omega)) (ulp_dvd (units_rep (f := f) y))
    have hy0 : units f y ≠ 0 := fun h => hd (by rw [h]; exact Nat.dvd_zero _)
    obtain ⟨e1, e2, e3, e4, e5⟩ := roundTo_sub (mode := mode) hf (b := neg f x) hlt
    refine ⟨e1, e2, e3, .inr ⟨e4, ?_, ?_, e5 hy0⟩⟩
    · rcases a4 with h | ⟨b1, b2, b3, b4⟩
      · rw [← h, Nat.pow_add]
        calc units f y * 2 ^ s < 2 ^ f.mb * 2 ^ K * 2 ^ s := Nat.mul_lt_mul_of_pos_right hlt hsp
          _ = 2 ^ f.mb * (2 ^ s * 2 ^ K) := by ring
      · refine Nat.lt_of_lt_of_le b2 ?_
        exact Nat.mul_le_mul_left _ (Nat.pow_le_pow_right (by omega) (by omega))
    · rcases a4 with h | ⟨b1, b2, b3, b4⟩
      · rw [← h]
        exact Nat.mul_ne_zero hy0 (by omega)
      · exact b3

theorem tiny_same (hf : f.Ok) {b : Bool} {a j a' j' : Nat} (h : 2 * a < 2 ^ j) (h' : 2 * a' < 2 ^ j') (h0 : a ≠ 0 ∨ ¬mode.Outward b) (h0' : a' ≠ 0 ∨ ¬mode.Outward b) :
    roundTo f mode b a j = roundTo f mode b a' j' := by
  rw [roundTo_tiny hf h h0, roundTo_tiny hf h' h0']

/-- The last product, with a power so small that subnormal factors vanish. -/
theorem shrunk_end (hf : f.Ok) {x y s m : Nat} (h : Shrunk f mode x y s) (h1 : f.mb + 2 ≤ m) (h2 : m < f.bias) :
    fmul f mode y (pack f 0 (f.bias - m) 0) = .bits (scaled f mode (neg f x) (units f x) (-((s + m : Nat) : Int))) := by
  have hE := hf.emax_eq
  obtain ⟨a1, a2, a3, a4⟩ := h
  rw [mul_pow hf a1 a2 (by omega) (by omega)]
  rw [scaled, scaled, show (((f.bias - m : Nat) : Int) - f.bias).toNat = 0 by omega, show (-(((f.bias - m : Nat) : Int) - f.bias)).toNat = m by omega, Nat.pow_zero, Nat.mul_one,
    a3, show (-((s + m : Nat) : Int)).toNat = 0 by omega, Nat.pow_zero, Nat.mul_one, neg_neg, Int.toNat_natCast]
  congr 1
  rcases a4 with h | ⟨b1, b2, b3, b4⟩
  · refine roundTo_scale hf ?_
    rw [← h, Nat.pow_add]; ring
  · have hm : 2 ^ (f.mb + 2) ≤ 2 ^ m := Nat.pow_le_pow_right (by omega) h1
    have h4 : 2 ^ (f.mb + 2) = 4 * 2 ^ f.mb := by rw [Nat.pow_add]; ring
    have hp : 0 < 2 ^ f.mb := by positivity
    refine tiny_same hf (by omega) ?_ ?_ (.inl b3)
    · rw [Nat.add_comm, Nat.pow_add]
      have : 2 ^ (f.mb + 2) * 2 ^ s ≤ 2 ^ m * 2 ^ s := Nat.mul_le_mul_right _ hm
      rw [h4, Nat.mul_assoc] at this
      omega
    · by_cases ho : mode.Outward (neg f x)
      · exact .inl (b4 ho)
      · exact .inr ho

theorem shift_pack (e : Nat) : e <<< f.mb = pack f 0 e 0 := by rw [pack, Nat.shiftLeft_eq]; simp

theorem scalbn_eq (hf : f.Ok) (hb : 3 * f.mb + 6 ≤ f.bias) {x : Nat} (hx : x < 2 ^ f.width) (fx : Finite f x) (n : Int) :
    scalbn f mode x n = .bits (scaled f mode (neg f x) (units f x) n) := by
  have hE := hf.emax_eq
  have hmb := hf.mb2
  unfold scalbn
  by_cases h1 : n > f.bias
  · rw [if_pos h1]
    obtain ⟨y1, e1, g1⟩ := grown_step hf (grown_start (mode := mode) hx fx) (m := f.bias) (by omega) (by omega)
    rw [bigPow, e1]
    simp only
    by_cases h2 : n - f.bias > f.bias
    · rw [if_pos h2]
      obtain ⟨y2, e2, g2⟩ := grown_step hf g1 (m := f.bias) (by omega) (by omega)
      simp only [omul]
      rw [e2]
      by_cases h3 : n - f.bias - f.bias > f.bias
      · rw [if_pos h3]
        obtain ⟨y3, e3, g3⟩ := grown_step hf g2 (m := f.bias) (by omega) (by omega)
        rw [lastMul, show ((f.bias : Int) + f.bias).toNat = f.bias + f.bias by omega, shift_pack, omul, e3]
        congr 1
        by_cases h0 : units f x = 0
        · rw [grown_end hf g3, h0, scaled, scaled, Nat.zero_mul, Nat.zero_mul, roundTo_zero _ hf, roundTo_zero _ hf]
        · have hbig : ∀ k, 3 * f.bias ≤ k → 2 ^ (f.mb + 2 * f.bias) ≤ units f x * 2 ^ k := by
            intro k hk
            calc 2 ^ (f.mb + 2 * f.bias) ≤ 2 ^ k := Nat.pow_le_pow_right (by omega) (by omega)
              _ ≤ units f x * 2 ^ k := Nat.le_mul_of_pos_left _ (by omega)
          rw [grown_end hf g3, scaled, scaled, roundTo_large, roundTo_large]
          · rw [show (-n).toNat = 0 by omega, Nat.pow_zero, Nat.mul_one]
            exact hbig _ (by omega)
          · rw [show (-((0 + f.bias + f.bias + f.bias : Nat) : Int)).toNat = 0 by omega, Nat.pow_zero, Nat.mul_one]
            exact hbig _ (by omega)
      · rw [if_neg h3]
        obtain ⟨m, hm⟩ : ∃ m : Nat, n - f.bias - f.bias = m := ⟨(n - f.bias - f.bias).toNat, by omega⟩
        obtain ⟨y3, e3, g3⟩ := grown_step hf g2 (m := m) (by omega) (by omega)
        rw [hm, lastMul, show ((f.bias : Int) + m).toNat = f.bias + m by omega, shift_pack, omul, e3, grown_end hf g3]
        congr 2
        omega
    · rw [if_neg h2]
      obtain ⟨m, hm⟩ : ∃ m : Nat, n - f.bias = m := ⟨(n - f.bias).toNat, by omega⟩
      obtain ⟨y3, e3, g3⟩ := grown_step hf g1 (m := m) (by omega) (by omega)
      rw [hm, lastMul, show ((f.bias : Int) + m).toNat = f.bias + m by omega, shift_pack, omul, e3, grown_end hf g3]
      congr 2
      omega
  · rw [if_neg h1]
    by_cases h2 : n < -((f.bias : Int) - 1)
    · rw [if_pos h2]
      obtain ⟨K, hK⟩ : ∃ K, f.bias = K + (f.mb + 2) := ⟨f.bias - (f.mb + 2), by omega⟩
      have hsm : smallPow f = pack f 0 (f.bias - K) 0 := by unfold smallPow; congr 1; omega
      obtain ⟨y1, e1, g1⟩ := shrunk_step hf (shrunk_start (mode := mode) hx fx) (K := K) (by omega)
      rw [hsm, e1]
      simp only
      by_cases h3 : n + ((f.bias : Int) - 1) - (f.mb + 1) < -((f.bias : Int) - 1)
      · rw [if_pos h3]
        obtain ⟨y2, e2, g2⟩ := shrunk_step hf g1 (K := K) (by omega)
        simp only [omul]
        rw [e2]
        by_cases h4 : n + ((f.bias : Int) - 1) - (f.mb + 1) + ((f.bias : Int) - 1) - (f.mb + 1) < -((f.bias : Int) - 1)
        · rw [if_pos h4]
          rw [lastMul, show ((f.bias : Int) + -((f.bias : Int) - 1)).toNat = f.bias - (f.bias - 1) by omega, shift_pack, omul,
            shrunk_end hf g2 (by omega) (by omega)]
          congr 1
          rw [scaled, scaled]
          by_cases h0 : units f x = 0
          · rw [h0, Nat.zero_mul, Nat.zero_mul, roundTo_zero _ hf, roundTo_zero _ hf]
          · have hu := finite_units_lt hf fx
            have htiny : ∀ k : Int, k ≤ -((0 + K + K + (f.bias - 1) : Nat) : Int) → 2 * (units f x * 2 ^ k.toNat) < 2 ^ (-k).toNat ∧ units f x * 2 ^ k.toNat ≠ 0 := by
              intro k hk
              rw [show k.toNat = 0 by omega, Nat.pow_zero, Nat.mul_one]
              refine ⟨?_, h0⟩
              calc 2 * units f x < 2 * 2 ^ (f.mb + 2 * f.bias) := by omega
                _ = 2 ^ (f.mb + 2 * f.bias + 1) := by rw [Nat.pow_succ]; ring
                _ ≤ 2 ^ (-k).toNat := Nat.pow_le_pow_right (by omega) (by omega)
            have t1 := htiny _ (le_refl _)
            have t2 := htiny n (by omega)
            exact tiny_same hf t1.1 t2.1 (.inl t1.2) (.inl t2.2)
        · rw [if_neg h4]
          obtain ⟨m, hm⟩ : ∃ m : Nat, n + ((f.bias : Int) - 1) - (f.mb + 1) + ((f.bias : Int) - 1) - (f.mb + 1) = -(m : Int) :=
            ⟨(-(n + ((f.bias : Int) - 1) - (f.mb + 1) + ((f.bias : Int) - 1) - (f.mb + 1))).toNat, by omega⟩
          rw [hm, lastMul, show ((f.bias : Int) + -(m : Int)).toNat = f.bias - m by omega, shift_pack, omul, shrunk_end hf g2 (by omega) (by omega)]
          congr 2
          omega
      · rw [if_neg h3]
        obtain ⟨m, hm⟩ : ∃ m : Nat, n + ((f.bias : Int) - 1) - (f.mb + 1) = -(m : Int) := ⟨(-(n + ((f.bias : Int) - 1) - (f.mb + 1))).toNat, by omega⟩
        rw [hm, lastMul, show ((f.bias : Int) + -(m : Int)).toNat = f.bias - m by omega, shift_pack, omul, shrunk_end hf g1 (by omega) (by omega)]
        congr 2
        omega
    · rw [if_neg h2]
      obtain ⟨e, he⟩ : ∃ e : Nat, (f.bias : Int) + n = e := ⟨((f.bias : Int) + n).toNat, by omega⟩
      rw [lastMul, omul, he, Int.toNat_natCast, shift_pack, mul_pow hf hx fx (by omega) (by omega)]
      congr 2
      omega

/-- **scalbn, ldexp**: `x 2^n`, rounded once, whatever the number of products. -/
theorem scalbn_spec (hf : f.Ok) (hb : 3 * f.mb + 6 ≤ f.bias) {x : Nat} (hx : x < 2 ^ f.width) (fx : Finite f x) (n : Int) :
    ∃ r, scalbn f mode x n = .bits r ∧ Rounded f mode (decide (sgn f x = 1)) (units f x * 2 ^ n.toNat) (-n).toNat r :=
  ⟨_, scalbn_eq hf hb hx fx n, roundTo_spec hf _ _ _⟩

theorem double_wide : 3 * double.mb + 6 ≤ double.bias ∧ double.mb + 2 * double.bias < 2147483647 := by decide
theorem float_wide : 3 * float.mb + 6 ≤ float.bias ∧ float.mb + 2 * float.bias < 2147483647 := by decide

/-- 3 * 2^-1075, a tie between the two smallest subnormal numbers: to even. 2^-1074 * 2^3000 overflows. -/
example : scalbn double .nearest 0x4008000000000000 (-1075) = .bits 2 ∧ scalbn float .zero 1 300 = .bits 0x7f7fffff := by decide +kernel

theorem inf_mul (hf : f.Ok) {u e : Nat} (h : IsInf f u) (hu : u < 2 ^ f.width) (h1 : 1 ≤ e) (h2 : e < f.emax) : fmul f mode u (pack f 0 e 0) = .bits u := by
  have he := emax_lt f
  have hp : 0 < 2 ^ f.mb := by positivity
  have e1 := ex_pack (f := f) (s := 0) (e := e) (m := 0) (by omega) hp
  have s1 := sgn_pack (f := f) (s := 0) (e := e) (m := 0) (by omega) hp
  have u1 := units_pack (f := f) (s := 0) (e := e) (m := 0) (by omega) hp
  rw [if_neg (by omega)] at u1
  have u2 := units_inf hf h
  have hs := sgn_lt hu
  unfold fmul
  simp only
  rw [if_neg (by rintro (g | g); exact g.2 h.2; rw [e1] at g; omega), if_pos (.inl h.1), if_neg, s1]
  · conv => rhs; rw [← pack_fields (f := f) u, h.1, h.2]
    congr 2
    by_cases h3 : sgn f u = 0 <;> simp [h3]
    omega
  · rintro (g | g)
    · rw [u2] at g
      have : 0 < 2 ^ (f.mb + 2 * f.bias) := by positivity
      omega
    · rw [u1] at g
      have : 0 < (2 ^ f.mb + 0) * 2 ^ (e - 1) := by positivity
      omega

theorem nan_mul {u v : Nat} (h : IsNan f u) : fmul f mode u v = .nan := by
  unfold fmul
  simp only
  rw [if_pos (.inl h)]

/-- Infinities and NaNs stay what they are. -/
theorem scalbn_special (hf : f.Ok) {x : Nat} (hx : x < 2 ^ f.width) (n : Int) :
    (IsInf f x → scalbn f mode x n = .bits x) ∧ (IsNan f x → scalbn f mode x n = .nan) := by
  have hE := hf.emax_eq
  have hB := hf.bias_big
  constructor
  · intro h
    have hm := fun e h1 h2 => inf_mul (mode := mode) hf h hx (e := e) h1 h2
    have hlast : ∀ n : Int, -((f.bias : Int) - 1) ≤ n → n ≤ f.bias → lastMul f mode (.bits x) n = .bits x := by
      intro n h1 h2
      rw [lastMul, shift_pack, omul, hm _ (by omega) (by omega)]
    have hbig : fmul f mode x (bigPow f) = .bits x := hm _ (by omega) (by omega)
    have hsmall : fmul f mode x (smallPow f) = .bits x := hm _ (by omega) (by omega)
    unfold scalbn
    split
    · simp only [hbig]
      split
      · simp only [omul, hbig]
        split
        · exact hlast _ (by omega) (by omega)
        · exact hlast _ (by omega) (by omega)
      · exact hlast _ (by omega) (by omega)
    · split
      · simp only [hsmall]
        split
        · simp only [omul, hsmall]
          split
          · exact hlast _ (by omega) (by omega)
          · exact hlast _ (by omega) (by omega)
        · exact hlast _ (by omega) (by omega)
      · exact hlast _ (by omega) (by omega)
  · intro h
    have hm := fun v => nan_mul (mode := mode) (v := v) h
    unfold scalbn
    simp only [hm, omul, lastMul, ite_self]

theorem scaled_up (hf : f.Ok) {b : Bool} {u : Nat} {n m : Int} (hn : (f.mb + 2 * f.bias : Int) ≤ n) (hm : (f.mb + 2 * f.bias : Int) ≤ m) :
    scaled f mode b u n = scaled f mode b u m := by
  by_cases h0 : u = 0
  · rw [h0, scaled, scaled, Nat.zero_mul, Nat.zero_mul, roundTo_zero _ hf, roundTo_zero _ hf]
  · have : ∀ k : Int, (f.mb + 2 * f.bias : Int) ≤ k → scaled f mode b u k = tooLarge f mode b := by
      intro k hk
      rw [scaled, roundTo_large]
      rw [show (-k).toNat = 0 by omega, Nat.pow_zero, Nat.mul_one]
      calc 2 ^ (f.mb + 2 * f.bias) ≤ 2 ^ k.toNat := Nat.pow_le_pow_right (by omega) (by omega)
        _ ≤ u * 2 ^ k.toNat := Nat.le_mul_of_pos_left _ (by omega)
    rw [this n hn, this m hm]

theorem scaled_down (hf : f.Ok) {b : Bool} {u : Nat} {n m : Int} (hu : u < 2 ^ (f.mb + 2 * f.bias)) (hn : n < -(f.mb + 2 * f.bias : Int)) (hm : m < -(f.mb + 2 * f.bias : Int)) :
    scaled f mode b u n = scaled f mode b u m := by
  rw [scaled, scaled]
  by_cases h0 : u = 0
  · rw [h0, Nat.zero_mul, Nat.zero_mul, roundTo_zero _ hf, roundTo_zero _ hf]
  · have htiny : ∀ k : Int, k < -(f.mb + 2 * f.bias : Int) → 2 * (u * 2 ^ k.toNat) < 2 ^ (-k).toNat ∧ u * 2 ^ k.toNat ≠ 0 := by
      intro k hk
      rw [show k.toNat = 0 by omega, Nat.pow_zero, Nat.mul_one]
      refine ⟨?_, h0⟩
      calc 2 * u < 2 * 2 ^ (f.mb + 2 * f.bias) := by omega
        _ = 2 ^ (f.mb + 2 * f.bias + 1) := by rw [Nat.pow_succ]; ring
        _ ≤ 2 ^ (-k).toNat := Nat.pow_le_pow_right (by omega) (by omega)
    exact tiny_same hf (htiny n hn).1 (htiny m hm).1 (.inl (htiny n hn).2) (.inl (htiny m hm).2)

/-- **scalbln**: the limit on `n` changes no result. -/
theorem scalbln_spec (hf : f.Ok) (hb : 3 * f.mb + 6 ≤ f.bias ∧ f.mb + 2 * f.bias < 2147483647) {x : Nat} (hx : x < 2 ^ f.width) (fx : Finite f x) (n : Int) :
    ∃ r, scalbln f mode x n = .bits r ∧ Rounded f mode (decide (sgn f x = 1)) (units f x * 2 ^ n.toNat) (-n).toNat r := by
  refine ⟨scaled f mode (neg f x) (units f x) n, ?_, roundTo_spec hf _ _ _⟩
  unfold scalbln
  split
  · rw [scalbn_eq hf hb.1 hx fx, scaled_up hf (n := n) (m := 2147483647) (by omega) (by omega)]
  · split
    · rw [scalbn_eq hf hb.1 hx fx, scaled_down hf (finite_units_lt hf fx) (n := n) (m := -2147483648) (by omega) (by omega)]
    · rw [show toInt32 n = n by unfold toInt32; omega]
      exact scalbn_eq hf hb.1 hx fx n

end

end Mlibc.Math
