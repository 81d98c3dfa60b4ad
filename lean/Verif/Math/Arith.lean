import Verif.Math.Bits

/-
Sums of floating point numbers in the four rounding modes, for numbers whose sum is in range.
-/
namespace Mlibc.Math

/-- The rounding modes of <fenv.h>. -/
inductive Mode
  | nearest | up | down | zero
  deriving DecidableEq, Repr

/-- A finite number: a sign, which zeros have too, and a magnitude in units of the smallest positive number. -/
structure Num where
  neg : Bool
  mag : Nat
  deriving DecidableEq, Repr

def Num.val (a : Num) : Int := if a.neg then -(a.mag : Int) else a.mag
/-- Negation: round.c L19, L33. -/
def Num.flip (a : Num) : Num := ⟨!a.neg, a.mag⟩

/-- The distance between numbers of this magnitude. -/
def ulp (f : Fmt) (a : Nat) : Nat := 2 ^ (Nat.log2 a - f.mb)

/-- Whether a magnitude of which `q` units are certain and `r` of a unit of `u` are left is rounded to the next one. -/
def roundsUp (mode : Mode) (neg : Bool) (q r u : Nat) : Bool :=
  match mode with
  | .nearest => decide (u < 2 * r) || (decide (u = 2 * r) && decide (q % 2 = 1))
  | .up => decide (r ≠ 0) && !neg
  | .down => decide (r ≠ 0) && neg
  | .zero => false

/-- IEEE rounding of a magnitude (no range of exponents above). -/
def rnd (f : Fmt) (mode : Mode) (neg : Bool) (a : Nat) : Nat :=
  (a / ulp f a + if roundsUp mode neg (a / ulp f a) (a % ulp f a) (ulp f a) then 1 else 0) * ulp f a

/-- IEEE addition of finite numbers whose sum does not overflow: the operator + of floor.c L20-L30, round.c L25-L31. Arithmetic of the machine, not code of
mlibc. -/
def fadd (f : Fmt) (mode : Mode) (a b : Num) : Num :=
  let z := a.val + b.val
  if z = 0 then (if a.neg = b.neg then ⟨a.neg, 0⟩ else ⟨decide (mode = .down), 0⟩)
  else ⟨decide (z < 0), rnd f mode (decide (z < 0)) z.natAbs⟩

/-- Subtraction: the operator - of floor.c L20-L28. -/
def fsub (f : Fmt) (mode : Mode) (a b : Num) : Num := fadd f mode a b.flip

/-- The number with these bits. -/
def dec (f : Fmt) (u : Nat) : Num := ⟨decide (sgn f u = 1), units f u⟩

/-- The bits of a number. -/
def enc (f : Fmt) (a : Num) : Nat :=
  let s := if a.neg then 1 else 0
  if a.mag < 2 ^ f.mb then pack f s 0 a.mag
  else pack f s (Nat.log2 a.mag - f.mb + 1) (a.mag / ulp f a.mag - 2 ^ f.mb)

/-- Magnitudes that have at most `mb + 1` significant bits. -/
def Rep (f : Fmt) (a : Nat) : Prop := ∃ k, 2 ^ k ∣ a ∧ a ≤ 2 ^ (f.mb + 1 + k)

section
variable {f : Fmt}

theorem ulp_pos (a : Nat) : 0 < ulp f a := by unfold ulp; positivity

theorem ulp_eq {a k : Nat} (h1 : 2 ^ (f.mb + k) ≤ a) (h2 : a < 2 ^ (f.mb + k + 1)) : ulp f a = 2 ^ k := by
  have h0 : a ≠ 0 := by
    have : 0 < 2 ^ (f.mb + k) := by positivity
    omega
  have h3 : Nat.log2 a = f.mb + k := by
    have l1 := (Nat.log2_lt h0).2 h2
    have l2 := (Nat.le_log2 h0).2 h1
    omega
  rw [ulp, h3]; congr 1; omega

theorem ulp_small {a : Nat} (h : a < 2 ^ (f.mb + 1)) : ulp f a = 1 := by
  by_cases h0 : a = 0
  · subst h0
    have : Nat.log2 0 = 0 := by decide
    simp [ulp, this]
  · have := (Nat.log2_lt h0).2 h
    rw [ulp, show Nat.log2 a - f.mb = 0 by omega]; rfl

theorem roundsUp_zero (mode : Mode) (neg : Bool) (q u : Nat) (hu : 0 < u) : roundsUp mode neg q 0 u = false := by
  cases mode <;> simp [roundsUp]
  all_goals omega

theorem ulp_dvd {a : Nat} (h : Rep f a) : ulp f a ∣ a := by
  obtain ⟨k, hd, hl⟩ := h
  by_cases h0 : a = 0
  · subst h0; exact Nat.dvd_zero _
  by_cases he : a = 2 ^ (f.mb + 1 + k)
  · have := Nat.log2_two_pow (n := f.mb + 1 + k)
    rw [ulp, he, this]
    exact Nat.pow_dvd_pow _ (by omega)
  have := (Nat.log2_lt h0).2 (show a < 2 ^ (f.mb + 1 + k) by omega)
  exact Nat.dvd_trans (Nat.pow_dvd_pow _ (by omega)) hd

/-- Rounding is exact for what the format has. -/
theorem rnd_exact {mode : Mode} {neg : Bool} {a : Nat} (h : Rep f a) : rnd f mode neg a = a := by
  have hd := ulp_dvd h
  rw [rnd, Nat.mod_eq_zero_of_dvd hd, roundsUp_zero _ _ _ _ (ulp_pos a)]
  simp [Nat.div_mul_cancel hd]

theorem fadd_exact {mode : Mode} {a b : Num} (h : Rep f (a.val + b.val).natAbs) : (fadd f mode a b).val = a.val + b.val := by
  unfold fadd
  simp only
  split
  · rename_i hz
    rw [hz]
    split <;> simp [Num.val]
  · rw [rnd_exact h]
    generalize a.val + b.val = z at *
    by_cases hn : z < 0
    · simp only [Num.val, hn, decide_true, if_true]; omega
    · simp only [Num.val, hn, decide_false, Bool.false_eq_true, if_false]; omega

theorem flip_val (a : Num) : a.flip.val = -a.val := by
  cases a with | mk n m => cases n <;> simp [Num.flip, Num.val]

theorem fsub_exact {mode : Mode} {a b : Num} (h : Rep f (a.val - b.val).natAbs) : (fsub f mode a b).val = a.val - b.val := by
  rw [fsub, fadd_exact]
  · rw [flip_val]; omega
  · rw [flip_val, ← Int.sub_eq_add_neg]; exact h

theorem fadd_neg {mode : Mode} {a b : Num} (h : a.val + b.val ≠ 0) : (fadd f mode a b).neg = decide (a.val + b.val < 0) := by
  unfold fadd
  simp only
  rw [if_neg h]

theorem fadd_mag {mode : Mode} {a b : Num} (h : a.val + b.val ≠ 0) : (fadd f mode a b).mag = rnd f mode (decide (a.val + b.val < 0)) (a.val + b.val).natAbs := by
  unfold fadd
  simp only
  rw [if_neg h]

theorem Num.ext_val {a b : Num} (h : a.val = b.val) (h0 : a.neg = b.neg) : a = b := by
  cases a with | mk n m => cases b with | mk n' m' =>
  simp only at h0
  subst h0
  cases n <;> simp [Num.val] at h <;> simp [h]

theorem dec_val {u : Nat} : (dec f u).val = val f u := by
  simp only [dec, Num.val, val, decide_eq_true_eq]

theorem dec_mag {u : Nat} : (dec f u).mag = units f u := rfl

theorem units_rep (u : Nat) : Rep f (units f u) := by
  have hm := man_lt (f := f) u
  unfold units
  split
  · exact ⟨0, by simp, by simp [Nat.pow_succ]; omega⟩
  · refine ⟨ex f u - 1, Nat.dvd_mul_left _ _, ?_⟩
    rw [Nat.pow_add]
    exact Nat.mul_le_mul_right _ (by rw [Nat.pow_succ]; omega)

/-- The bits of a representable number. -/
theorem enc_fields (hf : f.Ok) {a : Num} (hr : Rep f a.mag) (hl : a.mag < 2 ^ (f.mb + 2 * f.bias)) :
    enc f a < 2 ^ f.width ∧ Finite f (enc f a) ∧ dec f (enc f a) = a := by
  have hE := hf.emax_eq
  have hB := hf.bias_big
  have he2 : 2 ^ f.eb = f.emax + 1 := by
    have : 0 < 2 ^ f.eb := by positivity
    unfold Fmt.emax; omega
  have hs : (if a.neg then 1 else 0) < 2 := by split <;> omega
  have hs1 : decide ((if a.neg then 1 else 0) = 1) = a.neg := by cases a.neg <;> simp
  unfold enc
  simp only
  generalize (if a.neg then 1 else 0) = s at *
  by_cases h : a.mag < 2 ^ f.mb
  · rw [if_pos h]
    have he : 0 < 2 ^ f.eb := by positivity
    refine ⟨pack_lt hs he h, ?_, ?_⟩
    · rw [Finite, ex_pack he h, hE]; omega
    · rw [dec, sgn_pack he h, units_pack he h, hs1]
      simp
  · rw [if_neg h]
    have h0 : a.mag ≠ 0 := by
      have : 0 < 2 ^ f.mb := by positivity
      omega
    have hlog : f.mb ≤ Nat.log2 a.mag := (Nat.le_log2 h0).2 (by omega)
    have hlog2 : Nat.log2 a.mag < f.mb + 2 * f.bias := (Nat.log2_lt h0).2 hl
    have hd := ulp_dvd hr
    have hlo := Nat.log2_self_le h0
    have hhi := Nat.lt_log2_self (n := a.mag)
    generalize hlg : Nat.log2 a.mag = lg at *
    obtain ⟨k, rfl⟩ : ∃ k, lg = f.mb + k := ⟨lg - f.mb, by omega⟩
    have hu : ulp f a.mag = 2 ^ k := ulp_eq hlo hhi
    rw [hu] at hd ⊢
    have hk : 0 < 2 ^ k := by positivity
    have hq1 : 2 ^ f.mb ≤ a.mag / 2 ^ k := by
      rw [Nat.le_div_iff_mul_le hk, ← Nat.pow_add]; exact hlo
    have hq2 : a.mag / 2 ^ k < 2 ^ (f.mb + 1) := by
      rw [Nat.div_lt_iff_lt_mul hk, ← Nat.pow_add, Nat.add_right_comm]; exact hhi
    have hm : a.mag / 2 ^ k - 2 ^ f.mb < 2 ^ f.mb := by rw [Nat.pow_succ] at hq2; omega
    have he : f.mb + k - f.mb + 1 < 2 ^ f.eb := by omega
    refine ⟨pack_lt hs he hm, ?_, ?_⟩
    · rw [Finite, ex_pack he hm, hE]; omega
    · rw [dec, sgn_pack he hm, units_pack he hm, hs1, if_neg (by omega), Nat.add_sub_cancel' hq1]
      rw [show f.mb + k - f.mb + 1 - 1 = k by omega, Nat.div_mul_cancel hd]

/-- The sign and the magnitude are all there is of a finite number. -/
theorem enc_dec (hf : f.Ok) {u : Nat} (hu : u < 2 ^ f.width) : enc f (dec f u) = u := by
  have hs := sgn_lt hu
  have hm := man_lt (f := f) u
  have hs1 : (if (dec f u).neg then 1 else 0) = sgn f u := by
    simp only [dec, decide_eq_true_eq]
    split <;> omega
  conv => rhs; rw [← pack_fields (f := f) u]
  unfold enc
  simp only
  rw [hs1, dec_mag]
  unfold units
  by_cases he : ex f u = 0
  · rw [if_pos he, if_pos hm, he]
  · rw [if_neg he]
    obtain ⟨k, hk⟩ : ∃ k, ex f u = k + 1 := ⟨ex f u - 1, by omega⟩
    rw [hk, Nat.add_sub_cancel]
    have hp : 0 < 2 ^ k := by positivity
    have h1 : 2 ^ (f.mb + k) ≤ (2 ^ f.mb + man f u) * 2 ^ k := by
      rw [Nat.pow_add]; exact Nat.mul_le_mul_right _ (by omega)
    have h2 : (2 ^ f.mb + man f u) * 2 ^ k < 2 ^ (f.mb + k + 1) := by
      rw [show f.mb + k + 1 = (f.mb + 1) + k by omega, Nat.pow_add 2 (f.mb + 1)]
      exact Nat.mul_lt_mul_of_pos_right (by rw [Nat.pow_succ]; omega) hp
    have h3 : ¬(2 ^ f.mb + man f u) * 2 ^ k < 2 ^ f.mb := by
      have : 2 ^ f.mb ≤ 2 ^ (f.mb + k) := Nat.pow_le_pow_right (by omega) (by omega)
      omega
    rw [if_neg h3, ulp_eq h1 h2, Nat.mul_div_cancel _ hp, Nat.add_sub_cancel_left]
    have h0 : (2 ^ f.mb + man f u) * 2 ^ k ≠ 0 := by
      have : 0 < 2 ^ f.mb := by positivity
      omega
    have hl1 := (Nat.le_log2 h0).2 h1
    have hl2 := (Nat.log2_lt h0).2 h2
    congr 1
    omega

theorem bits_ext (hf : f.Ok) {u v : Nat} (hu : u < 2 ^ f.width) (hv : v < 2 ^ f.width) (hs : sgn f u = sgn f v) (hm : units f u = units f v) : u = v := by
  rw [← enc_dec hf hu, ← enc_dec hf hv, dec, dec, hs, hm]

end

end Mlibc.Math
