import Verif.Base
import Mathlib.Tactic.Ring
import Mathlib.Tactic.Linarith

/-
Floating point numbers as bits, and their arithmetic, for the functions of options/ansi/musl-generic-math.

A format has `mb` bits of fraction and `eb` bits of exponent: 52 and 11 for double, 23 and 8 for float. A number is the natural number that its bits are.
Every finite number is a multiple of the smallest positive one, 2^-1074 for double: `units` is the magnitude, counted in these, so that no rational numbers
are needed.
-/
namespace Mlibc.Math

structure Fmt where
  mb : Nat
  eb : Nat

/-- IEEE binary64. -/
@[reducible] def double : Fmt := ⟨52, 11⟩
/-- IEEE binary32. -/
@[reducible] def float : Fmt := ⟨23, 8⟩

/-- Conditions that both formats meet. -/
structure Fmt.Ok (f : Fmt) : Prop where
  mb2 : 2 ≤ f.mb
  eb3 : 3 ≤ f.eb
  small : f.mb + 3 ≤ 2 ^ (f.eb - 1)

theorem double_ok : double.Ok := ⟨by decide, by decide, by decide⟩
theorem float_ok : float.Ok := ⟨by decide, by decide, by decide⟩

/-- The bias of the exponent: 0x3ff, 0x7f. -/
def Fmt.bias (f : Fmt) : Nat := 2 ^ (f.eb - 1) - 1
/-- The number of bits: 64, 32. -/
def Fmt.width (f : Fmt) : Nat := f.mb + f.eb + 1
/-- The largest exponent, of infinities and NaNs: 0x7ff, 0xff. -/
def Fmt.emax (f : Fmt) : Nat := 2 ^ f.eb - 1

/-- The sign, `u.i >> 63`: floor.c L19, rint.c L16, fmod.c L9. -/
def sgn (f : Fmt) (u : Nat) : Nat := u >>> (f.mb + f.eb)
/-- The exponent, `u.i >> 52 & 0x7ff`: floor.c L13, fmod.c L7. -/
def ex (f : Fmt) (u : Nat) : Nat := (u >>> f.mb) &&& (2 ^ f.eb - 1)
/-- The fraction: `u.i & (-1ULL >> 12)`, fmod.c L29. -/
def man (f : Fmt) (u : Nat) : Nat := u % 2 ^ f.mb
/-- The bits of a number with these fields: the layout that fmod.c L60-L65 relies on. -/
def pack (f : Fmt) (s e m : Nat) : Nat := (s * 2 ^ f.eb + e) * 2 ^ f.mb + m

/-- The magnitude of a finite number in units of the smallest positive number. -/
def units (f : Fmt) (u : Nat) : Nat := if ex f u = 0 then man f u else (2 ^ f.mb + man f u) * 2 ^ (ex f u - 1)
/-- The number 1. -/
def one (f : Fmt) : Nat := 2 ^ (f.bias + f.mb - 1)
/-- The value, with its sign, in the same units. -/
def val (f : Fmt) (u : Nat) : Int := if sgn f u = 1 then -(units f u : Int) else units f u

def Finite (f : Fmt) (u : Nat) : Prop := ex f u ≠ f.emax
def IsNan (f : Fmt) (u : Nat) : Prop := ex f u = f.emax ∧ man f u ≠ 0
def IsInf (f : Fmt) (u : Nat) : Prop := ex f u = f.emax ∧ man f u = 0

section
variable {f : Fmt}

theorem Fmt.Ok.emax_eq (h : f.Ok) : f.emax = 2 * f.bias + 1 := by
  have h1 := h.eb3
  have h2 := h.small
  have h3 := h.mb2
  have : 2 ^ f.eb = 2 * 2 ^ (f.eb - 1) := by
    rw [← Nat.pow_succ']; congr 1; omega
  unfold Fmt.emax Fmt.bias
  omega

theorem Fmt.Ok.bias_big (h : f.Ok) : f.mb + 2 ≤ f.bias := by
  have := h.small
  unfold Fmt.bias; omega

theorem one_pos (f : Fmt) : 0 < one f := Nat.pos_of_ne_zero (by simp [one])

theorem ex_eq (u : Nat) : ex f u = u / 2 ^ f.mb % 2 ^ f.eb := by
  rw [ex, Nat.and_two_pow_sub_one_eq_mod, Nat.shiftRight_eq_div_pow]

theorem sgn_eq (u : Nat) : sgn f u = u / 2 ^ f.mb / 2 ^ f.eb := by
  rw [sgn, Nat.shiftRight_eq_div_pow, Nat.pow_add, Nat.div_div_eq_div_mul]

theorem sgn_lt {u : Nat} (h : u < 2 ^ f.width) : sgn f u < 2 := by
  rw [sgn, Nat.shiftRight_eq_div_pow, Nat.div_lt_iff_lt_mul (by positivity)]
  rw [Fmt.width, Nat.pow_succ] at h
  omega

theorem ex_lt (u : Nat) : ex f u < 2 ^ f.eb := by
  rw [ex_eq]; exact Nat.mod_lt _ (by positivity)

theorem man_lt (u : Nat) : man f u < 2 ^ f.mb := Nat.mod_lt _ (by positivity)

theorem pack_fields (u : Nat) : pack f (sgn f u) (ex f u) (man f u) = u := by
  rw [pack, sgn_eq, ex_eq, man, Nat.div_add_mod' (u / 2 ^ f.mb), Nat.div_add_mod']

theorem man_pack {s e m : Nat} (hm : m < 2 ^ f.mb) : man f (pack f s e m) = m := by
  rw [man, pack, Nat.mul_comm, Nat.mul_add_mod, Nat.mod_eq_of_lt hm]

theorem pack_div {s e m : Nat} (hm : m < 2 ^ f.mb) : pack f s e m / 2 ^ f.mb = s * 2 ^ f.eb + e := by
  rw [pack, Nat.mul_comm, Nat.mul_add_div (by positivity), Nat.div_eq_of_lt hm, Nat.add_zero]

theorem ex_pack {s e m : Nat} (he : e < 2 ^ f.eb) (hm : m < 2 ^ f.mb) : ex f (pack f s e m) = e := by
  rw [ex_eq, pack_div hm, Nat.mul_comm, Nat.mul_add_mod, Nat.mod_eq_of_lt he]

theorem sgn_pack {s e m : Nat} (he : e < 2 ^ f.eb) (hm : m < 2 ^ f.mb) : sgn f (pack f s e m) = s := by
  rw [sgn_eq, pack_div hm, Nat.mul_comm, Nat.mul_add_div (by positivity), Nat.div_eq_of_lt he, Nat.add_zero]

theorem pack_lt {s e m : Nat} (hs : s < 2) (he : e < 2 ^ f.eb) (hm : m < 2 ^ f.mb) : pack f s e m < 2 ^ f.width := by
  have h1 : s * 2 ^ f.eb + e + 1 ≤ 2 * 2 ^ f.eb := by
    have : s * 2 ^ f.eb ≤ 1 * 2 ^ f.eb := Nat.mul_le_mul_right _ (by omega)
    omega
  have h2 : (s * 2 ^ f.eb + e + 1) * 2 ^ f.mb ≤ 2 * 2 ^ f.eb * 2 ^ f.mb := Nat.mul_le_mul_right _ h1
  have h3 : 2 ^ f.width = 2 * 2 ^ f.eb * 2 ^ f.mb := by rw [Fmt.width]; ring
  rw [pack, h3]
  have : (s * 2 ^ f.eb + e + 1) * 2 ^ f.mb = (s * 2 ^ f.eb + e) * 2 ^ f.mb + 2 ^ f.mb := by ring
  omega

theorem units_pack {s e m : Nat} (he : e < 2 ^ f.eb) (hm : m < 2 ^ f.mb) :
    units f (pack f s e m) = if e = 0 then m else (2 ^ f.mb + m) * 2 ^ (e - 1) := by
  rw [units, ex_pack he hm, man_pack hm]

/-- A mask of low bits. -/
theorem ones_shift {w k : Nat} (h : k ≤ w) : (2 ^ w - 1) >>> k = 2 ^ (w - k) - 1 := by
  rw [Nat.shiftRight_eq_div_pow]
  have : 2 ^ w = 2 ^ (w - k) * 2 ^ k := by rw [← Nat.pow_add]; congr 1; omega
  rw [this]
  have h1 : 0 < 2 ^ k := by positivity
  have h2 : 0 < 2 ^ (w - k) := by positivity
  have : 2 ^ (w - k) * 2 ^ k - 1 = (2 ^ (w - k) - 1) * 2 ^ k + (2 ^ k - 1) := by
    have : (2 ^ (w - k) - 1) * 2 ^ k = 2 ^ (w - k) * 2 ^ k - 2 ^ k := by rw [Nat.sub_mul, Nat.one_mul]
    have : 2 ^ k ≤ 2 ^ (w - k) * 2 ^ k := Nat.le_mul_of_pos_left _ h2
    omega
  rw [this, Nat.mul_comm, Nat.mul_add_div h1, Nat.div_eq_of_lt (by omega), Nat.add_zero]

/-- `u & ~mask` for a mask of low bits. -/
theorem and_not_mask {w k u : Nat} (h : k ≤ w) (hu : u < 2 ^ w) : u &&& (2 ^ w - 1 - (2 ^ k - 1)) = u / 2 ^ k * 2 ^ k := by
  have e : 2 ^ w - 1 - (2 ^ k - 1) = 2 ^ k * (2 ^ (w - k) - 1) := by
    have : 2 ^ w = 2 ^ k * 2 ^ (w - k) := by rw [← Nat.pow_add]; congr 1; omega
    have h1 : 0 < 2 ^ k := by positivity
    rw [Nat.mul_sub, ← this, Nat.mul_one]
    omega
  rw [e, Nat.mul_comm (u / 2 ^ k)]
  apply Nat.eq_of_testBit_eq
  intro i
  rw [Nat.testBit_and, Nat.testBit_two_pow_mul, Nat.testBit_two_pow_mul, Nat.testBit_two_pow_sub_one, ← Nat.shiftRight_eq_div_pow, Nat.testBit_shiftRight]
  by_cases hi : k ≤ i
  · rw [show k + (i - k) = i by omega]
    by_cases hi2 : i < w
    · have : i - k < w - k := by omega
      simp [hi, this]
    · have : u.testBit i = false := Nat.testBit_lt_two_pow (Nat.lt_of_lt_of_le hu (Nat.pow_le_pow_right (by omega) (by omega)))
      simp [this]
  · simp [hi]

/-- The sign alone. -/
theorem sgn_mask {u : Nat} (h : u < 2 ^ f.width) : u / 2 ^ (f.width - 1) * 2 ^ (f.width - 1) = pack f (sgn f u) 0 0 := by
  rw [sgn, Nat.shiftRight_eq_div_pow, pack, Fmt.width]
  simp only [Nat.add_sub_cancel, Nat.add_zero]
  rw [Nat.mul_assoc, ← Nat.pow_add, Nat.add_comm f.eb]

theorem pow_split {a b : Nat} (h : b ≤ a) : 2 ^ a = 2 ^ b * 2 ^ (a - b) := by rw [← Nat.pow_add]; congr 1; omega

/-- The fields after the low bits of the fraction have been cleared. -/
theorem clear_low {u k : Nat} (hk : k ≤ f.mb) : u / 2 ^ k * 2 ^ k = pack f (sgn f u) (ex f u) (man f u / 2 ^ k * 2 ^ k) := by
  have h := pack_fields (f := f) u
  generalize sgn f u = s at *
  generalize ex f u = e at *
  generalize man f u = m at *
  rw [← h, pack, pack, pow_split hk]
  have h1 : (s * 2 ^ f.eb + e) * (2 ^ k * 2 ^ (f.mb - k)) = 2 ^ k * ((s * 2 ^ f.eb + e) * 2 ^ (f.mb - k)) := by ring
  rw [h1, Nat.mul_add_div (by positivity)]
  ring

theorem mul_low_lt {m k n : Nat} (h : m < 2 ^ n) : m / 2 ^ k * 2 ^ k < 2 ^ n := Nat.lt_of_le_of_lt (Nat.div_mul_le_self _ _) h

end

end Mlibc.Math
