import Verif.Base

/-!
# Numbers of devices

`major`, `minor` and `makedev`, options/internal/include/bits/sysmacros.h L10-25.
-/

namespace Mlibc.DevNum

/-! ## The code -/

/-- sysmacros.h L10-12: the second part is an `unsigned int`, widened for the `|`; the result is made `unsigned int`. -/
def major (dev : BitVec 64) : BitVec 32 :=
  (((dev >>> 8) &&& 0xfff#64) ||| (((dev >>> 32).setWidth 32 &&& ~~~ 0xfff#32).setWidth 64)).setWidth 32

/-- sysmacros.h L14-16 -/
def minor (dev : BitVec 64) : BitVec 32 :=
  ((dev &&& 0xff#64) ||| (((dev >>> 12).setWidth 32 &&& ~~~ 0xff#32).setWidth 64)).setWidth 32

/-- sysmacros.h L18-25: the first two parts are `unsigned int`. -/
def makedev (ma mi : BitVec 32) : BitVec 64 :=
  (((mi &&& 0xff#32) ||| ((ma &&& 0xfff#32) <<< 8)).setWidth 64 ||| ((mi &&& ~~~ 0xff#32).setWidth 64 <<< 12)) |||
    ((ma &&& ~~~ 0xfff#32).setWidth 64 <<< 32)

/-! ## Theorems -/

theorem mask (w n i : Nat) (h : n ≤ w) : (BitVec.ofNat w (2 ^ n - 1)).getLsbD i = decide (i < n) := by
  rw [BitVec.getLsbD_ofNat, Nat.testBit_two_pow_sub_one]
  by_cases hi : i < n
  · simp [hi, show i < w by omega]
  · simp [hi]

theorem m12 (i : Nat) : (0xfff#32).getLsbD i = decide (i < 12) := mask 32 12 i (by omega)
theorem m8 (i : Nat) : (0xff#32).getLsbD i = decide (i < 8) := mask 32 8 i (by omega)
theorem M12 (i : Nat) : (0xfff#64).getLsbD i = decide (i < 12) := mask 64 12 i (by omega)
theorem M8 (i : Nat) : (0xff#64).getLsbD i = decide (i < 8) := mask 64 8 i (by omega)

theorem major_bit (d : BitVec 64) (i : Nat) (h : i < 32) : (major d).getLsbD i = if i < 12 then d.getLsbD (8 + i) else d.getLsbD (32 + i) := by
  unfold major
  simp only [BitVec.getLsbD_setWidth, BitVec.getLsbD_or, BitVec.getLsbD_and, BitVec.getLsbD_not, BitVec.getLsbD_ushiftRight, m12, M12]
  by_cases h12 : i < 12
  · simp [h, h12]
  · simp [h, h12]; omega

theorem minor_bit (d : BitVec 64) (i : Nat) (h : i < 32) : (minor d).getLsbD i = if i < 8 then d.getLsbD i else d.getLsbD (12 + i) := by
  unfold minor
  simp only [BitVec.getLsbD_setWidth, BitVec.getLsbD_or, BitVec.getLsbD_and, BitVec.getLsbD_not, BitVec.getLsbD_ushiftRight, m8, M8]
  by_cases h12 : i < 8
  · simp [h, h12]
  · simp [h, h12]; omega

theorem makedev_bit (ma mi : BitVec 32) (i : Nat) (h : i < 64) : (makedev ma mi).getLsbD i =
    if i < 8 then mi.getLsbD i else if i < 20 then ma.getLsbD (i - 8) else if i < 44 then mi.getLsbD (i - 12) else ma.getLsbD (i - 32) := by
  unfold makedev
  simp only [BitVec.getLsbD_setWidth, BitVec.getLsbD_or, BitVec.getLsbD_and, BitVec.getLsbD_not, BitVec.getLsbD_shiftLeft, m8, m12]
  by_cases h1 : i < 8
  · simp [h, h1, show i < 12 by omega, show i < 32 by omega]
  · by_cases h2 : i < 20
    · have a : ¬ 8 ≤ i - 12 := by omega
      simp [h, h1, h2, show i < 32 by omega, show i - 8 < 12 by omega, show i - 12 < 8 by omega]
    · by_cases h3 : i < 44
      · have b : ¬ i - 8 < 12 := by omega
        have c : ¬ i - 12 < 8 := by omega
        have d : i - 32 < 12 := by omega
        simp [h, h1, h2, h3, b, c, d, show ¬ i < 12 by omega, show i - 12 < 32 by omega]
        intro _; omega
      · have b : ¬ i - 8 < 12 := by omega
        have c : ¬ i - 12 < 32 := by omega
        have d : ¬ i - 32 < 12 := by omega
        simp [h, h1, h2, h3, b, c, d, show ¬ i < 32 by omega, show i - 32 < 32 by omega]
        intro _; omega

/-- **C137.** The parts of a number that was made are the parts it was made of. -/
theorem makedev_parts (ma mi : BitVec 32) : major (makedev ma mi) = ma ∧ minor (makedev ma mi) = mi := by
  constructor
  · apply BitVec.eq_of_getLsbD_eq
    intro i hi
    rw [major_bit _ i hi]
    by_cases h : i < 12
    · rw [if_pos h, makedev_bit _ _ _ (by omega), if_neg (by omega), if_pos (by omega), show 8 + i - 8 = i by omega]
    · rw [if_neg h, makedev_bit _ _ _ (by omega), if_neg (by omega), if_neg (by omega), if_neg (by omega),
        show 32 + i - 32 = i by omega]
  · apply BitVec.eq_of_getLsbD_eq
    intro i hi
    rw [minor_bit _ i hi]
    by_cases h : i < 8
    · rw [if_pos h, makedev_bit _ _ _ (by omega), if_pos h]
    · rw [if_neg h, makedev_bit _ _ _ (by omega), if_neg (by omega), if_neg (by omega), if_pos (by omega),
        show 12 + i - 12 = i by omega]

/-- **C137.** A number is the one made of its parts. -/
theorem makedev_whole (d : BitVec 64) : makedev (major d) (minor d) = d := by
  apply BitVec.eq_of_getLsbD_eq
  intro i hi
  rw [makedev_bit _ _ i hi]
  by_cases h1 : i < 8
  · rw [if_pos h1, minor_bit _ _ (by omega), if_pos h1]
  · rw [if_neg h1]
    by_cases h2 : i < 20
    · rw [if_pos h2, major_bit _ _ (by omega), if_pos (by omega), show 8 + (i - 8) = i by omega]
    · rw [if_neg h2]
      by_cases h3 : i < 44
      · rw [if_pos h3, minor_bit _ _ (by omega), if_neg (by omega), show 12 + (i - 12) = i by omega]
      · rw [if_neg h3, major_bit _ _ (by omega), if_neg (by omega), show 32 + (i - 32) = i by omega]

/-- **C137.** Two devices have the same number only if they have the same parts. -/
theorem makedev_inj (ma mi ma' mi' : BitVec 32) (h : makedev ma mi = makedev ma' mi') : ma = ma' ∧ mi = mi' := by
  have h1 := makedev_parts ma mi
  have h2 := makedev_parts ma' mi'
  rw [h] at h1
  exact ⟨h1.1.symm.trans h2.1, h1.2.symm.trans h2.2⟩

/-- **C137.** Small parts are where the kernel's old numbers of 16 bits have them. -/
theorem makedev_small (ma mi : Nat) (h1 : ma < 256) (h2 : mi < 256) :
    makedev (BitVec.ofNat 32 ma) (BitVec.ofNat 32 mi) = BitVec.ofNat 64 (256 * ma + mi) := by
  have hd : 256 * ma + mi < 2 ^ 16 := by omega
  have e1 : major (BitVec.ofNat 64 (256 * ma + mi)) = BitVec.ofNat 32 ma := by
    apply BitVec.eq_of_getLsbD_eq
    intro i hi
    rw [major_bit _ i hi]
    simp only [BitVec.getLsbD_ofNat]
    have hs : (256 * ma + mi) / 2 ^ 8 = ma := by omega
    have ht : ∀ j, 16 ≤ j → (256 * ma + mi).testBit j = false := fun j hj =>
      Nat.testBit_lt_two_pow (Nat.lt_of_lt_of_le hd (Nat.pow_le_pow_right (by omega) hj))
    have hm : ∀ j, 12 ≤ j → ma.testBit j = false := fun j hj =>
      Nat.testBit_lt_two_pow (Nat.lt_of_lt_of_le (by omega : ma < 2 ^ 12) (Nat.pow_le_pow_right (by omega) hj))
    by_cases h : i < 12
    · rw [if_pos h, Nat.add_comm 8 i, ← Nat.testBit_div_two_pow, hs]
      simp [hi, show i + 8 < 64 by omega]
    · rw [if_neg h, ht _ (by omega), hm i (by omega)]; simp
  have e2 : minor (BitVec.ofNat 64 (256 * ma + mi)) = BitVec.ofNat 32 mi := by
    apply BitVec.eq_of_getLsbD_eq
    intro i hi
    rw [minor_bit _ i hi]
    simp only [BitVec.getLsbD_ofNat]
    have hs : (256 * ma + mi) % 2 ^ 8 = mi := by omega
    have ht : ∀ j, 16 ≤ j → (256 * ma + mi).testBit j = false := fun j hj =>
      Nat.testBit_lt_two_pow (Nat.lt_of_lt_of_le hd (Nat.pow_le_pow_right (by omega) hj))
    have hm : ∀ j, 8 ≤ j → mi.testBit j = false := fun j hj =>
      Nat.testBit_lt_two_pow (Nat.lt_of_lt_of_le (by omega : mi < 2 ^ 8) (Nat.pow_le_pow_right (by omega) hj))
    by_cases h : i < 8
    · rw [if_pos h]
      have : (256 * ma + mi).testBit i = mi.testBit i := by
        conv => rhs; rw [← hs]
        rw [Nat.testBit_mod_two_pow]; simp [h]
      rw [this]
      simp [hi, show i < 64 by omega]
    · rw [if_neg h, ht _ (by omega), hm i (by omega)]; simp
  rw [← makedev_whole (BitVec.ofNat 64 (256 * ma + mi)), e1, e2]

example : makedev 0x12345678#32 0x9abcdef0#32 = 0x123459abcde678f0#64 := by decide
example : makedev 8#32 1#32 = 0x801#64 := by decide

end Mlibc.DevNum
