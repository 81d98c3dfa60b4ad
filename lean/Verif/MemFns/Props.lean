import Verif.MemFns.Lemmas
/-
C01-C03: memcpy, memmove, memset.
The statements mention only the functions, addresses and memory contents: `m.Valid a n` says that
`[a, a+n)` is accessible, and the resulting memory is given pointwise.
-/
namespace Mlibc.MemFns
open Mlibc Mem

/-- `[a, a+n)` and `[b, b+n)` have no common address. -/
def Disjoint (a b n : Nat) : Prop := a + n ≤ b ∨ b + n ≤ a

/-- C01. memcpy copies exactly `n` bytes, faults nowhere, changes nothing else and returns `dest`. -/
theorem memcpy_exact (m : Mem) (dest src n : Nat)
    (hs : m.Valid src n) (hd : m.Valid dest n) (hdis : Disjoint dest src n) :
    ∃ m', memcpy m dest src n = .ok (dest, m') ∧
      ∀ a, m' a = if dest ≤ a ∧ a < dest + n then m (src + (a - dest)) else m a := by
  have hf : FwdSafe dest src n := by unfold Disjoint at hdis; unfold FwdSafe; omega
  exact ⟨_, forwardCopy_ok hs hd hf, fun a => patch_bytes_apply hs⟩

/-- C02. memmove does the same for every relative position of the two ranges. -/
theorem memmove_exact (m : Mem) (dest src n : Nat) (hs : m.Valid src n) (hd : m.Valid dest n) :
    ∃ m', memmove m dest src n = .ok (dest, m') ∧
      ∀ a, m' a = if dest ≤ a ∧ a < dest + n then m (src + (a - dest)) else m a := by
  unfold memmove
  by_cases h1 : dest < src ∨ src + n ≤ dest
  · exact ⟨_, by simp only [h1, if_true]; exact forwardCopy_ok hs hd h1, fun a => patch_bytes_apply hs⟩
  · by_cases h2 : dest > src
    · exact ⟨_, by simp [h1, h2, backwardCopy_ok h2 n m hs hd], fun a => patch_bytes_apply hs⟩
    · have : dest = src := by omega
      subst this
      refine ⟨m, by rw [if_neg h1, if_neg h2]; rfl, fun a => ?_⟩
      split
      · congr 1; omega
      · rfl

/-- C03. memset stores `(unsigned char)c` in exactly `n` bytes and changes nothing else. -/
theorem memset_exact (m : Mem) (dest n : Nat) (c : Int) (hd : m.Valid dest n) :
    ∃ m', memset m dest c n = .ok (dest, m') ∧
      ∀ a, m' a = if dest ≤ a ∧ a < dest + n then some (UInt8.ofInt c) else m a := by
  refine ⟨_, memset_ok hd, fun a => ?_⟩
  simp only [Mem.patch, List.length_replicate]
  split
  · rw [List.getElem?_replicate, if_pos (by omega)]
  · rfl

/-! Non-vacuity: a 300-byte object at address 1000; an overlapping move by 3, a disjoint copy of 100. -/
section
/-- A concrete memory: one object at `[1000, 1300)` with varying contents. -/
def demoMem : Mem := fun a => if 1000 ≤ a ∧ a < 1300 then some (UInt8.ofNat (a * 7)) else none

theorem demoValid {a n : Nat} (h1 : 1000 ≤ a) (h2 : a + n ≤ 1300) : demoMem.Valid a n := by
  intro i hi
  simp only [demoMem]
  rw [if_pos (by omega)]; rfl

example : ∃ m', memmove demoMem 1003 1000 200 = .ok (1003, m') ∧ m' 1050 = some (UInt8.ofNat (1047 * 7)) := by
  obtain ⟨m', e, h⟩ := memmove_exact demoMem 1003 1000 200 (demoValid (by omega) (by omega))
    (demoValid (by omega) (by omega))
  refine ⟨m', e, ?_⟩
  simp [h, demoMem]
example : ∃ m', memcpy demoMem 1150 1001 101 = .ok (1150, m') ∧ m' 1250 = some (UInt8.ofNat (1101 * 7)) := by
  obtain ⟨m', e, h⟩ := memcpy_exact demoMem 1150 1001 101 (demoValid (by omega) (by omega))
    (demoValid (by omega) (by omega)) (by unfold Disjoint; omega)
  refine ⟨m', e, ?_⟩
  simp [h, demoMem]
example : ∃ m', memset demoMem 1005 (-1) 77 = .ok (1005, m') ∧ m' 1081 = some 255 ∧
    m' 1082 = some (UInt8.ofNat (1082 * 7)) := by
  obtain ⟨m', e, h⟩ := memset_exact demoMem 1005 77 (-1) (demoValid (by omega) (by omega))
  refine ⟨m', e, ?_, ?_⟩ <;> simp [h, demoMem] <;> rfl
end

end Mlibc.MemFns
