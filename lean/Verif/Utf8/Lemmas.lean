import Verif.Utf8.Model
import Verif.Utf8.Spec
/-
Lemmas connecting the decoder's states with Table 3-7.
-/
set_option linter.unusedSimpArgs false
namespace Mlibc.Utf8
open Mlibc

/-! Bit masks as ranges, over all byte values. -/

theorem m80 : ∀ u < 256, (u &&& 0x80 = 0) = (u ≤ 0x7F) := by decide +kernel
theorem mE0 : ∀ u < 256, (u &&& 0xE0 = 0xC0) = (0xC0 ≤ u ∧ u ≤ 0xDF) := by decide +kernel
theorem mF0 : ∀ u < 256, (u &&& 0xF0 = 0xE0) = (0xE0 ≤ u ∧ u ≤ 0xEF) := by decide +kernel
theorem mF8 : ∀ u < 256, (u &&& 0xF8 = 0xF0) = (0xF0 ≤ u ∧ u ≤ 0xF7) := by decide +kernel
theorem mC0 : ∀ u < 256, (u &&& 0xC0 = 0x80) = (0x80 ≤ u ∧ u ≤ 0xBF) := by decide +kernel

theorem and_1F (u : Nat) : u &&& 0x1F = u % 32 := Nat.and_two_pow_sub_one_eq_mod u 5
theorem and_F (u : Nat) : u &&& 0xF = u % 16 := Nat.and_two_pow_sub_one_eq_mod u 4
theorem and_7 (u : Nat) : u &&& 7 = u % 8 := Nat.and_two_pow_sub_one_eq_mod u 3
theorem and_3F (u : Nat) : u &&& 0x3F = u % 64 := Nat.and_two_pow_sub_one_eq_mod u 6

theorem shl_or (c u : Nat) : (c <<< 6) ||| (u &&& 0x3F) = c * 64 + u % 64 := by
  rw [and_3F, ← Nat.shiftLeft_add_eq_or_of_lt (Nat.mod_lt _ (by omega)), Nat.shiftLeft_eq]

/-- `step` with ranges and arithmetic instead of masks and shifts. -/
def stepA (s : St) (uc : Nat) : Option St :=
  if s.progress = 0 then
    if uc ≤ 0x7F then some ⟨0, uc⟩
    else if 0xC0 ≤ uc ∧ uc ≤ 0xDF then
      if uc < 0xC2 then none else some ⟨1, uc % 32⟩
    else if 0xE0 ≤ uc ∧ uc ≤ 0xEF then some ⟨2, uc % 16⟩
    else if 0xF0 ≤ uc ∧ uc ≤ 0xF7 then
      if uc ≥ 0xF5 then none else some ⟨3, uc % 8⟩
    else none
  else
    if 0x80 ≤ uc ∧ uc ≤ 0xBF then
      if s.progress = 2 ∧ s.cpoint = 0 ∧ uc < 0xA0 then none
      else if s.progress = 2 ∧ s.cpoint = 0x0D ∧ uc ≥ 0xA0 then none
      else if s.progress = 3 ∧ s.cpoint = 0 ∧ uc < 0x90 then none
      else if s.progress = 3 ∧ s.cpoint = 4 ∧ uc ≥ 0x90 then none
      else some ⟨s.progress - 1, s.cpoint * 64 + uc % 64⟩
    else none

theorem step_eq (s : St) (b : UInt8) : step s b = stepA s b.toNat := by
  have h : b.toNat < 256 := b.toNat_lt
  unfold step stepA
  simp only [m80 _ h, mE0 _ h, mF0 _ h, mF8 _ h, mC0 _ h, and_1F, and_F, and_7, shl_or]

/-- `p` (byte values) has been consumed since the last complete character and the decoder is in state `st`. -/
def Pend (p : List Nat) (st : St) : Prop :=
  match p with
  | [a] => (0xC2 ≤ a ∧ a ≤ 0xDF ∧ st = ⟨1, a - 0xC0⟩) ∨ (0xE0 ≤ a ∧ a ≤ 0xEF ∧ st = ⟨2, a - 0xE0⟩) ∨
      (0xF0 ≤ a ∧ a ≤ 0xF4 ∧ st = ⟨3, a - 0xF0⟩)
  | [a, b] =>
      (((a = 0xE0 ∧ 0xA0 ≤ b ∧ b ≤ 0xBF) ∨ (0xE1 ≤ a ∧ a ≤ 0xEC ∧ isCont b) ∨
        (a = 0xED ∧ 0x80 ≤ b ∧ b ≤ 0x9F) ∨ (0xEE ≤ a ∧ a ≤ 0xEF ∧ isCont b))
        ∧ st = ⟨1, (a - 0xE0) * 64 + (b - 0x80)⟩) ∨
      (((a = 0xF0 ∧ 0x90 ≤ b ∧ b ≤ 0xBF) ∨ (0xF1 ≤ a ∧ a ≤ 0xF3 ∧ isCont b) ∨
        (a = 0xF4 ∧ 0x80 ≤ b ∧ b ≤ 0x8F))
        ∧ st = ⟨2, (a - 0xF0) * 64 + (b - 0x80)⟩)
  | [a, b, c] =>
      ((a = 0xF0 ∧ 0x90 ≤ b ∧ b ≤ 0xBF) ∨ (0xF1 ≤ a ∧ a ≤ 0xF3 ∧ isCont b) ∨
        (a = 0xF4 ∧ 0x80 ≤ b ∧ b ≤ 0x8F)) ∧ isCont c
        ∧ st = ⟨1, (a - 0xF0) * 4096 + (b - 0x80) * 64 + (c - 0x80)⟩
  | _ => False

theorem Pend.progress {p st} (h : Pend p st) : st.progress ≠ 0 := by
  match p with
  | [] => exact h.elim
  | [a] => rcases h with h | h | h <;> simp [h.2.2]
  | [a, b] => rcases h with h | h <;> simp [h.2]
  | [a, b, c] => simp [h.2.2]
  | _ :: _ :: _ :: _ :: _ => exact h.elim

/-- Consuming the first byte of a character. -/
theorem step_first (x a : Nat) (st : St) :
    stepA ⟨0, x⟩ a = some st ↔ (a ≤ 0x7F ∧ st = ⟨0, a⟩) ∨ Pend [a] st := by
  obtain ⟨p, c⟩ := st
  unfold stepA Pend
  simp only [if_true, St.mk.injEq]
  repeat' split
  all_goals simp only [Option.some.injEq, St.mk.injEq, reduceCtorEq, false_iff]
  all_goals omega

theorem step_next1 (a : Nat) (st st' : St) (u : Nat) (h : Pend [a] st) :
    stepA st u = some st' ↔
      (st'.progress = 0 ∧ scalarN [a, u] = some st'.cpoint) ∨ Pend [a, u] st' := by
  obtain ⟨q, v⟩ := st'
  simp only [scalarN, Pend, isCont, Option.ite_none_right_eq_some, Option.some.injEq, St.mk.injEq]
  rcases h with h | h | h <;> obtain ⟨h1, h2, rfl⟩ := h <;> unfold stepA <;>
    simp only [Nat.reduceEqDiff, Nat.succ_ne_zero, if_false, false_and, true_and, Nat.reduceSub]
  all_goals repeat' split
  all_goals simp only [Option.some.injEq, St.mk.injEq, reduceCtorEq, false_iff]
  all_goals omega

theorem step_next2 (a b : Nat) (st st' : St) (u : Nat) (h : Pend [a, b] st) :
    stepA st u = some st' ↔
      (st'.progress = 0 ∧ scalarN [a, b, u] = some st'.cpoint) ∨ Pend [a, b, u] st' := by
  obtain ⟨q, v⟩ := st'
  simp only [Pend, isCont] at h
  rcases h with ⟨h1, rfl⟩ | ⟨h1, rfl⟩
  · have ha : ¬ (a = 0xF0 ∧ 0x90 ≤ b ∧ b ≤ 0xBF ∨ 0xF1 ≤ a ∧ a ≤ 0xF3 ∧ isCont b ∨
        a = 0xF4 ∧ 0x80 ≤ b ∧ b ≤ 0x8F) := by simp only [isCont]; omega
    simp only [scalarN, Pend, h1, ha, isCont, Option.ite_none_right_eq_some, Option.some.injEq, St.mk.injEq,
      true_and, false_and, or_false]
    have hb : 128 ≤ b := by omega
    have ha' : 224 ≤ a := by omega
    unfold stepA
    simp only [Nat.reduceEqDiff, Nat.succ_ne_zero, if_false, false_and, true_and, Nat.reduceSub]
    split
    · simp only [Option.some.injEq, St.mk.injEq]; omega
    · simp only [reduceCtorEq, false_iff]; omega
  · have ha : ¬ ((a = 0xE0 ∧ 0xA0 ≤ b ∧ b ≤ 0xBF) ∨ (0xE1 ≤ a ∧ a ≤ 0xEC ∧ isCont b) ∨
        (a = 0xED ∧ 0x80 ≤ b ∧ b ≤ 0x9F) ∨ (0xEE ≤ a ∧ a ≤ 0xEF ∧ isCont b)) := by
      simp only [isCont]; omega
    simp only [scalarN, Pend, h1, ha, isCont, Option.ite_none_right_eq_some, Option.some.injEq, St.mk.injEq,
      true_and, false_and, and_false, false_or]
    have hc0 : ¬ ((a - 0xF0) * 64 + (b - 0x80) = 0) := by omega
    have hcD : ¬ ((a - 0xF0) * 64 + (b - 0x80) = 0x0D) := by omega
    have hb : 128 ≤ b := by omega
    have ha' : 240 ≤ a := by omega
    clear h1 ha
    unfold stepA
    simp only [Nat.reduceEqDiff, Nat.succ_ne_zero, if_false, false_and, true_and, Nat.reduceSub, hc0, hcD]
    split
    · simp only [Option.some.injEq, St.mk.injEq]; omega
    · simp only [reduceCtorEq, false_iff]; omega

theorem step_next3 (a b c : Nat) (st st' : St) (u : Nat) (h : Pend [a, b, c] st) :
    stepA st u = some st' ↔
      (st'.progress = 0 ∧ scalarN [a, b, c, u] = some st'.cpoint) ∨ Pend [a, b, c, u] st' := by
  obtain ⟨q, v⟩ := st'
  simp only [Pend, isCont] at h
  obtain ⟨h1, h2, rfl⟩ := h
  simp only [scalarN, Pend, h1, h2, isCont, Option.ite_none_right_eq_some, Option.some.injEq, St.mk.injEq,
      true_and, or_false]
  have hb : 128 ≤ b := by omega
  have ha' : 240 ≤ a := by omega
  clear h1
  unfold stepA
  simp only [Nat.reduceEqDiff, Nat.succ_ne_zero, if_false, false_and, true_and, Nat.reduceSub]
  split
  · simp only [Option.some.injEq, St.mk.injEq]; omega
  · simp only [reduceCtorEq, false_iff]; omega

/-- Consuming a further byte. -/
theorem step_next (p : List Nat) (st st' : St) (u : Nat) (h : Pend p st) :
    stepA st u = some st' ↔
      (st'.progress = 0 ∧ scalarN (p ++ [u]) = some st'.cpoint) ∨ Pend (p ++ [u]) st' := by
  match p with
  | [] => exact h.elim
  | [a] => exact step_next1 a st st' u h
  | [a, b] => exact step_next2 a b st st' u h
  | [a, b, c] => exact step_next3 a b c st st' u h
  | _ :: _ :: _ :: _ :: _ => exact h.elim

/-- A pending byte sequence can be completed. -/
theorem Pend.completable {p st} (h : Pend p st) :
    ∃ q, q ≠ [] ∧ (∀ x ∈ q, x < 256) ∧ (scalarN (p ++ q)).isSome := by
  match p with
  | [] => exact h.elim
  | [a] =>
    rcases h with ⟨h1, h2, -⟩ | ⟨h1, h2, -⟩ | ⟨h1, h2, -⟩
    · refine ⟨[0x80], by simp, by simp, ?_⟩
      simp only [List.cons_append, List.nil_append, scalarN, isCont]
      rw [if_pos (by omega)]; rfl
    · by_cases hE : a = 0xE0
      · exact ⟨[0xA0, 0x80], by simp, by simp, by subst hE; rfl⟩
      · refine ⟨[0x80, 0x80], by simp, by simp, ?_⟩
        simp only [List.cons_append, List.nil_append, scalarN, isCont]
        rw [if_pos (by omega)]; rfl
    · by_cases hE : a = 0xF0
      · exact ⟨[0x90, 0x80, 0x80], by simp, by simp, by subst hE; rfl⟩
      · refine ⟨[0x80, 0x80, 0x80], by simp, by simp, ?_⟩
        simp only [List.cons_append, List.nil_append, scalarN, isCont]
        rw [if_pos (by omega)]; rfl
  | [a, b] =>
    simp only [Pend, isCont] at h
    rcases h with ⟨h1, -⟩ | ⟨h1, -⟩
    · refine ⟨[0x80], by simp, by simp, ?_⟩
      simp only [List.cons_append, List.nil_append, scalarN, isCont]
      rw [if_pos ⟨h1, by omega⟩]; rfl
    · refine ⟨[0x80, 0x80], by simp, by simp, ?_⟩
      simp only [List.cons_append, List.nil_append, scalarN, isCont]
      rw [if_pos ⟨h1, by omega⟩]; rfl
  | [a, b, c] =>
    simp only [Pend, isCont] at h
    refine ⟨[0x80], by simp, by simp, ?_⟩
    simp only [List.cons_append, List.nil_append, scalarN, isCont]
    rw [if_pos ⟨h.1, h.2.1, by omega⟩]; rfl
  | _ :: _ :: _ :: _ :: _ => exact h.elim

/-- A proper nonempty prefix of a well-formed character is pending, and not itself a character. -/
theorem pend_of_prefix (p q : List Nat) (c : Nat) (hp : p ≠ []) (hq : q ≠ [])
    (h : scalarN (p ++ q) = some c) : (∃ st, Pend p st) ∧ scalarN p = none := by
  match p, q with
  | [], _ => exact absurd rfl hp
  | _, [] => exact absurd rfl hq
  | [a], [b] =>
    simp only [List.cons_append, List.nil_append, scalarN, isCont, Option.ite_none_right_eq_some] at h
    refine ⟨⟨_, Or.inl ⟨by omega, by omega, rfl⟩⟩, ?_⟩
    simp only [scalarN]; rw [if_neg (by omega)]
  | [a], [b, d] =>
    simp only [List.cons_append, List.nil_append, scalarN, isCont, Option.ite_none_right_eq_some] at h
    refine ⟨⟨_, Or.inr (Or.inl ⟨by omega, by omega, rfl⟩)⟩, ?_⟩
    simp only [scalarN]; rw [if_neg (by omega)]
  | [a], [b, d, e] =>
    simp only [List.cons_append, List.nil_append, scalarN, isCont, Option.ite_none_right_eq_some] at h
    refine ⟨⟨_, Or.inr (Or.inr ⟨by omega, by omega, rfl⟩)⟩, ?_⟩
    simp only [scalarN]; rw [if_neg (by omega)]
  | [a], b :: d :: e :: f :: r => simp [scalarN] at h
  | [a, b], [d] =>
    simp only [List.cons_append, List.nil_append, scalarN, isCont, Option.ite_none_right_eq_some] at h
    refine ⟨⟨_, Or.inl ⟨h.1.1, rfl⟩⟩, ?_⟩
    simp only [scalarN, isCont]; rw [if_neg (by omega)]
  | [a, b], [d, e] =>
    simp only [List.cons_append, List.nil_append, scalarN, isCont, Option.ite_none_right_eq_some] at h
    refine ⟨⟨_, Or.inr ⟨h.1.1, rfl⟩⟩, ?_⟩
    simp only [scalarN, isCont]; rw [if_neg (by omega)]
  | [a, b], d :: e :: f :: r => simp [scalarN] at h
  | [a, b, d], [e] =>
    simp only [List.cons_append, List.nil_append, scalarN, isCont, Option.ite_none_right_eq_some] at h
    refine ⟨⟨_, h.1.1, h.1.2.1, rfl⟩, ?_⟩
    simp only [scalarN, isCont]; rw [if_neg (by omega)]
  | [a, b, d], e :: f :: r => simp [scalarN] at h
  | a :: b :: d :: e :: r, f :: q => simp [scalarN] at h

end Mlibc.Utf8
