import Verif.Conc.Cancel
/-
Further invariants for C80.
-/
set_option linter.unusedSimpArgs false
namespace Mlibc.Conc.Cancel
open Spec

theorem snoc_induction {α : Type} {P : List α → Prop} (h0 : P []) (h1 : ∀ tr l, P tr → P (tr ++ [l])) (tr : List α) : P tr := by
  rw [← List.reverse_reverse tr]
  induction tr.reverse with
  | nil => exact h0
  | cons a t ih => rw [List.reverse_cons]; exact h1 _ _ ih

theorem requested_iff (tr : List Lab) : (requests tr).1 = true ↔ Requested tr := by
  induction tr using snoc_induction with
  | h0 => simp [requests, Requested]
  | h1 tr l ih =>
    rw [requests_snoc]
    unfold Requested at *
    cases l <;> simp [ih]

theorem inv3 {m : Bool} {tr : List Lab} {s : St} (h : Exec m tr s) : Inv3 tr s := by
  induction h with
  | init h => exact inv3_init h
  | step hx hs ih => exact inv3_step (inv12 hx).1 ih hs

/-- The function a program counter is in. -/
@[grind] def callPc : Pc → Call
  | .tyLoad _ => .type
  | .tyCas _ _ => .type
  | .stLoad _ => .state
  | .stCas _ _ => .state
  | .stMask _ _ => .state
  | .test => .test
  | .testRet => .test
  | .cp => .sys
  | .cpBegin _ => .sys
  | .cpIn => .sys
  | .cpEnd _ => .sys
  | .cpIntr => .sys
  | .scLoad => .self
  | .scCas _ => .self
  | _ => .none

structure Inv4 (tr : List Lab) (s : St) : Prop where
  alive : Alive tr → leaving s.pc = false ∧ s.bits.exit = false
  stm : ∀ e w, Alive tr → s.pc = .stMask e w → w = stateOf tr
  st : Alive tr → masking s.pc = false → s.bits.en = stateOf tr
  ty : Alive tr → s.bits.as = (types tr).1
  tyL : ∀ a, Alive tr → s.pc = .tyLoad a → (types tr).2 = a
  tyC : ∀ a v, Alive tr → s.pc = .tyCas a v → (types tr).2 = a
  call : leaving s.pc = false → callOf tr = callPc s.pc
  hr : ∀ v, s.hp = .cas v → s.bits.as = true ∨ inRange s.pc = true

theorem inv4_init {m : Bool} {s : St} (h : Init m s) : Inv4 [] s := by
  obtain ⟨h1, h2, h3, h4, h5, h6, h7⟩ := h
  constructor <;> simp [h1, h2, h3, h4, h5, h6, h7, leaving, stateOf, types, callOf, callPc]

set_option maxHeartbeats 1000000 in
theorem inv4_step {m : Bool} {tr : List Lab} {s s' : St} {l : Lab} (h1 : Inv1 s) (h2 : Inv2 m s) (h : Inv4 tr s) (hs : Step s l s') : Inv4 (tr ++ [l]) s' := by
  obtain ⟨i1, i2, i3, i4, i5, i6, i7, i8, i9, i10, i11, i12, i13, i14, i15⟩ := h1
  obtain ⟨-, k2, -, -, -, -⟩ := h2
  obtain ⟨j1, j2, j3, j4, j5, j6, j7, j8⟩ := h
  cases hs <;> constructor <;> (try simp only [alive_snoc, stateOf_snoc, types_snoc, callOf_snoc, leaving, masking, inRange, callPc]) <;> grind

theorem inv4 {m : Bool} {tr : List Lab} {s : St} (h : Exec m tr s) : Inv4 tr s := by
  induction h with
  | init h => exact inv4_init h
  | step hx hs ih => exact inv4_step (inv12 hx).1 (inv12 hx).2 ih hs

/-- Disabled by the thread, and not being enabled. -/
def disabled (tr : List Lab) : Bool := tr.foldl (fun v l => match l with | .retState e _ => !e | .callState true => false | _ => v) false

theorem disabled_snoc (tr : List Lab) (l : Lab) : disabled (tr ++ [l]) = match l with
    | .retState e _ => !e | .callState true => false | _ => disabled tr := by
  simp only [disabled, List.foldl_append, List.foldl_cons, List.foldl_nil]

structure Inv5 (tr : List Lab) (s : St) : Prop where
  en : disabled tr = true → s.bits.en = false
  blk : disabled tr = true → s.bits.exit = true ∨ (s.blocked = true ∧ s.hp = .none)
  p1 : disabled tr = true → s.pc ≠ .stLoad true
  p2 : ∀ v, disabled tr = true → s.pc ≠ .stCas true v
  p3 : ∀ w, disabled tr = true → s.pc ≠ .stMask true w

theorem inv5_init {m : Bool} {s : St} (h : Init m s) : Inv5 [] s := by
  constructor <;> simp [disabled]

set_option maxHeartbeats 1000000 in
theorem inv5_step {m : Bool} {tr : List Lab} {s s' : St} {l : Lab} (h1 : Inv1 s) (h2 : Inv2 m s) (h : Inv5 tr s) (hs : Step s l s') :
    Inv5 (tr ++ [l]) s' := by
  obtain ⟨i1, i2, i3, i4, i5, i6, i7, i8, i9, i10, i11, i12, i13, i14, i15⟩ := h1
  obtain ⟨k1, k2, k3, k4, -, -⟩ := h2
  obtain ⟨j1, j2, j3, j4, j5⟩ := h
  cases hs <;> constructor <;> simp only [disabled_snoc] <;> grind

theorem inv5 {m : Bool} {tr : List Lab} {s : St} (h : Exec m tr s) : Inv5 tr s := by
  induction h with
  | init h => exact inv5_init h
  | step hx hs ih => exact inv5_step (inv12 hx).1 (inv12 hx).2 ih hs

end Mlibc.Conc.Cancel
