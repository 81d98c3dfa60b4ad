import Verif.Base

/-
Signal sets (options/internal/generic/sigset.cpp; `sigisemptyset`: options/posix/generic/posix_signal.cpp L126-134).
A `sigset_t` is a list of words of `W` bits (one word on some ABIs, 1024 bits on others); `int` has 32 bits.
Property C47.
-/
namespace Mlibc.SigSet

variable {W : Nat}

/-- A call returns a value (`some`) or -1 with `EINVAL` (`none`). -/
abbrev Ret := Option Int

/-- `sigset.cpp` L46-49 -/
def sigemptyset (s : List (BitVec W)) : List (BitVec W) × Ret := (s.map fun _ => 0, some 0)

/-- L51-54 -/
def sigfillset (s : List (BitVec W)) : List (BitVec W) × Ret := (s.map fun _ => BitVec.allOnes W, some 0)

/-- The check of `sigaddset`, `sigdelset` and `sigismember` and the access to the word: `sig - 1` in `int` arithmetic
(overflow is undefined), then field and bit (`signo_to_field`, `signo_to_bit` L36-42). `f` has the word, the bit's
position and stores the new word. L57-64, L70-77, L83-90 -/
def access (s : List (BitVec W)) (sig : Int) (f : Nat → BitVec W → Nat → List (BitVec W) × Ret) :
    Res (List (BitVec W) × Ret) :=
  if sig - 1 < -2 ^ 31 then .ub
  else if sig - 1 < 0 ∨ (sig - 1).toNat ≥ W * s.length then .ok (s, none)
  else
    match s[(sig - 1).toNat / W]? with
    | none => .ub
    | some w => .ok (f ((sig - 1).toNat / W) w ((sig - 1).toNat % W))

/-- L56-67 -/
def sigaddset (s : List (BitVec W)) (sig : Int) : Res (List (BitVec W) × Ret) :=
  access s sig fun field w bit => (s.set field (w ||| (1#W <<< bit)), some 0)

/-- L69-80 -/
def sigdelset (s : List (BitVec W)) (sig : Int) : Res (List (BitVec W) × Ret) :=
  access s sig fun field w bit => (s.set field (w &&& ~~~ (1#W <<< bit)), some 0)

/-- L82-92 -/
def sigismember (s : List (BitVec W)) (sig : Int) : Res (List (BitVec W) × Ret) :=
  access s sig fun _ w bit => (s, some (if w &&& (1#W <<< bit) ≠ 0 then 1 else 0))

/-- posix_signal.cpp L126-134; compares words instead of bytes. -/
def sigisemptyset (s : List (BitVec W)) : List (BitVec W) × Ret := (s, some (if s.all (· == 0) then 1 else 0))

inductive Op where
  | empty | fill | add (sig : Int) | del (sig : Int) | mem (sig : Int) | isEmpty
  deriving DecidableEq, Repr

def step (s : List (BitVec W)) : Op → Res (List (BitVec W) × Ret)
  | .empty => .ok (sigemptyset s)
  | .fill => .ok (sigfillset s)
  | .add sig => sigaddset s sig
  | .del sig => sigdelset s sig
  | .mem sig => sigismember s sig
  | .isEmpty => .ok (sigisemptyset s)

/-- The results of a history of calls on one object. -/
def run (s : List (BitVec W)) : List Op → Res (List Ret)
  | [] => .ok []
  | op :: ops => (step s op).bind fun r => (run r.1 ops).bind fun rs => .ok (r.2 :: rs)

/-! ## Specification -/

/-- Signal numbers an object of `n` bits can hold. -/
def valid (n : Nat) (sig : Int) : Prop := 1 ≤ sig ∧ sig ≤ n

instance : DecidablePred (valid n) := fun _ => inferInstanceAs (Decidable (_ ∧ _))

open Classical in
/-- A set of signals, and what each operation does to it. -/
noncomputable def specStep (n : Nat) (S : Int → Prop) : Op → (Int → Prop) × Ret
  | .empty => (fun _ => False, some 0)
  | .fill => (fun x => valid n x, some 0)
  | .add sig => if valid n sig then (fun x => x = sig ∨ S x, some 0) else (S, none)
  | .del sig => if valid n sig then (fun x => x ≠ sig ∧ S x, some 0) else (S, none)
  | .mem sig => (S, if valid n sig then some (if S sig then 1 else 0) else none)
  | .isEmpty => (S, some (if ∃ x, S x then 0 else 1))

noncomputable def specRun (n : Nat) (S : Int → Prop) : List Op → List Ret
  | [] => []
  | op :: ops => (specStep n S op).2 :: specRun n (specStep n S op).1 ops

/-! ## Proof -/

/-- The bit at position `k` of the object. -/
def bit (s : List (BitVec W)) (k : Nat) : Bool := ((s[k / W]?).getD 0).getLsbD (k % W)

/-- The set of signals an object holds. -/
def members (s : List (BitVec W)) (x : Int) : Prop := valid (W * s.length) x ∧ bit s (x - 1).toNat = true

theorem split_eq {a b : Nat} (h : a / W = b / W) (h' : a % W = b % W) : a = b := by
  rw [← Nat.div_add_mod a W, ← Nat.div_add_mod b W, h, h']

theorem bit_set (s : List (BitVec W)) (k : Nat) (w : BitVec W) (hk : k / W < s.length) (j : Nat) :
    bit (s.set (k / W) w) j = if j / W = k / W then w.getLsbD (j % W) else bit s j := by
  unfold bit
  rw [List.getElem?_set]
  by_cases h : k / W = j / W
  · rw [if_pos h, if_pos h.symm, if_pos hk]; rfl
  · rw [if_neg h, if_neg (fun e => h e.symm)]

theorem getLsbD_one_shl (n i : Nat) (hn : n < W) (hi : i < W) : (1#W <<< n).getLsbD i = decide (i = n) := by
  simp only [BitVec.getLsbD_shiftLeft, hi, decide_true, Bool.true_and, BitVec.getLsbD_one]
  by_cases h : i = n
  · subst h; simp; omega
  · by_cases h' : i < n
    · simp [h', h]
    · have : i - n ≠ 0 := by omega
      simp [h', h, this]

theorem and_shl_ne_zero (w : BitVec W) (n : Nat) (hn : n < W) : (w &&& (1#W <<< n) ≠ 0) ↔ w.getLsbD n = true := by
  constructor
  · intro h
    cases hb : w.getLsbD n with
    | true => rfl
    | false =>
      exfalso
      apply h
      apply BitVec.eq_of_getLsbD_eq
      intro i hi
      rw [BitVec.getLsbD_and, getLsbD_one_shl n i hn hi]
      by_cases e : i = n
      · subst e; simp [hb]
      · simp [e]
  · intro h e
    have := congrArg (fun v => v.getLsbD n) e
    simp only [BitVec.getLsbD_and, getLsbD_one_shl n n hn hn, h] at this
    simp at this

theorem empty_iff (s : List (BitVec W)) : s.all (· == 0) = true ↔ ¬ ∃ x, members s x := by
  constructor
  · rintro h ⟨x, hv, hb⟩
    unfold bit at hb
    cases hg : s[(x - 1).toNat / W]? with
    | none => rw [hg] at hb; simp at hb
    | some w =>
      have hw := List.all_eq_true.1 h w (List.mem_of_getElem? hg)
      have : w = 0 := by simpa using hw
      rw [hg, this] at hb; simp at hb
  · intro h
    rw [List.all_eq_true]
    intro w hw
    obtain ⟨i, hi, rfl⟩ := List.mem_iff_getElem.1 hw
    simp only [beq_iff_eq]
    apply BitVec.eq_of_getLsbD_eq
    intro k hk
    cases hb : (s[i]).getLsbD k with
    | false => simp
    | true =>
      exfalso
      apply h
      have h1 : (W * i + k) / W = i := by
        rw [Nat.mul_add_div (by omega), Nat.div_eq_of_lt hk]; omega
      have h2 : (W * i + k) % W = k := by rw [Nat.mul_add_mod, Nat.mod_eq_of_lt hk]
      refine ⟨((W * i + k : Nat) : Int) + 1, ⟨by omega, ?_⟩, ?_⟩
      · have : W * (i + 1) ≤ W * s.length := Nat.mul_le_mul_left W (by omega)
        rw [Nat.mul_add] at this
        omega
      · have : ((W * i + k : Nat) : Int) + 1 - 1 = ((W * i + k : Nat) : Int) := by omega
        rw [this, Int.toNat_natCast]
        unfold bit
        rw [h1, h2, List.getElem?_eq_getElem hi]
        simpa using hb

theorem access_valid (s : List (BitVec W)) (sig : Int) (hv : valid (W * s.length) sig) :
    (sig - 1).toNat / W < s.length ∧ (sig - 1).toNat % W < W ∧ ∀ f, access s sig f =
      .ok (f ((sig - 1).toNat / W) ((s[(sig - 1).toNat / W]?).getD 0) ((sig - 1).toNat % W)) := by
  obtain ⟨h1, h2⟩ := hv
  have hlt : (sig - 1).toNat < W * s.length := by omega
  have hW : 0 < W := by
    rcases Nat.eq_zero_or_pos W with h | h
    · have := Nat.mul_eq_zero.2 (.inl h : W = 0 ∨ s.length = 0); omega
    · exact h
  have hf : (sig - 1).toNat / W < s.length := by
    rw [Nat.div_lt_iff_lt_mul hW]; rw [Nat.mul_comm]; exact hlt
  refine ⟨hf, Nat.mod_lt _ hW, fun f => ?_⟩
  unfold access
  rw [if_neg (by omega), if_neg (by omega), List.getElem?_eq_getElem hf]
  rfl

theorem access_invalid (s : List (BitVec W)) (sig : Int) (hi : -2 ^ 31 < sig) (hv : ¬ valid (W * s.length) sig)
    (f) : access s sig f = .ok (s, none) := by
  unfold access
  unfold valid at hv
  rw [if_neg (by omega), if_pos (by omega)]

/-- The arguments of an operation are not `INT_MIN`. -/
def Op.InRange : Op → Prop
  | .add sig | .del sig | .mem sig => -2 ^ 31 < sig
  | _ => True

theorem step_refines (s : List (BitVec W)) (op : Op) (h : op.InRange) : ∃ s' r, step s op = .ok (s', r) ∧
    s'.length = s.length ∧ specStep (W * s.length) (members s) op = (members s', r) := by
  have toNat_inj : ∀ {x y : Int}, 1 ≤ x → 1 ≤ y → (x - 1).toNat = (y - 1).toNat → x = y := by
    intro x y _ _ _; omega
  cases op with
  | empty =>
    refine ⟨_, _, rfl, by simp, ?_⟩
    unfold specStep members bit
    simp only [Prod.mk.injEq, and_true]
    funext x
    simp only [List.getElem?_map, eq_iff_iff, false_iff, not_and]
    intro _
    cases s[(x - 1).toNat / W]? <;> simp
  | fill =>
    refine ⟨_, _, rfl, by simp, ?_⟩
    unfold specStep members bit
    simp only [Prod.mk.injEq, and_true]
    funext x
    simp only [List.getElem?_map, eq_iff_iff, List.length_map]
    constructor
    · intro hv
      obtain ⟨h1, h2, -⟩ := access_valid s x hv
      refine ⟨hv, ?_⟩
      rw [List.getElem?_eq_getElem h1]; simp only [Option.map_some, Option.getD_some, BitVec.getLsbD_allOnes, h2, decide_true]
    · exact fun h => h.1
  | isEmpty =>
    refine ⟨_, _, rfl, rfl, ?_⟩
    unfold specStep
    have := empty_iff s
    simp only [Prod.mk.injEq, true_and, Option.some.injEq]
    by_cases hx : ∃ x, members s x
    · rw [if_pos hx, if_neg (fun hh => this.1 hh hx)]
    · rw [if_neg hx, if_pos (this.2 hx)]
  | add sig =>
    by_cases hv : valid (W * s.length) sig
    · obtain ⟨h1, h2, h3⟩ := access_valid s sig hv
      refine ⟨_, _, by simp only [step, sigaddset]; exact h3 _, by simp, ?_⟩
      simp only [specStep]
      rw [if_pos hv]
      simp only [Prod.mk.injEq, and_true]
      funext x
      simp only [eq_iff_iff, members, List.length_set, bit_set s _ _ h1]
      constructor
      · rintro (rfl | ⟨hx, hb⟩)
        · refine ⟨hv, ?_⟩
          rw [if_pos rfl, BitVec.getLsbD_or, getLsbD_one_shl _ _ h2 h2]; simp
        · refine ⟨hx, ?_⟩
          split
          · rename_i he
            rw [BitVec.getLsbD_or]
            unfold bit at hb
            rw [he] at hb
            rw [hb]; simp
          · exact hb
      · rintro ⟨hx, hb⟩
        split at hb
        · rename_i he
          rw [BitVec.getLsbD_or, getLsbD_one_shl _ _ h2 (access_valid s x hx).2.1] at hb
          by_cases hm : (x - 1).toNat % W = (sig - 1).toNat % W
          · exact .inl (toNat_inj hx.1 hv.1 (split_eq he hm))
          · right
            refine ⟨hx, ?_⟩
            unfold bit
            rw [he]
            simpa only [hm, decide_false, Bool.or_false] using hb
        · exact .inr ⟨hx, hb⟩
    · refine ⟨s, none, by simp only [step, sigaddset]; exact access_invalid s sig h hv _, rfl, ?_⟩
      simp only [specStep]
      rw [if_neg hv]
  | del sig =>
    by_cases hv : valid (W * s.length) sig
    · obtain ⟨h1, h2, h3⟩ := access_valid s sig hv
      refine ⟨_, _, by simp only [step, sigdelset]; exact h3 _, by simp, ?_⟩
      simp only [specStep]
      rw [if_pos hv]
      simp only [Prod.mk.injEq, and_true]
      funext x
      simp only [eq_iff_iff, members, List.length_set, bit_set s _ _ h1]
      constructor
      · rintro ⟨hne, hx, hb⟩
        refine ⟨hx, ?_⟩
        split
        · rename_i he
          have hxw := (access_valid s x hx).2.1
          rw [BitVec.getLsbD_and, BitVec.getLsbD_not, getLsbD_one_shl _ _ h2 hxw]
          unfold bit at hb
          rw [he] at hb
          have hm : (x - 1).toNat % W ≠ (sig - 1).toNat % W := fun hm => hne (toNat_inj hx.1 hv.1 (split_eq he hm))
          simp only [hb, hm, hxw, decide_false, decide_true, Bool.not_false, Bool.and_true]
        · exact hb
      · rintro ⟨hx, hb⟩
        split at hb
        · rename_i he
          have hxw := (access_valid s x hx).2.1
          rw [BitVec.getLsbD_and, BitVec.getLsbD_not, getLsbD_one_shl _ _ h2 hxw] at hb
          simp only [Bool.and_eq_true, Bool.not_eq_true', decide_eq_false_iff_not] at hb
          refine ⟨?_, hx, ?_⟩
          · rintro rfl; exact hb.2.2 rfl
          · unfold bit; rw [he]; exact hb.1
        · rename_i he
          refine ⟨?_, hx, hb⟩
          rintro rfl; exact he rfl
    · refine ⟨s, none, by simp only [step, sigdelset]; exact access_invalid s sig h hv _, rfl, ?_⟩
      simp only [specStep]
      rw [if_neg hv]
  | mem sig =>
    by_cases hv : valid (W * s.length) sig
    · obtain ⟨h1, h2, h3⟩ := access_valid s sig hv
      refine ⟨_, _, by simp only [step, sigismember]; exact h3 _, rfl, ?_⟩
      simp only [specStep]
      rw [if_pos hv]
      simp only [Prod.mk.injEq, true_and, Option.some.injEq]
      have hiff : members s sig ↔ (s[(sig - 1).toNat / W]?).getD 0 &&& (1#W <<< ((sig - 1).toNat % W)) ≠ 0 := by
        rw [and_shl_ne_zero _ _ h2]
        exact ⟨fun h => h.2, fun h => ⟨hv, h⟩⟩
      by_cases hm : members s sig
      · rw [if_pos hm, if_pos (hiff.1 hm)]
      · rw [if_neg hm, if_neg (fun hh => hm (hiff.2 hh))]
    · refine ⟨s, none, by simp only [step, sigismember]; exact access_invalid s sig h hv _, rfl, ?_⟩
      simp only [specStep]
      rw [if_neg hv]

theorem run_refines (s : List (BitVec W)) (ops : List Op) (h : ∀ op ∈ ops, op.InRange) :
    run s ops = .ok (specRun (W * s.length) (members s) ops) := by
  induction ops generalizing s with
  | nil => rfl
  | cons op ops ih =>
    obtain ⟨s', r, h1, h2, h3⟩ := step_refines s op (h op (by simp))
    rw [run, h1]
    simp only [Res.bind]
    rw [ih s' (fun o ho => h o (by simp [ho]))]
    simp only [specRun, h3, h2]

/-- **C47** (partial): after `sigemptyset` on an object of any contents, every history of calls returns what a set of
the signal numbers `1..n` would (`n` the number of bits of the object); other numbers give `EINVAL` and change nothing.
Missing from the full property: the number `INT_MIN` (`sig_int_min_violated`). -/
theorem sigset_history_partial (s : List (BitVec W)) (ops : List Op) (h : ∀ op ∈ ops, op.InRange) :
    run s (.empty :: ops) = .ok (some 0 :: specRun (W * s.length) (fun _ => False) ops) := by
  have := run_refines s (.empty :: ops) (by
    intro op ho
    rcases List.mem_cons.1 ho with rfl | ho
    · trivial
    · exact h op ho)
  rw [this]
  rfl

example : run (W := 8) [255, 3] [.empty, .add 9, .add 0, .mem 9, .mem 10, .add 17, .isEmpty, .del 9, .isEmpty] =
    .ok [some 0, some 0, none, some 1, some 0, none, some 0, some 0, some 1] := by decide
example : ∀ op ∈ [Op.add 9, .add 0, .mem 9, .fill], op.InRange := by simp [Op.InRange]

/-- **C47** violated: the number `INT_MIN` overflows in `sig - 1` instead of being rejected. sigset.cpp L57 -/
theorem sig_int_min_violated : run (W := 64) [0] [.add (-2 ^ 31)] = .ub := by decide

end Mlibc.SigSet
