import Verif.Sets.SigSet

/-!
# Sets of file descriptors

`FD_ZERO`, `FD_SET`, `FD_CLR` and `FD_ISSET`: options/posix/generic/sys-select.cpp L13-33, abis/linux/fd_set.h.  An `fd_set` is a list
of words of `2 ^ b` bits (`b` is 6 or 5), 1024 bits in all.  Property C119.
-/
namespace Mlibc.FdSet
open SigSet (bit bit_set getLsbD_one_shl and_shl_ne_zero split_eq)

variable {b : Nat}

inductive Op
  | zero | set (fd : Int) | clr (fd : Int) | isset (fd : Int)
deriving DecidableEq, Repr

/-! ## Specification -/

/-- What a history of calls on one object may give, from a set `S`: `FD_ISSET` gives nonzero exactly for the members, the others
    give nothing (0).  The process ends at the first descriptor outside 0..1023, without a result for this call (`none`). -/
def Allows : (Int → Prop) → List Op → List Int → Bool → Prop
  | _, [], rs, ended => rs = [] ∧ ended = false
  | _, .zero :: ops, rs, ended => ∃ rs', rs = 0 :: rs' ∧ Allows (fun _ => False) ops rs' ended
  | S, .set fd :: ops, rs, ended =>
    (0 ≤ fd ∧ fd ≤ 1023 ∧ ∃ rs', rs = 0 :: rs' ∧ Allows (fun x => x = fd ∨ S x) ops rs' ended) ∨
    (¬ (0 ≤ fd ∧ fd ≤ 1023) ∧ rs = [] ∧ ended = true)
  | S, .clr fd :: ops, rs, ended =>
    (0 ≤ fd ∧ fd ≤ 1023 ∧ ∃ rs', rs = 0 :: rs' ∧ Allows (fun x => x ≠ fd ∧ S x) ops rs' ended) ∨
    (¬ (0 ≤ fd ∧ fd ≤ 1023) ∧ rs = [] ∧ ended = true)
  | S, .isset fd :: ops, rs, ended =>
    (0 ≤ fd ∧ fd ≤ 1023 ∧ ∃ r rs', rs = r :: rs' ∧ (r ≠ 0 ↔ S fd) ∧ Allows S ops rs' ended) ∨
    (¬ (0 ≤ fd ∧ fd ≤ 1023) ∧ rs = [] ∧ ended = true)

/-! ## The code -/

/-- The check and the access to `fds_bits[fd / NFDBITS]` in L19-30; the position is `fd & (NFDBITS - 1)`. -/
def access (s : List (BitVec (2 ^ b))) (fd : Int) (f : Nat → BitVec (2 ^ b) → Nat → α) : Res α :=
  if 0 ≤ fd ∧ fd < 1024 then
    match s[fd.toNat / 2 ^ b]? with
    | none => .ub
    | some w => .ok (f (fd.toNat / 2 ^ b) w (fd.toNat &&& (2 ^ b - 1)))
  else .panic

/-- `FD_MASK(n)` L17 -/
def mask (n : Nat) : BitVec (2 ^ b) := 1#(2 ^ b) <<< n

/-- L19-22 -/
def fdClr (s : List (BitVec (2 ^ b))) (fd : Int) : Res (List (BitVec (2 ^ b))) :=
  access s fd fun i w n => s.set i (w &&& ~~~ mask n)

/-- L23-26 -/
def fdIsset (s : List (BitVec (2 ^ b))) (fd : Int) : Res Int :=
  access s fd fun _ w n => if w &&& mask n ≠ 0 then 1 else 0

/-- L27-30 -/
def fdSet (s : List (BitVec (2 ^ b))) (fd : Int) : Res (List (BitVec (2 ^ b))) :=
  access s fd fun i w n => s.set i (w ||| mask n)

/-- L31-33 -/
def fdZero (s : List (BitVec (2 ^ b))) : List (BitVec (2 ^ b)) := s.map fun _ => 0

/-- One call: the object afterwards and the result. -/
def step (s : List (BitVec (2 ^ b))) : Op → Res (List (BitVec (2 ^ b)) × Int)
  | .zero => .ok (fdZero s, 0)
  | .set fd => (fdSet s fd).bind fun t => .ok (t, 0)
  | .clr fd => (fdClr s fd).bind fun t => .ok (t, 0)
  | .isset fd => (fdIsset s fd).bind fun r => .ok (s, r)

/-- A history: the results up to a failed `__ensure`, and whether there was one. -/
def run (s : List (BitVec (2 ^ b))) : List Op → Res (List Int × Bool)
  | [] => .ok ([], false)
  | op :: ops =>
    match step s op with
    | .ok r => (run r.1 ops).bind fun rs => .ok (r.2 :: rs.1, rs.2)
    | .panic => .ok ([], true)
    | .ub => .ub

/-! ## Proof -/

theorem bok {α β : Type} (a : α) (f : α → Res β) : (Res.ok a).bind f = f a := rfl

/-- The descriptors an object holds. -/
def members (s : List (BitVec (2 ^ b))) (x : Int) : Prop := 0 ≤ x ∧ bit s x.toNat = true

theorem access_in (s : List (BitVec (2 ^ b))) (hs : 2 ^ b * s.length = 1024) (x : Nat) (h : x < 1024)
    (f : Nat → BitVec (2 ^ b) → Nat → α) :
    x / 2 ^ b < s.length ∧ access s x f = .ok (f (x / 2 ^ b) ((s[x / 2 ^ b]?).getD 0) (x % 2 ^ b)) := by
  have hl : x / 2 ^ b < s.length := by
    rw [Nat.div_lt_iff_lt_mul (Nat.two_pow_pos b), Nat.mul_comm]; omega
  refine ⟨hl, ?_⟩
  unfold access
  rw [if_pos (by omega)]
  simp only [Int.toNat_natCast, List.getElem?_eq_getElem hl, Nat.and_two_pow_sub_one_eq_mod]
  rfl

theorem access_out (s : List (BitVec (2 ^ b))) (x : Int) (h : ¬ (0 ≤ x ∧ x ≤ 1023)) (f : Nat → BitVec (2 ^ b) → Nat → α) :
    access s x f = .panic := by
  unfold access
  rw [if_neg (by omega)]

theorem bit_or (s : List (BitVec (2 ^ b))) (c x : Nat) (h : c / 2 ^ b < s.length) :
    bit (s.set (c / 2 ^ b) ((s[c / 2 ^ b]?).getD 0 ||| mask (c % 2 ^ b))) x = true ↔ (x = c ∨ bit s x = true) := by
  have hm : ∀ n, n % 2 ^ b < 2 ^ b := fun n => Nat.mod_lt _ (Nat.two_pow_pos b)
  rw [bit_set s c _ h]
  unfold mask
  split
  · rename_i he
    rw [BitVec.getLsbD_or, getLsbD_one_shl _ _ (hm _) (hm _)]
    unfold bit
    rw [he]
    simp only [Bool.or_eq_true, decide_eq_true_eq]
    constructor
    · rintro (h | h)
      · exact Or.inr h
      · exact Or.inl (split_eq he h)
    · rintro (h | h)
      · exact Or.inr (by rw [h])
      · exact Or.inl h
  · rename_i he
    constructor
    · exact Or.inr
    · rintro (h | h)
      · exact absurd (by rw [h]) he
      · exact h

theorem bit_andnot (s : List (BitVec (2 ^ b))) (c x : Nat) (h : c / 2 ^ b < s.length) :
    bit (s.set (c / 2 ^ b) ((s[c / 2 ^ b]?).getD 0 &&& ~~~ mask (c % 2 ^ b))) x = true ↔ (x ≠ c ∧ bit s x = true) := by
  have hm : ∀ n, n % 2 ^ b < 2 ^ b := fun n => Nat.mod_lt _ (Nat.two_pow_pos b)
  rw [bit_set s c _ h]
  unfold mask
  split
  · rename_i he
    rw [BitVec.getLsbD_and, BitVec.getLsbD_not, getLsbD_one_shl _ _ (hm _) (hm _)]
    unfold bit
    rw [he]
    simp only [Bool.and_eq_true, Bool.not_eq_true', decide_eq_false_iff_not, decide_eq_true_eq]
    constructor
    · rintro ⟨h1, h2⟩
      exact ⟨fun e => h2.2 (by rw [e]), h1⟩
    · rintro ⟨h1, h2⟩
      exact ⟨h2, hm _, fun e => h1 (split_eq he e)⟩
  · rename_i he
    constructor
    · exact fun h => ⟨fun e => he (by rw [e]), h⟩
    · exact fun h => h.2

theorem bit_zero (s : List (BitVec (2 ^ b))) (x : Nat) : bit (fdZero s) x = false := by
  unfold bit fdZero
  rw [List.getElem?_map]
  cases s[x / 2 ^ b]? <;> simp

theorem allows_congr {S S' : Int → Prop} {ops : List Op} {rs : List Int} {e : Bool} (h : ∀ x, S x ↔ S' x)
    (ha : Allows S ops rs e) : Allows S' ops rs e := (funext fun x => propext (h x) : S = S') ▸ ha

theorem run_allows (ops : List Op) : ∀ (s : List (BitVec (2 ^ b))), 2 ^ b * s.length = 1024 →
    ∃ rs e, run s ops = .ok (rs, e) ∧ Allows (members s) ops rs e := by
  induction ops with
  | nil => intro s _; exact ⟨[], false, rfl, rfl, rfl⟩
  | cons op ops ih =>
    intro s hs
    cases op with
    | zero =>
      obtain ⟨rs, e, hr, ha⟩ := ih (fdZero s) (by simpa [fdZero] using hs)
      refine ⟨0 :: rs, e, by simp [run, step, hr, bok], rs, rfl, allows_congr ?_ ha⟩
      intro x
      simp [members, bit_zero]
    | set fd =>
      by_cases hf : 0 ≤ fd ∧ fd ≤ 1023
      · obtain ⟨c, rfl⟩ : ∃ c : Nat, fd = c := ⟨fd.toNat, by omega⟩
        obtain ⟨hl, hacc⟩ := access_in s hs c (by omega) (fun i w n => s.set i (w ||| mask n))
        obtain ⟨rs, e, hr, ha⟩ := ih _ (show 2 ^ b * (s.set (c / 2 ^ b) ((s[c / 2 ^ b]?).getD 0 ||| mask (c % 2 ^ b))).length = 1024 by
          simpa using hs)
        refine ⟨0 :: rs, e, by simp only [run, step, fdSet, hacc, bok, hr],
          Or.inl ⟨hf.1, hf.2, rs, rfl, allows_congr ?_ ha⟩⟩
        intro x
        unfold members
        rw [bit_or _ _ _ hl]
        constructor
        · rintro ⟨h0, h | h⟩
          · exact Or.inl (by omega)
          · exact Or.inr ⟨h0, h⟩
        · rintro (h | h)
          · exact ⟨by omega, Or.inl (by omega)⟩
          · exact ⟨h.1, Or.inr h.2⟩
      · refine ⟨[], true, ?_, Or.inr ⟨hf, rfl, rfl⟩⟩
        simp only [run, step, fdSet, access_out s fd hf]
        rfl
    | clr fd =>
      by_cases hf : 0 ≤ fd ∧ fd ≤ 1023
      · obtain ⟨c, rfl⟩ : ∃ c : Nat, fd = c := ⟨fd.toNat, by omega⟩
        obtain ⟨hl, hacc⟩ := access_in s hs c (by omega) (fun i w n => s.set i (w &&& ~~~ mask n))
        obtain ⟨rs, e, hr, ha⟩ := ih _ (show 2 ^ b * (s.set (c / 2 ^ b) ((s[c / 2 ^ b]?).getD 0 &&& ~~~ mask (c % 2 ^ b))).length = 1024 by
          simpa using hs)
        refine ⟨0 :: rs, e, by simp only [run, step, fdClr, hacc, bok, hr],
          Or.inl ⟨hf.1, hf.2, rs, rfl, allows_congr ?_ ha⟩⟩
        intro x
        unfold members
        rw [bit_andnot _ _ _ hl]
        constructor
        · rintro ⟨h0, h1, h⟩
          exact ⟨by omega, h0, h⟩
        · rintro ⟨h1, h0, h⟩
          exact ⟨h0, by omega, h⟩
      · refine ⟨[], true, ?_, Or.inr ⟨hf, rfl, rfl⟩⟩
        simp only [run, step, fdClr, access_out s fd hf]
        rfl
    | isset fd =>
      by_cases hf : 0 ≤ fd ∧ fd ≤ 1023
      · obtain ⟨c, rfl⟩ : ∃ c : Nat, fd = c := ⟨fd.toNat, by omega⟩
        obtain ⟨hl, hacc⟩ := access_in s hs c (by omega) (fun _ w n => (if w &&& mask n ≠ 0 then 1 else 0 : Int))
        obtain ⟨rs, e, hr, ha⟩ := ih s hs
        refine ⟨(if (s[c / 2 ^ b]?).getD 0 &&& mask (c % 2 ^ b) ≠ 0 then 1 else 0) :: rs, e,
          by simp only [run, step, fdIsset, hacc, bok, hr], Or.inl ⟨hf.1, hf.2, _, rs, rfl, ?_, ha⟩⟩
        have := and_shl_ne_zero ((s[c / 2 ^ b]?).getD 0) (c % 2 ^ b) (Nat.mod_lt _ (Nat.two_pow_pos b))
        unfold members mask
        simp only [Int.toNat_natCast, Int.natCast_nonneg, true_and]
        unfold bit
        rw [← this]
        split <;> simp_all
      · refine ⟨[], true, ?_, Or.inr ⟨hf, rfl, rfl⟩⟩
        simp only [run, step, fdIsset, access_out s fd hf]
        rfl

/-- **C119.** After `FD_ZERO`, every history of calls on an `fd_set` gives what a set of descriptors gives, and the process ends at the
    first descriptor that does not fit, before memory outside the object is touched. -/
theorem fdset_history (s : List (BitVec (2 ^ b))) (hs : 2 ^ b * s.length = 1024) (ops : List Op) :
    ∃ rs ended, run s (.zero :: ops) = .ok (0 :: rs, ended) ∧ Allows (fun _ => False) ops rs ended := by
  obtain ⟨rs, e, hr, ha⟩ := run_allows (.zero :: ops) s hs
  obtain ⟨rs', rfl, ha'⟩ := ha
  exact ⟨rs', e, hr, ha'⟩

/-- An object with 16 words of 64 bits, with anything in it. -/
example : 2 ^ 6 * (List.replicate 16 (0xdeadbeef#(2 ^ 6))).length = 1024 := rfl

example : run (List.replicate 16 (7#(2 ^ 6))) [.isset 1, .zero, .isset 1, .set 63, .set 64, .isset 64, .clr 63, .isset 63, .isset 64,
    .set 1024, .isset 0] = .ok ([1, 0, 0, 0, 0, 1, 0, 0, 1], true) := by decide +kernel

end Mlibc.FdSet
