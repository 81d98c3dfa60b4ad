import Verif.Sets.SigSet

/-
CPU sets (options/linux/generic/cpuset.cpp, options/linux/include/bits/linux/cpu_set.h). A set is the bytes of the
object, `setsize` of them; `int` has 32 bits. Property C48.
-/
namespace Mlibc.CpuSet

/-- The conversion of `setsize * CHAR_BIT` to `int`. cpuset.cpp L23, L35, L48 -/
def limit (setsize : Nat) : Int := Int.bmod (setsize * 8) (2 ^ 32)

/-- The bound check and access of `__mlibc_cpu_set`, `__mlibc_cpu_clear` and `__mlibc_cpu_isset`: a negative shift and
an access outside the object are undefined. L22-31, L34-43, L47-56 -/
def access (s : List (BitVec 8)) (cpu : Int) (skip : α) (f : Nat → BitVec 8 → Nat → α) : Res α :=
  if cpu ≥ limit s.length then .ok skip
  else if cpu.tmod 8 < 0 then .ub
  else if cpu.tdiv 8 < 0 then .ub
  else
    match s[(cpu.tdiv 8).toNat]? with
    | none => .ub
    | some b => .ok (f (cpu.tdiv 8).toNat b (cpu.tmod 8).toNat)

/-- L18-20 -/
def cpuZero (s : List (BitVec 8)) : List (BitVec 8) := s.map fun _ => 0

/-- L22-32 -/
def cpuSet (s : List (BitVec 8)) (cpu : Int) : Res (List (BitVec 8)) :=
  access s cpu s fun off b k => s.set off (b ||| (1#8 <<< k))

/-- L34-44 -/
def cpuClear (s : List (BitVec 8)) (cpu : Int) : Res (List (BitVec 8)) :=
  access s cpu s fun off b k => s.set off (b &&& ~~~ (1#8 <<< k))

/-- L47-57 -/
def cpuIsset (s : List (BitVec 8)) (cpu : Int) : Res Nat :=
  access s cpu 0 fun _ b k => (b &&& (1#8 <<< k)).toNat

/-- The two loops of `__mlibc_cpu_count`. L59-71 -/
def cpuCount : List (BitVec 8) → Nat
  | [] => 0
  | b :: bs => (List.range 8).countP (fun k => (1#8 <<< k) &&& b ≠ 0) + cpuCount bs

/-- `CPU_ALLOC_SIZE` for `num_cpus >= 0`. L12-16 -/
def allocSize (n : Nat) : Nat := 8 * (n / 64 + (n % 64 + 64 - 1) / 64)

inductive Op where
  | zero | set (cpu : Int) | clr (cpu : Int) | isset (cpu : Int) | count
  deriving DecidableEq, Repr

/-- A call returns a number, or nothing (0 here). -/
def step (s : List (BitVec 8)) : Op → Res (List (BitVec 8) × Nat)
  | .zero => .ok (cpuZero s, 0)
  | .set cpu => (cpuSet s cpu).bind fun s' => .ok (s', 0)
  | .clr cpu => (cpuClear s cpu).bind fun s' => .ok (s', 0)
  | .isset cpu => (cpuIsset s cpu).bind fun r => .ok (s, r)
  | .count => .ok (s, cpuCount s)

def run (s : List (BitVec 8)) : List Op → Res (List (BitVec 8) × List Nat)
  | [] => .ok (s, [])
  | op :: ops => (step s op).bind fun r => (run r.1 ops).bind fun rs => .ok (rs.1, r.2 :: rs.2)

/-! ## Specification -/

/-- The results a history may have, for a set `S` of the CPUs below `n`: CPUs from `n` on are never in the set. -/
def Allows (n : Nat) : (Int → Bool) → List Op → List Nat → Prop
  | _, [], rs => rs = []
  | _, .zero :: ops, r :: rs => r = 0 ∧ Allows n (fun _ => false) ops rs
  | S, .set c :: ops, r :: rs => r = 0 ∧ Allows n (fun x => (x == c && x < n) || S x) ops rs
  | S, .clr c :: ops, r :: rs => r = 0 ∧ Allows n (fun x => x != c && S x) ops rs
  | S, .isset c :: ops, r :: rs => (r ≠ 0 ↔ S c) ∧ Allows n S ops rs
  | S, .count :: ops, r :: rs => r = (List.range n).countP (fun (x : Nat) => S x) ∧ Allows n S ops rs
  | _, _ :: _, [] => False

/-! ## Proof -/

open SigSet (bit bit_set getLsbD_one_shl and_shl_ne_zero)

/-- The CPUs a set holds. -/
def members (s : List (BitVec 8)) (x : Int) : Bool := decide (0 ≤ x) && bit s x.toNat

theorem limit_eq (n : Nat) (h : n * 8 < 2 ^ 31) : limit n = 8 * n := by
  unfold limit
  rw [Int.bmod_eq_of_le (by omega) (by omega)]; omega

theorem bit_out (s : List (BitVec 8)) (x : Nat) (h : 8 * s.length ≤ x) : bit s x = false := by
  unfold bit
  rw [List.getElem?_eq_none (by omega)]; simp

theorem access_in (s : List (BitVec 8)) (x : Nat) (h : x < 8 * s.length) (hs : s.length * 8 < 2 ^ 31) (skip : α) (f) :
    access s x skip f = .ok (f (x / 8) ((s[x / 8]?).getD 0) (x % 8)) := by
  unfold access
  have h1 : ((x : Int).tmod 8) = ((x % 8 : Nat) : Int) := rfl
  have h2 : ((x : Int).tdiv 8) = ((x / 8 : Nat) : Int) := rfl
  rw [limit_eq _ hs, if_neg (by omega), h1, h2, if_neg (by omega), if_neg (by omega)]
  simp only [Int.toNat_natCast]
  rw [List.getElem?_eq_getElem (show x / 8 < s.length by omega)]
  rfl

theorem access_out (s : List (BitVec 8)) (x : Nat) (h : 8 * s.length ≤ x) (hs : s.length * 8 < 2 ^ 31) (skip : α) (f) :
    access s x skip f = .ok skip := by
  unfold access
  rw [limit_eq _ hs, if_pos (by omega)]

theorem bit_or (s : List (BitVec 8)) (c x : Nat) (h : c < 8 * s.length) :
    bit (s.set (c / 8) ((s[c / 8]?).getD 0 ||| (1#8 <<< (c % 8)))) x = (x == c || bit s x) := by
  rw [bit_set s c _ (by omega)]
  split
  · rename_i he
    rw [BitVec.getLsbD_or, getLsbD_one_shl _ _ (Nat.mod_lt _ (by omega)) (Nat.mod_lt _ (by omega)), Bool.or_comm]
    unfold bit
    rw [he]
    congr 1
    by_cases hxc : x = c
    · simp [hxc]
    · have : x % 8 ≠ c % 8 := by omega
      simp [hxc, this]
  · rename_i he
    have : x ≠ c := fun e => he (by rw [e])
    simp [this]

theorem bit_andnot (s : List (BitVec 8)) (c x : Nat) (h : c < 8 * s.length) :
    bit (s.set (c / 8) ((s[c / 8]?).getD 0 &&& ~~~ (1#8 <<< (c % 8)))) x = (x != c && bit s x) := by
  rw [bit_set s c _ (by omega)]
  split
  · rename_i he
    have hx : x % 8 < 8 := Nat.mod_lt _ (by omega)
    rw [BitVec.getLsbD_and, BitVec.getLsbD_not, getLsbD_one_shl _ _ (Nat.mod_lt _ (by omega)) hx, Bool.and_comm]
    unfold bit
    rw [he]
    congr 1
    by_cases hxc : x = c
    · simp [hxc]
    · have : x % 8 ≠ c % 8 := by omega
      simp [beq_false_of_ne hxc, this, bne, hx]
  · rename_i he
    have : x ≠ c := fun e => he (by rw [e])
    simp [this]

theorem count_eq (s : List (BitVec 8)) : cpuCount s = (List.range (8 * s.length)).countP (bit s) := by
  induction s with
  | nil => rfl
  | cons b bs ih =>
    rw [cpuCount, ih, List.length_cons, show 8 * (bs.length + 1) = 8 + 8 * bs.length by omega, List.range_add,
      List.countP_append, List.countP_map]
    congr 1
    · apply List.countP_congr
      intro k hk
      have hk : k < 8 := List.mem_range.1 hk
      have := and_shl_ne_zero b k hk
      rw [BitVec.and_comm] at this
      rw [decide_eq_true_iff, this]
      unfold bit
      rw [Nat.div_eq_of_lt hk, Nat.mod_eq_of_lt hk]
      rfl
    · congr 1
      funext k
      simp only [Function.comp]
      unfold bit
      rw [show (8 + k) / 8 = k / 8 + 1 by omega, Nat.add_mod_left]
      rfl

/-- The CPU numbers passed are not negative. -/
def Op.NonNeg : Op → Prop
  | .set c | .clr c | .isset c => 0 ≤ c
  | _ => True

theorem allows_congr {n : Nat} {S S' : Int → Bool} {ops : List Op} {rs : List Nat} (h : ∀ x, S x = S' x)
    (ha : Allows n S ops rs) : Allows n S' ops rs := by
  rwa [show S' = S from (funext h).symm]

theorem members_cast (s : List (BitVec 8)) (x : Nat) : members s x = bit s x := by simp [members]

theorem run_refines (s : List (BitVec 8)) (hs : s.length * 8 < 2 ^ 31) (ops : List Op) (h : ∀ op ∈ ops, op.NonNeg) :
    ∃ s' rs, run s ops = .ok (s', rs) ∧ s'.length = s.length ∧ Allows (8 * s.length) (members s) ops rs := by
  induction ops generalizing s with
  | nil => exact ⟨s, [], rfl, rfl, rfl⟩
  | cons op ops ih =>
    have hops : ∀ o ∈ ops, o.NonNeg := fun o ho => h o (by simp [ho])
    have key : ∀ s1 r1, step s op = .ok (s1, r1) → s1.length = s.length →
        (∀ rs, Allows (8 * s.length) (members s1) ops rs → Allows (8 * s.length) (members s) (op :: ops) (r1 :: rs)) →
        ∃ s' rs, run s (op :: ops) = .ok (s', rs) ∧ s'.length = s.length ∧
          Allows (8 * s.length) (members s) (op :: ops) rs := by
      intro s1 r1 h1 h2 h3
      obtain ⟨s', rs, k1, k2, k3⟩ := ih s1 (by omega) hops
      refine ⟨s', r1 :: rs, ?_, by omega, h3 rs (by rw [← h2]; exact k3)⟩
      rw [run, h1]
      simp only [Res.bind]
      rw [k1]
    cases op with
    | zero =>
      refine key _ _ rfl (by simp [cpuZero]) (fun rs hr => ⟨rfl, ?_⟩)
      have : members (cpuZero s) = fun _ => false := by
        funext x
        simp only [members, cpuZero, bit, List.getElem?_map]
        cases s[x.toNat / 8]? <;> simp
      rwa [this] at hr
    | count =>
      refine key _ _ rfl rfl (fun rs hr => ⟨?_, hr⟩)
      rw [count_eq]
      congr 1
    | set c =>
      have hc : 0 ≤ c := h (.set c) (by simp)
      obtain ⟨c, rfl⟩ := Int.eq_ofNat_of_zero_le hc
      by_cases hlt : c < 8 * s.length
      · refine key _ 0 (by simp only [step, cpuSet]; rw [access_in s c hlt hs]; rfl) (by simp)
          (fun rs hr => ⟨rfl, ?_⟩)
        refine allows_congr (fun x => Eq.symm ?_) hr
        simp only [members]
        rcases Int.lt_or_le x 0 with hx | hx
        · have : x ≠ (c : Int) := by omega
          simp [this, show ¬ 0 ≤ x by omega]
        · obtain ⟨x, rfl⟩ := Int.eq_ofNat_of_zero_le hx
          rw [Int.toNat_natCast, bit_or s c x hlt]
          by_cases hxc : x = c
          · subst hxc; simp; omega
          · have : (x : Int) ≠ c := by omega
            simp [beq_false_of_ne hxc, beq_false_of_ne this, bne]
      · refine key _ 0 (by simp only [step, cpuSet]; rw [access_out s c (by omega) hs]; rfl) (by simp)
          (fun rs hr => ⟨rfl, ?_⟩)
        refine allows_congr (fun x => Eq.symm ?_) hr
        by_cases hxc : x = (c : Int)
        · subst hxc; simp; omega
        · simp [hxc]
    | clr c =>
      have hc : 0 ≤ c := h (.clr c) (by simp)
      obtain ⟨c, rfl⟩ := Int.eq_ofNat_of_zero_le hc
      by_cases hlt : c < 8 * s.length
      · refine key _ 0 (by simp only [step, cpuClear]; rw [access_in s c hlt hs]; rfl) (by simp)
          (fun rs hr => ⟨rfl, ?_⟩)
        refine allows_congr (fun x => Eq.symm ?_) hr
        simp only [members]
        rcases Int.lt_or_le x 0 with hx | hx
        · simp [show ¬ 0 ≤ x by omega]
        · obtain ⟨x, rfl⟩ := Int.eq_ofNat_of_zero_le hx
          rw [Int.toNat_natCast, bit_andnot s c x hlt]
          by_cases hxc : x = c
          · subst hxc; simp
          · have : (x : Int) ≠ c := by omega
            simp [beq_false_of_ne hxc, beq_false_of_ne this, bne]
      · refine key _ 0 (by simp only [step, cpuClear]; rw [access_out s c (by omega) hs]; rfl) (by simp)
          (fun rs hr => ⟨rfl, ?_⟩)
        refine allows_congr (fun x => Eq.symm ?_) hr
        by_cases hxc : x = (c : Int)
        · subst hxc; rw [members_cast, bit_out s c (by omega)]; simp
        · simp [hxc]
    | isset c =>
      have hc : 0 ≤ c := h (.isset c) (by simp)
      obtain ⟨c, rfl⟩ := Int.eq_ofNat_of_zero_le hc
      by_cases hlt : c < 8 * s.length
      · refine key s _ (by simp only [step, cpuIsset]; rw [access_in s c hlt hs]; rfl) rfl (fun rs hr => ⟨?_, hr⟩)
        rw [members_cast]
        have := and_shl_ne_zero ((s[c / 8]?).getD 0) (c % 8) (Nat.mod_lt _ (by omega))
        unfold bit
        rw [← this]
        simp only [ne_eq, ← BitVec.toNat_inj]
        rfl
      · refine key s 0 (by simp only [step, cpuIsset]; rw [access_out s c (by omega) hs]; rfl) rfl
          (fun rs hr => ⟨?_, hr⟩)
        rw [members_cast, bit_out s c (by omega)]
        simp

/-- **C48** (partial): after `CPU_ZERO` on an object of any contents, every history of calls with CPU numbers that are
not negative stays inside the object and returns what a set of the CPUs below `8 * setsize` would.
Missing from the full property: negative numbers (`cpu_negative_violated`), and sizes of 2^28 bytes and more
(`cpu_large_violated`). -/
theorem cpuset_history_partial (s : List (BitVec 8)) (hs : s.length * 8 < 2 ^ 31) (ops : List Op)
    (h : ∀ op ∈ ops, op.NonNeg) :
    ∃ s' rs, run s (.zero :: ops) = .ok (s', 0 :: rs) ∧ s'.length = s.length ∧
      Allows (8 * s.length) (fun _ => false) ops rs := by
  obtain ⟨s', rs, h1, h2, h3⟩ := run_refines s hs (.zero :: ops) (by
    intro op ho
    rcases List.mem_cons.1 ho with rfl | ho
    · trivial
    · exact h op ho)
  match rs with
  | [] => exact absurd h3 (by simp [Allows])
  | r :: rs =>
    obtain ⟨rfl, h3⟩ := h3
    exact ⟨s', rs, h1, h2, h3⟩

example : run [255, 3] [.zero, .set 9, .isset 9, .isset 8, .set 16, .count, .clr 9, .count] =
    .ok ([0, 0], [0, 0, 2, 0, 0, 1, 0, 0]) := by decide

/-- **C48**: `CPU_ALLOC_SIZE(n)` is the least multiple of the word size with room for `n` CPUs. -/
theorem cpu_alloc_size (n : Nat) : n ≤ 8 * allocSize n ∧ allocSize n % 8 = 0 ∧
    ∀ k, n ≤ 8 * (8 * k) → allocSize n ≤ 8 * k := by
  unfold allocSize
  refine ⟨by omega, by omega, fun k h => by omega⟩

example : allocSize 1 = 8 ∧ allocSize 64 = 8 ∧ allocSize 65 = 16 := by decide

/-- **C48** violated: a negative CPU number leaves the object instead of being ignored. cpuset.cpp L23-31 -/
theorem cpu_negative_violated : run [0, 0] [.set (-8)] = .ub ∧ run [0, 0] [.isset (-1)] = .ub := by decide

/-- **C48** violated: for a set of 2^28 bytes the limit becomes negative, and CPU 0 cannot be added. cpuset.cpp L23 -/
theorem cpu_large_violated (s : List (BitVec 8)) (h : s.length = 2 ^ 28) : cpuSet s 0 = .ok s := by
  unfold cpuSet access
  rw [h, if_pos (by decide)]

end Mlibc.CpuSet
