import Verif.Str.Spec
import Verif.Base

/-
C93: the versions of `strcmp` with SSE2, SSE4.2 and AVX2 instructions, and the choice between them.

Code: options/ansi/x86_64/strcmp.cpp L9-169. The memory is given by address: a byte, or nothing where no page is mapped. The vector
instructions are modelled by what Intel's manual says of each byte. Addresses do not wrap around.
-/
namespace Mlibc.Vector
open Mlibc.Str

/-- The memory of the process. -/
abbrev Mem := Nat → Option Nat

/-- `*s`: a read of one byte, L34, L46-47 -/
def byte (m : Mem) (a : Nat) : Res Nat := match m a with | some c => .ok c | none => .ub

/-- `_mm_loadu_si128`, `_mm256_loadu_si256`: `n` bytes. L21-22, L69-70, L122-123 -/
def load (m : Mem) : Nat → Nat → Res (List Nat)
  | 0, _ => .ok []
  | n + 1, a => (byte m a).bind fun c => (load m n (a + 1)).bind fun r => .ok (c :: r)

/-- `_mm_movemask_epi8`: the bits of a vector of bytes that are 0 or 255, first byte lowest. L28-29, L128-129 -/
def movemask : List Bool → Nat
  | [] => 0
  | b :: bs => (if b then 1 else 0) + 2 * movemask bs

/-- `std::countr_zero`, for numbers of `n` bits. L33, L133 -/
def countrZero : Nat → Nat → Nat
  | 0, _ => 0
  | n + 1, m => if m % 2 = 1 then 0 else 1 + countrZero n (m / 2)

/-- `nearPageBoundary`: L12, L61, L113. `lim` is 4080 for vectors of 16 bytes and 4064 for 32. -/
def near (lim a : Nat) : Bool := decide (a % 4096 > lim)

/-- The body of the fast loop with masks: the position to compare, if the loop ends. L24-33, L125-133 -/
def maskChunk (w : Nat) (c1 c2 : List Nat) : Option Nat :=
  let eq := movemask (List.zipWith (fun a b => a == b) c1 c2)
  let null := movemask (c1.map (fun a => a == 0))
  let mask := ((2 ^ w - 1) ^^^ eq) ||| null
  if mask ≠ 0 then some (countrZero w mask) else none

/-- What the fast loop does with two chunks. -/
inductive Verdict where
  | compare (index : Nat)
  | equal
  | go
  deriving DecidableEq, Repr

/-- SSE2 and AVX2. L24-39, L125-139 -/
def maskVerdict (w : Nat) (c1 c2 : List Nat) : Verdict :=
  match maskChunk w c1 c2 with
  | some i => .compare i
  | none => .go

/-- The bytes of a chunk before its first zero, as `_mm_cmpistri` takes them. L77-79 -/
def validLen (c : List Nat) : Nat := (c.takeWhile (· ≠ 0)).length

/-- `_mm_cmpistri` and `_mm_cmpistrc` with signed bytes, equal each, negative polarity, least significant: the bits of IntRes2. Bytes after the end in both
chunks count as equal, in one as different. L72-79 -/
def intRes2 (c1 c2 : List Nat) : List Bool :=
  (List.range c1.length).map fun i =>
    !(if i < validLen c1 ∧ i < validLen c2 then c1.getD i 0 == c2.getD i 0 else decide (validLen c1 ≤ i ∧ validLen c2 ≤ i))

/-- SSE4.2. L77-91 -/
def istrVerdict (c1 c2 : List Nat) : Verdict :=
  let bits := movemask (intRes2 c1 c2)
  let index := countrZero 16 bits
  if bits ≠ 0 then .compare index
  else if validLen c2 < c2.length then .equal
  else .go

/-- The loops. `inner`: in the fast loop. `none`: out of fuel. L16-55, L63-107, L116-156 -/
def loop (w lim : Nat) (v : List Nat → List Nat → Verdict) (m : Mem) : Nat → Bool → Nat → Nat → Res (Option Int)
  | 0, _, _, _ => .ok none
  | fuel + 1, true, a, b =>
    (load m w a).bind fun c1 => (load m w b).bind fun c2 =>
      match v c1 c2 with
      | .compare i => (byte m (a + i)).bind fun x => (byte m (b + i)).bind fun y => .ok (some ((x : Int) - y))
      | .equal => .ok (some 0)
      | .go => loop w lim v m fuel (!(near lim (a + w) || near lim (b + w))) (a + w) (b + w)
  | fuel + 1, false, a, b =>
    if !near lim a && !near lim b then loop w lim v m fuel true a b
    else
      (byte m a).bind fun x => (byte m b).bind fun y =>
        if x ≠ y then .ok (some ((x : Int) - y))
        else if x = 0 then .ok (some 0)
        else loop w lim v m fuel false (a + 1) (b + 1)

/-- `__mlibc_strcmp_sse2`. L9-56 -/
def strcmpSse2 (m : Mem) (fuel a b : Nat) : Res (Option Int) := loop 16 4080 (maskVerdict 16) m fuel false a b
/-- `__mlibc_strcmp_sse4_2`. L58-108 -/
def strcmpSse42 (m : Mem) (fuel a b : Nat) : Res (Option Int) := loop 16 4080 istrVerdict m fuel false a b
/-- `__mlibc_strcmp_avx2`. L110-157 -/
def strcmpAvx2 (m : Mem) (fuel a b : Nat) : Res (Option Int) := loop 32 4064 (maskVerdict 32) m fuel false a b

/-- `__mlibc_strcmp_default`. ansi/generic/string.cpp L73-88 -/
def strcmpDefault (m : Mem) : Nat → Nat → Nat → Res (Option Int)
  | 0, _, _ => .ok none
  | fuel + 1, a, b => (byte m a).bind fun x => (byte m b).bind fun y =>
    if x = 0 ∧ y = 0 then .ok (some 0)
    else if x < y then .ok (some (-1))
    else if x > y then .ok (some 1)
    else strcmpDefault m fuel (a + 1) (b + 1)

/-- `__mlibc_resolve_strcmp`. L159-169 -/
def strcmp (avx2 sse42 sse2 : Bool) (m : Mem) (fuel a b : Nat) : Res (Option Int) :=
  if avx2 then strcmpAvx2 m fuel a b
  else if sse42 then strcmpSse42 m fuel a b
  else if sse2 then strcmpSse2 m fuel a b
  else strcmpDefault m fuel a b

/-! ### Specification -/

/-- The string `s` (bytes that are not 0) is at address `a`. -/
def At (m : Mem) (a : Nat) (s : List Nat) : Prop :=
  0 ∉ s ∧ (∀ c ∈ s, c < 256) ∧ ∀ i (_ : i ≤ s.length), m (a + i) = some (s.getD i 0)

/-- Memory is mapped in pages: where one byte is, there is all of its page. -/
def Paged (m : Mem) : Prop := ∀ a b, a / 4096 = b / 4096 → (m a).isSome → (m b).isSome

/-! ### Bits -/

theorem getD_default {α : Type} (l : List α) (d : α) {i : Nat} (h : l.length ≤ i) : l.getD i d = d := by
  simp [List.getD, h]

theorem testBit_movemask (bs : List Bool) (i : Nat) : (movemask bs).testBit i = bs.getD i false := by
  induction bs generalizing i with
  | nil => simp [movemask]
  | cons b bs ih =>
    rw [movemask]
    cases i with
    | zero => cases b <;> simp [Nat.testBit_zero, Nat.add_mod]
    | succ i =>
      rw [Nat.testBit_succ]
      have : ((if b = true then 1 else 0) + 2 * movemask bs) / 2 = movemask bs := by cases b <;> simp <;> omega
      rw [this, ih]
      simp

theorem countrZero_spec (n m : Nat) (i : Nat) (hi : i < n) (h : m.testBit i = true) :
    m.testBit (countrZero n m) = true ∧ countrZero n m ≤ i ∧ ∀ j, j < countrZero n m → m.testBit j = false := by
  induction n generalizing m i with
  | zero => omega
  | succ n ih =>
    rw [countrZero]
    by_cases h1 : m % 2 = 1
    · rw [if_pos h1]
      exact ⟨by simp [Nat.testBit_zero, h1], Nat.zero_le _, fun j hj => by omega⟩
    · rw [if_neg h1]
      have h0 : m.testBit 0 = false := by simp [Nat.testBit_zero]; omega
      cases i with
      | zero => rw [h0] at h; cases h
      | succ i =>
        rw [Nat.testBit_succ] at h
        obtain ⟨h2, h3, h4⟩ := ih (m / 2) i (by omega) h
        refine ⟨?_, by omega, ?_⟩
        · rw [Nat.add_comm, Nat.testBit_succ]
          exact h2
        · intro j hj
          cases j with
          | zero => exact h0
          | succ j => rw [Nat.testBit_succ]; exact h4 j (by omega)

theorem exists_testBit {m : Nat} (h : m ≠ 0) : ∃ i, m.testBit i = true := by
  false_or_by_contra
  next hn =>
  apply h
  apply Nat.eq_of_testBit_eq
  intro i
  simp only [Nat.zero_testBit]
  cases hb : m.testBit i with
  | false => rfl
  | true => exact absurd ⟨i, hb⟩ hn

/-! ### The chunks -/

/-- The chunks differ, or end, at `i`. -/
def Stop (c1 c2 : List Nat) (i : Nat) : Prop := c1.getD i 0 ≠ c2.getD i 0 ∨ c1.getD i 0 = 0

/-- A correct verdict on chunks of `w` bytes. -/
def Right (w : Nat) (v : List Nat → List Nat → Verdict) : Prop := ∀ c1 c2 : List Nat, c1.length = w → c2.length = w →
  match v c1 c2 with
  | .compare i => i < w ∧ Stop c1 c2 i ∧ ∀ j, j < i → ¬ Stop c1 c2 j
  | .equal => ∃ i, i < w ∧ c1.getD i 0 = 0 ∧ c2.getD i 0 = 0 ∧ ∀ j, j < i → ¬ Stop c1 c2 j
  | .go => ∀ j, j < w → ¬ Stop c1 c2 j

theorem getD_map_lt {α β : Type} (f : α → β) (l : List α) (i : Nat) (d : α) (e : β) (h : i < l.length) : (l.map f).getD i e = f (l.getD i d) := by
  simp [List.getD, h]

theorem getD_zip_lt {α β : Type} (f : α → α → β) (l k : List α) (i : Nat) (d : α) (e : β) (h : i < l.length) (h2 : i < k.length) :
    (List.zipWith f l k).getD i e = f (l.getD i d) (k.getD i d) := by
  have h3 : i < (List.zipWith f l k).length := by simp; omega
  simp only [List.getD, List.getElem?_eq_getElem h, List.getElem?_eq_getElem h2, List.getElem?_eq_getElem h3, Option.getD_some, List.getElem_zipWith]

theorem mask_bit {w : Nat} {c1 c2 : List Nat} (h1 : c1.length = w) (h2 : c2.length = w) (i : Nat) :
    (((2 ^ w - 1) ^^^ movemask (List.zipWith (fun a b => a == b) c1 c2)) ||| movemask (c1.map (fun a => a == 0))).testBit i = true ↔
      i < w ∧ Stop c1 c2 i := by
  rw [Nat.testBit_or, Nat.testBit_xor, Nat.testBit_two_pow_sub_one, testBit_movemask, testBit_movemask]
  by_cases hi : i < w
  · rw [getD_zip_lt _ _ _ i 0 false (by omega) (by omega), getD_map_lt _ _ i 0 false (by omega)]
    simp [hi, Stop]
  · have ha : (List.zipWith (fun a b => a == b) c1 c2).getD i false = false := by
      exact getD_default _ _ (by simp; omega)
    have hb : (c1.map (fun a => a == 0)).getD i false = false := by
      exact getD_default _ _ (by simp; omega)
    rw [ha, hb]
    simp [hi]

theorem mask_right (w : Nat) : Right w (maskVerdict w) := by
  intro c1 c2 h1 h2
  unfold maskVerdict maskChunk
  dsimp only
  generalize hm : (((2 ^ w - 1) ^^^ movemask (List.zipWith (fun a b => a == b) c1 c2)) ||| movemask (c1.map (fun a => a == 0))) = m
  have hbit : ∀ i, m.testBit i = true ↔ i < w ∧ Stop c1 c2 i := by rw [← hm]; exact mask_bit h1 h2
  by_cases h0 : m = 0
  · simp only [h0, ne_eq, not_true_eq_false, if_false]
    intro j hj hs
    have := (hbit j).mpr ⟨hj, hs⟩
    rw [h0] at this
    simp at this
  · simp only [ne_eq, h0, not_false_eq_true, if_true]
    obtain ⟨i, hi⟩ := exists_testBit h0
    obtain ⟨q1, q2, q3⟩ := countrZero_spec w m i ((hbit i).mp hi).1 hi
    refine ⟨((hbit _).mp q1).1, ((hbit _).mp q1).2, ?_⟩
    intro j hj hs
    have := (hbit j).mpr ⟨by have := ((hbit i).mp hi).1; omega, hs⟩
    rw [q3 j hj] at this
    cases this

theorem validLen_le (c : List Nat) : validLen c ≤ c.length := (List.takeWhile_sublist _).length_le

theorem lt_validLen {c : List Nat} {i : Nat} (h : i < validLen c) : c.getD i 0 ≠ 0 := by
  induction c generalizing i with
  | nil => simp [validLen] at h
  | cons x c ih =>
    by_cases hx : x = 0
    · simp [validLen, hx] at h
    · have hv : validLen (x :: c) = validLen c + 1 := by simp [validLen, hx]
      rw [hv] at h
      cases i with
      | zero => simpa using hx
      | succ i => simpa using ih (i := i) (by omega)

theorem validLen_zero {c : List Nat} (h : validLen c < c.length) : c.getD (validLen c) 0 = 0 := by
  induction c with
  | nil => simp at h
  | cons x c ih =>
    by_cases hx : x = 0
    · simp [validLen, hx]
    · have hv : validLen (x :: c) = validLen c + 1 := by simp [validLen, hx]
      rw [hv] at h ⊢
      simpa using ih (by simpa using h)

theorem istr_right : Right 16 istrVerdict := by
  intro c1 c2 h1 h2
  unfold istrVerdict
  dsimp only
  generalize hm : movemask (intRes2 c1 c2) = m
  have hbit : ∀ i, m.testBit i = true ↔ i < 16 ∧
      ¬ ((i < validLen c1 ∧ i < validLen c2 ∧ c1.getD i 0 = c2.getD i 0) ∨ (validLen c1 ≤ i ∧ validLen c2 ≤ i)) := by
    intro i
    rw [← hm, testBit_movemask, intRes2]
    by_cases hi : i < 16
    · rw [getD_map_lt _ _ i 0 false (by simp [h1, hi])]
      have : (List.range c1.length).getD i 0 = i := by simp [List.getD, h1, hi]
      rw [this]
      by_cases hv : i < validLen c1 ∧ i < validLen c2
      · have hn : ¬ (validLen c1 ≤ i ∧ validLen c2 ≤ i) := by omega
        simp [hv, hi, hn]
      · rw [if_neg hv]
        have hn : ¬ (i < validLen c1 ∧ i < validLen c2 ∧ c1.getD i 0 = c2.getD i 0) := fun h => hv ⟨h.1, h.2.1⟩
        simp only [hn, false_or, hi, true_and]
        simp
        omega
    · rw [getD_default _ _ (by simp [h1]; omega)]
      simp [hi]
  -- before a position without a bit, and below both ends, the chunks agree
  have hpre : ∀ j, j < 16 → m.testBit j = false → j < validLen c1 ∨ j < validLen c2 → ¬ Stop c1 c2 j := by
    intro j hj hb hv
    have hn : ¬ (m.testBit j = true) := by rw [hb]; simp
    rw [hbit j] at hn
    simp only [hj, true_and, Classical.not_not] at hn
    rcases hn with ⟨a1, a2, a3⟩ | hn
    · rintro (hs | hs)
      · exact hs a3
      · exact lt_validLen a1 hs
    · omega
  by_cases h0 : m = 0
  · simp only [h0, ne_eq, not_true_eq_false, if_false]
    have hz : ∀ j, m.testBit j = false := by intro j; rw [h0]; simp
    by_cases hv : validLen c2 < c2.length
    · rw [if_pos hv]
      have h12 : validLen c1 = validLen c2 := by
        false_or_by_contra
        next hne =>
        have hle1 := validLen_le c1
        have hlt : min (validLen c1) (validLen c2) < 16 := by omega
        have := (hbit (min (validLen c1) (validLen c2))).mpr ⟨hlt, by omega⟩
        rw [hz] at this
        cases this
      refine ⟨validLen c2, by omega, ?_, validLen_zero hv, ?_⟩
      · rw [← h12]; exact validLen_zero (by omega)
      · intro j hj
        exact hpre j (by omega) (hz j) (.inr hj)
    · rw [if_neg hv]
      intro j hj
      exact hpre j hj (hz j) (.inr (by have := validLen_le c2; omega))
  · simp only [ne_eq, h0, not_false_eq_true, if_true]
    obtain ⟨i, hi⟩ := exists_testBit h0
    obtain ⟨q1, q2, q3⟩ := countrZero_spec 16 m i ((hbit i).mp hi).1 hi
    generalize countrZero 16 m = k at *
    have hk := (hbit k).mp q1
    have hkv : k < validLen c1 ∨ k < validLen c2 := by
      have := hk.2
      omega
    refine ⟨hk.1, ?_, ?_⟩
    · by_cases ha : k < validLen c1
      · by_cases hb : k < validLen c2
        · exact .inl fun he => hk.2 (.inl ⟨ha, hb, he⟩)
        · -- the second chunk has ended
          by_cases hkb : c2.getD k 0 = 0
          · exact .inl fun he => lt_validLen ha (he.trans hkb)
          · -- an end before k would show a bit there
            have hend : validLen c2 < k := by
              rcases Nat.lt_or_ge (validLen c2) k with h | h
              · exact h
              · exfalso
                have : validLen c2 = k := by omega
                rw [← this] at hkb
                exact hkb (validLen_zero (by omega))
            have := (hbit (validLen c2)).mpr ⟨by omega, by omega⟩
            rw [q3 _ hend] at this
            cases this
      · by_cases hkb : c1.getD k 0 = 0
        · exact .inr hkb
        · have hend : validLen c1 < k := by
            rcases Nat.lt_or_ge (validLen c1) k with h | h
            · exact h
            · exfalso
              have : validLen c1 = k := by omega
              rw [← this] at hkb
              exact hkb (validLen_zero (by omega))
          have := (hbit (validLen c1)).mpr ⟨by omega, by omega⟩
          rw [q3 _ hend] at this
          cases this
    · intro j hj
      exact hpre j (by omega) (q3 j hj) (by omega)

/-! ### The loops -/

theorem load_page {m : Mem} (hp : Paged m) (w a : Nat) (hw : a % 4096 + w ≤ 4096) (ha : (m a).isSome) :
    ∃ c, load m w a = .ok c ∧ c.length = w ∧ ∀ i, i < w → m (a + i) = some (c.getD i 0) := by
  induction w generalizing a with
  | zero => exact ⟨[], rfl, rfl, fun i hi => by omega⟩
  | succ w ih =>
    obtain ⟨x, hx⟩ := Option.isSome_iff_exists.mp ha
    by_cases hw0 : w = 0
    · subst hw0
      refine ⟨[x], ?_, rfl, ?_⟩
      · simp [load, byte, hx, Res.bind]
      · intro i hi
        obtain rfl : i = 0 := by omega
        simpa using hx
    · have hmod : (a + 1) % 4096 = a % 4096 + 1 := by omega
      have hdiv : a / 4096 = (a + 1) / 4096 := by omega
      obtain ⟨c, h1, h2, h3⟩ := ih (a + 1) (by omega) (hp a (a + 1) hdiv ha)
      refine ⟨x :: c, ?_, by simp [h2], ?_⟩
      · simp [load, byte, hx, h1, Res.bind]
      · intro i hi
        cases i with
        | zero => simpa using hx
        | succ i =>
          have := h3 i (by omega)
          rw [show a + 1 + i = a + (i + 1) by omega] at this
          simpa using this

/-- The strings are equal up to `k`, and there they differ or end; `r` is the difference there. -/
def Found (s t : List Nat) (k : Nat) (r : Int) : Prop :=
  k ≤ s.length ∧ k ≤ t.length ∧ (∀ j, j < k → s.getD j 0 = t.getD j 0 ∧ s.getD j 0 ≠ 0) ∧ (s.getD k 0 ≠ t.getD k 0 ∨ s.getD k 0 = 0) ∧
    r = (s.getD k 0 : Int) - (t.getD k 0 : Int)

theorem loop_spec {w lim : Nat} {v : List Nat → List Nat → Verdict} (hv : Right w v) (hw : 0 < w) (hlim : lim + w = 4096) {m : Mem} (hp : Paged m) {a b : Nat}
    {s t : List Nat} (hs : At m a s) (ht : At m b t) :
    ∀ (fuel : Nat) (inner : Bool) (k : Nat), k ≤ s.length → k ≤ t.length → (∀ j, j < k → s.getD j 0 = t.getD j 0 ∧ s.getD j 0 ≠ 0) →
      (inner = true → near lim (a + k) = false ∧ near lim (b + k) = false) →
      2 * (s.length - k) + (if inner then 1 else 2) ≤ fuel →
      ∃ r n, loop w lim v m fuel inner (a + k) (b + k) = .ok (some r) ∧ Found s t n r := by
  intro fuel
  induction fuel with
  | zero => intro inner k _ _ _ _ hf; cases inner <;> simp at hf
  | succ fuel ih =>
    intro inner k hks hkt hpre hin hf
    have hak : m (a + k) = some (s.getD k 0) := hs.2.2 k hks
    have hbk : m (b + k) = some (t.getD k 0) := ht.2.2 k hkt
    -- a step past position i, where the strings agree and have not ended
    have hgo : ∀ i, i ≤ s.length → i ≤ t.length → s.getD i 0 = t.getD i 0 → s.getD i 0 ≠ 0 → i + 1 ≤ s.length ∧ i + 1 ≤ t.length := by
      intro i h1 h2 he hz
      constructor
      · rcases Nat.lt_or_eq_of_le h1 with h | h
        · exact h
        · rw [h, getD_default _ _ (Nat.le_refl _)] at hz
          exact absurd rfl hz
      · rcases Nat.lt_or_eq_of_le h2 with h | h
        · exact h
        · rw [he, h, getD_default _ _ (Nat.le_refl _)] at hz
          exact absurd rfl hz
    cases inner with
    | true =>
      obtain ⟨hna, hnb⟩ := hin rfl
      simp only [near, decide_eq_false_iff_not, Nat.not_lt] at hna hnb
      obtain ⟨c1, hl1, hlen1, hc1⟩ := load_page hp w (a + k) (by omega) (by rw [hak]; rfl)
      obtain ⟨c2, hl2, hlen2, hc2⟩ := load_page hp w (b + k) (by omega) (by rw [hbk]; rfl)
      -- the chunks are the strings as long as these agree
      have hrel : ∀ i, i ≤ w → (∀ j, j < i → ¬ Stop c1 c2 j) →
          k + i ≤ s.length ∧ k + i ≤ t.length ∧ (∀ j, j < k + i → s.getD j 0 = t.getD j 0 ∧ s.getD j 0 ≠ 0) := by
        intro i
        induction i with
        | zero => intro _ _; exact ⟨hks, hkt, hpre⟩
        | succ i ihi =>
          intro hi hst
          obtain ⟨h1, h2, h3⟩ := ihi (by omega) (fun j hj => hst j (by omega))
          have e1 : s.getD (k + i) 0 = c1.getD i 0 := by
            have h4 := hc1 i (by omega)
            rw [Nat.add_assoc, hs.2.2 (k + i) h1] at h4
            exact Option.some.inj h4
          have e2 : t.getD (k + i) 0 = c2.getD i 0 := by
            have h4 := hc2 i (by omega)
            rw [Nat.add_assoc, ht.2.2 (k + i) h2] at h4
            exact Option.some.inj h4
          have hns := hst i (by omega)
          have q1 : s.getD (k + i) 0 = t.getD (k + i) 0 := by
            rw [e1, e2]
            false_or_by_contra
            next hne => exact hns (.inl hne)
          have q2 : s.getD (k + i) 0 ≠ 0 := by rw [e1]; exact fun h => hns (.inr h)
          obtain ⟨h5, h6⟩ := hgo (k + i) h1 h2 q1 q2
          refine ⟨by omega, by omega, ?_⟩
          intro j hj
          rcases Nat.lt_or_eq_of_le (Nat.le_of_lt_succ (show j < (k + i) + 1 by omega)) with h | h
          · exact h3 j h
          · rw [h]; exact ⟨q1, q2⟩
      have hsame : ∀ i, i < w → (∀ j, j < i → ¬ Stop c1 c2 j) → s.getD (k + i) 0 = c1.getD i 0 ∧ t.getD (k + i) 0 = c2.getD i 0 := by
        intro i hi hst
        obtain ⟨h1, h2, _⟩ := hrel i (by omega) hst
        constructor
        · have h4 := hc1 i hi
          rw [Nat.add_assoc, hs.2.2 (k + i) h1] at h4
          exact Option.some.inj h4
        · have h4 := hc2 i hi
          rw [Nat.add_assoc, ht.2.2 (k + i) h2] at h4
          exact Option.some.inj h4
      rw [loop, hl1, hl2]
      simp only [Res.bind]
      have hR := hv c1 c2 hlen1 hlen2
      cases hvv : v c1 c2 with
      | compare i =>
        rw [hvv] at hR
        obtain ⟨r1, r2, r3⟩ := hR
        obtain ⟨h1, h2, h3⟩ := hrel i (by omega) r3
        obtain ⟨e1, e2⟩ := hsame i r1 r3
        have b1 : byte m (a + k + i) = .ok (s.getD (k + i) 0) := by
          rw [byte, Nat.add_assoc, hs.2.2 (k + i) h1]
        have b2 : byte m (b + k + i) = .ok (t.getD (k + i) 0) := by
          rw [byte, Nat.add_assoc, ht.2.2 (k + i) h2]
        dsimp only
        rw [b1, b2]
        refine ⟨_, k + i, rfl, h1, h2, h3, ?_, rfl⟩
        rw [e1, e2]
        exact r2
      | equal =>
        rw [hvv] at hR
        obtain ⟨i, r1, r2, r3, r4⟩ := hR
        obtain ⟨h1, h2, h3⟩ := hrel i (by omega) r4
        obtain ⟨e1, e2⟩ := hsame i r1 r4
        refine ⟨0, k + i, rfl, h1, h2, h3, ?_, ?_⟩
        · rw [e1]; exact .inr r2
        · rw [e1, e2, r2, r3]; rfl
      | go =>
        rw [hvv] at hR
        obtain ⟨h1, h2, h3⟩ := hrel w (Nat.le_refl _) hR
        have hx := ih (!(near lim (a + (k + w)) || near lim (b + (k + w)))) (k + w) h1 h2 h3 (by
          intro hh
          simpa using hh) (by
          simp only [if_true] at hf
          split <;> omega)
        rw [Nat.add_assoc a k w, Nat.add_assoc b k w]
        exact hx
    | false =>
      rw [loop]
      by_cases hn : (!near lim (a + k) && !near lim (b + k)) = true
      · rw [if_pos hn]
        exact ih true k hks hkt hpre (fun _ => by simpa using hn) (by simpa using hf)
      · rw [if_neg hn]
        simp only [byte, hak, hbk, Res.bind]
        by_cases he : s.getD k 0 = t.getD k 0
        · rw [if_neg (not_not_intro he)]
          by_cases hz : s.getD k 0 = 0
          · rw [if_pos hz]
            exact ⟨0, k, rfl, hks, hkt, hpre, .inr hz, by rw [← he, hz]; rfl⟩
          · rw [if_neg hz]
            obtain ⟨h1, h2⟩ := hgo k hks hkt he hz
            have hx := ih false (k + 1) h1 h2 (by
              intro j hj
              rcases Nat.lt_or_eq_of_le (Nat.le_of_lt_succ hj) with h | h
              · exact hpre j h
              · rw [h]; exact ⟨he, hz⟩) (by simp) (by simp at hf ⊢; omega)
            rw [Nat.add_assoc a k 1, Nat.add_assoc b k 1]
            exact hx
        · rw [if_pos he]
          exact ⟨_, k, rfl, hks, hkt, hpre, .inl he, rfl⟩

theorem getD_lt_mem {s : List Nat} {i : Nat} (h : i < s.length) : s.getD i 0 ∈ s := by
  rw [show s.getD i 0 = s[i] by simp [List.getD, h]]
  exact List.getElem_mem h

theorem found_order {s t : List Nat} (hs : 0 ∉ s) (ht : 0 ∉ t) {k : Nat} {r : Int} (h : Found s t k r) : SignOfCompare r s t := by
  induction k generalizing s t with
  | zero =>
    obtain ⟨_, _, _, h4, h5⟩ := h
    cases s with
    | nil =>
      cases t with
      | nil => subst h5; exact ⟨by simp, by simp, by simp⟩
      | cons y t =>
        have hy : y ≠ 0 := fun h => ht (by simp [h])
        simp at h5
        refine ⟨⟨fun h => by omega, fun h => by cases h⟩, ⟨fun _ => List.nil_lt_cons _ _, fun _ => by omega⟩, ⟨fun h => by omega, fun h => by simp at h⟩⟩
    | cons x s =>
      have hx : x ≠ 0 := fun h => hs (by simp [h])
      cases t with
      | nil =>
        simp at h5
        refine ⟨⟨fun h => by omega, fun h => by cases h⟩, ⟨fun h => by omega, fun h => by simp at h⟩, ⟨fun _ => List.nil_lt_cons _ _, fun _ => by omega⟩⟩
      | cons y t =>
        simp [hx] at h4
        simp at h5
        refine ⟨⟨fun h => by omega, fun h => by simp at h; omega⟩, ⟨fun h => ?_, fun h => ?_⟩, ⟨fun h => ?_, fun h => ?_⟩⟩
        · exact List.cons_lt_cons_iff.mpr (.inl (by omega))
        · rcases List.cons_lt_cons_iff.mp h with h | h <;> omega
        · exact List.cons_lt_cons_iff.mpr (.inl (by omega))
        · rcases List.cons_lt_cons_iff.mp h with h | h <;> omega
  | succ k ih =>
    obtain ⟨h1, h2, h3, h4, h5⟩ := h
    cases s with
    | nil => simp at h1
    | cons x s =>
      cases t with
      | nil => simp at h2
      | cons y t =>
        have hxy : x = y := by simpa using (h3 0 (by omega)).1
        subst hxy
        have hr := ih (s := s) (t := t) (fun h => hs (List.mem_cons_of_mem _ h)) (fun h => ht (List.mem_cons_of_mem _ h))
          ⟨by simpa using h1, by simpa using h2, fun j hj => by simpa using h3 (j + 1) (by omega), by simpa using h4, by simpa using h5⟩
        obtain ⟨q1, q2, q3⟩ := hr
        refine ⟨by simpa using q1, ?_, ?_⟩
        · rw [q2, List.cons_lt_cons_iff]
          simp
        · rw [q3, List.cons_lt_cons_iff]
          simp

/-- The value of a comparison: of the first bytes that differ, where the shorter string counts as ended by 0. -/
theorem found_range {s t : List Nat} (hs : ∀ c ∈ s, c < 256) (ht : ∀ c ∈ t, c < 256) {k : Nat} {r : Int} (h : Found s t k r) : -256 < r ∧ r < 256 := by
  obtain ⟨_, _, _, _, h5⟩ := h
  have h1 : s.getD k 0 < 256 := by
    rcases Nat.lt_or_ge k s.length with h | h
    · exact hs _ (getD_lt_mem h)
    · rw [getD_default _ _ h]; omega
  have h2 : t.getD k 0 < 256 := by
    rcases Nat.lt_or_ge k t.length with h | h
    · exact ht _ (getD_lt_mem h)
    · rw [getD_default _ _ h]; omega
  omega

theorem default_spec {m : Mem} : ∀ (fuel a b : Nat) (s t : List Nat), At m a s → At m b t → s.length < fuel →
    ∃ r, strcmpDefault m fuel a b = .ok (some r) ∧ SignOfCompare r s t := by
  intro fuel
  induction fuel with
  | zero => intro a b s t _ _ h; omega
  | succ fuel ih =>
    intro a b s t hs ht hf
    have ha : m a = some (s.getD 0 0) := hs.2.2 0 (Nat.zero_le _)
    have hb : m b = some (t.getD 0 0) := ht.2.2 0 (Nat.zero_le _)
    rw [strcmpDefault]
    simp only [byte, ha, hb, Res.bind]
    have fnd : ∀ r, Found s t 0 r → SignOfCompare r s t := fun r h => found_order hs.1 ht.1 h
    by_cases h0 : s.getD 0 0 = 0 ∧ t.getD 0 0 = 0
    · rw [if_pos h0]
      exact ⟨0, rfl, fnd 0 ⟨Nat.zero_le _, Nat.zero_le _, fun j hj => by omega, .inr h0.1, by rw [h0.1, h0.2]; rfl⟩⟩
    · rw [if_neg h0]
      have hsg : ∀ r : Int, s.getD 0 0 ≠ t.getD 0 0 → (r < 0 ↔ s.getD 0 0 < t.getD 0 0) → (r > 0 ↔ t.getD 0 0 < s.getD 0 0) → SignOfCompare r s t := by
        intro r hne h1 h2
        obtain ⟨q1, q2, q3⟩ := fnd _ ⟨Nat.zero_le _, Nat.zero_le _, fun j hj => by omega, .inl hne, rfl⟩
        refine ⟨⟨fun h => ?_, fun h => ?_⟩, ?_, ?_⟩
        · exfalso; omega
        · exact absurd (by rw [h]) hne
        · rw [← q2]; omega
        · rw [← q3]; omega
      by_cases h1 : s.getD 0 0 < t.getD 0 0
      · rw [if_pos h1]
        exact ⟨-1, rfl, hsg _ (by omega) ⟨fun _ => h1, fun _ => by omega⟩ ⟨fun h => by omega, fun h => by omega⟩⟩
      · rw [if_neg h1]
        by_cases h2 : s.getD 0 0 > t.getD 0 0
        · rw [if_pos h2]
          exact ⟨1, rfl, hsg _ (by omega) ⟨fun h => by omega, fun h => by omega⟩ ⟨fun _ => h2, fun _ => by omega⟩⟩
        · rw [if_neg h2]
          cases s with
          | nil => simp at h0 h1; omega
          | cons x s =>
            cases t with
            | nil => simp at h0 h2; omega
            | cons y t =>
              have hxy : x = y := by simp at h1 h2; omega
              subst hxy
              have tail : ∀ {a : Nat} {u : List Nat}, At m a (x :: u) → At m (a + 1) u := by
                intro a u h
                refine ⟨fun h0 => h.1 (List.mem_cons_of_mem _ h0), fun c hc => h.2.1 c (List.mem_cons_of_mem _ hc), fun i hi => ?_⟩
                have := h.2.2 (i + 1) (by simp; omega)
                rw [show a + 1 + i = a + (i + 1) by omega, this]
                simp
              obtain ⟨r, hr, q1, q2, q3⟩ := ih (a + 1) (b + 1) s t (tail hs) (tail ht) (by simpa using hf)
              refine ⟨r, hr, by simpa using q1, ?_, ?_⟩
              · rw [q2, List.cons_lt_cons_iff]
                simp
              · rw [q3, List.cons_lt_cons_iff]
                simp

/-- **strcmp, on every processor**: for all strings, wherever they lie, strcmp gives their order as sequences of unsigned bytes. Only pages that hold a byte of
one of the strings need to be mapped: reading whole vectors never touches another page. -/
theorem strcmp_spec (avx2 sse42 sse2 : Bool) (m : Mem) (hp : Paged m) (a b : Nat) (s t : List Nat) (hs : At m a s) (ht : At m b t) (fuel : Nat)
    (hf : 2 * s.length + 2 ≤ fuel) :
    ∃ r, strcmp avx2 sse42 sse2 m fuel a b = .ok (some r) ∧ SignOfCompare r s t ∧ -256 < r ∧ r < 256 := by
  have vec : ∀ {w lim : Nat} {v : List Nat → List Nat → Verdict}, Right w v → 0 < w → lim + w = 4096 →
      ∃ r, loop w lim v m fuel false a b = .ok (some r) ∧ SignOfCompare r s t ∧ -256 < r ∧ r < 256 := by
    intro w lim v hv hw hl
    obtain ⟨r, n, h1, h2⟩ := loop_spec hv hw hl hp hs ht fuel false 0 (Nat.zero_le _) (Nat.zero_le _) (fun j hj => by omega) (by simp) (by simpa using hf)
    exact ⟨r, h1, found_order hs.1 ht.1 h2, found_range hs.2.1 ht.2.1 h2⟩
  unfold strcmp
  split
  · exact vec (mask_right 32) (by omega) rfl
  · split
    · exact vec istr_right (by omega) rfl
    · split
      · exact vec (mask_right 16) (by omega) rfl
      · obtain ⟨r, h1, h2⟩ := default_spec fuel a b s t hs ht (by omega)
        refine ⟨r, h1, h2, ?_⟩
        have : ∀ (fuel a b : Nat) (r : Int), strcmpDefault m fuel a b = .ok (some r) → -256 < r ∧ r < 256 := by
          intro fuel
          induction fuel with
          | zero => intro a b r h; simp [strcmpDefault] at h
          | succ fuel ih =>
            intro a b r h
            rw [strcmpDefault] at h
            cases hx : byte m a with
            | ub => rw [hx] at h; cases h
            | panic => rw [hx] at h; cases h
            | ok x =>
              cases hy : byte m b with
              | ub => rw [hx, hy] at h; cases h
              | panic => rw [hx, hy] at h; cases h
              | ok y =>
                rw [hx, hy] at h
                simp only [Res.bind] at h
                split at h
                · cases h; omega
                · split at h
                  · cases h; omega
                  · split at h
                    · cases h; omega
                    · exact ih _ _ _ h
        exact this fuel a b r h1

/-! Two strings of 40 bytes that end on the last byte of their page, with nothing mapped behind it, and that differ in the last byte. -/

def sample (last : Nat) : List Nat := (List.range 39).map (fun i => 65 + i) ++ [last]

def memory : Mem := fun x =>
  if x / 4096 = 1 then some (if 8151 ≤ x then (sample 200).getD (x - 8151) 0 else 1)
  else if x / 4096 = 5 then some (if 24500 ≤ x then (sample 100).getD (x - 24500) 0 else 1) else none

theorem sample_at : At memory 8151 (sample 200) ∧ At memory 24500 (sample 100) := by
  refine ⟨⟨by decide, by decide, fun i hi => ?_⟩, ⟨by decide, by decide, fun i hi => ?_⟩⟩
  · have h : i ≤ 40 := hi
    have hp : (8151 + i) / 4096 = 1 := by omega
    simp [memory, hp]
  · have h : i ≤ 40 := hi
    have hp : (24500 + i) / 4096 = 5 := by omega
    simp [memory, hp]

example : Paged memory ∧ memory 8192 = none := by
  refine ⟨fun a b hab h => ?_, by decide +kernel⟩
  simp only [memory] at h ⊢
  rw [← hab]
  split
  · rfl
  · next h1 =>
    rw [if_neg h1] at h
    split
    · rfl
    · next h2 => rw [if_neg h2] at h; exact h

example : strcmp true true true memory 100 8151 24500 = .ok (some 100) := by decide +kernel
example : strcmp false true true memory 100 8151 24500 = .ok (some 100) := by decide +kernel

end Mlibc.Vector
