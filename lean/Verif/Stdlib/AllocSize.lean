import Verif.MemFns.Props

/-
The size checks of `calloc`, `reallocarray`, `aligned_alloc` and `posix_memalign` (options/ansi/generic/stdlib.cpp
L122-149, L577-587; options/posix/generic/posix_stdlib.cpp L582-589). `size_t` has 64 bits. The platform's `malloc`,
`realloc` and `allocate` are parameters: from memory to a pointer and new memory, or `none` if there is none.
Property C58.
-/
namespace Mlibc.AllocSize

/-- `SIZE_MAX + 1` -/
abbrev sizeLimit : Nat := 2 ^ 64

/-- What a call does: sizes requested from the allocator, result (`none` is the null pointer), `errno` set to `ENOMEM`
(by the function itself) or `EINVAL`, memory afterwards. -/
structure Out where
  requests : List Nat
  ptr : Option Nat
  enomem : Bool
  einval : Bool
  mem : Mem

/-- An allocator: gets a size. -/
abbrev Alloc := Nat → Mem → Option (Nat × Mem)

/-- `calloc`; the product is taken modulo 2^64. stdlib.cpp L135-149 -/
def calloc (malloc : Alloc) (mem : Mem) (count size : Nat) : Res Out :=
  if size ≠ 0 ∧ count > (sizeLimit - 1) / size then .ok ⟨[], none, true, false, mem⟩
  else
    match malloc (count * size % sizeLimit) mem with
    | none => .ok ⟨[count * size % sizeLimit], none, false, false, mem⟩
    | some (p, mem') => do
      let (_, mem'') ← MemFns.memset mem' p 0 (count * size % sizeLimit)
      return ⟨[count * size % sizeLimit], some p, false, false, mem''⟩

/-- `reallocarray(ptr, m, n)`; `-1 / n` is computed in `size_t`. posix_stdlib.cpp L582-589 -/
def reallocarray (realloc : Alloc) (mem : Mem) (m n : Nat) : Out :=
  if n ≠ 0 ∧ m > (sizeLimit - 1) / n then ⟨[], none, true, false, mem⟩
  else
    match realloc (m * n % sizeLimit) mem with
    | none => ⟨[m * n % sizeLimit], none, false, false, mem⟩
    | some (p, mem') => ⟨[m * n % sizeLimit], some p, false, false, mem'⟩

/-- `alignment - 1` in `size_t`. -/
def pred (a : Nat) : Nat := (a + sizeLimit - 1) % sizeLimit

/-- `aligned_alloc`; `alloc a` is the allocator for alignment `a`. stdlib.cpp L122-134 -/
def alignedAlloc (alloc : Nat → Alloc) (mem : Mem) (alignment size : Nat) : Out :=
  if alignment &&& pred alignment ≠ 0 ∨ size &&& pred alignment ≠ 0 then ⟨[], none, false, true, mem⟩
  else
    match alloc alignment size mem with
    | none => ⟨[size], none, true, false, mem⟩
    | some (p, mem') => ⟨[size], some p, false, false, mem'⟩

/-- `posix_memalign`: the error numbers are return values. stdlib.cpp L577-587 -/
def posixMemalign (alloc : Nat → Alloc) (mem : Mem) (align size : Nat) : Out :=
  if align < 8 then ⟨[], none, false, true, mem⟩
  else if align &&& pred align ≠ 0 then ⟨[], none, false, true, mem⟩
  else
    match alloc align size mem with
    | none => ⟨[size], none, true, false, mem⟩
    | some (p, mem') => ⟨[size], some p, false, false, mem'⟩

/-! ## Theorems -/

/-- An allocator that keeps its contract: the memory it returns may be accessed. -/
def Alloc.Sound (a : Alloc) : Prop := ∀ n mem p mem', a n mem = some (p, mem') → mem'.Valid p n

/-- The check is exact. -/
theorem check_iff (a b : Nat) : (b ≠ 0 ∧ a > (sizeLimit - 1) / b) ↔ sizeLimit ≤ a * b := by
  constructor
  · rintro ⟨h1, h2⟩
    rw [gt_iff_lt, Nat.div_lt_iff_lt_mul (by omega)] at h2
    omega
  · intro h
    have hb : b ≠ 0 := by
      rintro rfl
      simp [sizeLimit] at h
    refine ⟨hb, ?_⟩
    rw [gt_iff_lt, Nat.div_lt_iff_lt_mul (by omega)]
    have : 0 < sizeLimit := by decide
    omega

/-- **C58**: if the product is not representable, `calloc` and `reallocarray` fail with `ENOMEM`, without requesting
anything and without changing memory. -/
theorem overflow_fails (f g : Alloc) (mem : Mem) (n m : Nat) (h : sizeLimit ≤ n * m) :
    calloc f mem n m = .ok ⟨[], none, true, false, mem⟩ ∧ reallocarray g mem n m = ⟨[], none, true, false, mem⟩ := by
  unfold calloc reallocarray
  rw [if_pos ((check_iff n m).2 h), if_pos ((check_iff n m).2 h)]
  exact ⟨rfl, rfl⟩

example : sizeLimit ≤ 2 ^ 32 * 2 ^ 32 := by decide

/-- **C58**: otherwise `calloc` requests exactly `n * m` bytes, and if it gets them returns them with every byte zero
and no other byte changed. -/
theorem calloc_exact (f : Alloc) (hf : f.Sound) (mem : Mem) (n m : Nat) (h : n * m < sizeLimit) :
    match f (n * m) mem with
    | none => calloc f mem n m = .ok ⟨[n * m], none, false, false, mem⟩
    | some (p, mem') => ∃ mem'', calloc f mem n m = .ok ⟨[n * m], some p, false, false, mem''⟩ ∧
        (∀ i < n * m, mem'' (p + i) = some 0) ∧ (∀ a, (a < p ∨ p + n * m ≤ a) → mem'' a = mem' a) := by
  have hc : ¬ (m ≠ 0 ∧ n > (sizeLimit - 1) / m) := fun hh => by
    have := (check_iff n m).1 hh; omega
  unfold calloc
  rw [if_neg hc, Nat.mod_eq_of_lt h]
  cases hm : f (n * m) mem with
  | none => rfl
  | some r =>
    obtain ⟨p, mem'⟩ := r
    simp only
    rw [MemFns.memset_ok (hf _ _ _ _ hm)]
    refine ⟨_, rfl, ?_, ?_⟩
    · intro i hi
      simp [Mem.patch, hi, List.getElem?_replicate]; decide
    · intro a ha
      simp only [Mem.patch, List.length_replicate]
      rw [if_neg (by omega)]

/-- **C58**: otherwise `reallocarray` is `realloc` to exactly `n * m` bytes. -/
theorem reallocarray_exact (g : Alloc) (mem : Mem) (n m : Nat) (h : n * m < sizeLimit) :
    reallocarray g mem n m = (match g (n * m) mem with
    | none => ⟨[n * m], none, false, false, mem⟩
    | some (p, mem') => ⟨[n * m], some p, false, false, mem'⟩) := by
  have hc : ¬ (m ≠ 0 ∧ n > (sizeLimit - 1) / m) := fun hh => by
    have := (check_iff n m).1 hh; omega
  unfold reallocarray
  rw [if_neg hc, Nat.mod_eq_of_lt h]

example : ∃ f : Alloc, f.Sound ∧ ∃ p mem', f 6 (fun _ => none) = some (p, mem') :=
  ⟨fun n _ => some (4096, fun x => if 4096 ≤ x ∧ x < 4096 + n then some 170 else none), by
    intro n mem p mem' h i hi
    cases h
    simp [hi], _, _, rfl⟩

theorem pred_eq {a : Nat} (h : 0 < a) (ha : a < sizeLimit) : pred a = a - 1 := by
  unfold pred
  rw [show a + sizeLimit - 1 = (a - 1) + sizeLimit by omega, Nat.add_mod_right, Nat.mod_eq_of_lt (by omega)]

theorem and_mask (a k : Nat) : a &&& (2 ^ k - 1) = a % 2 ^ k := Nat.and_two_pow_sub_one_eq_mod a k

/-- **C58**: `posix_memalign` passes the request on exactly when the alignment is a power of two of at least the size of
a pointer, with exactly the size asked for; otherwise it fails with `EINVAL` and requests nothing. -/
theorem posix_memalign_check (alloc : Nat → Alloc) (mem : Mem) (align size : Nat) (ha : align < sizeLimit) :
    ((8 ≤ align ∧ ∃ k, align = 2 ^ k) → (posixMemalign alloc mem align size).requests = [size] ∧
      (posixMemalign alloc mem align size).ptr = (alloc align size mem).map Prod.fst) ∧
    (¬ (8 ≤ align ∧ ∃ k, align = 2 ^ k) → posixMemalign alloc mem align size = ⟨[], none, false, true, mem⟩) := by
  unfold posixMemalign
  by_cases h8 : align < 8
  · rw [if_pos h8]
    exact ⟨fun h => by omega, fun _ => rfl⟩
  · rw [if_neg h8, pred_eq (by omega) ha]
    have hp := Nat.and_sub_one_eq_zero_iff_isPowerOfTwo (n := align) (by omega)
    by_cases h : align &&& (align - 1) = 0
    · rw [if_neg (by simpa using h)]
      refine ⟨fun _ => ?_, fun hn => absurd ⟨by omega, hp.1 h⟩ hn⟩
      cases hm : alloc align size mem <;> simp
    · rw [if_pos h]
      exact ⟨fun hh => absurd (hp.2 hh.2) h, fun _ => rfl⟩

/-- **C58**: `aligned_alloc` passes the request on when the alignment is a power of two and divides the size; if the
alignment is not zero these are the only requests it passes on. -/
theorem aligned_alloc_check (alloc : Nat → Alloc) (mem : Mem) (align size : Nat) (h0 : 0 < align)
    (ha : align < sizeLimit) :
    (((∃ k, align = 2 ^ k) ∧ align ∣ size) → (alignedAlloc alloc mem align size).requests = [size] ∧
      (alignedAlloc alloc mem align size).ptr = (alloc align size mem).map Prod.fst) ∧
    (¬ ((∃ k, align = 2 ^ k) ∧ align ∣ size) → alignedAlloc alloc mem align size = ⟨[], none, false, true, mem⟩) := by
  unfold alignedAlloc
  rw [pred_eq h0 ha]
  have hp := Nat.and_sub_one_eq_zero_iff_isPowerOfTwo (n := align) (by omega)
  by_cases h : align &&& (align - 1) = 0
  · obtain ⟨k, hk⟩ := hp.1 h
    have hs : size &&& (align - 1) = size % align := by rw [hk]; exact and_mask size k
    rw [hs]
    by_cases hd : size % align = 0
    · rw [if_neg (by simp [h, hd])]
      refine ⟨fun _ => ?_, fun hn => absurd ⟨⟨k, hk⟩, Nat.dvd_of_mod_eq_zero hd⟩ hn⟩
      cases hm : alloc align size mem <;> simp
    · rw [if_pos (.inr hd)]
      exact ⟨fun hh => absurd (Nat.mod_eq_zero_of_dvd hh.2) hd, fun _ => rfl⟩
  · rw [if_pos (.inl h)]
    exact ⟨fun hh => absurd (hp.2 hh.1) h, fun _ => rfl⟩

example : (posixMemalign (fun _ _ m => some (64, m)) (fun _ => none) 64 10).ptr = some 64 := by decide

end Mlibc.AllocSize
