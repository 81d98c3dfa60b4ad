import Verif.Net.Inet6

/-
Reading IPv6 address texts: `inet_pton(AF_INET6)` (options/posix/generic/arpa-inet.cpp L271-384). Property C49.
-/
namespace Mlibc.Inet
open Mlibc Mlibc.Strtol

/-- `isxdigit` -/
def isXDigit (c : Nat) : Bool := (48 ≤ c ∧ c ≤ 57) ∨ (65 ≤ c ∧ c ≤ 70) ∨ (97 ≤ c ∧ c ≤ 102)

/-- One of the four octets of a dotted tail; `value` is the number `strtol` read in base 16 at the first of them. The
result is the octet and the offset of its end. L302-309, L310-317, L321-328, L329-336 -/
def octet6 (src : List Nat) (value : Int) (dot : Bool) : Res (Option (Int × Nat)) :=
  (Str.rd src 0).bind fun c =>
  if ¬ isDigit c then .ok none
  else (strtol src 10).bind fun r => (Str.rd src r.2.1).bind fun e =>
    if (dot ∧ e ≠ 46) ∨ r.1 > 255 ∨ r.2.1 = 0 then .ok none
    else if r.2.1 > 3 ∨ (c = 48 ∧ value ≠ 0) then .ok none
    else .ok (some (r.1, r.2.1))

/-- The two groups of a dotted tail, and the character that ends it. L300-339 -/
def dotted6 (src : List Nat) (value : Int) : Res (Option (List Nat × Nat)) :=
  (octet6 src value true).bind fun o0 => match o0 with
  | none => .ok none
  | some (v0, n0) => (octet6 (src.drop (n0 + 1)) value true).bind fun o1 => match o1 with
    | none => .ok none
    | some (v1, n1) => (octet6 ((src.drop (n0 + 1)).drop (n1 + 1)) value true).bind fun o2 => match o2 with
      | none => .ok none
      | some (v2, n2) =>
        (octet6 (((src.drop (n0 + 1)).drop (n1 + 1)).drop (n2 + 1)) value false).bind fun o3 => match o3 with
        | none => .ok none
        | some (v3, n3) => (Str.rd (((src.drop (n0 + 1)).drop (n1 + 1)).drop (n2 + 1)) n3).bind fun e =>
          .ok (some ([v0.toNat <<< 8 ||| v1.toNat, v2.toNat <<< 8 ||| v3.toNat], e))

/-- The loop over the groups: `done` are the elements of `array` stored so far (the others are still zero; `i` is their
number), `dco` is `doubleColonOffset` and `last` the character `end[0]` of the previous round; the first argument counts
the rounds left. `none` is the return value 0, otherwise the result is the array, `doubleColonOffset` and `end[0]`.
The condition of `reservedRange` reduces to its second part because `doubleColonOffset` is never zero. L277-351 -/
def pton6Loop : Nat → List Nat → List Nat → Option Nat → Nat → Res (Option (List Nat × Option Nat × Nat))
  | 0, _, done, dco, last => .ok (some (done, dco, last))
  | k + 1, src, done, dco, _ =>
    (strtol src 16).bind fun r => (Str.rd src r.2.1).bind fun e =>
    if r.1 > 65535 ∨ r.2.1 > 4 then .ok none
    else if e ≠ 0 ∧ e ≠ 58 ∧ e ≠ 46 then .ok none
    else if e = 46 ∧ (done ≠ [] ∧ done.headD 0 / 256 = 0) ∧ done.length < 7 then
      (dotted6 src r.1).bind fun d => match d with
      | none => .ok none
      | some (two, e) => .ok (some (done ++ two, dco, e))
    else if e = 58 then
      (Str.rd src (r.2.1 + 1)).bind fun e1 =>
      if e1 = 58 then
        if dco ≠ none then .ok none
        else pton6Loop k (src.drop (r.2.1 + 2)) (done ++ [(r.1 % 65536).toNat]) (some (done.length + 1)) e
      else pton6Loop k (src.drop (r.2.1 + 1)) (done ++ [(r.1 % 65536).toNat]) dco e
    else if e = 0 then .ok (some (done ++ [(r.1 % 65536).toNat], dco, e))
    else .ok none

/-- `inet_pton(AF_INET6)`: `none` is the return value 0. After the check of `end[0]` the loop has ended with `break`, so
`i` is one less than the number of stored elements. L271-384 -/
def pton6 (src : List Nat) : Res (Option (List Nat)) :=
  (Str.rd src 0).bind fun c =>
  if ¬ isXDigit c ∧ c ≠ 58 then .ok none
  else (pton6Loop 8 src [] none 0).bind fun r => match r with
  | none => .ok none
  | some (arr, dco, e) =>
    if e ≠ 0 then .ok none
    else match dco with
    | none => if arr.length - 1 < 7 then .ok none else .ok (some (arr.take 8))
    | some d =>
      let suffix := (arr.length - 1) + 1 - d
      if d + suffix ≥ 8 then .ok none
      else .ok (some (arr.take d ++ List.replicate (8 - d - suffix) 0 ++ (arr.drop d).take suffix))

/-! ## Specification -/

/-- A group as text: one to four hexadecimal digits. -/
def Group (ds : List Nat) : Prop := ds ≠ [] ∧ ds.length ≤ 4 ∧ ∀ x ∈ ds, Spec.isDigitIn 16 x = true

/-- The value of a group. -/
abbrev gval (ds : List Nat) : Nat := Spec.valueOf 16 ds

/-- Group texts with colons between them. -/
def gtexts : List (List Nat) → List Nat
  | [] => []
  | [x] => x
  | x :: xs => x ++ 58 :: gtexts xs

/-! ## Proof -/

theorem digitOf_lt {b c d : Nat} (h : Spec.isDigitIn b c = true) (hd : Spec.digitOf c = some d) : d < b := by
  simpa [Spec.isDigitIn, hd] using h

theorem valueOf_lt (b : Nat) (hb : 0 < b) (n : Nat) : ∀ ds : List Nat, ds.length = n →
    (∀ x ∈ ds, Spec.isDigitIn b x = true) → Spec.valueOf b ds < b ^ n := by
  induction n with
  | zero => intro ds hl _; rw [List.length_eq_zero_iff] at hl; subst hl; simp [Spec.valueOf]
  | succ n ih =>
    intro ds hl hd
    rcases List.eq_nil_or_concat ds with rfl | ⟨ds', c, rfl⟩
    · simp at hl
    · rw [List.concat_eq_append] at *
      rw [valueOf_snoc]
      have h1 := ih ds' (by simpa using hl) (fun x hx => hd x (by simp [hx]))
      have h2 := hd c (by simp)
      have h3 : (Spec.digitOf c).getD 0 < b := by
        cases h : Spec.digitOf c with
        | none => simpa using hb
        | some d => exact digitOf_lt h2 h
      rw [Nat.pow_succ]
      have : (Spec.valueOf b ds' + 1) * b ≤ b ^ n * b := Nat.mul_le_mul_right _ h1
      rw [Nat.add_mul] at this
      omega

theorem group_noNul {ds : List Nat} (h : ∀ x ∈ ds, Spec.isDigitIn 16 x = true) : 0 ∉ ds := by
  intro hx
  have := (isDigitIn_16 0).1 (h 0 hx)
  omega

/-- The head of what follows a group: a colon, or the end. -/
def Follows (t : List Nat) : Prop := t = [] ∨ t.head? = some 58

/-- `strtol` at a group, or at the empty text before a colon or the end. -/
theorem strtol_group (ds t rest : List Nat) (hd : ∀ x ∈ ds, Spec.isDigitIn 16 x = true) (hl : ds.length ≤ 4) (ht : Follows t)
    (h0 : 0 ∉ t) : strtol (ds ++ t ++ 0 :: rest) 16 = .ok (gval ds, ds.length, false) ∧ gval ds < 65536 := by
  have hv := valueOf_lt 16 (by omega) _ ds rfl hd
  have hp : 16 ^ ds.length ≤ 16 ^ 4 := Nat.pow_le_pow_right (by omega) hl
  have hlt : gval ds < 65536 := by unfold gval; omega
  refine ⟨?_, hlt⟩
  have hh : ∀ x, t.head? = some x → x = 58 := by
    intro x hx
    rcases ht with rfl | ht
    · simp at hx
    · rw [ht] at hx; simpa using hx.symm
  by_cases hne : ds = []
  · subst hne
    rw [List.nil_append, strtol_none 16 (Or.inr rfl) t rest h0 (by
      intro x hx
      rw [hh x hx]; decide)]
    rfl
  · exact strtol_num 16 (Or.inr rfl) ds t rest hne hd h0 (by
      intro x hx
      rw [hh x hx]; exact ⟨by decide, by decide⟩) (by omega)

theorem rd_after (ds t : List Nat) (i : Nat) : Str.rd (ds ++ t) (ds.length + i) = Str.rd t i := by
  unfold Str.rd
  rw [List.getElem?_append_right (by omega), Nat.add_sub_cancel_left]

/-- One round of the loop. -/
theorem pton6_round (k last : Nat) (ds t rest done : List Nat) (dco : Option Nat) (hd : ∀ x ∈ ds, Spec.isDigitIn 16 x = true)
    (hl : ds.length ≤ 4) (ht : Follows t) (h0 : 0 ∉ t) :
    pton6Loop (k + 1) (ds ++ t ++ 0 :: rest) done dco last =
      match t with
      | [] => .ok (some (done ++ [gval ds], dco, 0))
      | _ :: 58 :: t => if dco ≠ none then .ok none
          else pton6Loop k (t ++ 0 :: rest) (done ++ [gval ds]) (some (done.length + 1)) 58
      | _ :: t => pton6Loop k (t ++ 0 :: rest) (done ++ [gval ds]) dco 58 := by
  obtain ⟨hs, hv⟩ := strtol_group ds t rest hd hl ht h0
  have hmod : (((gval ds : Nat) : Int) % 65536).toNat = gval ds := by omega
  rw [pton6Loop, hs]
  simp only [Res.bind]
  have r0 := rd_after ds (t ++ 0 :: rest) 0
  have r1 := rd_after ds (t ++ 0 :: rest) 1
  rw [← List.append_assoc, Nat.add_zero] at r0
  rw [← List.append_assoc] at r1
  rw [r0, r1, hmod]
  have hdrop : ∀ i, (ds ++ t ++ 0 :: rest).drop (ds.length + i) = (t ++ 0 :: rest).drop i := by
    intro i
    rw [List.append_assoc, ← List.drop_drop, List.drop_left]
  rw [hdrop 1, hdrop 2]
  cases t with
  | nil =>
    simp only [List.nil_append, Str.rd, List.getElem?_cons_zero]
    rw [if_neg (by omega), if_neg (by omega), if_neg (by omega), if_neg (by omega)]
    simp
  | cons x t =>
    have hx : x = 58 := by
      rcases ht with h | h
      · simp at h
      · simpa using h
    subst hx
    simp only [List.cons_append, Str.rd, List.getElem?_cons_zero, List.getElem?_cons_succ]
    rw [if_neg (by omega), if_neg (by omega), if_neg (by omega)]
    simp only [if_true, Res.bind]
    cases t with
    | nil => simp
    | cons y t =>
      by_cases hy : y = 58
      · subst hy; simp
      · simp only [List.cons_append, List.getElem?_cons_zero, if_neg hy]
        simp [hy]

theorem gtexts_cons (x y : List Nat) (xs : List (List Nat)) : gtexts (x :: y :: xs) = x ++ 58 :: gtexts (y :: xs) := by
  rw [gtexts]; simp

theorem gtexts_head (xs : List (List Nat)) (hg : ∀ x ∈ xs, Group x) : (gtexts xs).head? ≠ some 58 := by
  cases xs with
  | nil => simp [gtexts]
  | cons x xs =>
    have hx := hg x (by simp)
    have : ∀ t, (x ++ t).head? ≠ some 58 := by
      intro t
      cases x with
      | nil => exact absurd rfl hx.1
      | cons c cs =>
        intro h
        simp only [List.cons_append, List.head?_cons, Option.some.injEq] at h
        subst h
        have := hx.2.2 58 (by simp)
        simp [Spec.isDigitIn, Spec.digitOf] at this
    cases xs with
    | nil => have := this []; rwa [List.append_nil] at this
    | cons y xs => rw [gtexts_cons]; exact this _

theorem gtexts_noNul (xs : List (List Nat)) (hg : ∀ x ∈ xs, Group x) : 0 ∉ gtexts xs := by
  induction xs with
  | nil => simp [gtexts]
  | cons x xs ih =>
    have hx := group_noNul (hg x (by simp)).2.2
    have := ih (fun y hy => hg y (by simp [hy]))
    cases xs with
    | nil => exact hx
    | cons y xs => rw [gtexts_cons]; simp [hx, this]

theorem round_cons (k last : Nat) (ds t rest done : List Nat) (dco : Option Nat) (hd : ∀ x ∈ ds, Spec.isDigitIn 16 x = true)
    (hl : ds.length ≤ 4) (h0 : 0 ∉ t) (hh : t.head? ≠ some 58) :
    pton6Loop (k + 1) (ds ++ 58 :: t ++ 0 :: rest) done dco last =
      pton6Loop k (t ++ 0 :: rest) (done ++ [gval ds]) dco 58 := by
  rw [pton6_round k last ds (58 :: t) rest done dco hd hl (Or.inr rfl) (by simp [h0])]
  cases t with
  | nil => rfl
  | cons y t =>
    have : y ≠ 58 := by simpa using hh
    split
    · simp_all
    · simp_all
    · simp_all

/-- The groups up to the end of the text. -/
theorem loop_last (xs : List (List Nat)) : ∀ (x rest done : List Nat) (k last : Nat) (dco : Option Nat),
    (∀ y ∈ x :: xs, Group y) → xs.length + 1 ≤ k →
    pton6Loop k (gtexts (x :: xs) ++ 0 :: rest) done dco last = .ok (some (done ++ (x :: xs).map gval, dco, 0)) := by
  induction xs with
  | nil =>
    intro x rest done k last dco hg hk
    obtain ⟨k, rfl⟩ : ∃ k', k = k' + 1 := ⟨k - 1, by simp at hk; omega⟩
    have hx := hg x (by simp)
    have := pton6_round k last x [] rest done dco hx.2.2 hx.2.1 (Or.inl rfl) (by simp)
    rw [List.append_nil] at this
    exact this
  | cons y xs ih =>
    intro x rest done k last dco hg hk
    obtain ⟨k, rfl⟩ : ∃ k', k = k' + 1 := ⟨k - 1, by simp at hk; omega⟩
    have hx := hg x (by simp)
    have hg' : ∀ z ∈ y :: xs, Group z := fun z hz => hg z (List.mem_cons_of_mem _ hz)
    rw [gtexts_cons, round_cons k last x _ rest done dco hx.2.2 hx.2.1 (gtexts_noNul _ hg') (gtexts_head _ hg'),
      ih y rest _ k 58 dco hg' (by simp at hk; omega)]
    simp

/-- The groups before "::". -/
theorem loop_pre (xs : List (List Nat)) : ∀ (x t rest done : List Nat) (k last : Nat),
    (∀ y ∈ x :: xs, Group y) → 0 ∉ t →
    pton6Loop (xs.length + 1 + k) (gtexts (x :: xs) ++ 58 :: 58 :: t ++ 0 :: rest) done none last =
      pton6Loop k (t ++ 0 :: rest) (done ++ (x :: xs).map gval) (some (done.length + (xs.length + 1))) 58 := by
  induction xs with
  | nil =>
    intro x t rest done k last hg h0
    have hx := hg x (by simp)
    have := pton6_round k last x (58 :: 58 :: t) rest done none hx.2.2 hx.2.1 (Or.inr rfl) (by simp [h0])
    simp only [ne_eq, not_true_eq_false, if_false] at this
    rw [List.length_nil, Nat.zero_add, Nat.add_comm 1 k]
    exact this
  | cons y xs ih =>
    intro x t rest done k last hg h0
    have hx := hg x (by simp)
    have hg' : ∀ z ∈ y :: xs, Group z := fun z hz => hg z (List.mem_cons_of_mem _ hz)
    have hh : (gtexts (y :: xs) ++ 58 :: 58 :: t).head? ≠ some 58 := by
      have h1 := gtexts_head _ hg'
      cases hc : gtexts (y :: xs) with
      | nil =>
        have hy := hg' y (by simp)
        cases xs with
        | nil => exact absurd hc hy.1
        | cons z xs => rw [gtexts_cons] at hc; simp at hc
      | cons c cs => rw [hc] at h1; simpa using h1
    rw [gtexts_cons, show x ++ 58 :: gtexts (y :: xs) ++ 58 :: 58 :: t = x ++ 58 :: (gtexts (y :: xs) ++ 58 :: 58 :: t) by simp,
      show (y :: xs).length + 1 + k = (xs.length + 1 + k) + 1 by simp; omega,
      round_cons _ last x _ rest done none hx.2.2 hx.2.1 (by have := gtexts_noNul _ hg'; simp [this, h0]) hh,
      ih y t rest _ k 58 hg' h0]
    simp [Nat.add_comm, Nat.add_left_comm]

theorem rd0_ok {s : List Nat} (rest : List Nat) (x : List Nat) (t : List Nat) (e : s = x ++ t) (hx : Group x) :
    ∃ c, Str.rd (s ++ 0 :: rest) 0 = .ok c ∧ isXDigit c = true := by
  subst e
  cases x with
  | nil => exact absurd rfl hx.1
  | cons c cs =>
    refine ⟨c, rfl, ?_⟩
    have := (isDigitIn_16 c).1 (hx.2.2 c (by simp))
    unfold isXDigit
    simpa using this

/-- C49, IPv6: eight groups of one to four hexadecimal digits are accepted as the address they denote. -/
theorem pton6_full (gs : List (List Nat)) (rest : List Nat) (hl : gs.length = 8) (hg : ∀ x ∈ gs, Group x) :
    pton6 (gtexts gs ++ 0 :: rest) = .ok (some (gs.map gval)) := by
  cases gs with
  | nil => simp at hl
  | cons x xs =>
    obtain ⟨t, ht⟩ : ∃ t, gtexts (x :: xs) = x ++ t := by
      cases xs with
      | nil => exact ⟨[], by simp [gtexts]⟩
      | cons y xs => exact ⟨_, gtexts_cons x y xs⟩
    obtain ⟨c, hc, hxd⟩ := rd0_ok rest x t ht (hg x (by simp))
    unfold pton6
    rw [hc]
    simp only [Res.bind]
    rw [if_neg (by simp [hxd]), loop_last xs x rest [] 8 0 none hg (by simp at hl; omega)]
    simp only [ne_eq, not_true_eq_false, if_false, List.nil_append]
    rw [if_neg (by simp only [List.length_map]; omega), List.take_of_length_le (by simp only [List.length_map]; omega)]

/-! ### Rejected texts: the wrong number of groups, groups of more than four digits -/

/-- A non-empty text of hexadecimal digits, of any length. -/
def Hexes (ds : List Nat) : Prop := ds ≠ [] ∧ ∀ x ∈ ds, Spec.isDigitIn 16 x = true

theorem hexes_head (xs : List (List Nat)) (hg : ∀ x ∈ xs, Hexes x) : (gtexts xs).head? ≠ some 58 := by
  cases xs with
  | nil => simp [gtexts]
  | cons x xs =>
    have hx := hg x (by simp)
    have : ∀ t, (x ++ t).head? ≠ some 58 := by
      intro t
      cases x with
      | nil => exact absurd rfl hx.1
      | cons c cs =>
        have := (isDigitIn_16 c).1 (hx.2 c (by simp))
        simp; omega
    cases xs with
    | nil => simpa [gtexts] using this []
    | cons y xs => rw [gtexts_cons]; exact this _

theorem hexes_noNul (xs : List (List Nat)) (hg : ∀ x ∈ xs, Hexes x) : 0 ∉ gtexts xs := by
  induction xs with
  | nil => simp [gtexts]
  | cons x xs ih =>
    have hx := group_noNul (hg x (by simp)).2
    have := ih (fun y hy => hg y (by simp [hy]))
    cases xs with
    | nil => exact hx
    | cons y xs => rw [gtexts_cons]; simp [hx, this]

theorem round_long (k last : Nat) (ds t rest done : List Nat) (dco : Option Nat) (hd : Hexes ds)
    (hl : 4 < ds.length) (ht : Follows t) (h0 : 0 ∉ t) :
    pton6Loop (k + 1) (ds ++ t ++ 0 :: rest) done dco last = .ok none := by
  have hh : ∀ x, t.head? = some x → x = 58 := by
    intro x hx
    rcases ht with rfl | ht
    · simp at hx
    · rw [ht] at hx; simpa using hx.symm
  rw [pton6Loop, strtol_any 16 (Or.inr rfl) ds t rest hd.1 hd.2 h0 (by
      intro x hx
      rw [hh x hx]; exact ⟨by decide, by decide⟩)]
  simp only [Res.bind]
  have r0 := rd_after ds (t ++ 0 :: rest) 0
  rw [← List.append_assoc, Nat.add_zero] at r0
  rw [r0]
  cases t with
  | nil => simp only [List.nil_append, Str.rd, List.getElem?_cons_zero]; rw [if_pos (Or.inr hl)]
  | cons x t => simp only [List.cons_append, Str.rd, List.getElem?_cons_zero]; rw [if_pos (Or.inr hl)]

/-- The whole run of the loop over groups separated by single colons. -/
theorem loop_groups (k : Nat) : ∀ (xs : List (List Nat)) (rest done : List Nat) (dco : Option Nat) (last : Nat),
    xs ≠ [] → (∀ y ∈ xs, Hexes y) → (0 < k ∨ last = 58) →
    ((xs.length ≤ k ∧ (∀ y ∈ xs, y.length ≤ 4)) ∧
      pton6Loop k (gtexts xs ++ 0 :: rest) done dco last = .ok (some (done ++ xs.map gval, dco, 0))) ∨
    (¬ (xs.length ≤ k ∧ (∀ y ∈ xs, y.length ≤ 4)) ∧
      (pton6Loop k (gtexts xs ++ 0 :: rest) done dco last = .ok none ∨
        ∃ arr, pton6Loop k (gtexts xs ++ 0 :: rest) done dco last = .ok (some (arr, dco, 58)))) := by
  induction k with
  | zero =>
    intro xs rest done dco last hne hg hk
    refine Or.inr ⟨fun h => ?_, Or.inr ⟨done, ?_⟩⟩
    · exact hne (List.length_eq_zero_iff.1 (Nat.le_zero.1 h.1))
    · rw [pton6Loop, hk.resolve_left (by omega)]
  | succ k ih =>
    intro xs rest done dco last hne hg hk
    cases xs with
    | nil => exact absurd rfl hne
    | cons x xs =>
      have hx := hg x (by simp)
      by_cases hl : x.length ≤ 4
      · cases xs with
        | nil =>
          refine Or.inl ⟨⟨by simp, by simpa using hl⟩, ?_⟩
          have := pton6_round k last x [] rest done dco hx.2 hl (Or.inl rfl) (by simp)
          rw [List.append_nil] at this
          exact this
        | cons y xs =>
          have hg' : ∀ z ∈ y :: xs, Hexes z := fun z hz => hg z (List.mem_cons_of_mem _ hz)
          rw [gtexts_cons, round_cons k last x _ rest done dco hx.2 hl (hexes_noNul _ hg') (hexes_head _ hg')]
          rcases ih (y :: xs) rest (done ++ [gval x]) dco 58 (by simp) hg' (Or.inr rfl) with ⟨h, e⟩ | ⟨h, e⟩
          · refine Or.inl ⟨⟨by have := h.1; simp at this ⊢; omega, ?_⟩, by rw [e]; simp⟩
            intro z hz
            rcases List.mem_cons.1 hz with rfl | hz
            · exact hl
            · exact h.2 z hz
          · refine Or.inr ⟨fun h' => h ⟨by have := h'.1; simp at this ⊢; omega, fun z hz => h'.2 z (List.mem_cons_of_mem _ hz)⟩, e⟩
      · refine Or.inr ⟨fun h => hl (h.2 x (by simp)), Or.inl ?_⟩
        cases xs with
        | nil =>
          have := round_long k last x [] rest done dco hx (by omega) (Or.inl rfl) (by simp)
          rw [List.append_nil] at this
          exact this
        | cons y xs =>
          rw [gtexts_cons]
          exact round_long k last x _ rest done dco hx (by omega) (Or.inr rfl)
            (by have := hexes_noNul (y :: xs) (fun z hz => hg z (List.mem_cons_of_mem _ hz)); simp [this])

/-- C49, IPv6, texts without "::": groups of hexadecimal digits separated by colons are accepted exactly when there are
eight, each of at most four digits, and then denote the address with those groups. -/
theorem pton6_groups (gs : List (List Nat)) (rest : List Nat) (hne : gs ≠ []) (hg : ∀ x ∈ gs, Hexes x) :
    ((gs.length = 8 ∧ ∀ x ∈ gs, x.length ≤ 4) → pton6 (gtexts gs ++ 0 :: rest) = .ok (some (gs.map gval))) ∧
    (¬ (gs.length = 8 ∧ ∀ x ∈ gs, x.length ≤ 4) → pton6 (gtexts gs ++ 0 :: rest) = .ok none) := by
  refine ⟨fun h => pton6_full gs rest h.1 (fun x hx => ⟨(hg x hx).1, h.2 x hx, (hg x hx).2⟩), fun h => ?_⟩
  cases gs with
  | nil => exact absurd rfl hne
  | cons x xs =>
    have hx := hg x (by simp)
    obtain ⟨c, hc, hxd⟩ : ∃ c, Str.rd (gtexts (x :: xs) ++ 0 :: rest) 0 = .ok c ∧ isXDigit c = true := by
      cases x with
      | nil => exact absurd rfl hx.1
      | cons c cs =>
        refine ⟨c, ?_, ?_⟩
        · cases xs with
          | nil => rfl
          | cons y xs => rw [gtexts_cons]; rfl
        · have := (isDigitIn_16 c).1 (hx.2 c (by simp))
          unfold isXDigit
          simpa using this
    unfold pton6
    rw [hc]
    simp only [Res.bind]
    rw [if_neg (by simp [hxd])]
    rcases loop_groups 8 (x :: xs) rest [] none 0 (by simp) hg (Or.inl (by omega)) with ⟨h8, e⟩ | ⟨_, e | ⟨arr, e⟩⟩
    · rw [e]
      have hlt : (x :: xs).length ≠ 8 := fun h' => h ⟨h', h8.2⟩
      simp only [ne_eq, not_true_eq_false, if_false, List.nil_append]
      rw [if_pos (by simp only [List.length_map]; omega)]
    · rw [e]
    · rw [e]; simp

example : pton6 (gtexts (List.replicate 8 [49, 48, 48, 48, 48]) ++ [0]) = .ok none :=
  (pton6_groups _ [] (by decide) (by intro x hx; rw [List.eq_of_mem_replicate hx]; exact ⟨by decide, by decide⟩)).2 (by decide)

/-- C49, IPv6: a "::" stands for the missing groups, when at least two are missing. -/
theorem pton6_short (pre post : List (List Nat)) (rest : List Nat) (hl : pre.length + post.length ≤ 6)
    (hp : ∀ x ∈ pre, Group x) (hq : ∀ x ∈ post, Group x) :
    pton6 (gtexts pre ++ 58 :: 58 :: gtexts post ++ 0 :: rest) =
      .ok (some (pre.map gval ++ List.replicate (8 - pre.length - post.length) 0 ++ post.map gval)) := by
  -- the array is filled with `pre`, or one zero, and then with `post`, or one zero
  have hpre : ∃ c, Str.rd (gtexts pre ++ 58 :: 58 :: gtexts post ++ 0 :: rest) 0 = .ok c ∧ (isXDigit c = true ∨ c = 58) := by
    cases pre with
    | nil => exact ⟨58, rfl, Or.inr rfl⟩
    | cons x xs =>
      obtain ⟨t, ht⟩ : ∃ t, gtexts (x :: xs) = x ++ t := by
        cases xs with
        | nil => exact ⟨[], by simp [gtexts]⟩
        | cons y xs => exact ⟨_, gtexts_cons x y xs⟩
      obtain ⟨c, hc, hxd⟩ := rd0_ok (s := gtexts (x :: xs) ++ 58 :: 58 :: gtexts post) rest x (t ++ 58 :: 58 :: gtexts post)
        (by rw [ht, List.append_assoc]) (hp x (by simp))
      exact ⟨c, hc, Or.inl hxd⟩
  obtain ⟨c, hc, hxd⟩ := hpre
  have hn := gtexts_noNul post hq
  have hA : ∃ k as, 2 ≤ k ∧ post.length ≤ k ∧ as.length = max pre.length 1 ∧
      as = (if pre = [] then [0] else pre.map gval) ∧
      pton6Loop 8 (gtexts pre ++ 58 :: 58 :: gtexts post ++ 0 :: rest) [] none 0 =
      pton6Loop k (gtexts post ++ 0 :: rest) as (some as.length) 58 := by
    cases pre with
    | nil =>
      refine ⟨7, [0], by omega, by simp at hl; omega, rfl, rfl, ?_⟩
      have := pton6_round 7 0 [] (58 :: 58 :: gtexts post) rest [] none (by simp) (by simp) (Or.inr rfl) (by simp [hn])
      simp only [ne_eq, not_true_eq_false, if_false] at this
      exact this
    | cons x xs =>
      simp only [List.length_cons] at hl
      refine ⟨8 - (xs.length + 1), (x :: xs).map gval, by omega, by omega, by simp, by simp, ?_⟩
      have := loop_pre xs x (gtexts post) rest [] (8 - (xs.length + 1)) 0 hp hn
      rw [show xs.length + 1 + (8 - (xs.length + 1)) = 8 by omega] at this
      rw [this]
      simp
  obtain ⟨k, as, hk2, hkp, hal, has, hA⟩ := hA
  have hB : ∃ bs, bs.length = max post.length 1 ∧ bs = (if post = [] then [0] else post.map gval) ∧
      pton6Loop k (gtexts post ++ 0 :: rest) as (some as.length) 58 = .ok (some (as ++ bs, some as.length, 0)) := by
    cases post with
    | nil =>
      obtain ⟨k, rfl⟩ : ∃ k', k = k' + 1 := ⟨k - 1, by omega⟩
      refine ⟨[0], rfl, rfl, ?_⟩
      exact pton6_round k 58 [] [] rest as (some as.length) (by simp) (by simp) (Or.inl rfl) (by simp)
    | cons y ys =>
      refine ⟨(y :: ys).map gval, by simp, by simp, ?_⟩
      exact loop_last ys y rest as k 58 (some as.length) hq (by simpa using hkp)
  obtain ⟨bs, hbl, hbs, hB⟩ := hB
  unfold pton6
  rw [hc]
  simp only [Res.bind]
  rw [if_neg (by rcases hxd with h | h <;> simp [h]), hA, hB]
  simp only [ne_eq, not_true_eq_false, if_false]
  have e1 : (as ++ bs).length - 1 + 1 - as.length = bs.length := by
    rw [List.length_append]; omega
  rw [e1, if_neg (by omega), List.take_left, List.drop_left, List.take_of_length_le (Nat.le_refl _)]
  congr 2
  subst has hbs
  have rep : ∀ n m, [0] ++ List.replicate n 0 = List.replicate (n + 1) 0 ∧ List.replicate n 0 ++ [0] = List.replicate (n + 1) (0 : Nat) ∧
      List.replicate (n + 1 + 1) (0 : Nat) = List.replicate (n + 2 + m - m) 0 := by
    intro n m
    refine ⟨by simp [List.replicate_succ], by rw [List.replicate_succ'], by congr 1; omega⟩
  cases pre with
  | nil =>
    cases post with
    | nil => rfl
    | cons y ys =>
      simp only [List.length_cons, List.length_nil, if_true, List.map_nil, List.nil_append, reduceCtorEq, if_false,
        List.length_map] at hl hal hbl ⊢
      rw [(rep _ 0).1]
      congr 2
      omega
  | cons x xs =>
    cases post with
    | nil =>
      simp only [List.length_cons, List.length_nil, if_true, List.map_nil, List.append_nil, reduceCtorEq, if_false,
        List.length_map] at hl hal hbl ⊢
      rw [List.append_assoc, (rep _ 0).2.1]
      congr 2
      omega
    | cons y ys =>
      simp

/-! ## Dotted tails -/

theorem octet6_ok (n : Nat) (hn : n < 256) (t rest : List Nat) (value : Int) (dot : Bool) (h0 : 0 ∉ t)
    (ht : t = [] ∨ t.head? = some 46) (hd : dot = true → t ≠ []) (hv : value = 0 ∨ n ≠ 0) :
    octet6 (decimal n ++ t ++ 0 :: rest) value dot = .ok (some (n, (decimal n).length)) := by
  have hp := part_decimal hn
  have hh := decimal_head n
  have hval := decimal_value n
  have hdig : ∀ x ∈ decimal n, Spec.isDigitIn 10 x = true := fun x hx => (isDigitIn_10 x).2 (hp.2.2.1 x hx)
  have hs := strtol_num 10 (Or.inl rfl) (decimal n) t rest hp.1 hdig h0 (by
    intro x hx
    rcases ht with rfl | ht
    · simp at hx
    · rw [ht] at hx
      simp only [Option.some.injEq] at hx
      subst hx
      exact ⟨by decide, by omega⟩) (by omega)
  unfold octet6
  rw [hs]
  have r0 := rd_after (decimal n) (t ++ 0 :: rest) 0
  rw [← List.append_assoc, Nat.add_zero] at r0
  have hl := hp.2.1
  have hne := hp.1
  cases hdn : decimal n with
  | nil => exact absurd hdn hne
  | cons c cs =>
    rw [hdn] at r0 hdig hl hh hval
    have hc := (isDigitIn_10 c).1 (hdig c (by simp))
    have rc : Str.rd (c :: cs ++ t ++ 0 :: rest) 0 = .ok c := rfl
    rw [rc]
    simp only [Res.bind]
    rw [if_neg (by simp [isDigit]; omega), r0, hval]
    have h1 : ∃ e, Str.rd (t ++ 0 :: rest) 0 = .ok e ∧ (dot = true → e = 46) := by
      cases t with
      | nil => exact ⟨0, rfl, fun h => absurd rfl (hd h)⟩
      | cons x t =>
        refine ⟨x, rfl, fun _ => ?_⟩
        rcases ht with h | h
        · simp at h
        · simpa using h
    obtain ⟨e, he, hdot⟩ := h1
    rw [he]
    simp only
    have hlen : (c :: cs).length ≠ 0 := by simp
    have hn' : ¬ ((n : Int) > 255) := by omega
    rw [if_neg (by
      rintro (⟨h, h'⟩ | h | h)
      · exact h' (hdot h)
      · exact hn' h
      · exact hlen h)]
    rw [if_neg (by
      rintro (h | ⟨h, h'⟩)
      · omega
      · subst h
        have := hh rfl
        rcases hv with hv | hv
        · exact h' hv
        · exact hv this)]

theorem part_decimal_noNul {n : Nat} (h : n < 256) : 0 ∉ decimal n := (part_decimal h).noNul

theorem drop_after (ds t : List Nat) (c : Nat) : (ds ++ c :: t).drop (ds.length + 1) = t := by
  rw [← List.drop_drop, List.drop_left]; rfl

theorem dotted6_ok (a b c d : Nat) (ha : a < 256) (hb : b < 256) (hc : c < 256) (hd : d < 256) (rest : List Nat) (value : Int)
    (hv : value = 0 ∨ (a ≠ 0 ∧ b ≠ 0 ∧ c ≠ 0 ∧ d ≠ 0)) :
    dotted6 (dotted a b c d ++ 0 :: rest) value = .ok (some ([a * 256 + b, c * 256 + d], 0)) := by
  have na := part_decimal_noNul ha
  have nb := part_decimal_noNul hb
  have nc := part_decimal_noNul hc
  have nd := part_decimal_noNul hd
  unfold dotted6 dotted
  rw [octet6_ok a ha (46 :: (decimal b ++ 46 :: (decimal c ++ 46 :: decimal d))) rest value true (by simp [nb, nc, nd]) (Or.inr rfl)
    (by simp) (by omega)]
  simp only [Res.bind]
  rw [List.append_assoc, List.cons_append, drop_after]
  rw [octet6_ok b hb (46 :: (decimal c ++ 46 :: decimal d)) rest value true (by simp [nc, nd]) (Or.inr rfl)
    (by simp) (by omega)]
  simp only
  rw [List.append_assoc, List.cons_append, drop_after]
  rw [octet6_ok c hc (46 :: decimal d) rest value true (by simp [nd]) (Or.inr rfl) (by simp) (by omega)]
  simp only
  rw [List.append_assoc, List.cons_append, drop_after]
  have h := octet6_ok d hd [] rest value false (by simp) (Or.inl rfl) (by simp) (by omega)
  rw [List.append_nil] at h
  rw [h]
  simp only
  have r0 := rd_after (decimal d) (0 :: rest) 0
  rw [Nat.add_zero] at r0
  rw [r0]
  simp only [Str.rd, List.getElem?_cons_zero]
  have j : ∀ x y : Nat, y < 256 → ((x : Int).toNat <<< 8 ||| (y : Int).toNat) = x * 256 + y := by
    intro x y hy
    rw [Int.toNat_natCast, Int.toNat_natCast, Nat.shiftLeft_eq, Nat.mul_comm x, ← Nat.two_pow_add_eq_or_of_lt (by omega)]
  rw [j a b hb, j c d hd]

/-- C49, IPv6: mapped IPv4 addresses in dotted form are accepted, when no octet is zero or the first one is (see
`pton6_mapped_violated`). -/
theorem pton6_mapped_partial (a b c d : Nat) (ha : a < 256) (hb : b < 256) (hc : c < 256) (hd : d < 256) (rest : List Nat)
    (hv : a = 0 ∨ (b ≠ 0 ∧ c ≠ 0 ∧ d ≠ 0)) :
    pton6 (mappedPrefix ++ dotted a b c d ++ 0 :: rest) = .ok (some [0, 0, 0, 0, 0, 0xffff, a * 256 + b, c * 256 + d]) := by
  have na := part_decimal_noNul ha
  have nb := part_decimal_noNul hb
  have nc := part_decimal_noNul hc
  have nd := part_decimal_noNul hd
  have n4 : 0 ∉ dotted a b c d := by simp [dotted, na, nb, nc, nd]
  have hp := part_decimal ha
  have hdig : ∀ x ∈ decimal a, Spec.isDigitIn 16 x = true := fun x hx => (isDigitIn_16 x).2 (Or.inl (hp.2.2.1 x hx))
  unfold pton6
  rw [show Str.rd (mappedPrefix ++ dotted a b c d ++ 0 :: rest) 0 = .ok 58 from rfl]
  simp only [Res.bind]
  rw [if_neg (by simp)]
  have e1 : pton6Loop 8 (mappedPrefix ++ dotted a b c d ++ 0 :: rest) [] none 0 =
      pton6Loop 7 ([102, 102, 102, 102, 58] ++ dotted a b c d ++ 0 :: rest) [0] (some 1) 58 := by
    have := pton6_round 7 0 [] (58 :: 58 :: ([102, 102, 102, 102, 58] ++ dotted a b c d)) rest [] none (by simp) (by simp)
      (Or.inr rfl) (by simp [n4])
    simp only [ne_eq, not_true_eq_false, if_false] at this
    exact this
  have hhead : (dotted a b c d).head? ≠ some 58 := by
    unfold dotted
    cases hdn : decimal a with
    | nil => exact absurd hdn hp.1
    | cons x xs =>
      have := hp.2.2.1 x (by simp [hdn])
      simp; omega
  have e2 : pton6Loop 7 ([102, 102, 102, 102, 58] ++ dotted a b c d ++ 0 :: rest) [0] (some 1) 58 =
      pton6Loop 6 (dotted a b c d ++ 0 :: rest) [0, 0xffff] (some 1) 58 :=
    round_cons 6 58 [102, 102, 102, 102] (dotted a b c d) rest [0] (some 1) (by decide) (by simp) n4 hhead
  rw [e1, e2, pton6Loop]
  have hlen : (decimal a).length ≤ 4 := by have := hp.2.1; omega
  have hlt := valueOf_lt 16 (by omega) _ (decimal a) rfl hdig
  have hpw : 16 ^ (decimal a).length ≤ 16 ^ 4 := Nat.pow_le_pow_right (by omega) hlen
  have hs := strtol_num 16 (Or.inr rfl) (decimal a) (46 :: (decimal b ++ 46 :: (decimal c ++ 46 :: decimal d))) rest hp.1 hdig
    (by simp [nb, nc, nd]) (by intro x hx; simp only [List.head?_cons, Option.some.injEq] at hx; subst hx; exact ⟨by decide, by decide⟩)
    (by omega)
  have r0 := rd_after (decimal a) ((46 :: (decimal b ++ 46 :: (decimal c ++ 46 :: decimal d))) ++ 0 :: rest) 0
  rw [← List.append_assoc, Nat.add_zero] at r0
  have hzero : ((Spec.valueOf 16 (decimal a) : Nat) : Int) = 0 ∨ (a ≠ 0 ∧ b ≠ 0 ∧ c ≠ 0 ∧ d ≠ 0) := by
    by_cases h : a = 0
    · left; subst h; rw [decimal_zero]; decide
    · right; omega
  have hdt := dotted6_ok a b c d ha hb hc hd rest _ hzero
  rw [show dotted a b c d = decimal a ++ 46 :: (decimal b ++ 46 :: (decimal c ++ 46 :: decimal d)) from rfl] at hdt ⊢
  rw [hs]
  simp only [Res.bind]
  rw [r0]
  simp only [Str.rd, List.cons_append, List.getElem?_cons_zero]
  rw [if_neg (by omega), if_neg (by omega), if_pos (by simp)]
  rw [hdt]
  simp

/-! ## Round trip -/

theorem group_hexa {n : Nat} (h : n < 65536) : Group (hexa n) := ⟨hexa_ne_nil n, hexa_length h, hexa_digits n⟩

theorem gtexts_hexa (xs : List Nat) : gtexts (xs.map hexa) = colons xs := by
  induction xs with
  | nil => rfl
  | cons x xs ih =>
    cases xs with
    | nil => rfl
    | cons y xs =>
      rw [List.map_cons] at *
      rw [List.map_cons, gtexts_cons, colons]
      · rw [ih]
      · simp

theorem gval_hexa (xs : List Nat) : (xs.map hexa).map gval = xs := by
  rw [List.map_map]
  conv => rhs; rw [← List.map_id xs]
  apply List.map_congr_left
  intro x _
  exact hexa_value x

/-- C49, IPv6: the texts that `inet_ntop` writes are read back as the same address, except for mapped IPv4 addresses
with a zero octet after a non-zero first one (see `pton6_mapped_violated`). -/
theorem roundtrip6_partial (g t rest : List Nat) (hl : g.length = 8) (hg : ∀ x ∈ g, x < 65536) (ht : Text6 g t)
    (hm : g.take 5 = [0, 0, 0, 0, 0] ∧ g[5]? = some 0xffff → ∀ x y, g.drop 6 = [x, y] →
      x / 256 = 0 ∨ (x % 256 ≠ 0 ∧ y / 256 ≠ 0 ∧ y % 256 ≠ 0)) :
    pton6 (t ++ 0 :: rest) = .ok (some g) := by
  rcases ht with ⟨h1, h2, rfl⟩ | ⟨-, -, rfl⟩ | ⟨-, a, n, hn, hz, -, rfl⟩
  · match g, hl with
    | [g0, g1, g2, g3, g4, g5, x, y], _ =>
      simp only [List.take_succ_cons, List.take_zero, List.cons.injEq, and_true, List.getElem?_cons_succ, List.getElem?_cons_zero,
        Option.some.injEq] at h1 h2
      obtain ⟨rfl, rfl, rfl, rfl, rfl⟩ := h1
      subst h2
      have := hm ⟨rfl, rfl⟩ x y rfl
      have hx := hg x (by simp)
      have hy := hg y (by simp)
      have := pton6_mapped_partial (x / 256) (x % 256) (y / 256) (y % 256) (by omega) (by omega) (by omega) (by omega) rest (by omega)
      rw [show x / 256 * 256 + x % 256 = x by omega, show y / 256 * 256 + y % 256 = y by omega] at this
      exact this
  · rw [← gtexts_hexa, pton6_full _ _ (by simpa using hl) (by
      intro x hx
      obtain ⟨y, hy, rfl⟩ := List.mem_map.1 hx
      exact group_hexa (hg y hy)), gval_hexa]
  · have hb := hz.bound (by omega)
    have := pton6_short ((g.take a).map hexa) ((g.drop (a + n)).map hexa) rest (by simp; omega)
      (by
        intro x hx
        obtain ⟨y, hy, rfl⟩ := List.mem_map.1 hx
        exact group_hexa (hg y (List.mem_of_mem_take hy)))
      (by
        intro x hx
        obtain ⟨y, hy, rfl⟩ := List.mem_map.1 hx
        exact group_hexa (hg y (List.mem_of_mem_drop hy)))
    rw [gtexts_hexa, gtexts_hexa, gval_hexa, gval_hexa] at this
    rw [List.append_assoc (colons _)]
    refine this.trans ?_
    congr 2
    have h1 : g = g.take a ++ ((g.drop a).take n ++ g.drop (a + n)) := by
      rw [← List.drop_drop, List.take_append_drop, List.take_append_drop]
    conv => rhs; rw [h1]
    rw [List.append_assoc]
    congr 2
    refine List.ext_getElem? fun j => ?_
    simp only [List.length_map, List.length_take, List.length_drop]
    rw [List.getElem?_replicate, List.getElem?_take, List.getElem?_drop]
    by_cases hj : j < n
    · rw [if_pos (by omega), if_pos hj, hz (a + j) (by omega) (by omega)]
    · rw [if_neg (by omega), if_neg hj]

/-- "2001:db8::1" -/
example : Text6 [0x2001, 0xdb8, 0, 0, 0, 0, 0, 1] [50, 48, 48, 49, 58, 100, 98, 56, 58, 58, 49] := by
  refine Or.inr (Or.inr ⟨by decide, 2, 5, by omega, ?_, ?_, by decide +kernel⟩)
  · intro j h1 h2
    obtain rfl | rfl | rfl | rfl | rfl : j = 2 ∨ j = 3 ∨ j = 4 ∨ j = 5 ∨ j = 6 := by omega
    all_goals rfl
  · intro a n hz
    by_cases hn : n = 0
    · omega
    have hb := hz.bound (by omega)
    simp only [List.length_cons, List.length_nil] at hb
    have h0 : ¬ (a ≤ 0 ∧ 0 < a + n) := fun h => by have := hz 0 h.1 h.2; simp at this
    have h1 : ¬ (a ≤ 1 ∧ 1 < a + n) := fun h => by have := hz 1 h.1 h.2; simp at this
    have h7 : ¬ (a ≤ 7 ∧ 7 < a + n) := fun h => by have := hz 7 h.1 h.2; simp at this
    omega

/-- "::ffff:127.0.0.1", which `inet_ntop` writes, is rejected. -/
theorem pton6_mapped_violated : ntop6 (List.replicate 46 0) 46 [0, 0, 0, 0, 0, 0xffff, 0x7f00, 1] =
    .ok (true, mappedPrefix ++ [49, 50, 55, 46, 48, 46, 48, 46, 49] ++ List.replicate 30 0) ∧
    pton6 (mappedPrefix ++ [49, 50, 55, 46, 48, 46, 48, 46, 49, 0]) = .ok none := by decide +kernel

/-- "1:2:3:4:5:6:7::" is rejected although one group is missing. -/
theorem pton6_seven_violated : pton6 [49, 58, 50, 58, 51, 58, 52, 58, 53, 58, 54, 58, 55, 58, 58, 0] = .ok none := by decide +kernel

/-- ":2:3:4:5:6:7:8" and "1:2:3:4:5:6:7:" are accepted, and so is "1:-1:3:4:5:6:7:8". -/
theorem pton6_malformed_violated :
    pton6 [58, 50, 58, 51, 58, 52, 58, 53, 58, 54, 58, 55, 58, 56, 0] = .ok (some [0, 2, 3, 4, 5, 6, 7, 8]) ∧
    pton6 [49, 58, 50, 58, 51, 58, 52, 58, 53, 58, 54, 58, 55, 58, 0] = .ok (some [1, 2, 3, 4, 5, 6, 7, 0]) ∧
    pton6 [49, 58, 45, 49, 58, 51, 58, 52, 58, 53, 58, 54, 58, 55, 58, 56, 0] = .ok (some [1, 0xffff, 3, 4, 5, 6, 7, 8]) := by
  decide +kernel

end Mlibc.Inet
