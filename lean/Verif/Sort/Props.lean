import Verif.Sort.Model
/-
C15 (qsort) and C16 (bsearch).
-/
set_option linter.unusedSimpArgs false
namespace Mlibc.Sort
open Mlibc

/-! ### Specification vocabulary -/

/-- At `base`, memory holds the array with the elements `xs`, each of `size` bytes. -/
def IsArray (m : Mem) (base size : Nat) (xs : List (List UInt8)) : Prop :=
  ∀ i x, xs[i]? = some x → x.length = size ∧ ∀ k, k < size → m (base + i * size + k) = x[k]?

/-- `f` is what the comparison function answers, whatever its state. -/
def Answers {σ : Type} (cmp : Cmp σ) (f : List UInt8 → List UInt8 → Int) : Prop :=
  ∀ s a b, (cmp s a b).1 = f a b

/-- `f` is a total preorder ("less or equal" being `f a b ≤ 0`) on the elements of `xs`. -/
def Preorder (f : List UInt8 → List UInt8 → Int) (xs : List (List UInt8)) : Prop :=
  (∀ a ∈ xs, ∀ b ∈ xs, f a b ≤ 0 ∨ f b a ≤ 0) ∧
  (∀ a ∈ xs, ∀ b ∈ xs, ∀ c ∈ xs, f a b ≤ 0 → f b c ≤ 0 → f a c ≤ 0)

/-! ### Helper lemmas -/

theorem mul_sep {i j s : Nat} (h : i < j) : i * s + s ≤ j * s := by
  have : (i + 1) * s ≤ j * s := Nat.mul_le_mul_right s h
  rw [Nat.add_mul, Nat.one_mul] at this; exact this

theorem loadN_elem {m : Mem} {a : Nat} {x : List UInt8} (h : ∀ k, k < x.length → m (a + k) = x[k]?) :
    m.loadN a x.length = .ok x := by
  induction x generalizing a with
  | nil => rfl
  | cons b x ih =>
    have h0 : m a = some b := by simpa using h 0 (by simp)
    simp only [List.length_cons, Mem.loadN, Mem.load, h0, Res.ok_bind]
    rw [ih (a := a + 1)]
    · rfl
    · intro k hk
      have := h (k + 1) (by simp; omega)
      simpa [Nat.add_comm, Nat.add_left_comm, Nat.add_assoc] using this

/-- The bytes of `[pi, pi+n)` and `[pj, pj+n)` exchanged. -/
def swapped (m : Mem) (pi pj n : Nat) : Mem := fun x =>
  if pi ≤ x ∧ x < pi + n then m (pj + (x - pi))
  else if pj ≤ x ∧ x < pj + n then m (pi + (x - pj)) else m x

theorem swapLoop_ok {n : Nat} : ∀ {m : Mem} {pi pj : Nat}, m.Valid pi n → m.Valid pj n →
    pi = pj ∨ pi + n ≤ pj ∨ pj + n ≤ pi → swapLoop m pi pj n = .ok (swapped m pi pj n) := by
  induction n with
  | zero =>
    intro m pi pj _ _ _
    simp only [swapLoop]; congr 1; funext x; unfold swapped
    rw [if_neg (by omega), if_neg (by omega)]
  | succ n ih =>
    intro m pi pj h1 h2 h
    obtain ⟨t, ht⟩ := Option.isSome_iff_exists.1 (h1 0 (by omega))
    obtain ⟨u, hu⟩ := Option.isSome_iff_exists.1 (h2 0 (by omega))
    simp only [Nat.add_zero] at ht hu
    let m1 : Mem := fun x => if x = pi then some u else m x
    let m2 : Mem := fun x => if x = pj then some t else m1 x
    have e1 : m.store pi u = .ok m1 := by simp [Mem.store, ht, m1]
    have hm1 : (m1 pj).isSome := by simp only [m1]; split <;> simp [hu]
    have e2 : m1.store pj t = .ok m2 := by
      obtain ⟨v, hv⟩ := Option.isSome_iff_exists.1 hm1
      simp [Mem.store, hv, m2]
    have hv : ∀ x, (m x).isSome → (m2 x).isSome := by
      intro x hx; simp only [m2, m1]; split <;> (try split) <;> simp [hx]
    simp only [swapLoop, Mem.load, ht, hu, Res.ok_bind, e1, e2]
    rw [ih]
    · congr 1; funext x
      unfold swapped
      simp only [m2, m1]
      by_cases hpi : x = pi
      · subst hpi
        rw [if_neg (by omega)]
        rw [if_pos (show x ≤ x ∧ x < x + (n + 1) by omega)]
        by_cases hpj : x = pj
        · subst hpj; rw [if_neg (by omega)]; simp [ht]
        · rw [if_neg (by omega), if_neg hpj, if_pos rfl]; simp [hu]
      · by_cases hpj : x = pj
        · subst hpj
          rw [if_neg (by omega), if_neg (by omega), if_pos rfl, if_neg (by omega), if_pos (by omega)]
          simp [ht]
        · by_cases hA : pi ≤ x ∧ x < pi + (n + 1)
          · rw [if_pos (show pi + 1 ≤ x ∧ x < pi + 1 + n by omega), if_pos hA]
            have : pj + 1 + (x - (pi + 1)) = pj + (x - pi) := by omega
            rw [this, if_neg (by omega), if_neg (by omega)]
          · rw [if_neg (show ¬ (pi + 1 ≤ x ∧ x < pi + 1 + n) by omega), if_neg hA]
            by_cases hB : pj ≤ x ∧ x < pj + (n + 1)
            · rw [if_pos (show pj + 1 ≤ x ∧ x < pj + 1 + n by omega), if_pos hB]
              have : pi + 1 + (x - (pj + 1)) = pi + (x - pj) := by omega
              rw [this, if_neg (by omega), if_neg (by omega)]
            · rw [if_neg (show ¬ (pj + 1 ≤ x ∧ x < pj + 1 + n) by omega), if_neg hB, if_neg hpj, if_neg hpi]
    · intro i hi; apply hv
      have := h1 (i + 1) (by omega); rwa [← Nat.add_assoc, Nat.add_right_comm] at this
    · intro i hi; apply hv
      have := h2 (i + 1) (by omega); rwa [← Nat.add_assoc, Nat.add_right_comm] at this
    · omega

/-- What moving elements inside `[b, e)` preserves. -/
structure Moves (b e : Nat) (xs ys : List (List UInt8)) : Prop where
  len : ys.length = xs.length
  perm : ys.Perm xs
  out : ∀ k, (k < b ∨ e ≤ k) → ys[k]? = xs[k]?
  ins : ∀ k, b ≤ k → k < e → ∃ k', b ≤ k' ∧ k' < e ∧ ys[k]? = xs[k']?

theorem Moves.refl (b e : Nat) (xs) : Moves b e xs xs :=
  ⟨rfl, .refl _, fun _ _ => rfl, fun k h1 h2 => ⟨k, h1, h2, rfl⟩⟩

theorem Moves.trans {b e : Nat} {xs ys zs} (h1 : Moves b e xs ys) (h2 : Moves b e ys zs) : Moves b e xs zs :=
  ⟨h2.len.trans h1.len, h2.perm.trans h1.perm, fun k hk => (h2.out k hk).trans (h1.out k hk), fun k ha hb => by
    obtain ⟨k1, a1, a2, a3⟩ := h2.ins k ha hb
    obtain ⟨k2, c1, c2, c3⟩ := h1.ins k1 a1 a2
    exact ⟨k2, c1, c2, a3.trans c3⟩⟩

theorem Moves.mono {b e b' e' : Nat} {xs ys} (h : Moves b e xs ys) (hb : b' ≤ b) (he : e ≤ e') :
    Moves b' e' xs ys :=
  ⟨h.len, h.perm, fun k hk => h.out k (by omega), fun k ha hb => by
    by_cases hk : b ≤ k ∧ k < e
    · obtain ⟨k1, a1, a2, a3⟩ := h.ins k hk.1 hk.2
      exact ⟨k1, by omega, by omega, a3⟩
    · exact ⟨k, ha, hb, h.out k (by omega)⟩⟩

/-- The list with positions `i` and `j` exchanged. -/
def swapL (xs : List (List UInt8)) (i j : Nat) (hi : i < xs.length) (hj : j < xs.length) : List (List UInt8) :=
  (xs.set i xs[j]).set j xs[i]

theorem swapL_get (xs : List (List UInt8)) (i j : Nat) (hi : i < xs.length) (hj : j < xs.length) (k : Nat) :
    (swapL xs i j hi hj)[k]? = if k = i then xs[j]? else if k = j then xs[i]? else xs[k]? := by
  unfold swapL
  rw [List.getElem?_set, List.getElem?_set]
  simp only [List.length_set]
  by_cases h1 : j = k
  · subst h1
    by_cases h2 : j = i
    · subst h2; simp [hj]
    · simp [hj, hi, h2]
  · have h1' : k ≠ j := fun h => h1 h.symm
    by_cases h2 : i = k
    · subst h2; simp [h1, h1', hi, hj]
    · have h2' : k ≠ i := fun h => h2 h.symm
      simp [h1, h2, h1', h2']

theorem swapL_moves (xs : List (List UInt8)) (i j b e : Nat) (hi : i < xs.length) (hj : j < xs.length)
    (h : b ≤ i ∧ i < e ∧ b ≤ j ∧ j < e) : Moves b e xs (swapL xs i j hi hj) where
  len := by simp [swapL]
  perm := by unfold swapL; exact List.set_set_perm hi hj
  out k hk := by rw [swapL_get, if_neg (by omega), if_neg (by omega)]
  ins k h1 h2 := by
    rw [swapL_get]
    by_cases hk : k = i
    · exact ⟨j, h.2.2.1, h.2.2.2, by rw [if_pos hk]⟩
    · by_cases hk2 : k = j
      · exact ⟨i, h.1, h.2.1, by rw [if_neg hk, if_pos hk2]⟩
      · exact ⟨k, h1, h2, by rw [if_neg hk, if_neg hk2]⟩

/-- Memory outside the array is as before. -/
def Frame (base n : Nat) (m m' : Mem) : Prop := ∀ a, (a < base ∨ base + n ≤ a) → m' a = m a

theorem IsArray.valid {m : Mem} {base size : Nat} {xs} (h : IsArray m base size xs) {i : Nat}
    (hi : i < xs.length) : m.Valid (base + i * size) size := by
  intro k hk
  obtain ⟨h1, h2⟩ := h i xs[i] (List.getElem?_eq_getElem hi)
  rw [h2 k hk, List.getElem?_eq_getElem (by omega)]; rfl

theorem swapIdx_ok {m : Mem} {base size : Nat} {xs} (h : IsArray m base size xs) {i j : Nat}
    (hi : i < xs.length) (hj : j < xs.length) :
    ∃ m', swapIdx m base size i j = .ok m' ∧ IsArray m' base size (swapL xs i j hi hj) ∧
      Frame base (xs.length * size) m m' := by
  have hsep : ∀ a b : Nat, a = b ∨ (a * size + size ≤ b * size) ∨ (b * size + size ≤ a * size) := by
    intro a b
    rcases Nat.lt_trichotomy a b with h | h | h
    · exact Or.inr (Or.inl (mul_sep h))
    · exact Or.inl h
    · exact Or.inr (Or.inr (mul_sep h))
  refine ⟨_, swapLoop_ok (h.valid hi) (h.valid hj) ?_, ?_, ?_⟩
  · rcases hsep i j with rfl | h | h
    · exact Or.inl rfl
    · omega
    · omega
  · intro k x hx
    rw [swapL_get] at hx
    have key : ∀ p q, xs[q]? = some x → (∀ r, r < size → swapped m (base + i * size) (base + j * size) size
        (base + p * size + r) = m (base + q * size + r)) →
        x.length = size ∧ ∀ r, r < size → swapped m (base + i * size) (base + j * size) size
          (base + p * size + r) = x[r]? := by
      intro p q hq hr
      obtain ⟨h1, h2⟩ := h q x hq
      exact ⟨h1, fun r hr' => by rw [hr r hr', h2 r hr']⟩
    by_cases h1 : k = i
    · subst h1
      rw [if_pos rfl] at hx
      refine key k j hx fun r hr => ?_
      unfold swapped
      rw [if_pos (by omega)]; congr 1; omega
    · rw [if_neg h1] at hx
      have s1 := (hsep k i).resolve_left h1
      by_cases h2 : k = j
      · subst h2
        rw [if_pos rfl] at hx
        refine key k i hx fun r hr => ?_
        unfold swapped
        rw [if_neg (by omega), if_pos (by omega)]; congr 1; omega
      · rw [if_neg h2] at hx
        have s2 := (hsep k j).resolve_left h2
        refine key k k hx fun r hr => ?_
        unfold swapped
        rw [if_neg (by omega), if_neg (by omega)]
  · intro a ha
    have hi' := mul_sep (s := size) hi
    have hj' := mul_sep (s := size) hj
    unfold swapped
    rw [if_neg (by omega), if_neg (by omega)]

theorem compareIdx_ok {σ : Type} {cmp : Cmp σ} {m : Mem} {base size : Nat} {xs} (h : IsArray m base size xs)
    {s : σ} {i j : Nat} {a b : List UInt8} (hi : xs[i]? = some a) (hj : xs[j]? = some b) :
    compareIdx cmp m s base size i j = .ok (cmp s a b) := by
  obtain ⟨h1, h2⟩ := h i a hi
  obtain ⟨h3, h4⟩ := h j b hj
  have e1 : m.loadN (base + i * size) size = .ok a := by
    have := loadN_elem (m := m) (a := base + i * size) (x := a) (by rw [h1]; exact h2); rwa [h1] at this
  have e2 : m.loadN (base + j * size) size = .ok b := by
    have := loadN_elem (m := m) (a := base + j * size) (x := b) (by rw [h3]; exact h4); rwa [h3] at this
  simp [compareIdx, e1, e2]

theorem partLoop_ok {σ : Type} {cmp : Cmp σ} {base size pivot b : Nat} {n : Nat} :
    ∀ {m : Mem} {s : σ} {i j : Nat} {xs}, IsArray m base size xs → b ≤ i → i ≤ j → j + n = pivot →
    pivot < xs.length →
    ∃ m' s' i' ys, partLoop cmp base size pivot m s i j n = .ok (m', s', i') ∧ IsArray m' base size ys ∧
      Frame base (xs.length * size) m m' ∧ Moves b pivot xs ys ∧ i ≤ i' ∧ i' ≤ pivot ∧
      ∀ f p, Answers cmp f → xs[pivot]? = some p →
        (∀ k x, b ≤ k → k < i → xs[k]? = some x → f x p ≤ 0) →
        (∀ k x, i ≤ k → k < j → xs[k]? = some x → ¬ f x p ≤ 0) →
        (∀ k x, b ≤ k → k < i' → ys[k]? = some x → f x p ≤ 0) ∧
        (∀ k x, i' ≤ k → k < pivot → ys[k]? = some x → ¬ f x p ≤ 0) := by
  induction n with
  | zero =>
    intro m s i j xs h hb hij hj hp
    refine ⟨m, s, i, xs, rfl, h, fun _ _ => rfl, Moves.refl _ _ _, Nat.le_refl _, by omega, ?_⟩
    intro f p _ _ h1 h2
    exact ⟨h1, by rwa [← hj]⟩
  | succ n ih =>
    intro m s i j xs h hb hij hj hp
    have hjl : j < xs.length := by omega
    have hjs : xs[j]? = some xs[j] := List.getElem?_eq_getElem hjl
    have hps : xs[pivot]? = some xs[pivot] := List.getElem?_eq_getElem hp
    rw [partLoop, compareIdx_ok h hjs hps]
    simp only [Res.ok_bind]
    by_cases hc : (cmp s xs[j] xs[pivot]).1 ≤ 0
    · simp only [hc, if_true]
      have hil : i < xs.length := by omega
      obtain ⟨m1, e1, a1, f1⟩ := swapIdx_ok h hil hjl
      have mv := swapL_moves xs i j b pivot hil hjl (by omega)
      obtain ⟨m', s', i', ys, e2, a2, f2, mv2, l1, l2, l3⟩ :=
        ih (s := (cmp s xs[j] xs[pivot]).2) (i := i + 1) (j := j + 1) a1 (by omega) (by omega) (by omega)
          (by rw [mv.len]; omega)
      refine ⟨m', s', i', ys, by rw [e1]; exact e2, a2, ?_, mv.trans mv2, by omega, l2, ?_⟩
      · intro a ha; rw [f2 a (by rw [mv.len]; exact ha), f1 a ha]
      · intro f p hf hpp h1 h2
        have hpe : p = xs[pivot] := by rw [hps] at hpp; exact (Option.some.inj hpp).symm
        apply l3 f p hf (by rw [mv.out pivot (by omega)]; exact hpp)
        · intro k x hk1 hk2 hx
          rw [swapL_get] at hx
          by_cases hki : k = i
          · rw [if_pos hki, hjs] at hx
            have := Option.some.inj hx
            subst this
            rw [hpe, ← hf s]; exact hc
          · rw [if_neg hki, if_neg (by omega)] at hx
            exact h1 k x hk1 (by omega) hx
        · intro k x hk1 hk2 hx
          rw [swapL_get, if_neg (by omega)] at hx
          by_cases hkj : k = j
          · rw [if_pos hkj] at hx
            exact h2 i x (Nat.le_refl _) (by omega) hx
          · rw [if_neg hkj] at hx
            exact h2 k x (by omega) (by omega) hx
    · simp only [hc, if_false]
      obtain ⟨m', s', i', ys, e2, a2, f2, mv2, l1, l2, l3⟩ :=
        ih (s := (cmp s xs[j] xs[pivot]).2) (i := i) (j := j + 1) h (by omega) (by omega) (by omega) hp
      refine ⟨m', s', i', ys, e2, a2, f2, mv2, by omega, l2, ?_⟩
      intro f p hf hpp h1 h2
      have hpe : p = xs[pivot] := by rw [hps] at hpp; exact (Option.some.inj hpp).symm
      apply l3 f p hf hpp h1
      intro k x hk1 hk2 hx
      by_cases hkj : k = j
      · rw [hkj, hjs] at hx
        have := Option.some.inj hx
        subst this
        rw [hpe, ← hf s]; exact hc
      · exact h2 k x hk1 (by omega) hx

theorem partition_ok {σ : Type} {cmp : Cmp σ} {base size b e : Nat} {m : Mem} {s : σ} {xs}
    (h : IsArray m base size xs) (hbe : b < e) (he : e ≤ xs.length) :
    ∃ m' s' i' ys, partition cmp base size m s b e = .ok (m', s', i') ∧ IsArray m' base size ys ∧
      Frame base (xs.length * size) m m' ∧ Moves b e xs ys ∧ b ≤ i' ∧ i' < e ∧
      ∀ f p, Answers cmp f → ys[i']? = some p →
        (∀ k x, b ≤ k → k < i' → ys[k]? = some x → f x p ≤ 0) ∧
        (∀ k x, i' < k → k < e → ys[k]? = some x → ¬ f x p ≤ 0) := by
  obtain ⟨m1, s1, i1, ys, e1, a1, f1, mv1, l1, l2, l3⟩ :=
    partLoop_ok (cmp := cmp) (s := s) (pivot := e - 1) (b := b) (i := b) (j := b) (n := e - 1 - b) h
      (Nat.le_refl _) (Nat.le_refl _) (by omega) (by omega)
  have hi : i1 < ys.length := by rw [mv1.len]; omega
  have hp : e - 1 < ys.length := by rw [mv1.len]; omega
  obtain ⟨m2, e2, a2, f2⟩ := swapIdx_ok a1 hi hp
  have mv2 := swapL_moves ys i1 (e - 1) b e hi hp (by omega)
  refine ⟨m2, s1, i1, swapL ys i1 (e - 1) hi hp, ?_, a2, ?_, (mv1.mono (Nat.le_refl _) (by omega)).trans mv2, l1,
    by omega, ?_⟩
  · simp [partition, hbe, e1, e2]
  · intro a ha; rw [f2 a (by rw [mv1.len]; exact ha), f1 a ha]
  · intro f p hf hpp
    rw [swapL_get, if_pos rfl, mv1.out (e - 1) (by omega)] at hpp
    obtain ⟨h1, h2⟩ := l3 f p hf hpp (by intro k x a b; omega) (by intro k x a b; omega)
    constructor
    · intro k x hk1 hk2 hx
      rw [swapL_get, if_neg (by omega), if_neg (by omega)] at hx
      exact h1 k x hk1 hk2 hx
    · intro k x hk1 hk2 hx
      rw [swapL_get, if_neg (by omega)] at hx
      by_cases hk : k = e - 1
      · rw [if_pos hk] at hx
        exact h2 i1 x (Nat.le_refl _) (by omega) hx
      · rw [if_neg hk] at hx
        exact h2 k x (by omega) (by omega) hx

theorem Preorder.mono {f : List UInt8 → List UInt8 → Int} {xs ys} (h : Preorder f xs) (hp : ys.Perm xs) :
    Preorder f ys :=
  ⟨fun a ha b hb => h.1 a (hp.subset ha) b (hp.subset hb),
   fun a ha b hb c hc => h.2 a (hp.subset ha) b (hp.subset hb) c (hp.subset hc)⟩

theorem quickSort_ok {σ : Type} {cmp : Cmp σ} {base size : Nat} {fuel : Nat} :
    ∀ {m : Mem} {s : σ} {b e : Nat} {xs}, IsArray m base size xs → b ≤ e → e ≤ xs.length → e - b < fuel →
    ∃ m' s' ys, quickSort cmp base size fuel m s b e = .ok (m', s') ∧ IsArray m' base size ys ∧
      Frame base (xs.length * size) m m' ∧ Moves b e xs ys ∧
      ∀ f, Answers cmp f → Preorder f xs →
        ∀ i k x y, b ≤ i → i < k → k < e → ys[i]? = some x → ys[k]? = some y → f x y ≤ 0 := by
  induction fuel with
  | zero => intro m s b e xs _ _ _ h; omega
  | succ fuel ih =>
    intro m s b e xs h hbe he hf
    rw [quickSort]
    simp only [hbe, decide_true, ensure_true, Res.ok_bind]
    by_cases h1 : e - b ≤ 1
    · simp only [h1, if_true]
      refine ⟨m, s, xs, rfl, h, fun _ _ => rfl, Moves.refl _ _ _, ?_⟩
      intro f _ _ i k x y; omega
    · simp only [h1, if_false]
      obtain ⟨m1, s1, p, ys, e1, a1, f1, mv1, l1, l2, l3⟩ :=
        partition_ok (cmp := cmp) (s := s) h (show b < e by omega) he
      obtain ⟨m2, s2, zs, e2, a2, f2, mv2, o2⟩ :=
        ih (m := m1) (s := s1) (b := b) (e := p) a1 l1 (by rw [mv1.len]; omega) (by omega)
      obtain ⟨m3, s3, ws, e3, a3, f3, mv3, o3⟩ :=
        ih (m := m2) (s := s2) (b := p + 1) (e := e) a2 (by omega) (by rw [mv2.len, mv1.len]; omega) (by omega)
      refine ⟨m3, s3, ws, ?_, a3, ?_, ?_, ?_⟩
      · simp only [e1, Res.ok_bind, e2, e3]
      · intro a ha
        rw [f3 a (by rw [mv2.len, mv1.len]; exact ha), f2 a (by rw [mv1.len]; exact ha), f1 a ha]
      · exact (mv1.trans (mv2.mono (Nat.le_refl _) (by omega))).trans (mv3.mono (by omega) (Nat.le_refl _))
      · intro f hA hP i k x y hi hik hk hx hy
        have hPy := hP.mono mv1.perm
        have hPz := hPy.mono mv2.perm
        have hpl : p < ys.length := by rw [mv1.len]; omega
        have hpv : ys[p]? = some ys[p] := List.getElem?_eq_getElem hpl
        have hpmem : ys[p] ∈ ys := List.getElem_mem hpl
        have hwp : ws[p]? = some ys[p] := by
          rw [mv3.out p (by omega), mv2.out p (by omega)]; exact hpv
        obtain ⟨q1, q2⟩ := l3 f ys[p] hA hpv
        have low : ∀ k x, b ≤ k → k < p → ws[k]? = some x → x ∈ ys ∧ f x ys[p] ≤ 0 := by
          intro k x h1 h2 hx
          rw [mv3.out k (by omega)] at hx
          obtain ⟨k', c1, c2, c3⟩ := mv2.ins k h1 h2
          rw [hx] at c3
          exact ⟨List.mem_of_getElem? c3.symm, q1 k' x c1 c2 c3.symm⟩
        have high : ∀ k x, p < k → k < e → ws[k]? = some x → x ∈ ys ∧ f ys[p] x ≤ 0 := by
          intro k x h1 h2 hx
          obtain ⟨k', c1, c2, c3⟩ := mv3.ins k (by omega) h2
          rw [hx, mv2.out k' (by omega)] at c3
          have hm : x ∈ ys := List.mem_of_getElem? c3.symm
          have := q2 k' x (by omega) c2 c3.symm
          exact ⟨hm, (hPy.1 x hm _ hpmem).resolve_left this⟩
        rcases Nat.lt_trichotomy k p with hkp | hkp | hkp
        · rw [mv3.out i (by omega)] at hx
          rw [mv3.out k (by omega)] at hy
          exact o2 f hA hPy i k x y hi hik hkp hx hy
        · subst hkp
          rw [hwp] at hy
          have := Option.some.inj hy
          subst this
          exact (low i x hi hik hx).2
        · rcases Nat.lt_trichotomy i p with hip | hip | hip
          · obtain ⟨g1, g2⟩ := low i x hi hip hx
            obtain ⟨g3, g4⟩ := high k y hkp hk hy
            exact hPy.2 x g1 _ hpmem y g3 g2 g4
          · subst hip
            rw [hwp] at hx
            have := Option.some.inj hx
            subst this
            exact (high k y hkp hk hy).2
          · exact o3 f hA hPz i k x y (by omega) hik hk hx hy

/-! ### C15 -/

/-- **C15, any comparison function.** For every array and every comparison function (also inconsistent or stateful
ones), qsort terminates without reading or writing outside the array, leaves a permutation of the elements and
changes no byte outside the array. -/
theorem qsort_permutes {σ : Type} (cmp : Cmp σ) (m : Mem) (s : σ) (base size : Nat) (xs : List (List UInt8))
    (h : IsArray m base size xs) :
    ∃ m' s' ys, qsort cmp m s base xs.length size = .ok (m', s') ∧ IsArray m' base size ys ∧ ys.Perm xs ∧
      ∀ a, (a < base ∨ base + xs.length * size ≤ a) → m' a = m a := by
  obtain ⟨m', s', ys, h1, h2, h3, h4, _⟩ :=
    quickSort_ok (cmp := cmp) (s := s) (fuel := xs.length + 1) h (Nat.zero_le _) (Nat.le_refl _) (by omega)
  exact ⟨m', s', ys, h1, h2, h4.perm, h3⟩

/-- **C15, total preorder.** If the comparison function answers according to a total preorder on the elements, the
array is sorted afterwards. -/
theorem qsort_sorts {σ : Type} (cmp : Cmp σ) (m : Mem) (s : σ) (base size : Nat) (xs : List (List UInt8))
    (h : IsArray m base size xs) (f : List UInt8 → List UInt8 → Int) (hf : Answers cmp f) (hp : Preorder f xs) :
    ∃ m' s' ys, qsort cmp m s base xs.length size = .ok (m', s') ∧ IsArray m' base size ys ∧ ys.Perm xs ∧
      ys.Pairwise (fun a b => f a b ≤ 0) := by
  obtain ⟨m', s', ys, h1, h2, h3, h4, h5⟩ :=
    quickSort_ok (cmp := cmp) (s := s) (fuel := xs.length + 1) h (Nat.zero_le _) (Nat.le_refl _) (by omega)
  refine ⟨m', s', ys, h1, h2, h4.perm, ?_⟩
  rw [List.pairwise_iff_getElem]
  intro i j hi hj hij
  exact h5 f hf hp i j _ _ (Nat.zero_le _) hij (by rw [← h4.len]; exact hj) (List.getElem?_eq_getElem hi)
    (List.getElem?_eq_getElem hj)

/-- The hypotheses are met by three one-byte elements and the order of bytes. -/
example : IsArray (fun a => if a < 3 then some (9 - UInt8.ofNat a) else none) 0 1 [[9], [8], [7]] := by
  intro i x hx
  match i with
  | 0 => simp at hx; subst hx; refine ⟨rfl, fun k hk => ?_⟩; obtain rfl : k = 0 := by omega
         rfl
  | 1 => simp at hx; subst hx; refine ⟨rfl, fun k hk => ?_⟩; obtain rfl : k = 0 := by omega
         rfl
  | 2 => simp at hx; subst hx; refine ⟨rfl, fun k hk => ?_⟩; obtain rfl : k = 0 := by omega
         rfl
  | i + 3 => simp at hx
example : Preorder (fun a b => (a.headD 0).toNat - (b.headD 0).toNat) [[9], [8], [7]] :=
  ⟨fun a _ b _ => by dsimp only; omega, fun a _ b _ c _ => by dsimp only; omega⟩

/-! ### C16 -/

theorem bsearchLoop_ok {ε σ : Type} (cmp : σ → ε → Int × σ) (xs : List ε) (fuel : Nat) :
    ∀ (s : σ) (i j : Nat), i ≤ j → j ≤ xs.length → j - i < fuel →
    ∃ r s', bsearchLoop cmp xs fuel s i j = .ok (r, s') ∧ (∀ k, r = some k → i ≤ k ∧ k < j) ∧
      ∀ f : ε → Int, (∀ s e, (cmp s e).1 = f e) →
        (∀ k, r = some k → ∃ e, xs[k]? = some e ∧ f e = 0) ∧
        (r = none → (∀ (a b : Nat) x y, a < b → xs[a]? = some x → xs[b]? = some y →
          (f x ≤ 0 → f y ≤ 0) ∧ (f x < 0 → f y < 0)) → ∀ k e, i ≤ k → k < j → xs[k]? = some e → f e ≠ 0) := by
  induction fuel with
  | zero => intro s i j _ _ h; omega
  | succ fuel ih =>
    intro s i j hij hj hf
    rw [bsearchLoop]
    by_cases h : i < j
    · have hk : i + (j - i) / 2 < xs.length := by omega
      simp only [h, if_true, List.getElem?_eq_getElem hk]
      generalize hx : xs[i + (j - i) / 2] = x
      have hxs : xs[i + (j - i) / 2]? = some x := by rw [List.getElem?_eq_getElem hk, hx]
      generalize hkk : i + (j - i) / 2 = mid at *
      have hm1 : i ≤ mid := by omega
      have hm2 : mid < j := by omega
      generalize hc : cmp s x = cr
      obtain ⟨res, s1⟩ := cr
      simp only
      by_cases c1 : res < 0
      · simp only [c1, if_true]
        obtain ⟨r, s', e1, e2, e3⟩ := ih s1 i mid hm1 (by omega) (by omega)
        refine ⟨r, s', e1, fun k hk => ⟨(e2 k hk).1, by have := (e2 k hk).2; omega⟩, fun f hA => ?_⟩
        obtain ⟨g1, g2⟩ := e3 f hA
        refine ⟨g1, fun hr hs k e hk1 hk2 hke => ?_⟩
        have hfx : f x = res := by rw [← hA s, hc]
        by_cases hkm : k < mid
        · exact g2 hr hs k e hk1 hkm hke
        · by_cases hkm2 : k = mid
          · subst hkm2; rw [hxs] at hke; cases hke; omega
          · have := (hs mid k x e (by omega) hxs hke).2 (by omega); omega
      · by_cases c2 : res > 0
        · simp only [c1, c2, if_true, if_false]
          obtain ⟨r, s', e1, e2, e3⟩ := ih s1 (mid + 1) j hm2 hj (by omega)
          refine ⟨r, s', e1, fun k hk => ⟨by have := (e2 k hk).1; omega, (e2 k hk).2⟩, fun f hA => ?_⟩
          obtain ⟨g1, g2⟩ := e3 f hA
          refine ⟨g1, fun hr hs k e hk1 hk2 hke => ?_⟩
          have hfx : f x = res := by rw [← hA s, hc]
          by_cases hkm : mid < k
          · exact g2 hr hs k e (by omega) hk2 hke
          · by_cases hkm2 : k = mid
            · subst hkm2; rw [hxs] at hke; cases hke; omega
            · intro h0
              have := (hs k mid e x (by omega) hke hxs).1 (by omega); omega
        · simp only [c1, c2, if_false]
          refine ⟨some mid, s1, rfl, ?_, fun f hA => ⟨?_, by intro h; cases h⟩⟩
          · intro k hk; cases hk; exact ⟨hm1, hm2⟩
          · intro k hk; cases hk
            exact ⟨x, hxs, by rw [← hA s, hc]; omega⟩
    · have : i = j := by omega
      subst this
      simp only [Nat.lt_irrefl, if_false, decide_true, ensure_true, Res.ok_bind]
      exact ⟨none, s, rfl, by simp, fun f _ => ⟨by simp, fun _ _ k e h1 h2 => by omega⟩⟩

/-- The array is sorted with respect to the comparison `f` with the key: first the elements the key is greater than
(`f > 0`), then those it equals, then those it is less than (`f < 0`). -/
def SortedFor {ε : Type} (f : ε → Int) (xs : List ε) : Prop :=
  xs.Pairwise fun x y => (f x = 0 → f y ≤ 0) ∧ (f x < 0 → f y < 0)

/-- **C16, any comparison function.** bsearch terminates, hands only elements of the array to the comparison
function (anything else would be `ub`) and returns NULL or an element. -/
theorem bsearch_safe {ε σ : Type} (cmp : σ → ε → Int × σ) (xs : List ε) (s : σ) :
    ∃ r s', bsearch cmp xs s xs.length = .ok (r, s') ∧ ∀ k, r = some k → k < xs.length := by
  obtain ⟨r, s', h1, h2, _⟩ := bsearchLoop_ok cmp xs (xs.length + 1) s 0 xs.length (by omega) (by omega) (by omega)
  exact ⟨r, s', h1, fun k hk => (h2 k hk).2⟩

/-- **C16.** On a sorted array, bsearch returns an element that compares equal if there is one, and NULL if there
is none. -/
theorem bsearch_finds {ε σ : Type} (cmp : σ → ε → Int × σ) (xs : List ε) (s : σ) (f : ε → Int)
    (hf : ∀ s e, (cmp s e).1 = f e) (hs : SortedFor f xs) :
    ∃ r s', bsearch cmp xs s xs.length = .ok (r, s') ∧
      (∀ k, r = some k → ∃ e, xs[k]? = some e ∧ f e = 0) ∧ (r = none ↔ ∀ e ∈ xs, f e ≠ 0) := by
  obtain ⟨r, s', h1, h2, h3⟩ := bsearchLoop_ok cmp xs (xs.length + 1) s 0 xs.length (by omega) (by omega) (by omega)
  obtain ⟨g1, g2⟩ := h3 f hf
  refine ⟨r, s', h1, g1, fun hr e he => ?_, fun hr => ?_⟩
  · obtain ⟨k, hk, rfl⟩ := List.mem_iff_getElem.1 he
    refine g2 hr ?_ k _ (Nat.zero_le _) hk (List.getElem?_eq_getElem hk)
    intro a b x y hab hx hy
    obtain ⟨ha, rfl⟩ := List.getElem?_eq_some_iff.1 hx
    obtain ⟨hb, rfl⟩ := List.getElem?_eq_some_iff.1 hy
    have := (List.pairwise_iff_getElem.1 hs) a b ha hb hab
    omega
  · cases hk : r with
    | none => rfl
    | some k =>
      obtain ⟨e, h1, h2⟩ := g1 k hk
      exact absurd h2 (hr e (List.mem_of_getElem? h1))

/-- The hypotheses are met by searching 5 in a sorted list. -/
example : SortedFor (fun x : Int => 5 - x) [1, 3, 5, 5, 8] := by simp [SortedFor]

end Mlibc.Sort
