import Verif.Regex.Glushkov

/-!
# The expansion of counted repetitions keeps the meaning, and positions distinct

For expressions in which a counted repetition is inside at most one other repetition.
-/
namespace Mlibc.Regex

theorem erase_shift (s : Nat) (t : Ast) : erase (shift s t) = erase t := by
  induction t <;> simp_all [shift, erase]

theorem lits_shift (s : Nat) (t : Ast) : lits (shift s t) = lits t := by
  induction t <;> simp_all [shift, lits]

theorem hasPos_shift (s : Nat) (t : Ast) (p : Nat) : HasPos (shift s t) p ↔ ∃ q, HasPos t q ∧ p = q + s := by
  induction t with
  | leaf p' ls => simp [shift, HasPos]
  | empty => simp [shift, HasPos]
  | asrt => simp [shift, HasPos]
  | cat l r ihl ihr =>
    simp only [shift, HasPos, ihl, ihr]
    constructor
    · rintro (⟨q, h, e⟩ | ⟨q, h, e⟩)
      · exact ⟨q, Or.inl h, e⟩
      · exact ⟨q, Or.inr h, e⟩
    · rintro ⟨q, h | h, e⟩
      · exact Or.inl ⟨q, h, e⟩
      · exact Or.inr ⟨q, h, e⟩
  | union l r ihl ihr =>
    simp only [shift, HasPos, ihl, ihr]
    constructor
    · rintro (⟨q, h, e⟩ | ⟨q, h, e⟩)
      · exact ⟨q, Or.inl h, e⟩
      · exact ⟨q, Or.inr h, e⟩
    · rintro ⟨q, h | h, e⟩
      · exact Or.inl ⟨q, h, e⟩
      · exact Or.inr ⟨q, h, e⟩
  | iter a mn mx ih => simpa only [shift, HasPos] using ih

theorem uniq_shift (s : Nat) (t : Ast) (h : Uniq t) : Uniq (shift s t) := by
  have aux : ∀ l r : Ast, (∀ p, HasPos l p → ¬ HasPos r p) →
      ∀ p, HasPos (shift s l) p → ¬ HasPos (shift s r) p := by
    intro l r hd p h1 h2
    obtain ⟨q, h1, e1⟩ := (hasPos_shift s l p).1 h1
    obtain ⟨q', h2, e2⟩ := (hasPos_shift s r p).1 h2
    have : q = q' := by omega
    subst this
    exact hd q h1 h2
  induction t with
  | leaf => trivial
  | empty => trivial
  | asrt => trivial
  | cat l r ihl ihr => exact ⟨ihl h.1, ihr h.2.1, aux l r h.2.2⟩
  | union l r ihl ihr => exact ⟨ihl h.1, ihr h.2.1, aux l r h.2.2⟩
  | iter a mn mx ih => exact ih h

theorem simple_shift (s : Nat) (t : Ast) (h : Simple t) : Simple (shift s t) := by
  induction t with
  | leaf => trivial
  | empty => trivial
  | asrt => trivial
  | cat l r ihl ihr => exact ⟨ihl h.1, ihr h.2⟩
  | union l r ihl ihr => exact ⟨ihl h.1, ihr h.2⟩
  | iter a mn mx ih => exact ⟨ih h.1, h.2⟩

theorem times_add {P : Nat → Nat → Prop} (m n : Nat) : ∀ i j,
    Times P (m + n) i j ↔ ∃ k, Times P m i k ∧ Times P n k j := by
  induction m with
  | zero => intro i j; simp [Times]
  | succ m ih =>
    intro i j
    rw [show m + 1 + n = (m + n) + 1 by omega]
    simp only [Times]
    constructor
    · rintro ⟨k, h, h'⟩
      obtain ⟨k', h1, h2⟩ := (ih k j).1 h'
      exact ⟨k', ⟨k, h, h1⟩, h2⟩
    · rintro ⟨k', ⟨k, h, h1⟩, h2⟩
      exact ⟨k, h, (ih k j).2 ⟨k', h1, h2⟩⟩

theorem times_one {P : Nat → Nat → Prop} (i j : Nat) : Times P 1 i j ↔ P i j := by
  simp [Times]

theorem times_congr {P Q : Nat → Nat → Prop} (h : ∀ i j, P i j ↔ Q i j) (n : Nat) : ∀ i j,
    Times P n i j ↔ Times Q n i j := by
  induction n with
  | zero => intro i j; rfl
  | succ n ih => intro i j; simp only [Times, h, ih]

/-- A sequence of copies of `a` (whose positions are from `lo` on, below `hi`), the first shifted by `A`;
    `add` is the shift for the next one. -/
structure Seq (a : Ast) (lo hi A : Nat) (t : Ast) (add : Nat) : Prop where
  within : ∀ p, HasPos t p → lo + A ≤ p ∧ p + lits a < hi + add
  uniq : Uniq t
  simple : Simple t
  ge : A + Mlibc.Regex.lits a ≤ add
  nlits : Mlibc.Regex.lits t + A = add

/-- What is assumed of the argument. -/
structure Arg (a : Ast) (lo hi : Nat) : Prop where
  within : ∀ p, HasPos a p → lo ≤ p ∧ p < hi
  uniq : Uniq a
  simple : Simple a
  dense : hi ≤ lo + lits a

theorem Arg.shifted {a : Ast} {lo hi : Nat} (h : Arg a lo hi) (s p : Nat) (hp : HasPos (shift s a) p) :
    lo + s ≤ p ∧ p < hi + s := by
  obtain ⟨q, hq, rfl⟩ := (hasPos_shift s a p).1 hp
  have := h.within q hq
  omega

theorem Seq.first {a : Ast} {lo hi : Nat} (h : Arg a lo hi) (A : Nat) :
    Seq a lo hi A (shift A a) (A + Mlibc.Regex.lits a) where
  within p hp := by have := h.shifted A p hp; omega
  uniq := uniq_shift A a h.uniq
  simple := simple_shift A a h.simple
  nlits := by rw [lits_shift]; omega
  ge := Nat.le_refl _

theorem Seq.opt {a : Ast} {lo hi A add : Nat} {t : Ast} (h : Seq a lo hi A t add) :
    Seq a lo hi A (.union .empty t) add where
  within p hp := by
    rcases hp with hp | hp
    · cases hp
    · exact h.within p hp
  uniq := ⟨trivial, h.uniq, fun p hp => by cases hp⟩
  simple := ⟨trivial, h.simple⟩
  nlits := by have := h.nlits; simp only [Mlibc.Regex.lits]; omega
  ge := h.ge

theorem Seq.snoc {a : Ast} {lo hi A add : Nat} {t : Ast} (ha : Arg a lo hi) (h : Seq a lo hi A t add) :
    Seq a lo hi A (.cat t (shift add a)) (add + Mlibc.Regex.lits a) where
  within p hp := by
    have hd := ha.dense
    have hg := h.ge
    rcases hp with hp | hp
    · have := h.within p hp; omega
    · have := ha.shifted add p hp; omega
  uniq := ⟨h.uniq, uniq_shift add a ha.uniq, fun p hp hp' => by
    have h1 := h.within p hp
    have h2 := ha.shifted add p hp'
    have hd := ha.dense
    omega⟩
  simple := ⟨h.simple, simple_shift add a ha.simple⟩
  nlits := by have := h.nlits; simp only [Mlibc.Regex.lits, lits_shift]; omega
  ge := by have := h.ge; omega

theorem Seq.cons {a : Ast} {lo hi A add : Nat} {t : Ast} (ha : Arg a lo hi) (h : Seq a lo hi A t add) :
    Seq a lo hi A (.cat (shift add a) t) (add + Mlibc.Regex.lits a) where
  within p hp := by
    have hd := ha.dense
    have hg := h.ge
    rcases hp with hp | hp
    · have := ha.shifted add p hp; omega
    · have := h.within p hp; omega
  uniq := ⟨uniq_shift add a ha.uniq, h.uniq, fun p hp' hp => by
    have h1 := h.within p hp
    have h2 := ha.shifted add p hp'
    have hd := ha.dense
    omega⟩
  simple := ⟨simple_shift add a ha.simple, h.simple⟩
  nlits := by have := h.nlits; simp only [Mlibc.Regex.lits, lits_shift]; omega
  ge := by have := h.ge; omega

/-- Two sequences, the second with the shifts that follow those of the first. -/
theorem Seq.append {a : Ast} {lo hi A B add : Nat} {t u : Ast} (ha : Arg a lo hi) (h : Seq a lo hi A t B)
    (h' : Seq a lo hi B u add) : Seq a lo hi A (.cat t u) add where
  within p hp := by
    have hd := ha.dense
    have hg := h.ge
    have hg' := h'.ge
    rcases hp with hp | hp
    · have := h.within p hp; omega
    · have := h'.within p hp; omega
  uniq := ⟨h.uniq, h'.uniq, fun p hp hp' => by
    have h1 := h.within p hp
    have h2 := h'.within p hp'
    have hd := ha.dense
    omega⟩
  simple := ⟨h.simple, h'.simple⟩
  nlits := by have := h.nlits; have := h'.nlits; simp only [Mlibc.Regex.lits]; omega
  ge := by have := h.ge; have := h'.ge; omega

theorem Seq.star {a : Ast} {lo hi : Nat} (h : Arg a lo hi) (A : Nat) :
    Seq a lo hi A (.iter (shift A a) 0 none) (A + Mlibc.Regex.lits a) :=
  let f := Seq.first h A
  { within := f.within, uniq := f.uniq, simple := ⟨f.simple, by omega, Or.inl rfl⟩, nlits := f.nlits, ge := f.ge }

theorem copies_seq {a : Ast} {lo hi A : Nat} (ha : Arg a lo hi) (n : Nat) : ∀ t add,
    Seq a lo hi A t add → Seq a lo hi A (copies a n t add).1 (copies a n t add).2 := by
  induction n with
  | zero => intro t add h; exact h
  | succ n ih => intro t add h; exact ih _ _ (h.snoc ha)

theorem optCopies_seq {a : Ast} {lo hi A : Nat} (ha : Arg a lo hi) (n : Nat) : ∀ t add,
    Seq a lo hi A t add → Seq a lo hi A (optCopies a n t add).1 (optCopies a n t add).2 := by
  induction n with
  | zero => intro t add h; exact h
  | succ n ih => intro t add h; exact ih _ _ (h.cons ha).opt

theorem copies_match (x : Ctx) (a : Ast) (n : Nat) : ∀ t add K,
    (∀ i j, M x t i j ↔ Times (M x a) K i j) →
    ∀ i j, M x (copies a n t add).1 i j ↔ Times (M x a) (K + n) i j := by
  induction n with
  | zero => intro t add K h; exact h
  | succ n ih =>
    intro t add K h i j
    rw [show K + (n + 1) = (K + 1) + n by omega]
    refine ih _ _ (K + 1) ?_ i j
    intro i j
    rw [times_add]
    simp only [M, erase, erase_shift, Re.Matches, times_one]
    constructor
    · rintro ⟨k, h1, h2⟩; exact ⟨k, (h i k).1 h1, h2⟩
    · rintro ⟨k, h1, h2⟩; exact ⟨k, (h i k).2 h1, h2⟩

theorem optCopies_match (x : Ctx) (a : Ast) (n : Nat) : ∀ t add K,
    (∀ i j, M x t i j ↔ ∃ q, q ≤ K ∧ Times (M x a) q i j) →
    ∀ i j, M x (optCopies a n t add).1 i j ↔ ∃ q, q ≤ K + n ∧ Times (M x a) q i j := by
  induction n with
  | zero => intro t add K h; exact h
  | succ n ih =>
    intro t add K h i j
    rw [show K + (n + 1) = (K + 1) + n by omega]
    refine ih _ _ (K + 1) ?_ i j
    intro i j
    simp only [M, erase, erase_shift, Re.Matches]
    constructor
    · rintro (h' | ⟨k, h1, h2⟩)
      · exact ⟨0, by omega, h'⟩
      · obtain ⟨q, hq, h3⟩ := (h k j).1 h2
        exact ⟨q + 1, by omega, k, h1, h3⟩
    · rintro ⟨q, hq, h'⟩
      cases q with
      | zero => exact Or.inl h'
      | succ q =>
        obtain ⟨k, h1, h2⟩ := h'
        exact Or.inr ⟨k, h1, (h k j).2 ⟨q, by omega, h2⟩⟩

theorem opt_first (x : Ctx) (a : Ast) (s : Nat) (i j : Nat) :
    M x (.union .empty (shift s a)) i j ↔ ∃ q, q ≤ 1 ∧ Times (M x a) q i j := by
  simp only [M, erase, erase_shift, Re.Matches]
  constructor
  · rintro (h | h)
    · exact ⟨0, by omega, h⟩
    · exact ⟨1, by omega, (times_one i j).2 h⟩
  · rintro ⟨q, hq, h⟩
    rcases (by omega : q = 0 ∨ q = 1) with rfl | rfl
    · exact Or.inl h
    · exact Or.inr ((times_one i j).1 h)

/-- What carries over from the expression to the tree besides the matches. -/
structure Shape (r s : Re) : Prop where
  opt : s.optional = r.optional
  pl : r.plain = true → s.plain = true
  one : r.oneEmpty = true → s.oneEmpty = true

theorem copies_shape {a : Ast} (n : Nat) : ∀ t add,
    ((erase t).optional = (erase a).optional) → ((erase a).plain = true → (erase t).plain = true) →
    ((erase a).oneEmpty = true → (erase t).oneEmpty = true) →
    ((erase (copies a n t add).1).optional = (erase a).optional) ∧
      ((erase a).plain = true → (erase (copies a n t add).1).plain = true) ∧
      ((erase a).oneEmpty = true → (erase (copies a n t add).1).oneEmpty = true) := by
  induction n with
  | zero => intro t add h1 h2 h3; exact ⟨h1, h2, h3⟩
  | succ n ih =>
    intro t add h1 h2 h3
    refine ih _ _ ?_ ?_ ?_
    · simp [erase, Re.optional, erase_shift, h1]
    · intro h; simp [erase, Re.plain, erase_shift, h2 h, h]
    · intro h; simp [erase, Re.oneEmpty, erase_shift, h3 h, h]

theorem optCopies_shape {a : Ast} (n : Nat) : ∀ t add,
    ((erase t).optional = true) → ((erase a).plain = true → (erase t).plain = true) →
    ((erase a).oneEmpty = true → (erase t).oneEmpty = true) →
    ((erase (optCopies a n t add).1).optional = true) ∧
      ((erase a).plain = true → (erase (optCopies a n t add).1).plain = true) ∧
      ((erase a).oneEmpty = true → (erase (optCopies a n t add).1).oneEmpty = true) := by
  induction n with
  | zero => intro t add h1 h2 h3; exact ⟨h1, h2, h3⟩
  | succ n ih =>
    intro t add h1 h2 h3
    refine ih _ _ ?_ ?_ ?_
    · simp [erase, Re.optional]
    · intro h; simp [erase, Re.plain, erase_shift, h2 h, h]
    · intro h; simp [erase, Re.oneEmpty, Re.plain, erase_shift, h3 h, h]

theorem expandIter_seq {a : Ast} {lo hi : Nat} (ha : Arg a lo hi) (mn : Nat) (mx : Option Nat) (A : Nat) :
    Seq a lo hi A (expandIter a mn mx A).1 (expandIter a mn mx A).2 := by
  unfold expandIter
  cases mx with
  | none =>
    exact (copies_seq ha (mn - 1) _ _ (Seq.first ha A)).append ha (Seq.star ha _)
  | some m =>
    simp only
    split
    · exact optCopies_seq ha _ _ _ (Seq.first ha A).opt
    · split
      · exact (copies_seq ha (mn - 1) _ _ (Seq.first ha A)).append ha
          (optCopies_seq ha _ _ _ (Seq.first ha _).opt)
      · exact copies_seq ha (mn - 1) _ _ (Seq.first ha A)

theorem expandIter_match (x : Ctx) (a : Ast) (mn : Nat) (mx : Option Nat) (A : Nat)
    (he : expands mn mx = true) (hp : ∀ m, mx = some m → mn ≤ m) (i j : Nat) :
    M x (expandIter a mn mx A).1 i j ↔
      ∃ n, mn ≤ n ∧ (∀ m, mx = some m → n ≤ m) ∧ Times (M x a) n i j := by
  have hc : ∀ n, 0 < n → ∀ i j, M x (copies a (n - 1) (shift A a) (A + lits a)).1 i j ↔
      Times (M x a) n i j := by
    intro n hn i j
    have := copies_match x a (n - 1) (shift A a) (A + lits a) 1
      (by intro i j; rw [times_one]; simp only [M, erase_shift]) i j
    rwa [show 1 + (n - 1) = n by omega] at this
  unfold expandIter
  cases mx with
  | none =>
    have hmn : 1 < mn := by simpa [expands] using he
    simp only [M, erase, erase_shift, Re.Matches]
    constructor
    · rintro ⟨k, h1, n, -, -, h2⟩
      exact ⟨mn + n, by omega, (fun m hm => by cases hm), (times_add mn n i j).2 ⟨k, (hc mn (by omega) i k).1 h1, h2⟩⟩
    · rintro ⟨n, hn, -, h⟩
      rw [show n = mn + (n - mn) by omega] at h
      obtain ⟨k, h1, h2⟩ := (times_add mn (n - mn) i j).1 h
      exact ⟨k, (hc mn (by omega) i k).2 h1, n - mn, by omega, (fun m hm => by cases hm), h2⟩
  | some m =>
    have hm := hp m rfl
    simp only
    split
    · rename_i h0
      have hm1 : 1 < m := by
        subst h0
        simpa [expands] using he
      have := optCopies_match x a (m - 1) (.union .empty (shift A a)) (A + lits a) 1 (opt_first x a A) i j
      rw [show 1 + (m - 1) = m by omega] at this
      rw [this]
      constructor
      · rintro ⟨q, hq, h⟩; exact ⟨q, by omega, fun m' h' => by cases h'; exact hq, h⟩
      · rintro ⟨q, -, hq, h⟩; exact ⟨q, hq m rfl, h⟩
    · rename_i h0
      split
      · rename_i hlt
        simp only [M, erase, Re.Matches]
        have hthis := fun k => optCopies_match x a (m - mn - 1)
          (.union .empty (shift (copies a (mn - 1) (shift A a) (A + lits a)).2 a))
          ((copies a (mn - 1) (shift A a) (A + lits a)).2 + lits a) 1 (opt_first x a _) k j
        rw [show 1 + (m - mn - 1) = m - mn by omega] at hthis
        constructor
        · rintro ⟨k, h1, h2⟩
          obtain ⟨q, hq, h3⟩ := (hthis k).1 h2
          exact ⟨mn + q, by omega, fun m' h' => by cases h'; omega,
            (times_add mn q i j).2 ⟨k, (hc mn (by omega) i k).1 h1, h3⟩⟩
        · rintro ⟨n, hn, hn', h⟩
          have := hn' m rfl
          rw [show n = mn + (n - mn) by omega] at h
          obtain ⟨k, h1, h2⟩ := (times_add mn (n - mn) i j).1 h
          exact ⟨k, (hc mn (by omega) i k).2 h1, (hthis k).2 ⟨n - mn, by omega, h2⟩⟩
      · rename_i hlt
        rw [hc mn (by omega)]
        constructor
        · intro h; exact ⟨mn, Nat.le_refl _, fun m' h' => by cases h'; exact hm, h⟩
        · rintro ⟨n, hn, hn', h⟩
          have := hn' m rfl
          have : n = mn := by omega
          subst this; exact h

theorem expandIter_shape (a : Ast) (mn : Nat) (mx : Option Nat) (A : Nat) (he : expands mn mx = true) :
    Shape (.rep (erase a) mn mx) (erase (expandIter a mn mx A).1) := by
  have hc := copies_shape (a := a) (mn - 1) (shift A a) (A + lits a) (by rw [erase_shift])
    (by rw [erase_shift]; exact id) (by rw [erase_shift]; exact id)
  have ho : ∀ n s add, ((erase (optCopies a n (.union .empty (shift s a)) add).1).optional = true) ∧
      ((erase a).plain = true → (erase (optCopies a n (.union .empty (shift s a)) add).1).plain = true) ∧
      ((erase a).oneEmpty = true →
        (erase (optCopies a n (.union .empty (shift s a)) add).1).oneEmpty = true) := by
    intro n s add
    refine optCopies_shape n _ _ ?_ ?_ ?_
    · simp [erase, Re.optional]
    · intro h; simp [erase, Re.plain, erase_shift, h]
    · intro h; simp [erase, Re.oneEmpty, Re.plain, erase_shift, h]
  unfold expandIter
  cases mx with
  | none =>
    have hmn : 1 < mn := by simpa [expands] using he
    refine ⟨?_, ?_, ?_⟩
    · simp only [erase, Re.optional, hc.1]
      have : (mn == 0) = false := by simp; omega
      simp [this]
    · intro h
      simp only [Re.plain] at h
      simp only [erase, Re.plain, hc.2.1 h, erase_shift, h, Bool.and_self]
    · intro h
      simp only [Re.oneEmpty, Bool.and_eq_true] at h
      simp only [erase, Re.oneEmpty, hc.2.2 h.1, erase_shift, h.1, h.2, Bool.and_self]
  | some m =>
    simp only
    split
    · rename_i h0
      have ho' := ho (m - 1) A (A + lits a)
      refine ⟨?_, ?_, ?_⟩
      · rw [ho'.1]; simp [Re.optional, h0]
      · exact ho'.2.1
      · intro h
        simp only [Re.oneEmpty, Bool.and_eq_true] at h
        exact ho'.2.2 h.1
    · rename_i h0
      have hb : (mn == 0) = false := by simpa using h0
      split
      · have ho' := ho (m - mn - 1) (copies a (mn - 1) (shift A a) (A + lits a)).2
          ((copies a (mn - 1) (shift A a) (A + lits a)).2 + lits a)
        refine ⟨?_, ?_, ?_⟩
        · simp only [erase, Re.optional, ho'.1, hc.1, hb]; simp
        · intro h
          simp only [Re.plain] at h
          simp only [erase, Re.plain, hc.2.1 h, ho'.2.1 h, Bool.and_self]
        · intro h
          simp only [Re.oneEmpty, Bool.and_eq_true] at h
          simp only [erase, Re.oneEmpty, hc.2.2 h.1, ho'.2.2 h.1, Bool.and_self]
      · refine ⟨?_, ?_, ?_⟩
        · rw [hc.1]; simp [Re.optional, hb]
        · exact hc.2.1
        · intro h
          simp only [Re.oneEmpty, Bool.and_eq_true] at h
          exact hc.2.2 h.1

/-- The tree that an expression, numbered from `n` up to `n'`, is expanded to, when `pos_add` goes from
    `A` to `A'`. -/
structure Done (r : Re) (n n' A A' : Nat) (t : Ast) : Prop where
  within : ∀ p, HasPos t p → n + A ≤ p ∧ p < n' + A'
  uniq : Uniq t
  simple : Simple t
  mtch : ∀ x i j, M x t i j ↔ r.Matches x i j
  shape : Shape r (erase t)

theorem Shape.rep {r s : Re} (h : Shape r s) (mn : Nat) (mx : Option Nat) :
    Shape (.rep r mn mx) (.rep s mn mx) where
  opt := by simp only [Re.optional, h.opt]
  pl := h.pl
  one := by
    simp only [Re.oneEmpty, Bool.and_eq_true, Bool.or_eq_true]
    rintro ⟨h1, h2⟩
    refine ⟨h.one h1, ?_⟩
    rw [h.opt]
    exact h2.imp id h.pl

theorem Shape.trans {r s u : Re} (h : Shape r s) (h' : Shape s u) : Shape r u :=
  ⟨h'.opt.trans h.opt, fun hp => h'.pl (h.pl hp), fun ho => h'.one (h.one ho)⟩

theorem Done.cat {l r : Re} {n m k A B C : Nat} {t u : Ast} (h : Done l n m A B t) (h' : Done r m k B C u)
    (h1 : n ≤ m) (h2 : m ≤ k) (h3 : A ≤ B) (h4 : B ≤ C) : Done (.cat l r) n k A C (.cat t u) where
  within p hp := by
    rcases hp with hp | hp
    · have := h.within p hp; omega
    · have := h'.within p hp; omega
  uniq := ⟨h.uniq, h'.uniq, fun p hp hp' => by
    have := h.within p hp; have := h'.within p hp'; omega⟩
  simple := ⟨h.simple, h'.simple⟩
  mtch x i j := by
    simp only [M, erase, Re.Matches]
    exact exists_congr fun k => and_congr (h.mtch x i k) (h'.mtch x k j)
  shape := ⟨by simp only [erase, Re.optional, h.shape.opt, h'.shape.opt],
    by
      simp only [erase, Re.plain, Bool.and_eq_true]
      exact fun hp => ⟨h.shape.pl hp.1, h'.shape.pl hp.2⟩,
    by
      simp only [erase, Re.oneEmpty, Bool.and_eq_true]
      exact fun hp => ⟨h.shape.one hp.1, h'.shape.one hp.2⟩⟩

theorem Done.alt {l r : Re} {n m k A B C : Nat} {t u : Ast} (h : Done l n m A B t) (h' : Done r m k B C u)
    (h1 : n ≤ m) (h2 : m ≤ k) (h3 : A ≤ B) (h4 : B ≤ C) : Done (.alt l r) n k A C (.union t u) where
  within p hp := by
    rcases hp with hp | hp
    · have := h.within p hp; omega
    · have := h'.within p hp; omega
  uniq := ⟨h.uniq, h'.uniq, fun p hp hp' => by
    have := h.within p hp; have := h'.within p hp'; omega⟩
  simple := ⟨h.simple, h'.simple⟩
  mtch x i j := by
    simp only [M, erase, Re.Matches]
    exact or_congr (h.mtch x i j) (h'.mtch x i j)
  shape := ⟨by simp only [erase, Re.optional, h.shape.opt, h'.shape.opt],
    by
      simp only [erase, Re.plain, Bool.and_eq_true]
      exact fun hp => ⟨h.shape.pl hp.1, h'.shape.pl hp.2⟩,
    by
      simp only [erase, Re.oneEmpty, Bool.and_eq_true, Bool.or_eq_true, h.shape.opt, h'.shape.opt]
      exact fun hp => ⟨⟨h.shape.one hp.1.1, h'.shape.one hp.1.2⟩, hp.2.imp id h.shape.pl⟩⟩

theorem counted_eq (mn : Nat) (mx : Option Nat) : expands mn mx = counted mn mx := by
  unfold expands counted
  cases mx <;> rfl

theorem number_le (r : Re) : ∀ n, n ≤ (number r n).2 := by
  induction r with
  | chr => intro n; simp [number]
  | eps => intro n; simp [number]
  | asrt => intro n; simp [number]
  | cat l r ihl ihr => intro n; exact Nat.le_trans (ihl n) (ihr _)
  | alt l r ihl ihr => intro n; exact Nat.le_trans (ihl n) (ihr _)
  | rep r mn mx ih =>
    intro n
    unfold number
    split <;> exact ih n

theorem times_iff_rep {r : Re} {t : Ast} (x : Ctx) (h : ∀ i j, M x t i j ↔ r.Matches x i j) (mn : Nat)
    (mx : Option Nat) (i j : Nat) :
    (∃ n, mn ≤ n ∧ (∀ m, mx = some m → n ≤ m) ∧ Times (M x t) n i j) ↔ (Re.rep r mn mx).Matches x i j := by
  simp only [Re.Matches]
  exact exists_congr fun n => and_congr Iff.rfl (and_congr Iff.rfl (times_congr h n i j))

theorem not_expands_simple {mn : Nat} {mx : Option Nat} (h : ¬ expands mn mx = true)
    (h0 : mx ≠ some 0) : mn ≤ 1 ∧ (mx = none ∨ mx = some 1) := by
  unfold expands at h
  cases mx with
  | none => simp at h; exact ⟨h, Or.inl rfl⟩
  | some m =>
    simp at h
    have : m ≠ 0 := fun e => h0 (by rw [e])
    refine ⟨h.1, Or.inr ?_⟩
    have : m = 1 := by omega
    rw [this]

theorem Done.iter {r : Re} {n n' A A' : Nat} {t : Ast} (h : Done r n n' A A' t) {mn : Nat} {mx : Option Nat}
    (he : ¬ expands mn mx = true) (h0 : mx ≠ some 0) : Done (.rep r mn mx) n n' A A' (.iter t mn mx) where
  within := h.within
  uniq := h.uniq
  simple := ⟨h.simple, not_expands_simple he h0⟩
  mtch x i j := times_iff_rep x (h.mtch x) mn mx i j
  shape := h.shape.rep mn mx

theorem Done.weaken {r : Re} {n n' A A' B : Nat} {t : Ast} (h : Done r n n' A A' t) (hb : A' ≤ B) :
    Done r n n' A B t :=
  ⟨fun p hp => by have := h.within p hp; omega, h.uniq, h.simple, h.mtch, h.shape⟩

theorem Done.arg {r : Re} {n n' A' : Nat} {t : Ast} (h : Done r n n' 0 A' t) (hd : n' + A' ≤ n + lits t) :
    Arg t n (n' + A') :=
  ⟨fun p hp => by have := h.within p hp; omega, h.uniq, h.simple, hd⟩

/-- An expanded repetition. -/
theorem Done.expand {r : Re} {n n' A1 : Nat} {t : Ast} (h : Done r n n' 0 A1 t)
    (hd : n' + A1 ≤ n + Mlibc.Regex.lits t) {mn : Nat} {mx : Option Nat} (he : expands mn mx = true)
    (hp : ∀ m, mx = some m → mn ≤ m) (A : Nat) :
    Done (.rep r mn mx) n n' A (A1 + ((expandIter t mn mx A).2 - Mlibc.Regex.lits t)) (expandIter t mn mx A).1 := by
  have hs := expandIter_seq (h.arg hd) mn mx A
  have hge := hs.ge
  refine ⟨fun p hp => ?_, hs.uniq, hs.simple, fun x i j => ?_, ?_⟩
  · have := hs.within p hp; omega
  · rw [expandIter_match x t mn mx A he hp]
    exact times_iff_rep x (h.mtch x) mn mx i j
  · exact (h.shape.rep mn mx).trans (expandIter_shape t mn mx A he)

theorem proper_rep {r : Re} {mn : Nat} {mx : Option Nat} (h : (Re.rep r mn mx).proper = true) :
    r.proper = true ∧ ∀ m, mx = some m → mn ≤ m := by
  cases mx with
  | none => simp only [Re.proper, Bool.and_eq_true] at h; exact ⟨h.1, fun m hm => by cases hm⟩
  | some m =>
    simp only [Re.proper, Bool.and_eq_true, decide_eq_true_eq] at h
    exact ⟨h.1, fun m' hm => by cases hm; exact h.2⟩

/-- Expressions without counted repetitions, inside an iteration: positions are shifted, and that is
    all. -/
theorem expand_level0 (r : Re) : r.proper = true → r.level0 = true → ∀ n d s, 0 < d →
    let e := expand (number r n).1 d s
    Done r n (number r n).2 s.add s.add e.1 ∧ (number r n).2 ≤ n + lits e.1 ∧
      e.2.add = s.add ∧ e.2.total = s.total := by
  induction r with
  | chr ls =>
    intro hp _ n d s hd
    simp only [number, expand, lits]
    refine ⟨⟨?_, trivial, trivial, fun x i j => Iff.rfl, ⟨rfl, id, id⟩⟩, ?_, by simp, by simp⟩
    · rintro p rfl; omega
    · cases ls with
      | nil => simp [Re.proper] at hp
      | cons => simp only [List.length_cons]; omega
  | eps =>
    intro hp _ n d s hd
    exact ⟨⟨fun p h => h.elim, trivial, trivial, fun x i j => Iff.rfl, ⟨rfl, id, id⟩⟩, by simp [number, expand, lits], rfl, rfl⟩
  | asrt a =>
    intro hp _ n d s hd
    exact ⟨⟨fun p h => h.elim, trivial, trivial, fun x i j => Iff.rfl, ⟨rfl, id, id⟩⟩, by simp [number, expand, lits], rfl, rfl⟩
  | cat l r ihl ihr =>
    intro hp hv n d s hd
    simp only [Re.proper, Re.level0, Bool.and_eq_true] at hp hv
    have h1 := ihl hp.1 hv.1 n d s hd
    simp only [number, expand]
    generalize hel : expand (number l n).1 d s = el at h1 ⊢
    obtain ⟨l', s1⟩ := el
    have h2 := ihr hp.2 hv.2 (number l n).2 d s1 hd
    generalize her : expand (number r (number l n).2).1 d s1 = er at h2 ⊢
    obtain ⟨r', s2⟩ := er
    simp only at h1 h2 ⊢
    obtain ⟨d1, l1, a1, t1⟩ := h1
    obtain ⟨d2, l2, a2, t2⟩ := h2
    rw [a1] at d2
    refine ⟨d1.cat d2 (number_le l n) (number_le r _) (Nat.le_refl _) (Nat.le_refl _), ?_,
      by rw [a2, a1], by rw [t2, t1]⟩
    simp only [lits]; omega
  | alt l r ihl ihr =>
    intro hp hv n d s hd
    simp only [Re.proper, Re.level0, Bool.and_eq_true] at hp hv
    have h1 := ihl hp.1 hv.1 n d s hd
    simp only [number, expand]
    generalize hel : expand (number l n).1 d s = el at h1 ⊢
    obtain ⟨l', s1⟩ := el
    have h2 := ihr hp.2 hv.2 (number l n).2 d s1 hd
    generalize her : expand (number r (number l n).2).1 d s1 = er at h2 ⊢
    obtain ⟨r', s2⟩ := er
    simp only at h1 h2 ⊢
    obtain ⟨d1, l1, a1, t1⟩ := h1
    obtain ⟨d2, l2, a2, t2⟩ := h2
    rw [a1] at d2
    refine ⟨d1.alt d2 (number_le l n) (number_le r _) (Nat.le_refl _) (Nat.le_refl _), ?_,
      by rw [a2, a1], by rw [t2, t1]⟩
    simp only [lits]; omega
  | rep r mn mx ih =>
    intro hp hv n d s hd
    obtain ⟨hp1, hp2⟩ := proper_rep hp
    simp only [Re.level0, Bool.and_eq_true, Bool.not_eq_true', bne_iff_ne, ne_eq, ← counted_eq] at hv
    have he : ¬ expands mn mx = true := by simp [hv.1.2]
    have h1 := ih hp1 hv.1.1 n (d + 1) s (by omega)
    simp only [number, if_neg hv.2, expand, if_neg he]
    generalize hel : expand (number r n).1 (d + 1) s = el at h1 ⊢
    obtain ⟨a', s1⟩ := el
    simp only at h1 ⊢
    obtain ⟨d1, l1, a1, t1⟩ := h1
    refine ⟨d1.iter he hv.2, l1, ?_, t1⟩
    rw [if_neg (by omega)]

/-- Expressions with counted repetitions that are not inside another one, inside one iteration. -/
theorem expand_level1 (r : Re) : r.proper = true → r.level1 = true → ∀ n d s, 0 < d →
    let e := expand (number r n).1 d s
    Done r n (number r n).2 s.add e.2.add e.1 ∧ (number r n).2 + e.2.add ≤ n + s.add + lits e.1 ∧
      s.add ≤ e.2.add ∧ e.2.total = s.total + (e.2.add - s.add) := by
  induction r with
  | chr ls =>
    intro hp _ n d s hd
    have := expand_level0 (.chr ls) hp rfl n d s hd
    obtain ⟨h1, h2, h3, h4⟩ := this
    refine ⟨?_, ?_, ?_, ?_⟩
    · rw [h3]; exact h1
    · omega
    · omega
    · omega
  | eps =>
    intro hp _ n d s hd
    exact ⟨⟨fun p h => h.elim, trivial, trivial, fun x i j => Iff.rfl, ⟨rfl, id, id⟩⟩, by simp [number, expand, lits], by simp [number, expand], by simp [number, expand]⟩
  | asrt a =>
    intro hp _ n d s hd
    exact ⟨⟨fun p h => h.elim, trivial, trivial, fun x i j => Iff.rfl, ⟨rfl, id, id⟩⟩, by simp [number, expand, lits], by simp [number, expand], by simp [number, expand]⟩
  | cat l r ihl ihr =>
    intro hp hv n d s hd
    simp only [Re.proper, Re.level1, Bool.and_eq_true] at hp hv
    have h1 := ihl hp.1 hv.1 n d s hd
    simp only [number, expand]
    generalize hel : expand (number l n).1 d s = el at h1 ⊢
    obtain ⟨l', s1⟩ := el
    have h2 := ihr hp.2 hv.2 (number l n).2 d s1 hd
    generalize her : expand (number r (number l n).2).1 d s1 = er at h2 ⊢
    obtain ⟨r', s2⟩ := er
    simp only at h1 h2 ⊢
    obtain ⟨d1, l1, a1, t1⟩ := h1
    obtain ⟨d2, l2, a2, t2⟩ := h2
    refine ⟨d1.cat d2 (number_le l n) (number_le r _) a1 a2, ?_, by omega, by omega⟩
    simp only [lits]; omega
  | alt l r ihl ihr =>
    intro hp hv n d s hd
    simp only [Re.proper, Re.level1, Bool.and_eq_true] at hp hv
    have h1 := ihl hp.1 hv.1 n d s hd
    simp only [number, expand]
    generalize hel : expand (number l n).1 d s = el at h1 ⊢
    obtain ⟨l', s1⟩ := el
    have h2 := ihr hp.2 hv.2 (number l n).2 d s1 hd
    generalize her : expand (number r (number l n).2).1 d s1 = er at h2 ⊢
    obtain ⟨r', s2⟩ := er
    simp only at h1 h2 ⊢
    obtain ⟨d1, l1, a1, t1⟩ := h1
    obtain ⟨d2, l2, a2, t2⟩ := h2
    refine ⟨d1.alt d2 (number_le l n) (number_le r _) a1 a2, ?_, by omega, by omega⟩
    simp only [lits]; omega
  | rep r mn mx ih =>
    intro hp hv n d s hd
    obtain ⟨hp1, hp2⟩ := proper_rep hp
    simp only [Re.level1, Bool.and_eq_true, bne_iff_ne, ne_eq] at hv
    simp only [number, if_neg hv.2, expand]
    have h1 := expand_level0 r hp1 hv.1 n (d + 1)
      { s with add := if expands mn mx = true then 0 else s.add } (by omega)
    generalize hel : expand (number r n).1 (d + 1)
      { s with add := if expands mn mx = true then 0 else s.add } = el at h1 ⊢
    obtain ⟨a', s1⟩ := el
    simp only at h1 ⊢
    obtain ⟨d1, l1, a1, t1⟩ := h1
    by_cases he : expands mn mx = true
    · simp only [he, if_true, if_neg (show ¬ d = 0 by omega)] at d1 ⊢
      have hs := expandIter_seq (d1.arg (by omega)) mn mx s.add
      have hge := hs.ge
      have hl := hs.nlits
      have := d1.expand (by omega) he hp2 s.add
      refine ⟨by simpa using this, ?_, by omega, by omega⟩
      omega
    · simp only [he, if_false, Bool.false_eq_true, if_neg (show ¬ d = 0 by omega)] at d1 ⊢
      refine ⟨d1.iter he hv.2, by simp only [lits]; omega, Nat.le_refl _, by omega⟩

/-- Expressions with counted repetitions inside at most one other repetition, at the top. -/
theorem expand_level2 (r : Re) : r.proper = true → r.level2 = true → ∀ n s, s.total = s.add →
    let e := expand (number r n).1 0 s
    Done r n (number r n).2 s.add e.2.add e.1 ∧ s.add ≤ e.2.add ∧ e.2.total = e.2.add := by
  induction r with
  | chr ls =>
    intro hp _ n s hs
    simp only [number, expand]
    refine ⟨⟨?_, trivial, trivial, fun x i j => Iff.rfl, ⟨rfl, id, id⟩⟩, Nat.le_refl _, hs⟩
    rintro p rfl; omega
  | eps =>
    intro hp _ n s hs
    exact ⟨⟨fun p h => h.elim, trivial, trivial, fun x i j => Iff.rfl, ⟨rfl, id, id⟩⟩, Nat.le_refl _, hs⟩
  | asrt a =>
    intro hp _ n s hs
    exact ⟨⟨fun p h => h.elim, trivial, trivial, fun x i j => Iff.rfl, ⟨rfl, id, id⟩⟩, Nat.le_refl _, hs⟩
  | cat l r ihl ihr =>
    intro hp hv n s hs
    simp only [Re.proper, Re.level2, Bool.and_eq_true] at hp hv
    have h1 := ihl hp.1 hv.1 n s hs
    simp only [number, expand]
    generalize hel : expand (number l n).1 0 s = el at h1 ⊢
    obtain ⟨l', s1⟩ := el
    simp only at h1
    have h2 := ihr hp.2 hv.2 (number l n).2 s1 h1.2.2
    generalize her : expand (number r (number l n).2).1 0 s1 = er at h2 ⊢
    obtain ⟨r', s2⟩ := er
    simp only at h2 ⊢
    obtain ⟨d1, a1, t1⟩ := h1
    obtain ⟨d2, a2, t2⟩ := h2
    exact ⟨d1.cat d2 (number_le l n) (number_le r _) a1 a2, by omega, t2⟩
  | alt l r ihl ihr =>
    intro hp hv n s hs
    simp only [Re.proper, Re.level2, Bool.and_eq_true] at hp hv
    have h1 := ihl hp.1 hv.1 n s hs
    simp only [number, expand]
    generalize hel : expand (number l n).1 0 s = el at h1 ⊢
    obtain ⟨l', s1⟩ := el
    simp only at h1
    have h2 := ihr hp.2 hv.2 (number l n).2 s1 h1.2.2
    generalize her : expand (number r (number l n).2).1 0 s1 = er at h2 ⊢
    obtain ⟨r', s2⟩ := er
    simp only at h2 ⊢
    obtain ⟨d1, a1, t1⟩ := h1
    obtain ⟨d2, a2, t2⟩ := h2
    exact ⟨d1.alt d2 (number_le l n) (number_le r _) a1 a2, by omega, t2⟩
  | rep r mn mx ih =>
    intro hp hv n s hs
    obtain ⟨hp1, hp2⟩ := proper_rep hp
    simp only [Re.level2, Bool.or_eq_true, beq_iff_eq] at hv
    by_cases h0 : mx = some 0
    · have hmn : mn = 0 := by have := hp2 0 h0; omega
      subst h0; subst hmn
      simp only [number, if_true, expand]
      refine ⟨⟨fun p h => h.elim, trivial, trivial, fun x i j => ?_, ⟨rfl, fun _ => rfl, fun _ => rfl⟩⟩,
        Nat.le_refl _, hs⟩
      simp only [M, erase, Re.Matches]
      constructor
      · rintro rfl; exact ⟨0, by omega, fun m _ => by omega, rfl⟩
      · rintro ⟨q, -, hq, h⟩
        have := hq 0 rfl
        have : q = 0 := by omega
        subst this; exact h
    · have hv1 := hv.resolve_right h0
      simp only [number, if_neg h0, expand]
      have h1 := expand_level1 r hp1 hv1 n (0 + 1)
        { s with add := if expands mn mx = true then 0 else s.add } (by omega)
      generalize hel : expand (number r n).1 (0 + 1)
        { s with add := if expands mn mx = true then 0 else s.add } = el at h1 ⊢
      obtain ⟨a', s1⟩ := el
      simp only at h1 ⊢
      obtain ⟨d1, l1, a1, t1⟩ := h1
      by_cases he : expands mn mx = true
      · simp only [he, if_true] at d1 l1 a1 t1 ⊢
        have hsq := expandIter_seq (d1.arg (by omega)) mn mx s.add
        have hge := hsq.ge
        have := d1.expand (by omega) he hp2 s.add
        refine ⟨this.weaken (by omega), by omega, trivial⟩
      · simp only [he, if_false, Bool.false_eq_true, if_true] at d1 l1 a1 t1 ⊢
        refine ⟨(d1.iter he h0).weaken (by omega), by omega, trivial⟩

end Mlibc.Regex
