import Verif.Base
/-
Model of lsearch, lfind, insque and remque, options/posix/generic/search.cpp:265-356, and C21.
-/
set_option linter.unusedSimpArgs false
namespace Mlibc.Linear
open Mlibc

/-! ### lfind and lsearch

The array is a list of element slots, `nel` of which are in use; a pointer into it is an element index. Element
type and key type may differ for lfind. Simplification: the comparison function has no side effects. -/

/-- search.cpp:302-306 (and 276-281), the loop. First argument: number of elements left. -/
def findLoop {κ α : Type} (compar : κ → α → Int) (key : κ) (slots : List α) : Nat → Nat → Res (Option Nat)
  | 0, _ => .ok none
  | n + 1, current =>
    match slots[current]? with
    | none => .ub
    | some e => if compar key e = 0 then .ok (some current) else findLoop compar key slots n (current + 1)

/-- search.cpp:291-309 `lfind`; a null `nelp` is `none`. -/
def lfind {κ α : Type} (compar : κ → α → Int) (key : κ) (slots : List α) (nelp : Option Nat) : Res (Option Nat) :=
  match nelp with
  | none => .ok none
  | some nel => findLoop compar key slots nel 0

/-- search.cpp:265-289 `lsearch`: returned pointer, new `*nelp`, new array. -/
def lsearch {α : Type} (compar : α → α → Int) (key : α) (slots : List α) (nelp : Option Nat) :
    Res (Option Nat × Option Nat × List α) :=
  match nelp with
  | none => .ok (none, none, slots)
  | some nel => do
    match ← findLoop compar key slots nel 0 with
    | some i => return (some i, some nel, slots)
    | none =>
      if nel < slots.length then
        return (some nel, some (nel + 1), slots.set nel key)
      else .ub

/-- Specification: `r` is the index of the first of the elements `xs` equal to the key, `none` if there is none. -/
def IsFirst {κ α : Type} (compar : κ → α → Int) (key : κ) (xs : List α) (r : Option Nat) : Prop :=
  match r with
  | some i => (∃ e, xs[i]? = some e ∧ compar key e = 0) ∧ ∀ j e, j < i → xs[j]? = some e → compar key e ≠ 0
  | none => ∀ e ∈ xs, compar key e ≠ 0

theorem findLoop_first {κ α : Type} (compar : κ → α → Int) (key : κ) (pre : List α) :
    ∀ (xs post : List α) (r : Option Nat),
      findLoop compar key (pre ++ xs ++ post) xs.length pre.length = .ok r →
      (r = none ∧ ∀ e ∈ xs, compar key e ≠ 0) ∨
      ∃ i, r = some (pre.length + i) ∧ IsFirst compar key xs (some i) := by
  intro xs
  induction xs generalizing pre with
  | nil => intro post r h; simp [findLoop] at h; exact Or.inl ⟨h.symm, by simp⟩
  | cons x xs ih =>
    intro post r h
    have hx : (pre ++ x :: xs ++ post)[pre.length]? = some x := by simp [List.append_assoc]
    rw [List.length_cons, findLoop] at h
    simp only [hx] at h
    by_cases hc : compar key x = 0
    · simp only [hc, if_true, Res.ok.injEq] at h
      refine Or.inr ⟨0, by simp [← h], ⟨x, by simp, hc⟩, ?_⟩
      intro j e hj; omega
    · simp only [hc, if_false] at h
      have := ih (pre ++ [x]) post r (by simpa using h)
      rcases this with ⟨h1, h2⟩ | ⟨i, h1, ⟨e, h2, h3⟩, h4⟩
      · exact Or.inl ⟨h1, by simpa [hc] using h2⟩
      · refine Or.inr ⟨i + 1, by simp [h1]; omega, ⟨e, by simpa using h2, h3⟩, ?_⟩
        intro j e' hj he'
        cases j with
        | zero => simp at he'; subst he'; exact hc
        | succ j => exact h4 j e' (by omega) (by simpa using he')

theorem findLoop_safe {κ α : Type} (compar : κ → α → Int) (key : κ) (slots : List α) :
    ∀ n i, i + n ≤ slots.length → ∃ r, findLoop compar key slots n i = .ok r := by
  intro n
  induction n with
  | zero => intro i _; exact ⟨none, rfl⟩
  | succ n ih =>
    intro i h
    rw [findLoop, List.getElem?_eq_getElem (by omega)]
    simp only
    split
    · exact ⟨_, rfl⟩
    · exact ih (i + 1) (by omega)

theorem findLoop_exact {κ α : Type} (compar : κ → α → Int) (key : κ) (xs free : List α) :
    ∃ r, findLoop compar key (xs ++ free) xs.length 0 = .ok r ∧ IsFirst compar key xs r := by
  obtain ⟨r, hr⟩ := findLoop_safe compar key (xs ++ free) xs.length 0 (by simp)
  refine ⟨r, hr, ?_⟩
  rcases findLoop_first compar key [] xs free r (by simpa using hr) with ⟨rfl, h⟩ | ⟨i, rfl, h⟩
  · exact h
  · simpa using h

/-- **C21 (lfind).** lfind returns the first element comparing equal, NULL if there is none; it reads no other
element. -/
theorem lfind_first {κ α : Type} (compar : κ → α → Int) (key : κ) (xs free : List α) :
    ∃ r, lfind compar key (xs ++ free) (some xs.length) = .ok r ∧ IsFirst compar key xs r :=
  findLoop_exact compar key xs free

/-- **C21 (lsearch).** On an array holding `xs` with at least one free slot: if some element is equal to the key
lsearch returns the first one and changes nothing. Otherwise it appends the key after the elements, returns its
position and increments the count; elements and remaining free slots are unchanged. -/
theorem lsearch_exact {α : Type} (compar : α → α → Int) (key : α) (xs : List α) (slot : α) (free : List α) :
    (∃ i, IsFirst compar key xs (some i) ∧
      lsearch compar key (xs ++ slot :: free) (some xs.length)
        = .ok (some i, some xs.length, xs ++ slot :: free)) ∨
    ((∀ e ∈ xs, compar key e ≠ 0) ∧
      lsearch compar key (xs ++ slot :: free) (some xs.length)
        = .ok (some xs.length, some (xs ++ [key]).length, xs ++ [key] ++ free)) := by
  obtain ⟨r, hr, h⟩ := findLoop_exact compar key xs (slot :: free)
  cases r with
  | some i => exact Or.inl ⟨i, h, by simp [lsearch, hr]⟩
  | none => exact Or.inr ⟨h, by simp [lsearch, hr]⟩

/-- Present elements need no free slot. -/
theorem lsearch_full {α : Type} (compar : α → α → Int) (key : α) (xs : List α) (h : ∃ e ∈ xs, compar key e = 0) :
    ∃ i, IsFirst compar key xs (some i) ∧
      lsearch compar key xs (some xs.length) = .ok (some i, some xs.length, xs) := by
  obtain ⟨r, hr, hf⟩ := findLoop_exact compar key xs []
  cases r with
  | some i => exact ⟨i, hf, by simp [List.append_nil] at hr; simp [lsearch, hr]⟩
  | none => obtain ⟨e, he, hc⟩ := h; exact absurd hc (hf e he)

/-- The comparison function really gets the key first and the element second. -/
example : lfind (fun (k : Nat) (e : Nat × Nat) => (k : Int) - e.2) 7 [(7, 0), (0, 7), (1, 7), (9, 9)] (some 3)
    = .ok (some 1) := by decide
example : lsearch (fun a b : Nat => (a : Int) - b) 5 [1, 2, 0, 0] (some 2) = .ok (some 2, some 3, [1, 2, 5, 0]) := by
  decide

/-! ### insque and remque -/

/-- `struct qelem`; `none` is the null pointer. -/
structure Node where
  forw : Option Nat
  back : Option Nat
  deriving DecidableEq, Repr

/-- Addresses holding queue elements. -/
abbrev Heap := Nat → Option Node

def Heap.get (h : Heap) (p : Nat) : Res Node :=
  match h p with
  | some n => .ok n
  | none => .ub

def Heap.set (h : Heap) (p : Nat) (n : Node) : Heap := fun q => if q = p then some n else h q

@[simp] theorem Heap.set_apply (h : Heap) (p q : Nat) (n : Node) :
    h.set p n q = if q = p then some n else h q := rfl

@[simp] theorem Heap.set_set (h : Heap) (p : Nat) (n m : Node) : (h.set p n).set p m = h.set p m := by
  funext q; simp only [set_apply]; split <;> rfl

theorem Heap.set_self (h : Heap) (p : Nat) (n : Node) (hp : h p = some n) : h.set p n = h := by
  funext q; simp only [set_apply]; split
  · subst q; exact hp.symm
  · rfl

/-- Assignment `p->q_forw = v`. -/
def Heap.setForw (h : Heap) (p : Nat) (v : Option Nat) : Res Heap := do
  let n ← h.get p
  return h.set p { n with forw := v }

/-- Assignment `p->q_back = v`. -/
def Heap.setBack (h : Heap) (p : Nat) (v : Option Nat) : Res Heap := do
  let n ← h.get p
  return h.set p { n with back := v }

/-- search.cpp:333-348 `insque`. -/
def insque (h : Heap) (e : Nat) (pred : Option Nat) : Res Heap := do
  match pred with
  | none => (← h.setBack e none).setForw e none
  | some p =>
    let h ← h.setForw e (← h.get p).forw
    let h ← h.setBack e (some p)
    let h ← h.setForw p (some e)
    match (← h.get e).forw with
    | some f => h.setBack f (some e)
    | none => return h

/-- search.cpp:350-356 `remque`. -/
def remque (h : Heap) (e : Nat) : Res Heap := do
  let h ← match (← h.get e).forw with
    | some f => h.setBack f (← h.get e).back
    | none => pure h
  match (← h.get e).back with
  | some b => h.setForw b (← h.get e).forw
  | none => return h

/-- Specification: `l` is a chain of elements, each pointing to its successor and predecessor; the first one points
back to `prev` and the last one forward to `next`. -/
def Chain (h : Heap) : Option Nat → List Nat → Option Nat → Prop
  | _, [], _ => True
  | prev, x :: xs, next => h x = some ⟨(xs.head?).or next, prev⟩ ∧ Chain h (some x) xs next

/-- A null-terminated queue. -/
def Queue (h : Heap) (l : List Nat) : Prop := l.Nodup ∧ Chain h none l none

/-- A circular queue, listed from an arbitrary element. -/
def Ring (h : Heap) (l : List Nat) : Prop := l.Nodup ∧ Chain h l.getLast? l l.head?

theorem chain_append (h : Heap) (prev : Option Nat) (xs ys : List Nat) (next : Option Nat) :
    Chain h prev (xs ++ ys) next ↔ Chain h prev xs ((ys.head?).or next) ∧ Chain h (xs.getLast?.or prev) ys next := by
  induction xs generalizing prev with
  | nil => simp [Chain]
  | cons x xs ih =>
    simp only [List.cons_append, Chain, ih, List.head?_append, and_assoc, Option.or_assoc]
    have : (x :: xs).getLast?.or prev = xs.getLast?.or (some x) := by
      cases xs with
      | nil => rfl
      | cons y ys => rw [List.getLast?_cons_cons, List.getLast?_cons]; rfl
    rw [this]

theorem chain_frame {h h' : Heap} {prev : Option Nat} {l : List Nat} {next : Option Nat}
    (hc : Chain h prev l next) (hf : ∀ x ∈ l, h' x = h x) : Chain h' prev l next := by
  induction l generalizing prev with
  | nil => trivial
  | cons x xs ih =>
    exact ⟨by rw [hf x (by simp)]; exact hc.1, ih hc.2 fun y hy => hf y (by simp [hy])⟩

/-- A ring may be listed from any of its elements. -/
theorem ring_rotate (h : Heap) (xs ys : List Nat) : Ring h (xs ++ ys) ↔ Ring h (ys ++ xs) := by
  suffices ∀ xs ys, Ring h (xs ++ ys) → Ring h (ys ++ xs) from ⟨this xs ys, this ys xs⟩
  intro xs ys ⟨h1, h2⟩
  refine ⟨(List.perm_append_comm.nodup_iff).1 h1, ?_⟩
  rw [chain_append] at h2 ⊢
  simp only [List.getLast?_append, List.head?_append] at h2 ⊢
  cases hx : xs.head? with
  | none =>
    rw [List.head?_eq_none_iff] at hx
    subst hx
    simp [Chain] at h2 ⊢
    exact h2
  | some x =>
    cases hy : ys.head? with
    | none =>
      rw [List.head?_eq_none_iff] at hy
      subst hy
      simp [Chain] at h2 ⊢
      simpa [hx] using h2
    | some y =>
      have e1 : ∃ a, xs.getLast? = some a := by
        cases xs with
        | nil => cases hx
        | cons a as => exact ⟨_, List.getLast?_eq_some_getLast (by simp)⟩
      have e2 : ∃ a, ys.getLast? = some a := by
        cases ys with
        | nil => cases hy
        | cons a as => exact ⟨_, List.getLast?_eq_some_getLast (by simp)⟩
      obtain ⟨a, ha⟩ := e1
      obtain ⟨b, hb⟩ := e2
      simp only [hx, hy, ha, hb, Option.or_some, Option.some_or] at h2 ⊢
      exact ⟨h2.2, h2.1⟩

theorem insque_eq (h : Heap) (e p : Nat) (n m : Node) (hne : e ≠ p) (he : h e = some m) (hp : h p = some n) :
    insque h e (some p) = (match n.forw with
      | none => .ok ((h.set e ⟨none, some p⟩).set p { n with forw := some e })
      | some f => ((h.set e ⟨some f, some p⟩).set p { n with forw := some e }).setBack f (some e)) := by
  cases hf : n.forw <;>
  simp [insque, Heap.setForw, Heap.setBack, Heap.get, he, hp, hne, hne.symm, hf] <;>
    split <;> simp_all

/-- **C21 (insque, first element).** -/
theorem insque_first (h : Heap) (e : Nat) (he : (h e).isSome) :
    ∃ h', insque h e none = .ok h' ∧ Queue h' [e] ∧ ∀ q, q ≠ e → h' q = h q := by
  obtain ⟨n, hn⟩ := Option.isSome_iff_exists.1 he
  refine ⟨h.set e ⟨none, none⟩, ?_, ⟨by simp, by simp [Chain]⟩, by intro q hq; simp [hq]⟩
  simp [insque, Heap.setForw, Heap.setBack, Heap.get, hn]

/-- **C21 (insque, null-terminated queue).** Inserting behind `x` yields the list with `e` behind `x`; nothing outside the
list is changed. -/
theorem insque_queue (h : Heap) (xs ys : List Nat) (x e : Nat) (hq : Queue h (xs ++ x :: ys))
    (he : (h e).isSome) (hnew : e ∉ xs ++ x :: ys) :
    ∃ h', insque h e (some x) = .ok h' ∧ Queue h' (xs ++ x :: e :: ys) ∧
      ∀ q, q ∉ xs ++ x :: e :: ys → h' q = h q := by
  obtain ⟨m, hm⟩ := Option.isSome_iff_exists.1 he
  obtain ⟨hnd, hc⟩ := hq
  rw [chain_append] at hc
  obtain ⟨hc1, hx, hc2⟩ := hc
  simp only [List.mem_append, List.mem_cons, not_or] at hnew
  obtain ⟨hn1, hn2, hn3⟩ := hnew
  have hnd' : (xs ++ x :: e :: ys).Nodup := by
    simp only [List.nodup_append, List.nodup_cons, List.mem_cons, not_or] at hnd ⊢
    refine ⟨hnd.1, ⟨⟨fun hh => hn2 hh.symm, hnd.2.1.1⟩, hn3, hnd.2.1.2⟩, ?_⟩
    intro a ha b hb
    rcases hb with rfl | rfl | hb
    · exact hnd.2.2 a ha b (Or.inl rfl)
    · rintro rfl; exact hn1 ha
    · exact hnd.2.2 a ha b (Or.inr hb)
  have hdx : ∀ a ∈ xs, a ≠ x := by
    intro a ha; exact (List.nodup_append.1 hnd).2.2 a ha x (by simp)
  have hdy : ∀ a ∈ xs, ∀ b ∈ ys, a ≠ b := by
    intro a ha b hb; exact (List.nodup_append.1 hnd).2.2 a ha b (by simp [hb])
  have hxy : x ∉ ys := (List.nodup_cons.1 (List.nodup_append.1 hnd).2.1).1
  rw [insque_eq h e x _ m hn2 hm hx]
  cases ys with
  | nil =>
    refine ⟨_, rfl, ⟨hnd', ?_⟩, ?_⟩
    · rw [chain_append]
      refine ⟨chain_frame (by simpa using hc1) ?_, ?_⟩
      · intro a ha
        have h1 := hdx a ha
        have h2 : a ≠ e := by rintro rfl; exact hn1 ha
        simp [h1, h2]
      · simp [Chain, hn2]
    · intro q hq
      simp at hq
      simp [hq]
  | cons y ys =>
    obtain ⟨hy, hc3⟩ := hc2
    have hxy1 : x ≠ y := by rintro rfl; simp at hxy
    have hey : e ≠ y := by rintro rfl; simp at hn3
    have hyny : y ∉ ys := (List.nodup_cons.1 (List.nodup_cons.1 (List.nodup_append.1 hnd).2.1).2).1
    simp only [List.head?_cons, Option.some_or, Heap.setBack, Heap.get, Heap.set_apply, hxy1.symm, hey.symm, if_false, hy,
      Res.ok_bind, Res.pure_eq]
    refine ⟨_, rfl, ⟨hnd', ?_⟩, ?_⟩
    · rw [chain_append]
      refine ⟨chain_frame (by simpa using hc1) ?_, ?_, ?_, ?_, ?_⟩
      · intro a ha
        have h1 := hdx a ha
        have h2 : a ≠ e := by rintro rfl; exact hn1 ha
        have h3 := hdy a ha y (by simp)
        simp [h1, h2, h3]
      · simp [hxy1]
      · simp [hey, hn2]
      · simp
      · refine chain_frame hc3 ?_
        intro a ha
        have h1 : a ≠ y := by rintro rfl; exact hyny ha
        have h2 : a ≠ x := by rintro rfl; simp [ha] at hxy
        have h3 : a ≠ e := by rintro rfl; simp [ha] at hn3
        simp [h1, h2, h3]
    · intro q hq
      simp at hq
      simp [hq]

/-- The ring lemma for a ring listed from the predecessor. -/
theorem insque_ring_head (h : Heap) (ys : List Nat) (x e : Nat) (hq : Ring h (x :: ys))
    (he : (h e).isSome) (hnew : e ∉ x :: ys) :
    ∃ h', insque h e (some x) = .ok h' ∧ Ring h' (x :: e :: ys) ∧ ∀ q, q ∉ x :: e :: ys → h' q = h q := by
  obtain ⟨m, hm⟩ := Option.isSome_iff_exists.1 he
  obtain ⟨hnd, hx, hc⟩ := hq
  simp only [List.mem_cons, not_or] at hnew
  obtain ⟨hn2, hn3⟩ := hnew
  have hnd' : (x :: e :: ys).Nodup := by
    simp only [List.nodup_cons, List.mem_cons, not_or] at hnd ⊢
    exact ⟨⟨fun hh => hn2 hh.symm, hnd.1⟩, hn3, hnd.2⟩
  have hxy : x ∉ ys := (List.nodup_cons.1 hnd).1
  rw [insque_eq h e x _ m hn2 hm hx]
  cases ys with
  | nil =>
    simp only [List.head?_nil, Option.none_or, List.head?_cons, Heap.setBack, Heap.get, Heap.set_apply, if_true, Res.ok_bind,
      Res.pure_eq]
    refine ⟨_, rfl, ⟨hnd', ?_⟩, ?_⟩
    · simp [Chain, hn2]
    · intro q hq; simp at hq; simp [hq]
  | cons y ys =>
    obtain ⟨hy, hc3⟩ := hc
    have hxy1 : x ≠ y := by rintro rfl; simp at hxy
    have hey : e ≠ y := by rintro rfl; simp at hn3
    have hyny : y ∉ ys := (List.nodup_cons.1 (List.nodup_cons.1 hnd).2).1
    simp only [List.head?_cons, Option.some_or, Heap.setBack, Heap.get, Heap.set_apply, hxy1.symm, hey.symm, if_false, hy,
      Res.ok_bind, Res.pure_eq]
    refine ⟨_, rfl, ⟨hnd', ?_, ?_, ?_, ?_⟩, ?_⟩
    · simp [hxy1, List.getLast?_cons_cons]
    · simp [hey, hn2]
    · simp
    · refine chain_frame hc3 ?_
      intro a ha
      have h1 : a ≠ y := by rintro rfl; exact hyny ha
      have h2 : a ≠ x := by rintro rfl; simp [ha] at hxy
      have h3 : a ≠ e := by rintro rfl; simp [ha] at hn3
      simp [h1, h2, h3]
    · intro q hq
      simp at hq
      simp [hq]

/-- **C21 (insque, circular queue).** -/
theorem insque_ring (h : Heap) (xs ys : List Nat) (x e : Nat) (hq : Ring h (xs ++ x :: ys))
    (he : (h e).isSome) (hnew : e ∉ xs ++ x :: ys) :
    ∃ h', insque h e (some x) = .ok h' ∧ Ring h' (xs ++ x :: e :: ys) ∧ ∀ q, q ∉ xs ++ x :: e :: ys → h' q = h q := by
  obtain ⟨h', h1, h2, h3⟩ := insque_ring_head h (ys ++ xs) x e ((ring_rotate h xs (x :: ys)).1 hq) he (by
    simp at hnew ⊢; simp [hnew])
  refine ⟨h', h1, (ring_rotate h' (x :: e :: ys) xs).1 h2, ?_⟩
  intro q hq
  apply h3
  simp at hq ⊢
  simp [hq]

/-- **C21 (remque, null-terminated queue).** Removing `e` yields the list without `e`; nothing outside the list is
changed, and `e` itself is not written. -/
theorem remque_queue (h : Heap) (xs ys : List Nat) (e : Nat) (hq : Queue h (xs ++ e :: ys)) :
    ∃ h', remque h e = .ok h' ∧ Queue h' (xs ++ ys) ∧ ∀ q, q ∉ xs ++ ys → h' q = h q := by
  obtain ⟨hnd, hc⟩ := hq
  rw [chain_append] at hc
  obtain ⟨hc1, he, hc2⟩ := hc
  have hnd1 := List.nodup_append.1 hnd
  have hey : e ∉ ys := (List.nodup_cons.1 hnd1.2.1).1
  have hex : ∀ a ∈ xs, a ≠ e := fun a ha => hnd1.2.2 a ha e (by simp)
  have hdy : ∀ a ∈ xs, ∀ b ∈ ys, a ≠ b := fun a ha b hb => hnd1.2.2 a ha b (by simp [hb])
  have hndr : (xs ++ ys).Nodup := by
    rw [List.nodup_append]
    exact ⟨hnd1.1, (List.nodup_cons.1 hnd1.2.1).2, hdy⟩
  -- the element before
  have hxs : xs = [] ∨ ∃ xs' b, xs = xs' ++ [b] := by
    rcases List.eq_nil_or_concat xs with h | ⟨xs', b, h⟩
    · exact Or.inl h
    · exact Or.inr ⟨xs', b, by simpa using h⟩
  rcases hxs with rfl | ⟨xs', b, rfl⟩
  · cases ys with
    | nil =>
      refine ⟨h, by simp [remque, Heap.get, he], ⟨hndr, trivial⟩, fun _ _ => rfl⟩
    | cons y ys =>
      obtain ⟨hy, hc3⟩ := hc2
      have hne : e ≠ y := by rintro rfl; simp at hey
      have hyny : y ∉ ys := (List.nodup_cons.1 hndr).1
      simp only [List.getLast?_nil, Option.none_or] at he hc1
      refine ⟨h.set y ⟨ys.head?.or none, none⟩, by
        simp [remque, Heap.get, he, Heap.setBack, hy, hne], ⟨hndr, ?_, ?_⟩, ?_⟩
      · simp
      · refine chain_frame hc3 ?_
        intro a ha
        have h1 : a ≠ y := by rintro rfl; exact hyny ha
        simp [h1]
      · intro q hq; simp at hq; simp [hq]
  · have hb : b ≠ e := hex b (by simp)
    rw [chain_append] at hc1
    obtain ⟨hc0, hb1, -⟩ := hc1
    have hbx : b ∉ xs' := by
      intro hh
      exact (List.nodup_append.1 hnd1.1).2.2 b hh b (by simp) rfl
    cases ys with
    | nil =>
      refine ⟨h.set b ⟨none, xs'.getLast?.or none⟩, by
        simp [remque, Heap.get, he, Heap.setForw, hb1], ⟨hndr, ?_⟩, ?_⟩
      · rw [List.append_nil, chain_append]
        refine ⟨chain_frame hc0 ?_, ?_, trivial⟩
        · intro a ha
          have h1 : a ≠ b := by rintro rfl; exact hbx ha
          simp [h1]
        · simp
      · intro q hq; simp at hq; simp [hq]
    | cons y ys =>
      obtain ⟨hy, hc3⟩ := hc2
      have hne : e ≠ y := by rintro rfl; simp at hey
      have hby : b ≠ y := hdy b (by simp) y (by simp)
      have hyny : y ∉ ys := (List.nodup_cons.1 (List.nodup_append.1 hndr).2.1).1
      refine ⟨(h.set y ⟨ys.head?.or none, some b⟩).set b ⟨some y, xs'.getLast?.or none⟩, ?_, ⟨hndr, ?_⟩, ?_⟩
      · simp [remque, Heap.get, he, Heap.setForw, Heap.setBack, hb1, hy, hne, hby]
      · rw [chain_append, chain_append]
        refine ⟨⟨chain_frame hc0 ?_, ?_, trivial⟩, ?_, ?_⟩
        · intro a ha
          have h1 : a ≠ b := by rintro rfl; exact hbx ha
          have h2 : a ≠ y := hdy a (by simp [ha]) y (by simp)
          simp [h1, h2]
        · simp
        · simp [hby.symm]
        · refine chain_frame hc3 ?_
          intro a ha
          have h1 : a ≠ y := by rintro rfl; exact hyny ha
          have h2 : a ≠ b := fun hh => hdy b (by simp) a (by simp [ha]) hh.symm
          simp [h1, h2]
      · intro q hq; simp at hq; simp [hq]

/-- The ring lemma for a ring listed from the removed element. -/
theorem remque_ring_head (h : Heap) (ys : List Nat) (e : Nat) (hq : Ring h (e :: ys)) :
    ∃ h', remque h e = .ok h' ∧ Ring h' ys ∧ ∀ q, q ∉ e :: ys → h' q = h q := by
  obtain ⟨hnd, he, hc⟩ := hq
  have hey : e ∉ ys := (List.nodup_cons.1 hnd).1
  have hndr := (List.nodup_cons.1 hnd).2
  cases ys with
  | nil =>
    simp at he
    refine ⟨h, ?_, ⟨by simp, trivial⟩, fun _ _ => rfl⟩
    simp [remque, Heap.get, he, Heap.setForw, Heap.setBack]
    rw [Heap.set_self _ _ _ he]
  | cons y ys =>
    have hne : e ≠ y := by rintro rfl; simp at hey
    rcases List.eq_nil_or_concat ys with rfl | ⟨zs, b, hz⟩
    · simp [Chain] at he hc
      refine ⟨h.set y ⟨some y, some y⟩, ?_, ⟨by simp, by simp [Chain]⟩, ?_⟩
      · simp [remque, Heap.get, he, hc, Heap.setForw, Heap.setBack, hne]
      · intro q hq; simp at hq; simp [hq]
    · simp only [List.concat_eq_append] at hz
      subst hz
      obtain ⟨hy, hc3⟩ := hc
      rw [chain_append] at hc3
      obtain ⟨hc4, hb1, -⟩ := hc3
      have heb : e ≠ b := by rintro rfl; simp at hey
      have hyb : y ≠ b := by rintro rfl; simp at hndr
      have hyz : y ∉ zs := by
        intro hh; exact (List.nodup_cons.1 hndr).1 (by simp [hh])
      have hbz : b ∉ zs := by
        intro hh; exact (List.nodup_append.1 (List.nodup_cons.1 hndr).2).2.2 b hh b (by simp) rfl
      have hlast : (e :: y :: (zs ++ [b])).getLast? = some b := by
        rw [List.getLast?_cons_cons, List.getLast?_cons]; simp
      have hlast2 : (y :: (zs ++ [b])).getLast? = some b := by
        rw [List.getLast?_cons]; simp
      rw [hlast] at he
      simp only [List.head?_cons, Option.some_or, List.head?_nil, Option.none_or] at he hb1
      refine ⟨(h.set y ⟨(zs ++ [b]).head?.or (some e), some b⟩).set b ⟨some y, zs.getLast?.or (some y)⟩, ?_,
        ⟨hndr, ?_⟩, ?_⟩
      · simp only [List.head?_cons] at hy
        simp [remque, Heap.get, he, Heap.setForw, Heap.setBack, hb1, hy, hne, heb, hyb, hyb.symm]
      · rw [hlast2]
        refine ⟨?_, ?_⟩
        · simp only [Heap.set_apply, hyb, if_false, if_true, List.head?_cons]
          cases zs <;> rfl
        · rw [chain_append]
          refine ⟨chain_frame hc4 ?_, ?_, trivial⟩
          · intro a ha
            have h1 : a ≠ b := by rintro rfl; exact hbz ha
            have h2 : a ≠ y := by rintro rfl; exact hyz ha
            simp [h1, h2]
          · simp
      · intro q hq; simp at hq; simp [hq]

/-- **C21 (remque, circular queue).** -/
theorem remque_ring (h : Heap) (xs ys : List Nat) (e : Nat) (hq : Ring h (xs ++ e :: ys)) :
    ∃ h', remque h e = .ok h' ∧ Ring h' (xs ++ ys) ∧ ∀ q, q ∉ xs ++ e :: ys → h' q = h q := by
  obtain ⟨h', h1, h2, h3⟩ := remque_ring_head h (ys ++ xs) e ((ring_rotate h xs (e :: ys)).1 hq)
  refine ⟨h', h1, (ring_rotate h' ys xs).1 h2, ?_⟩
  intro q hq
  apply h3
  simp at hq ⊢
  simp [hq]

/-- **C21 (round trip).** Inserting an element behind `x` and removing it again restores the queue. -/
theorem insque_remque_queue (h : Heap) (xs ys : List Nat) (x e : Nat) (hq : Queue h (xs ++ x :: ys))
    (he : (h e).isSome) (hnew : e ∉ xs ++ x :: ys) :
    ∃ h', (insque h e (some x) >>= fun h1 => remque h1 e) = .ok h' ∧ Queue h' (xs ++ x :: ys) ∧
      ∀ q, q ≠ e → h' q = h q := by
  obtain ⟨h1, g1, g2, g3⟩ := insque_queue h xs ys x e hq he hnew
  obtain ⟨h2, k1, k2, k3⟩ := remque_queue h1 (xs ++ [x]) ys e (by simpa using g2)
  have k2' : Queue h2 (xs ++ x :: ys) := by simpa using k2
  refine ⟨h2, by simp [g1, k1], k2', ?_⟩
  intro q hqe
  by_cases hmem : q ∈ xs ++ x :: ys
  · -- both queues determine the node
    have det : ∀ (ha hb : Heap) (l : List Nat) (p n : Option Nat), Chain ha p l n → Chain hb p l n →
        ∀ q ∈ l, ha q = hb q := by
      intro ha hb l
      induction l with
      | nil => intro p n _ _ q hq; cases hq
      | cons a l ih =>
        intro p n c1 c2 q hq
        rcases List.mem_cons.1 hq with rfl | hq
        · rw [c1.1, c2.1]
        · exact ih _ _ c1.2 c2.2 q hq
    exact det _ _ _ _ _ k2'.2 hq.2 q hmem
  · rw [k3 q (by simpa using hmem), g3 q (by simp at hmem ⊢; simp [hmem, hqe])]

/-- A three-element ring, built from a self-linked element. -/
example :
    let h : Heap := fun q => if q = 1 then some ⟨some 1, some 1⟩ else if q < 4 then some ⟨none, none⟩ else none
    Ring h [1] ∧ (h 2).isSome ∧ 2 ∉ [1] := by
  simp [Ring, Chain]

end Mlibc.Linear
