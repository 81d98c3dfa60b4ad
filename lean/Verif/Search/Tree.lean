import Verif.Search.TreeModel
/-
C17 (ordered set), C18 (balance), C19 (walk).
-/
set_option linter.unusedSimpArgs false
namespace Mlibc.Search
open Mlibc Tree

variable {κ : Type}

/-! ### Specification vocabulary -/

/-- `compar` is a consistent ordering. -/
structure Order (cmp : κ → κ → Int) : Prop where
  flip : ∀ a b, cmp a b < 0 ↔ 0 < cmp b a
  trans : ∀ a b c, cmp a b ≤ 0 → cmp b c ≤ 0 → cmp a c ≤ 0

/-- The nodes (address, key) of a tree from left to right. -/
def nodes : Tree κ → List (Nat × κ)
  | nil => []
  | node id key l r _ => nodes l ++ (id, key) :: nodes r

/-- A search tree: keys strictly increase from left to right. -/
def Sorted (cmp : κ → κ → Int) (t : Tree κ) : Prop := (nodes t).Pairwise fun x y => cmp x.2 y.2 < 0

/-- The key is in the tree. -/
def Has (cmp : κ → κ → Int) (t : Tree κ) (k : κ) : Prop := ∃ e ∈ nodes t, cmp k e.2 = 0

/-- Stored heights are positive (holds for every tree the functions build). -/
def Pos : Tree κ → Prop
  | nil => True
  | node _ _ l r h => 1 ≤ h ∧ Pos l ∧ Pos r

/-- Length of the longest path from the root: what a lookup may have to walk. -/
def realHeight : Tree κ → Nat
  | nil => 0
  | node _ _ l r _ => max (realHeight l) (realHeight r) + 1

/-- Height-balanced, in terms of the real heights. -/
def Balanced : Tree κ → Prop
  | nil => True
  | node _ _ l r _ => (realHeight l ≤ realHeight r + 1 ∧ realHeight r ≤ realHeight l + 1) ∧ Balanced l ∧ Balanced r

/-! ### Order lemmas -/

section
variable {cmp : κ → κ → Int} (o : Order cmp)
include o

theorem Order.gt {a b : κ} : 0 < cmp a b ↔ cmp b a < 0 := (o.flip b a).symm

theorem Order.eq_symm {a b : κ} (h : cmp a b = 0) : cmp b a = 0 := by
  have h1 := o.flip a b
  have h2 := o.flip b a
  omega

theorem Order.lt_of_lt_of_le {a b c : κ} (h1 : cmp a b < 0) (h2 : cmp b c ≤ 0) : cmp a c < 0 := by
  have h3 := o.trans a b c (by omega) h2
  rcases Int.lt_or_eq_of_le h3 with h | h
  · exact h
  · exfalso
    have h4 := o.eq_symm h
    have h5 := o.trans b c a h2 (by omega)
    have := (o.flip a b).1 h1
    omega

theorem Order.lt_of_le_of_lt {a b c : κ} (h1 : cmp a b ≤ 0) (h2 : cmp b c < 0) : cmp a c < 0 := by
  have h3 := o.trans a b c h1 (by omega)
  rcases Int.lt_or_eq_of_le h3 with h | h
  · exact h
  · exfalso
    have h4 := o.eq_symm h
    have h5 := o.trans c a b (by omega) h1
    have := (o.flip b c).1 h2
    omega
end

/-! ### Balancing -/

theorem height_nil : (nil : Tree κ).height = 0 := rfl
theorem height_node (i : Nat) (k : κ) (l r : Tree κ) (h : Int) : (node i k l r h).height = h := rfl

theorem height_nonneg {t : Tree κ} (h : Pos t) : 0 ≤ t.height := by
  cases t with
  | nil => simp [height]
  | node => simp only [Pos] at h; simp only [height]; omega

theorem height_pos_node {t : Tree κ} (h : 0 < t.height) : ∃ i k l r x, t = node i k l r x := by
  cases t with
  | nil => simp [height] at h
  | node i k l r x => exact ⟨i, k, l, r, x, rfl⟩

theorem nodes_mk (id : Nat) (key : κ) (side : Bool) (s o : Tree κ) (h : Int) :
    nodes (mk id key side s o h) = if side then nodes o ++ (id, key) :: nodes s else nodes s ++ (id, key) :: nodes o := by
  cases side <;> rfl

theorem balance_ok {id : Nat} {key : κ} {l r : Tree κ} {h : Int} (hl : Pos l) (hr : Pos r) :
    ∃ t d, balance (node id key l r h) = .ok (t, d) ∧ nodes t = nodes l ++ (id, key) :: nodes r ∧ Pos t := by
  have h1 := height_nonneg hl
  have h2 := height_nonneg hr
  unfold balance
  simp only
  by_cases hb : (l.height - r.height).natAbs < 2
  · simp only [hb, if_true]
    refine ⟨_, _, rfl, rfl, ?_⟩
    simp only [Pos]
    refine ⟨?_, hl, hr⟩
    split <;> omega
  · simp only [hb, if_false]
    by_cases hs : l.height < r.height
    · obtain ⟨xi, xk, xl, xr, xh, rfl⟩ := height_pos_node (t := r) (by omega)
      simp only [Pos] at hr
      have h3 := height_nonneg hr.2.1
      have h4 := height_nonneg hr.2.2
      simp only [hs, decide_true, rotate, child, if_true, Bool.not_true, Bool.false_eq_true, if_false]
      by_cases hd : xl.height > xr.height
      · obtain ⟨yi, yk, yl, yr, yh, rfl⟩ := height_pos_node (t := xl) (by omega)
        simp only [hd, if_true]
        refine ⟨_, _, rfl, by simp [mk, nodes], ?_⟩
        simp only [mk, if_true, Pos]
        simp only [height, Pos] at *
        refine ⟨by omega, ⟨by omega, hl, hr.2.1.2.1⟩, by omega, hr.2.1.2.2, hr.2.2⟩
      · simp only [hd, if_false]
        refine ⟨_, _, rfl, by simp [mk, nodes], ?_⟩
        simp only [mk, if_true, Pos]
        exact ⟨by omega, ⟨by omega, hl, hr.2.1⟩, hr.2.2⟩
    · obtain ⟨xi, xk, xl, xr, xh, rfl⟩ := height_pos_node (t := l) (by omega)
      simp only [Pos] at hl
      have h3 := height_nonneg hl.2.1
      have h4 := height_nonneg hl.2.2
      simp only [hs, decide_false, rotate, child, if_true, Bool.not_false, Bool.false_eq_true, if_false]
      by_cases hd : xr.height > xl.height
      · obtain ⟨yi, yk, yl, yr, yh, rfl⟩ := height_pos_node (t := xr) (by omega)
        simp only [hd, if_true]
        refine ⟨_, _, rfl, by simp [mk, nodes], ?_⟩
        simp only [mk, Bool.false_eq_true, if_false, Pos]
        simp only [height, Pos] at *
        refine ⟨by omega, ⟨by omega, hl.2.1, hl.2.2.2.1⟩, by omega, hl.2.2.2.2, hr⟩
      · simp only [hd, if_false]
        refine ⟨_, _, rfl, by simp [mk, nodes], ?_⟩
        simp only [mk, Bool.false_eq_true, if_false, Pos]
        exact ⟨by omega, hl.2.1, by omega, hl.2.2, hr⟩

theorem balanceUp_ok {id : Nat} {key : κ} {l r : Tree κ} {h : Int} (hh : 1 ≤ h) (hl : Pos l) (hr : Pos r) (go : Bool) :
    ∃ t g, balanceUp (node id key l r h) go = .ok (t, g) ∧ nodes t = nodes l ++ (id, key) :: nodes r ∧ Pos t := by
  cases go with
  | false => exact ⟨_, _, rfl, rfl, hh, hl, hr⟩
  | true =>
    obtain ⟨t, d, e, h1, h2⟩ := balance_ok (id := id) (key := key) (h := h) hl hr
    exact ⟨t, decide (d ≠ 0), by simp [balanceUp, e], h1, h2⟩

/-! ### Insertion -/

section
variable {cmp : κ → κ → Int} (o : Order cmp)

theorem sorted_node {id : Nat} {key : κ} {l r : Tree κ} {h : Int} (hs : Sorted cmp (node id key l r h)) :
    Sorted cmp l ∧ Sorted cmp r ∧ (∀ e ∈ nodes l, cmp e.2 key < 0) ∧ (∀ e ∈ nodes r, cmp key e.2 < 0) := by
  simp only [Sorted, nodes, List.pairwise_append, List.pairwise_cons, List.mem_cons, forall_eq_or_imp] at hs
  exact ⟨hs.1, hs.2.1.2, fun e he => (hs.2.2 e he).1, hs.2.1.1⟩

include o

/-- Which side of a node keys equal to `k` are on. -/
theorem left_of {id : Nat} {key k : κ} {l r : Tree κ} {h : Int} (hs : Sorted cmp (node id key l r h))
    (hc : cmp k key < 0) : ∀ e ∈ (id, key) :: nodes r, cmp k e.2 < 0 := by
  obtain ⟨_, _, _, h4⟩ := sorted_node hs
  intro e he
  rcases List.mem_cons.1 he with rfl | he
  · exact hc
  · exact o.lt_of_lt_of_le hc (Int.le_of_lt (h4 e he))

theorem right_of {id : Nat} {key k : κ} {l r : Tree κ} {h : Int} (hs : Sorted cmp (node id key l r h))
    (hc : 0 < cmp k key) : ∀ e ∈ nodes l ++ [(id, key)], 0 < cmp k e.2 := by
  obtain ⟨_, _, h3, _⟩ := sorted_node hs
  intro e he
  rcases List.mem_append.1 he with he | he
  · rw [o.gt]
    exact o.lt_of_lt_of_le (h3 e he) (Int.le_of_lt (o.gt.1 hc))
  · rw [List.mem_singleton.1 he]; exact hc

theorem insert_ok (k : κ) (nid : Nat) (t : Tree κ) (hs : Sorted cmp t) (hp : Pos t) :
    ∃ t' ret go, insert cmp k nid t = .ok (t', ret, go) ∧ Pos t' ∧
      ((∃ e ∈ nodes t, cmp k e.2 = 0 ∧ t' = t ∧ ret = e.1 ∧ go = false) ∨
       (∃ L R, nodes t = L ++ R ∧ nodes t' = L ++ (nid, k) :: R ∧ ret = nid ∧
          (∀ e ∈ L, 0 < cmp k e.2) ∧ (∀ e ∈ R, cmp k e.2 < 0))) := by
  induction t with
  | nil => exact ⟨_, _, _, rfl, by simp [Pos], Or.inr ⟨[], [], rfl, rfl, rfl, by simp, by simp⟩⟩
  | node id key l r h ihl ihr =>
    obtain ⟨s1, s2, s3, s4⟩ := sorted_node hs
    have hp' := hp
    simp only [Pos] at hp'
    rw [Tree.insert]
    by_cases c0 : cmp k key = 0
    · simp only [c0, if_true]
      exact ⟨_, _, _, rfl, hp, Or.inl ⟨(id, key), by simp [nodes], c0, rfl, rfl, rfl⟩⟩
    · by_cases c1 : cmp k key > 0
      · simp only [c0, c1, if_true, if_false]
        obtain ⟨r', ret, go, e1, e2, e3⟩ := ihr s2 hp'.2.2
        obtain ⟨t', g, e4, e5, e6⟩ := balanceUp_ok (id := id) (key := key) hp'.1 hp'.2.1 e2 go
        refine ⟨t', ret, g, by simp [e1, e4], e6, ?_⟩
        rcases e3 with ⟨e, he, hc, rfl, rfl, rfl⟩ | ⟨L, R, g1, g2, g3, g4, g5⟩
        · simp [balanceUp] at e4
          exact Or.inl ⟨e, by simp [nodes, he], hc, e4.1.symm, rfl, e4.2⟩
        · refine Or.inr ⟨nodes l ++ (id, key) :: L, R, by simp [nodes, g1], by simp [e5, g2], g3, ?_, g5⟩
          intro e he
          simp only [List.mem_append, List.mem_cons] at he
          rcases he with he | rfl | he
          · exact right_of o hs c1 e (by simp [he])
          · exact c1
          · exact g4 e he
      · have c2 : cmp k key < 0 := by omega
        simp only [c0, c1, if_false]
        obtain ⟨l', ret, go, e1, e2, e3⟩ := ihl s1 hp'.2.1
        obtain ⟨t', g, e4, e5, e6⟩ := balanceUp_ok (id := id) (key := key) hp'.1 e2 hp'.2.2 go
        refine ⟨t', ret, g, by simp [e1, e4], e6, ?_⟩
        rcases e3 with ⟨e, he, hc, rfl, rfl, rfl⟩ | ⟨L, R, g1, g2, g3, g4, g5⟩
        · simp [balanceUp] at e4
          exact Or.inl ⟨e, by simp [nodes, he], hc, e4.1.symm, rfl, e4.2⟩
        · refine Or.inr ⟨L, R ++ (id, key) :: nodes r, by simp [nodes, g1], by simp [e5, g2], g3, g4, ?_⟩
          intro e he
          simp only [List.mem_append] at he
          rcases he with he | he
          · exact g5 e he
          · exact left_of o hs c2 e he

theorem tfind_iff (k : κ) (t : Tree κ) (hs : Sorted cmp t) (i : Nat) :
    tfind cmp k t = some i ↔ ∃ e ∈ nodes t, cmp k e.2 = 0 ∧ e.1 = i := by
  induction t with
  | nil => simp [tfind, nodes]
  | node id key l r h ihl ihr =>
    obtain ⟨s1, s2, s3, s4⟩ := sorted_node hs
    rw [tfind]
    by_cases c0 : cmp k key = 0
    · simp only [c0, if_true, Option.some.injEq]
      constructor
      · rintro rfl; exact ⟨(id, key), by simp [nodes], c0, rfl⟩
      · rintro ⟨e, he, hc, rfl⟩
        simp only [nodes, List.mem_append, List.mem_cons] at he
        rcases he with he | rfl | he
        · have := o.lt_of_le_of_lt (Int.le_of_eq hc) (s3 e he); omega
        · rfl
        · have := o.lt_of_le_of_lt (Int.le_of_eq c0) (s4 e he); omega
    · by_cases c1 : cmp k key > 0
      · simp only [c0, c1, if_true, if_false, ihr s2]
        constructor
        · rintro ⟨e, he, h⟩; exact ⟨e, by simp [nodes, he], h⟩
        · rintro ⟨e, he, hc, hi⟩
          simp only [nodes, List.mem_append, List.mem_cons] at he
          rcases he with he | rfl | he
          · have := right_of o hs c1 e (by simp [he]); omega
          · exact absurd hc c0
          · exact ⟨e, he, hc, hi⟩
      · simp only [c0, c1, if_false, ihl s1]
        constructor
        · rintro ⟨e, he, h⟩; exact ⟨e, by simp [nodes, he], h⟩
        · rintro ⟨e, he, hc, hi⟩
          have c2 : cmp k key < 0 := by omega
          simp only [nodes, List.mem_append] at he
          rcases he with he | he
          · exact ⟨e, he, hc, hi⟩
          · have := left_of o hs c2 e he; omega
end

/-! ### Deletion -/

theorem removeMax_ok (t : Tree κ) (hp : Pos t) (hn : t ≠ nil) :
    ∃ t' q go, removeMax t = .ok (t', q, go) ∧ nodes t = nodes t' ++ [(q.1, q.2.1)] ∧ Pos t' ∧ 1 ≤ q.2.2 := by
  induction t with
  | nil => exact absurd rfl hn
  | node id key l r h ihl ihr =>
    simp only [Pos] at hp
    cases r with
    | nil => exact ⟨_, _, _, rfl, by simp [nodes], hp.2.1, hp.1⟩
    | node id' key' l' r' h' =>
      obtain ⟨t', q, go, e1, e2, e3, e4⟩ := ihr hp.2.2 (by simp)
      obtain ⟨t2, g, f1, f2, f3⟩ := balanceUp_ok (id := id) (key := key) hp.1 hp.2.1 e3 go
      refine ⟨t2, q, g, by rw [removeMax]; simp [e1, f1], ?_, f3, e4⟩
      rw [f2]
      conv => lhs; rw [nodes]
      rw [e2]; simp

theorem removeNode_ok (l r : Tree κ) (hl : Pos l) (hr : Pos r) :
    ∃ t go, removeNode l r = .ok (t, go) ∧ nodes t = nodes l ++ nodes r ∧ Pos t := by
  cases l with
  | nil =>
    cases r with
    | nil => exact ⟨_, _, rfl, rfl, trivial⟩
    | node id key l r h =>
      simp only [Pos] at hr
      obtain ⟨t, g, e1, e2, e3⟩ := balanceUp_ok (id := id) (key := key) hr.1 hr.2.1 hr.2.2 true
      exact ⟨t, g, e1, by simp [e2, nodes], e3⟩
  | node pid pkey pl pr ph =>
    simp only [Pos] at hl
    cases r with
    | nil =>
      obtain ⟨t, g, e1, e2, e3⟩ := balanceUp_ok (id := pid) (key := pkey) hl.1 hl.2.1 hl.2.2 true
      exact ⟨t, g, e1, by simp [e2, nodes], e3⟩
    | node id key l r h =>
      cases pr with
      | nil =>
        obtain ⟨t, g, e1, e2, e3⟩ := balanceUp_ok (id := pid) (key := pkey) hl.1 hl.2.1 hr true
        exact ⟨t, g, e1, by simp [e2, nodes], e3⟩
      | node qi qk ql qr qh =>
        obtain ⟨t', q, go, e1, e2, e3, e4⟩ := removeMax_ok _ hl.2.2 (by simp)
        have hp : Pos (node pid pkey pl t' ph) := ⟨hl.1, hl.2.1, e3⟩
        obtain ⟨t, g, f1, f2, f3⟩ := balanceUp_ok (id := q.1) (key := q.2.1) e4 hp hr go
        refine ⟨t, g, ?_, ?_, f3⟩
        · rw [removeNode]
          · simp [e1, f1]
          · simp
          · simp
        · rw [f2]
          simp only [nodes] at e2 ⊢
          rw [e2]; simp

section
variable {cmp : κ → κ → Int} (o : Order cmp)
include o

theorem delete_ok (k : κ) (t : Tree κ) (hs : Sorted cmp t) (hp : Pos t) : ∀ parent,
    (¬ Has cmp t k ∧ delete cmp k parent t = .ok none) ∨
    (∃ t' ret go, delete cmp k parent t = .ok (some (t', ret, go)) ∧ Pos t' ∧
      ∃ L e R, nodes t = L ++ e :: R ∧ nodes t' = L ++ R ∧ cmp k e.2 = 0) := by
  induction t with
  | nil => intro parent; exact Or.inl ⟨by simp [Has, nodes], rfl⟩
  | node id key l r h ihl ihr =>
    intro parent
    obtain ⟨s1, s2, s3, s4⟩ := sorted_node hs
    simp only [Pos] at hp
    rw [delete]
    by_cases c0 : cmp k key = 0
    · simp only [c0, if_true]
      obtain ⟨t, go, e1, e2, e3⟩ := removeNode_ok l r hp.2.1 hp.2.2
      exact Or.inr ⟨t, parent.getD id, go, by simp [e1], e3, nodes l, (id, key), nodes r, rfl, e2, c0⟩
    · by_cases c1 : cmp k key > 0
      · simp only [c0, c1, if_true, if_false]
        rcases ihr s2 hp.2.2 (some id) with ⟨n1, n2⟩ | ⟨r', ret, go, e1, e2, L, e, R, g1, g2, g3⟩
        · refine Or.inl ⟨?_, by simp [n2]⟩
          rintro ⟨e, he, hc⟩
          simp only [nodes, List.mem_append, List.mem_cons] at he
          rcases he with he | rfl | he
          · have := right_of o hs c1 e (by simp [he]); omega
          · exact c0 hc
          · exact n1 ⟨e, he, hc⟩
        · obtain ⟨t', g, f1, f2, f3⟩ := balanceUp_ok (id := id) (key := key) hp.1 hp.2.1 e2 go
          refine Or.inr ⟨t', ret, g, by simp [e1, f1], f3, nodes l ++ (id, key) :: L, e, R, by simp [nodes, g1],
            by simp [f2, g2], g3⟩
      · simp only [c0, c1, if_false]
        have c2 : cmp k key < 0 := by omega
        rcases ihl s1 hp.2.1 (some id) with ⟨n1, n2⟩ | ⟨l', ret, go, e1, e2, L, e, R, g1, g2, g3⟩
        · refine Or.inl ⟨?_, by simp [n2]⟩
          rintro ⟨e, he, hc⟩
          simp only [nodes, List.mem_append] at he
          rcases he with he | he
          · exact n1 ⟨e, he, hc⟩
          · have := left_of o hs c2 e he; omega
        · obtain ⟨t', g, f1, f2, f3⟩ := balanceUp_ok (id := id) (key := key) hp.1 e2 hp.2.2 go
          refine Or.inr ⟨t', ret, g, by simp [e1, f1], f3, L, e, R ++ (id, key) :: nodes r, by simp [nodes, g1],
            by simp [f2, g2], g3⟩

/-! ### C17, one call -/

/-- **C17, tsearch, key present**: the existing node is returned and the tree is unchanged. -/
theorem tsearch_present (k : κ) (nid : Nat) (t : Tree κ) (hs : Sorted cmp t) (hp : Pos t) (h : Has cmp t k) :
    ∃ e ∈ nodes t, cmp k e.2 = 0 ∧ tsearch cmp k nid t = .ok (t, e.1) := by
  obtain ⟨t', ret, go, e1, _, h1 | h1⟩ := insert_ok o k nid t hs hp
  · obtain ⟨e, he, hc, rfl, rfl, _⟩ := h1
    exact ⟨e, he, hc, by simp [tsearch, e1]⟩
  · obtain ⟨L, R, g1, g2, g3, g4, g5⟩ := h1
    obtain ⟨e, he, hc⟩ := h
    rw [g1, List.mem_append] at he
    rcases he with he | he
    · have := g4 e he; omega
    · have := g5 e he; omega

/-- **C17, tsearch, key absent**: the new node is returned, the tree is still a search tree and has exactly the old
nodes and the new one. -/
theorem tsearch_absent (k : κ) (nid : Nat) (t : Tree κ) (hs : Sorted cmp t) (hp : Pos t) (h : ¬ Has cmp t k) :
    ∃ t', tsearch cmp k nid t = .ok (t', nid) ∧ Sorted cmp t' ∧ Pos t' ∧ (nodes t').Perm ((nid, k) :: nodes t) := by
  obtain ⟨t', ret, go, e1, e2, h1 | h1⟩ := insert_ok o k nid t hs hp
  · obtain ⟨e, he, hc, _⟩ := h1
    exact absurd ⟨e, he, hc⟩ h
  · obtain ⟨L, R, g1, g2, rfl, g4, g5⟩ := h1
    refine ⟨t', by simp [tsearch, e1], ?_, e2, ?_⟩
    · unfold Sorted at hs ⊢
      rw [g1, List.pairwise_append] at hs
      rw [g2, List.pairwise_append, List.pairwise_cons]
      refine ⟨hs.1, ⟨fun e he => g5 e he, hs.2.1⟩, ?_⟩
      intro a ha b hb
      rcases List.mem_cons.1 hb with rfl | hb
      · exact o.gt.1 (g4 a ha)
      · exact hs.2.2 a ha b hb
    · rw [g2, g1]; exact List.perm_middle

/-- **C17, tfind**: returns a node iff the key is present, namely the node with that key. -/
theorem tfind_present (k : κ) (t : Tree κ) (hs : Sorted cmp t) :
    ((tfind cmp k t).isSome ↔ Has cmp t k) ∧
    ∀ i, tfind cmp k t = some i → ∃ e ∈ nodes t, cmp k e.2 = 0 ∧ e.1 = i := by
  refine ⟨?_, fun i hi => (tfind_iff o k t hs i).1 hi⟩
  constructor
  · intro h
    obtain ⟨i, hi⟩ := Option.isSome_iff_exists.1 h
    obtain ⟨e, he, hc, _⟩ := (tfind_iff o k t hs i).1 hi
    exact ⟨e, he, hc⟩
  · rintro ⟨e, he, hc⟩
    rw [(tfind_iff o k t hs e.1).2 ⟨e, he, hc, rfl⟩]; rfl

/-- **C17, tdelete, key absent**: NULL, tree unchanged. -/
theorem tdelete_absent (k : κ) (t : Tree κ) (hs : Sorted cmp t) (hp : Pos t) (h : ¬ Has cmp t k) :
    tdelete cmp k t = .ok (t, none) := by
  rcases delete_ok o k t hs hp none with ⟨_, h2⟩ | ⟨t', ret, go, e1, _, L, e, R, g1, _, g3⟩
  · simp [tdelete, h2]
  · exact absurd ⟨e, by simp [g1], g3⟩ h

/-- **C17, tdelete, key present**: a non-null pointer, the tree is still a search tree and has exactly the other
nodes. -/
theorem tdelete_present (k : κ) (t : Tree κ) (hs : Sorted cmp t) (hp : Pos t) (h : Has cmp t k) :
    ∃ t' ret, tdelete cmp k t = .ok (t', some ret) ∧ Sorted cmp t' ∧ Pos t' ∧
      ∃ e, cmp k e.2 = 0 ∧ (nodes t).Perm (e :: nodes t') ∧ ¬ Has cmp t' k := by
  rcases delete_ok o k t hs hp none with ⟨h1, _⟩ | ⟨t', ret, go, e1, e2, L, e, R, g1, g2, g3⟩
  · exact absurd h h1
  · unfold Sorted at hs
    rw [g1, List.pairwise_append, List.pairwise_cons] at hs
    refine ⟨t', ret, by simp [tdelete, e1], ?_, e2, e, g3, by rw [g1, g2]; exact List.perm_middle, ?_⟩
    · unfold Sorted
      rw [g2, List.pairwise_append]
      exact ⟨hs.1, hs.2.1.2, fun a ha b hb => hs.2.2 a ha b (List.mem_cons_of_mem _ hb)⟩
    · rintro ⟨e', he, hc⟩
      rw [g2, List.mem_append] at he
      rcases he with he | he
      · have h1 := hs.2.2 e' he e (by simp)
        have := o.lt_of_le_of_lt (Int.le_of_eq hc) h1; omega
      · have h1 := hs.2.1.1 e' he
        have := o.lt_of_le_of_lt (Int.le_of_eq g3) h1; omega
end

/-! ### C17, histories -/

/-- A call. `ins k nid`: tsearch(k), malloc would return `nid`. -/
inductive Op (κ : Type) where
  | ins (k : κ) (nid : Nat)
  | del (k : κ)

/-- One call on the tree. -/
def apply (cmp : κ → κ → Int) (t : Tree κ) : Op κ → Res (Tree κ)
  | .ins k nid => do let (t, _) ← tsearch cmp k nid t; return t
  | .del k => do let (t, _) ← tdelete cmp k t; return t

/-- A history of calls. -/
def run (cmp : κ → κ → Int) (t : Tree κ) : List (Op κ) → Res (Tree κ)
  | [] => .ok t
  | op :: ops => do let t ← apply cmp t op; run cmp t ops

/-- Specification: whether key `k` is present after a history, given whether it was before. Only the last call
with an equal key matters. -/
def present (cmp : κ → κ → Int) (k : κ) (before : Prop) : List (Op κ) → Prop
  | [] => before
  | .ins k' _ :: ops => present cmp k (before ∨ cmp k k' = 0) ops
  | .del k' :: ops => present cmp k (before ∧ cmp k k' ≠ 0) ops

theorem present_congr {cmp : κ → κ → Int} {k : κ} {p q : Prop} (h : p ↔ q) (ops : List (Op κ)) :
    present cmp k p ops ↔ present cmp k q ops := by rw [propext h]

section
variable {cmp : κ → κ → Int} (o : Order cmp)
include o

theorem Order.eq_trans {a b c : κ} (h1 : cmp a b = 0) (h2 : cmp b c = 0) : cmp a c = 0 := by
  have h3 := o.trans a b c (by omega) (by omega)
  have h4 := o.trans c b a (by rw [o.eq_symm h2]; omega) (by rw [o.eq_symm h1]; omega)
  have h5 := o.flip a c
  omega

theorem apply_ok (t : Tree κ) (hs : Sorted cmp t) (hp : Pos t) (op : Op κ) :
    ∃ t', apply cmp t op = .ok t' ∧ Sorted cmp t' ∧ Pos t' ∧
      ∀ k, Has cmp t' k ↔ present cmp k (Has cmp t k) [op] := by
  cases op with
  | ins k' nid =>
    by_cases h : Has cmp t k'
    · obtain ⟨e, he, hc, h1⟩ := tsearch_present o k' nid t hs hp h
      refine ⟨t, by simp [apply, h1], hs, hp, fun k => ?_⟩
      simp only [present]
      constructor
      · exact Or.inl
      · rintro (h | h)
        · exact h
        · exact ⟨e, he, o.eq_trans h hc⟩
    · obtain ⟨t', h1, h2, h3, h4⟩ := tsearch_absent o k' nid t hs hp h
      refine ⟨t', by simp [apply, h1], h2, h3, fun k => ?_⟩
      simp only [present, Has]
      constructor
      · rintro ⟨e, he, hc⟩
        rcases List.mem_cons.1 (h4.mem_iff.1 he) with rfl | he
        · exact Or.inr hc
        · exact Or.inl ⟨e, he, hc⟩
      · rintro (⟨e, he, hc⟩ | h)
        · exact ⟨e, h4.mem_iff.2 (List.mem_cons_of_mem _ he), hc⟩
        · exact ⟨(nid, k'), h4.mem_iff.2 (by simp), h⟩
  | del k' =>
    by_cases h : Has cmp t k'
    · obtain ⟨t', ret, h1, h2, h3, e, h4, h5, h6⟩ := tdelete_present o k' t hs hp h
      refine ⟨t', by simp [apply, h1], h2, h3, fun k => ?_⟩
      simp only [present]
      constructor
      · rintro ⟨e', he, hc⟩
        refine ⟨⟨e', h5.mem_iff.2 (List.mem_cons_of_mem _ he), hc⟩, fun hk => h6 ⟨e', he, ?_⟩⟩
        exact o.eq_trans (o.eq_symm hk) hc
      · rintro ⟨⟨e', he, hc⟩, hk⟩
        rcases List.mem_cons.1 (h5.mem_iff.1 he) with rfl | he
        · exact absurd (o.eq_trans hc (o.eq_symm h4)) hk
        · exact ⟨e', he, hc⟩
    · refine ⟨t, by simp [apply, tdelete_absent o k' t hs hp h], hs, hp, fun k => ?_⟩
      simp only [present]
      constructor
      · rintro ⟨e, he, hc⟩
        exact ⟨⟨e, he, hc⟩, fun hk => h ⟨e, he, o.eq_trans (o.eq_symm hk) hc⟩⟩
      · exact And.left

theorem run_ok (ops : List (Op κ)) : ∀ (t : Tree κ), Sorted cmp t → Pos t →
    ∃ t', run cmp t ops = .ok t' ∧ Sorted cmp t' ∧ Pos t' ∧ ∀ k, Has cmp t' k ↔ present cmp k (Has cmp t k) ops := by
  induction ops with
  | nil => intro t hs hp; exact ⟨t, rfl, hs, hp, fun k => Iff.rfl⟩
  | cons op ops ih =>
    intro t hs hp
    obtain ⟨t1, h1, h2, h3, h4⟩ := apply_ok o t hs hp op
    obtain ⟨t2, g1, g2, g3, g4⟩ := ih t1 h2 h3
    refine ⟨t2, by simp [run, h1, g1], g2, g3, fun k => (g4 k).trans ?_⟩
    rw [present_congr (h4 k) ops]
    cases op <;> exact Iff.rfl

/-- **C17, every history.** After any sequence of tsearch and tdelete calls on an initially empty tree no call has
crashed, the tree is a search tree, and tfind(k) finds a node iff the history says that `k` was inserted and not
deleted since. -/
theorem tree_is_ordered_set (ops : List (Op κ)) :
    ∃ t, run cmp nil ops = .ok t ∧ Sorted cmp t ∧ Pos t ∧
      ∀ k, (tfind cmp k t).isSome ↔ present cmp k False ops := by
  obtain ⟨t, h1, h2, h3, h4⟩ := run_ok o ops nil (by simp [Sorted, nodes]) trivial
  refine ⟨t, h1, h2, h3, fun k => ?_⟩
  rw [(tfind_present o k t h2).1, h4 k]
  exact present_congr (by simp [Has, nodes]) ops
end

/-- The hypotheses are met by the integers; the sequence below leaves 1 and 4. -/
example : Order (fun a b : Int => a - b) := ⟨fun a b => by omega, fun a b c => by omega⟩
example : present (fun a b : Int => a - b) 4 False [.ins 1 10, .ins 3 11, .ins 4 12, .del 3] := by
  simp [present]

/-! ### C18 -/

/-- Stored heights are right and the tree is balanced. -/
def AVL : Tree κ → Prop
  | nil => True
  | node _ _ l r h => AVL l ∧ AVL r ∧ h = max l.height r.height + 1 ∧
      l.height ≤ r.height + 1 ∧ r.height ≤ l.height + 1

theorem AVL.realHeight {t : Tree κ} (h : AVL t) : t.height = realHeight t := by
  induction t with
  | nil => rfl
  | node id key l r x ihl ihr =>
    simp only [AVL] at h
    simp only [height_node, Search.realHeight, h.2.2.1, ihl h.1, ihr h.2.1]
    omega

theorem AVL.pos {t : Tree κ} (h : AVL t) : Pos t := by
  induction t with
  | nil => trivial
  | node id key l r x ihl ihr =>
    simp only [AVL] at h
    have h1 := h.1.realHeight
    have h2 := h.2.1.realHeight
    exact ⟨by omega, ihl h.1, ihr h.2.1⟩

theorem AVL.balanced {t : Tree κ} (h : AVL t) : Balanced t := by
  induction t with
  | nil => trivial
  | node id key l r x ihl ihr =>
    simp only [AVL] at h
    have h1 := h.1.realHeight
    have h2 := h.2.1.realHeight
    exact ⟨⟨by omega, by omega⟩, ihl h.1, ihr h.2.1⟩

theorem balance_avl {id : Nat} {key : κ} {l r : Tree κ} {h : Int} (hl : AVL l) (hr : AVL r)
    (h1 : l.height ≤ r.height + 2) (h2 : r.height ≤ l.height + 2) :
    ∃ t d, balance (node id key l r h) = .ok (t, d) ∧ AVL t ∧ d = t.height - h ∧
      max l.height r.height ≤ t.height ∧ t.height ≤ max l.height r.height + 1 ∧
      (l.height ≤ r.height + 1 → r.height ≤ l.height + 1 → t.height = max l.height r.height + 1) := by
  have p1 := height_nonneg hl.pos
  have p2 := height_nonneg hr.pos
  unfold balance
  simp only
  by_cases hb : (l.height - r.height).natAbs < 2
  · simp only [hb, if_true]
    refine ⟨_, _, rfl, ?_, rfl, ?_⟩
    · simp only [AVL]
      refine ⟨hl, hr, ?_, by omega, by omega⟩
      split <;> omega
    · simp only [height_node]; split <;> omega
  · simp only [hb, if_false]
    by_cases hs : l.height < r.height
    · obtain ⟨xi, xk, xl, xr, xh, rfl⟩ := height_pos_node (t := r) (by omega)
      simp only [AVL] at hr
      simp only [height_node] at h1 h2 hb hs p2
      have h3 := height_nonneg hr.1.pos
      have h4 := height_nonneg hr.2.1.pos
      simp only [height_node, hs, decide_true, rotate, child, if_true, Bool.not_true, Bool.false_eq_true, if_false]
      by_cases hd : xl.height > xr.height
      · obtain ⟨yi, yk, yl, yr, yh, rfl⟩ := height_pos_node (t := xl) (by omega)
        have hy := hr.1
        simp only [AVL] at hy
        simp only [hd, if_true]
        refine ⟨_, _, rfl, ?_, by simp [mk, height_node], ?_⟩
        · simp only [mk, if_true, AVL]
          simp only [height_node] at hd h1 h2 hb hs h3 h4 hr hl ⊢
          refine ⟨⟨hl, hy.1, by omega, by omega, by omega⟩, ⟨hy.2.1, hr.2.1, by omega, by omega, by omega⟩,
            by omega, by omega, by omega⟩
        · simp only [mk, if_true, height_node] at *; omega
      · simp only [hd, if_false]
        refine ⟨_, _, rfl, ?_, by simp [mk, height_node], ?_⟩
        · simp only [mk, if_true, AVL]
          simp only [height_node] at hd h1 h2 hb hs h3 h4 hr hl ⊢
          refine ⟨⟨hl, hr.1, by omega, by omega, by omega⟩, hr.2.1, by omega, by omega, by omega⟩
        · simp only [mk, if_true, height_node] at *; omega
    · obtain ⟨xi, xk, xl, xr, xh, rfl⟩ := height_pos_node (t := l) (by omega)
      simp only [AVL] at hl
      simp only [height_node] at h1 h2 hb hs p1
      have h3 := height_nonneg hl.1.pos
      have h4 := height_nonneg hl.2.1.pos
      simp only [height_node, hs, decide_false, rotate, child, if_true, Bool.not_false, Bool.false_eq_true, if_false]
      by_cases hd : xr.height > xl.height
      · obtain ⟨yi, yk, yl, yr, yh, rfl⟩ := height_pos_node (t := xr) (by omega)
        have hy := hl.2.1
        simp only [AVL] at hy
        simp only [hd, if_true]
        refine ⟨_, _, rfl, ?_, by simp [mk, height_node], ?_⟩
        · simp only [mk, Bool.false_eq_true, if_false, AVL]
          simp only [height_node] at hd h1 h2 hb hs h3 h4 hr hl ⊢
          refine ⟨⟨hl.1, hy.1, by omega, by omega, by omega⟩, ⟨hy.2.1, hr, by omega, by omega, by omega⟩,
            by omega, by omega, by omega⟩
        · simp only [mk, Bool.false_eq_true, if_false, height_node] at *; omega
      · simp only [hd, if_false]
        refine ⟨_, _, rfl, ?_, by simp [mk, height_node], ?_⟩
        · simp only [mk, Bool.false_eq_true, if_false, AVL]
          simp only [height_node] at hd h1 h2 hb hs h3 h4 hr hl ⊢
          refine ⟨hl.1, ⟨hl.2.1, hr, by omega, by omega, by omega⟩, by omega, by omega, by omega⟩
        · simp only [mk, Bool.false_eq_true, if_false, height_node] at *; omega

theorem balanceUp_avl {id : Nat} {key : κ} {l r l' r' : Tree κ} {h : Int} (hl : AVL l') (hr : AVL r')
    (hold : AVL (node id key l r h)) (go : Bool)
    (hc : (r' = r ∧ l.height ≤ l'.height ∧ l'.height ≤ l.height + 1 ∧ (go = false → l'.height = l.height)) ∨
          (l' = l ∧ r.height ≤ r'.height ∧ r'.height ≤ r.height + 1 ∧ (go = false → r'.height = r.height))) :
    ∃ t g, balanceUp (node id key l' r' h) go = .ok (t, g) ∧ AVL t ∧ h ≤ t.height ∧ t.height ≤ h + 1 ∧
      (g = false → t.height = h) := by
  simp only [AVL] at hold
  have p1 := height_nonneg hl.pos
  have p2 := height_nonneg hr.pos
  cases go with
  | false =>
    refine ⟨_, _, rfl, ?_, by simp [height_node, height_nil], by simp [height_node, height_nil]; omega, by simp [height_node, height_nil]⟩
    simp only [AVL]
    refine ⟨hl, hr, ?_, ?_, ?_⟩ <;> rcases hc with ⟨rfl, h1, h2, h3⟩ | ⟨rfl, h1, h2, h3⟩ <;>
      simp only [forall_const] at h3 <;> omega
  | true =>
    have q1 : l'.height ≤ r'.height + 2 := by rcases hc with ⟨rfl, h1, h2, _⟩ | ⟨rfl, h1, h2, _⟩ <;> omega
    have q2 : r'.height ≤ l'.height + 2 := by rcases hc with ⟨rfl, h1, h2, _⟩ | ⟨rfl, h1, h2, _⟩ <;> omega
    obtain ⟨t, d, e1, e2, e3, e4, e5, e6⟩ := balance_avl (id := id) (key := key) (h := h) hl hr q1 q2
    have e4a : l'.height ≤ t.height := by omega
    have e4b : r'.height ≤ t.height := by omega
    clear e4
    refine ⟨t, decide (d ≠ 0), by simp [balanceUp, e1], e2, ?_, ?_, ?_⟩
    · by_cases hx : l'.height ≤ r'.height + 1 ∧ r'.height ≤ l'.height + 1
      · have := e6 hx.1 hx.2
        rcases hc with ⟨rfl, h1, h2, _⟩ | ⟨rfl, h1, h2, _⟩ <;> omega
      · rcases hc with ⟨rfl, h1, h2, _⟩ | ⟨rfl, h1, h2, _⟩
        · have w1 : l'.height = r'.height + 2 := by omega
          have w2 : l.height = r'.height + 1 := by omega
          have w3 : max l'.height r'.height = l'.height := by omega
          have w4 : max l.height r'.height = l.height := by omega
          omega
        · have w1 : r'.height = l'.height + 2 := by omega
          have w2 : r.height = l'.height + 1 := by omega
          have w3 : max l'.height r'.height = r'.height := by omega
          have w4 : max l'.height r.height = r.height := by omega
          omega
    · by_cases hx : l'.height ≤ r'.height + 1 ∧ r'.height ≤ l'.height + 1
      · have := e6 hx.1 hx.2
        rcases hc with ⟨rfl, h1, h2, _⟩ | ⟨rfl, h1, h2, _⟩ <;> omega
      · rcases hc with ⟨rfl, h1, h2, _⟩ | ⟨rfl, h1, h2, _⟩
        · have w1 : l'.height = r'.height + 2 := by omega
          have w2 : l.height = r'.height + 1 := by omega
          have w3 : max l'.height r'.height = l'.height := by omega
          have w4 : max l.height r'.height = l.height := by omega
          omega
        · have w1 : r'.height = l'.height + 2 := by omega
          have w2 : r.height = l'.height + 1 := by omega
          have w3 : max l'.height r'.height = r'.height := by omega
          have w4 : max l'.height r.height = r.height := by omega
          omega
    · intro hg
      have : d = 0 := by simpa using hg
      omega

theorem insert_avl (cmp : κ → κ → Int) (k : κ) (nid : Nat) (t : Tree κ) (h : AVL t) :
    ∃ t' ret go, insert cmp k nid t = .ok (t', ret, go) ∧ AVL t' ∧ t.height ≤ t'.height ∧
      t'.height ≤ t.height + 1 ∧ (go = false → t'.height = t.height) := by
  induction t with
  | nil => exact ⟨_, _, _, rfl, by simp [AVL, height_node, height_nil], by simp [height_node, height_nil], by simp [height_node, height_nil], by simp⟩
  | node id key l r x ihl ihr =>
    have h' := h
    simp only [AVL] at h'
    rw [Tree.insert]
    by_cases c0 : cmp k key = 0
    · simp only [c0, if_true]
      exact ⟨_, _, _, rfl, h, by omega, by omega, fun _ => rfl⟩
    · by_cases c1 : cmp k key > 0
      · simp only [c0, c1, if_true, if_false]
        obtain ⟨r', ret, go, e1, e2, e3⟩ := ihr h'.2.1
        obtain ⟨t', g, f1, f2, f3, f4, f5⟩ := balanceUp_avl (id := id) (key := key) h'.1 e2 h go
          (Or.inr ⟨rfl, e3.1, e3.2.1, e3.2.2⟩)
        exact ⟨t', ret, g, by simp [e1, f1], f2, f3, f4, f5⟩
      · simp only [c0, c1, if_false]
        obtain ⟨l', ret, go, e1, e2, e3⟩ := ihl h'.1
        obtain ⟨t', g, f1, f2, f3, f4, f5⟩ := balanceUp_avl (id := id) (key := key) e2 h'.2.1 h go
          (Or.inl ⟨rfl, e3.1, e3.2.1, e3.2.2⟩)
        exact ⟨t', ret, g, by simp [e1, f1], f2, f3, f4, f5⟩

/-- **C18 for insertions** (of any keys, with any comparison function). Missing: histories with deletions, for which
the claim is false, see `tdelete_unbalanced_violated`. -/
theorem tree_balanced_partial (cmp : κ → κ → Int) (ks : List (κ × Nat)) :
    ∃ t, run cmp nil (ks.map fun p => Op.ins p.1 p.2) = .ok t ∧ Balanced t := by
  suffices ∀ (ks : List (κ × Nat)) t, AVL t → ∃ t', run cmp t (ks.map fun p => Op.ins p.1 p.2) = .ok t' ∧ AVL t' by
    obtain ⟨t, h1, h2⟩ := this ks nil trivial
    exact ⟨t, h1, h2.balanced⟩
  intro ks
  induction ks with
  | nil => intro t h; exact ⟨t, rfl, h⟩
  | cons p ks ih =>
    intro t h
    obtain ⟨t', ret, go, e1, e2, _⟩ := insert_avl cmp p.1 p.2 t h
    obtain ⟨t2, f1, f2⟩ := ih t' e2
    exact ⟨t2, by simp [run, apply, tsearch, e1, f1], f2⟩

/-- A balanced tree is shallow: its height is at most twice the logarithm of its size. -/
theorem balanced_log (t : Tree κ) (h : Balanced t) : 2 ^ (realHeight t / 2) ≤ t.size + 1 := by
  suffices ∀ n (t : Tree κ), Balanced t → realHeight t = n → 2 ^ (n / 2) ≤ t.size + 1 by
    exact this _ t h rfl
  intro n
  induction n using Nat.strongRecOn with
  | _ n ih =>
    intro t h hn
    cases t with
    | nil => simp [realHeight] at hn; subst hn; simp
    | node id key l r x =>
      simp only [Balanced] at h
      simp only [realHeight] at hn
      by_cases h2 : n < 2
      · have : n / 2 = 0 := by omega
        rw [this]; simp [size]
      · have key : ∀ s : Tree κ, Balanced s → n ≤ realHeight s + 2 → realHeight s < n → 2 ^ (n / 2 - 1) ≤ s.size + 1 := by
          intro s hs h1 h3
          refine Nat.le_trans ?_ (ih _ h3 s hs rfl)
          exact Nat.pow_le_pow_right (by omega) (by omega)
        have k1 := key l h.2.1 (by omega) (by omega)
        have k2 := key r h.2.2 (by omega) (by omega)
        have : 2 ^ (n / 2) = 2 ^ (n / 2 - 1) + 2 ^ (n / 2 - 1) := by
          rw [← Nat.two_mul, ← Nat.pow_succ']; congr 1; omega
        simp only [size]; omega


/-- **C18 does not hold of the code.** After inserting 5 2 7 1 3 8 4 and deleting 7 (a node with one child, whose
ancestors are not rebalanced), the subtrees of the root have heights 3 and 1. -/
theorem tdelete_unbalanced_violated :
    ∃ t, run (fun a b : Int => a - b) nil
      [.ins 5 0, .ins 2 0, .ins 7 0, .ins 1 0, .ins 3 0, .ins 8 0, .ins 4 0, .del 7] = .ok t ∧ ¬ Balanced t :=
  ⟨node 0 5 (node 0 2 (node 0 1 nil nil 1) (node 0 3 nil (node 0 4 nil nil 1) 2) 3) (node 0 8 nil nil 1) 4, by decide,
    by simp [Balanced, realHeight]⟩

/-! ### C19 -/

/-- Specification of twalk: a node without children is reported once, as a leaf; any other node before, between and
after its subtrees, which are one deeper. -/
def walkSpec : Tree κ → Int → List (Nat × κ × Visit × Int)
  | nil, _ => []
  | node id key nil nil _, d => [(id, key, .leaf, d)]
  | node id key l r _, d =>
    (id, key, .preorder, d) :: walkSpec l (d + 1) ++ (id, key, .postorder, d) :: walkSpec r (d + 1) ++
      [(id, key, .endorder, d)]

/-- Walking a subtree on top of the stack emits its walk, uses at most three iterations per node, and returns to the
rest of the stack one level up. -/
theorem walkLoop_ok (t : Tree κ) (hn : t ≠ nil) : ∃ c, c ≤ 3 * t.size ∧ ∀ fuel stack d,
    walkLoop (c + fuel) ((t, .preorder) :: stack) d = (do
      let rest ← walkLoop fuel stack (d - 1)
      return walkSpec t d ++ rest) := by
  induction t with
  | nil => exact absurd rfl hn
  | node id key l r h ihl ihr =>
    by_cases hlr : l = nil ∧ r = nil
    · obtain ⟨rfl, rfl⟩ := hlr
      refine ⟨1, by simp [size], fun fuel stack d => ?_⟩
      rw [Nat.add_comm 1 fuel]
      rw [walkLoop]
      simp only [walkSpec, isNil, Bool.and_self, if_true]
      cases walkLoop fuel stack (d - 1) <;> rfl
    · have hspec : ∀ d, walkSpec (node id key l r h) d = (id, key, .preorder, d) :: walkSpec l (d + 1) ++
          (id, key, .postorder, d) :: walkSpec r (d + 1) ++ [(id, key, .endorder, d)] := by
        intro d
        cases l with
        | nil => cases r with
          | nil => exact absurd ⟨rfl, rfl⟩ hlr
          | node => rfl
        | node => cases r <;> rfl
      have hv : (l.isNil && r.isNil) = false := by
        cases l with
        | nil => cases r with
          | nil => exact absurd ⟨rfl, rfl⟩ hlr
          | node => rfl
        | node => rfl
      -- the three visits of the node itself
      have endStep : ∀ fuel stack d, walkLoop (fuel + 1) ((node id key l r h, .endorder) :: stack) d = (do
          let rest ← walkLoop fuel stack (d - 1)
          return (id, key, .endorder, d) :: rest) := by
        intro fuel stack d
        rw [walkLoop]; simp only [hv, Bool.false_eq_true, if_false]
      have postStep : ∃ c, c ≤ 3 * r.size + 2 ∧ ∀ fuel stack d,
          walkLoop (c + fuel) ((node id key l r h, .postorder) :: stack) d = (do
          let rest ← walkLoop fuel stack (d - 1)
          return (id, key, .postorder, d) :: walkSpec r (d + 1) ++ [(id, key, .endorder, d)] ++ rest) := by
        by_cases hr : r = nil
        · refine ⟨2, by omega, fun fuel stack d => ?_⟩
          have hrn : r.isNil = true := by rw [hr]; rfl
          rw [show 2 + fuel = (fuel + 1) + 1 by omega, walkLoop]
          simp only [hv, Bool.false_eq_true, if_false]
          simp only [hrn, Bool.false_eq_true, if_true, if_false, endStep]
          rw [show walkSpec r (d + 1) = [] by rw [hr]; rfl]
          cases walkLoop fuel stack (d - 1) <;> simp
        · have hrn : r.isNil = false := by cases r with
            | nil => exact absurd rfl hr
            | node => rfl
          obtain ⟨c, hc, h1⟩ := ihr hr
          refine ⟨c + 2, by omega, fun fuel stack d => ?_⟩
          rw [show c + 2 + fuel = (c + (fuel + 1)) + 1 by omega, walkLoop]
          simp only [hv, Bool.false_eq_true, if_false]
          simp only [hrn, Bool.false_eq_true, if_false]
          rw [h1, show d + 1 - 1 = d by omega, endStep]
          cases walkLoop fuel stack (d - 1) <;> simp
      obtain ⟨cr, hcr, hpost⟩ := postStep
      by_cases hl : l = nil
      · refine ⟨cr + 1, by simp only [size]; omega, fun fuel stack d => ?_⟩
        have hln : l.isNil = true := by rw [hl]; rfl
        rw [show cr + 1 + fuel = (cr + fuel) + 1 by omega, walkLoop]
        simp only [hv, Bool.false_eq_true, if_false]
        simp only [hln, Bool.false_eq_true, if_true, if_false, hpost, hspec]
        rw [show walkSpec l (d + 1) = [] by rw [hl]; rfl]
        cases walkLoop fuel stack (d - 1) <;> simp
      · have hln : l.isNil = false := by cases l with
          | nil => exact absurd rfl hl
          | node => rfl
        obtain ⟨c, hc, h1⟩ := ihl hl
        refine ⟨c + cr + 1, by simp only [size]; omega, fun fuel stack d => ?_⟩
        rw [show c + cr + 1 + fuel = (c + (cr + fuel)) + 1 by omega, walkLoop]
        simp only [hv, Bool.false_eq_true, if_false]
        simp only [hln, Bool.false_eq_true, if_false]
        rw [h1, show d + 1 - 1 = d by omega, hpost, hspec]
        cases walkLoop fuel stack (d - 1) <;> simp

/-- **C19.** For every tree, twalk terminates and calls the action exactly as specified. -/
theorem twalk_events (t : Tree κ) : twalk t = .ok (walkSpec t 0) := by
  cases t with
  | nil => rfl
  | node id key l r h =>
    obtain ⟨c, hc, h1⟩ := walkLoop_ok (node id key l r h) (by simp)
    obtain ⟨f, hf⟩ := Nat.exists_eq_add_of_le hc
    simp only [twalk, hf, h1]
    simp [walkLoop]

/-- **C19, order.** The events "postorder or leaf" of the walk are the nodes from left to right, each once (so the
sorted key sequence for a search tree). -/
theorem twalk_inorder (t : Tree κ) : ∃ ev, twalk t = .ok ev ∧
    (ev.filter fun e => decide (e.2.2.1 = .postorder ∨ e.2.2.1 = .leaf)).map (fun e => (e.1, e.2.1)) = nodes t := by
  refine ⟨_, twalk_events t, ?_⟩
  suffices ∀ (t : Tree κ) d, ((walkSpec t d).filter fun e => decide (e.2.2.1 = .postorder ∨ e.2.2.1 = .leaf)).map
      (fun e => (e.1, e.2.1)) = nodes t from this t 0
  intro t
  induction t with
  | nil => intro d; rfl
  | node id key l r h ihl ihr =>
    intro d
    by_cases hlr : l = nil ∧ r = nil
    · obtain ⟨rfl, rfl⟩ := hlr
      simp [walkSpec, nodes]
    · have : walkSpec (node id key l r h) d = (id, key, .preorder, d) :: walkSpec l (d + 1) ++
          (id, key, .postorder, d) :: walkSpec r (d + 1) ++ [(id, key, .endorder, d)] := by
        cases l with
        | nil => cases r with
          | nil => exact absurd ⟨rfl, rfl⟩ hlr
          | node => rfl
        | node => cases r <;> rfl
      rw [this]
      simp only [Bool.decide_or] at ihl ihr ⊢
      simp [ihl, ihr, nodes]

/-- tdestroy frees every node exactly once and passes every key to `free_node` exactly once. -/
theorem tdestroy_all (t : Tree κ) : tdestroy t = .ok (nodes t) := by
  suffices ∀ (t : Tree κ) fuel stack, destroyLoop (2 * t.size + fuel) t stack = (do
      let rest ← destroyLoop fuel nil stack
      return nodes t ++ rest) by
    have h := this t 0 []
    simpa [tdestroy, destroyLoop] using h
  intro t
  induction t with
  | nil =>
    intro fuel stack
    simp only [size, Nat.mul_zero, Nat.zero_add, nodes, List.nil_append]
    cases destroyLoop fuel nil stack <;> rfl
  | node id key l r h ihl ihr =>
    intro fuel stack
    rw [show 2 * (node id key l r h).size + fuel = (2 * l.size + ((2 * r.size + fuel) + 1)) + 1 by
      simp only [size]; omega, destroyLoop, ihl, destroyLoop, ihr]
    cases destroyLoop fuel nil stack <;> simp [nodes]

/-- The walk of a three-node tree. -/
example : twalk (node 0 'b' (node 1 'a' nil nil 1) (node 2 'c' nil nil 1) 2) = .ok
    [(0, 'b', .preorder, 0), (1, 'a', .leaf, 1), (0, 'b', .postorder, 0), (2, 'c', .leaf, 1), (0, 'b', .endorder, 0)] := by
  decide

end Mlibc.Search
