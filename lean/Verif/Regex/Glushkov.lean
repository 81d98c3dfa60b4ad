import Verif.Regex.Match

/-!
# The automaton accepts what the tree matches

For a tree in which every position occurs once.
-/
namespace Mlibc.Regex

/-- The expression that a tree stands for. -/
def erase : Ast → Re
  | .leaf _ ls => .chr ls
  | .empty => .eps
  | .asrt a => .asrt a
  | .cat l r => .cat (erase l) (erase r)
  | .union l r => .alt (erase l) (erase r)
  | .iter a mn mx => .rep (erase a) mn mx

/-- The tree matches from `i` to `j`. -/
abbrev M (x : Ctx) (t : Ast) (i j : Nat) : Prop := (erase t).Matches x i j

/-- The position occurs in the tree. -/
def HasPos : Ast → Nat → Prop
  | .leaf p' _, p => p = p'
  | .empty, _ => False
  | .asrt _, _ => False
  | .cat l r, p => HasPos l p ∨ HasPos r p
  | .union l r, p => HasPos l p ∨ HasPos r p
  | .iter a _ _, p => HasPos a p

/-- No position occurs twice. -/
def Uniq : Ast → Prop
  | .leaf _ _ => True
  | .empty => True
  | .asrt _ => True
  | .cat l r => Uniq l ∧ Uniq r ∧ ∀ p, HasPos l p → ¬ HasPos r p
  | .union l r => Uniq l ∧ Uniq r ∧ ∀ p, HasPos l p → ¬ HasPos r p
  | .iter a _ _ => Uniq a

/-- Iterations are of the kinds that are left after the expansion. -/
def Simple : Ast → Prop
  | .leaf _ _ => True
  | .empty => True
  | .asrt _ => True
  | .cat l r => Simple l ∧ Simple r
  | .union l r => Simple l ∧ Simple r
  | .iter a mn mx => Simple a ∧ mn ≤ 1 ∧ (mx = none ∨ mx = some 1)

theorem nullable_eq (t : Ast) : nullable t = (erase t).optional := by
  induction t with
  | leaf => rfl
  | empty => rfl
  | asrt => rfl
  | cat l r ihl ihr => simp [nullable, erase, Re.optional, ihl, ihr]
  | union l r ihl ihr => simp [nullable, erase, Re.optional, ihl, ihr]
  | iter a mn mx ih => simp [nullable, erase, Re.optional, ih]

theorem emp_plain (t : Ast) (h : (erase t).plain = true) : emp t = [] := by
  induction t with
  | leaf => rfl
  | empty => rfl
  | asrt => simp [erase, Re.plain] at h
  | cat l r ihl ihr =>
    simp only [erase, Re.plain, Bool.and_eq_true] at h
    simp [emp, ihl h.1, ihr h.2]
  | union l r ihl ihr =>
    simp only [erase, Re.plain, Bool.and_eq_true] at h
    simp [emp, ihl h.1, ihr h.2]
  | iter a mn mx ih =>
    simp only [erase, Re.plain] at h
    simp [emp, ih h]

theorem firstpos_pos (t : Ast) : ∀ {p as}, (p, as) ∈ firstpos t → HasPos t p := by
  induction t with
  | leaf p' ls =>
    intro p as h
    simp only [firstpos, List.mem_map] at h
    obtain ⟨_, _, h⟩ := h; cases h; rfl
  | empty => intro p as h; cases h
  | asrt => intro p as h; cases h
  | cat l r ihl ihr =>
    intro p as h
    simp only [firstpos] at h
    split at h
    · rcases List.mem_append.1 h with h | h
      · obtain ⟨⟨p', as'⟩, h', he⟩ := List.mem_map.1 h
        cases he; exact Or.inr (ihr h')
      · exact Or.inl (ihl h)
    · exact Or.inl (ihl h)
  | union l r ihl ihr =>
    intro p as h
    rcases List.mem_append.1 h with h | h
    · exact Or.inl (ihl h)
    · exact Or.inr (ihr h)
  | iter a mn mx ih => intro p as h; exact ih h

theorem lastpos_pos (t : Ast) : ∀ {p l as}, (p, l, as) ∈ lastpos t → HasPos t p := by
  induction t with
  | leaf p' ls =>
    intro p l as h
    simp only [lastpos, List.mem_map] at h
    obtain ⟨_, _, h⟩ := h; cases h; rfl
  | empty => intro p l as h; cases h
  | asrt => intro p l as h; cases h
  | cat l r ihl ihr =>
    intro p li as h
    simp only [lastpos] at h
    split at h
    · rcases List.mem_append.1 h with h | h
      · obtain ⟨⟨p', l', as'⟩, h', he⟩ := List.mem_map.1 h
        cases he; exact Or.inl (ihl h')
      · exact Or.inr (ihr h)
    · exact Or.inr (ihr h)
  | union l r ihl ihr =>
    intro p li as h
    rcases List.mem_append.1 h with h | h
    · exact Or.inl (ihl h)
    · exact Or.inr (ihr h)
  | iter a mn mx ih => intro p li as h; exact ih h

theorem skipSame_sub (l : List First) : ∀ {o f}, f ∈ skipSame o l → f ∈ l := by
  induction l with
  | nil => intro o f h; cases h
  | cons g r ih =>
    intro o f h
    unfold skipSame at h
    split at h
    · exact List.mem_cons_of_mem _ (ih h)
    · rcases List.mem_cons.1 h with h | h
      · subst h; exact List.mem_cons_self
      · exact List.mem_cons_of_mem _ (ih h)

theorem skipSame_pos (l : List First) :
    ∀ {o f}, f ∈ l → o = some f.1 ∨ ∃ as, (f.1, as) ∈ skipSame o l := by
  induction l with
  | nil => intro o f h; cases h
  | cons g r ih =>
    intro o f h
    by_cases hg : o = some g.1
    · have he : skipSame o (g :: r) = skipSame o r := by
        conv => lhs; unfold skipSame
        rw [if_pos hg]
      rw [he]
      rcases List.mem_cons.1 h with h | h
      · subst h; exact Or.inl hg
      · exact ih h
    · have he : skipSame o (g :: r) = g :: skipSame (some g.1) r := by
        conv => lhs; unfold skipSame
        rw [if_neg hg]
      rw [he]
      rcases List.mem_cons.1 h with h | h
      · subst h; exact Or.inr ⟨f.2, List.mem_cons_self⟩
      · rcases ih (o := some g.1) h with h | ⟨as, h⟩
        · have hfg : f.1 = g.1 := (Option.some.inj h).symm
          rw [hfg]; exact Or.inr ⟨g.2, List.mem_cons_self⟩
        · exact Or.inr ⟨as, List.mem_cons_of_mem _ h⟩

theorem makeTrans_mem {p1 : List Last} {p2 : List First} {p t} (h : (p, t) ∈ makeTrans p1 p2) :
    ∃ l as bs q, (p, l, as) ∈ p1 ∧ (q, bs) ∈ p2 ∧ t = { lit := l, tgt := q, as := as ++ bs } := by
  simp only [makeTrans, List.mem_flatMap, List.mem_map] at h
  obtain ⟨⟨p', l, as⟩, h1, ⟨q, bs⟩, h2, h3⟩ := h
  cases h3
  exact ⟨l, as, bs, q, h1, skipSame_sub _ h2, rfl⟩

theorem toTnfa_pos (t : Ast) : ∀ {p tr}, (p, tr) ∈ toTnfa t → HasPos t p ∧ HasPos t tr.tgt := by
  induction t with
  | leaf => intro p tr h; cases h
  | empty => intro p tr h; cases h
  | asrt => intro p tr h; cases h
  | cat l r ihl ihr =>
    intro p tr h
    simp only [toTnfa, List.mem_append] at h
    rcases h with (h | h) | h
    · obtain ⟨li, as, bs, q, h1, h2, rfl⟩ := makeTrans_mem h
      exact ⟨Or.inl (lastpos_pos l h1), Or.inr (firstpos_pos r h2)⟩
    · exact ⟨Or.inl (ihl h).1, Or.inl (ihl h).2⟩
    · exact ⟨Or.inr (ihr h).1, Or.inr (ihr h).2⟩
  | union l r ihl ihr =>
    intro p tr h
    simp only [toTnfa, List.mem_append] at h
    rcases h with h | h
    · exact ⟨Or.inl (ihl h).1, Or.inl (ihl h).2⟩
    · exact ⟨Or.inr (ihr h).1, Or.inr (ihr h).2⟩
  | iter a mn mx ih =>
    intro p tr h
    simp only [toTnfa, List.mem_append] at h
    rcases h with h | h
    · split at h
      · obtain ⟨li, as, bs, q, h1, h2, rfl⟩ := makeTrans_mem h
        exact ⟨lastpos_pos a h1, firstpos_pos a h2⟩
      · cases h
    · exact ih h

/-! ## Soundness -/

/-- The state `p` of the tree can be entered at index `k` when matching starts at `i`. -/
def Pre (x : Ctx) : Ast → Nat → Nat → Nat → Prop
  | .leaf p' _, p, i, k => p = p' ∧ i = k
  | .empty, _, _, _ => False
  | .asrt _, _, _, _ => False
  | .cat l r, p, i, k => Pre x l p i k ∨ ∃ m, M x l i m ∧ Pre x r p m k
  | .union l r, p, i, k => Pre x l p i k ∨ Pre x r p i k
  | .iter a _ mx, p, i, k => ∃ n m, (mx = some 1 → n = 0) ∧ Times (M x a) n i m ∧ Pre x a p m k

theorem pre_pos (x : Ctx) (t : Ast) : ∀ {p i k}, Pre x t p i k → HasPos t p := by
  induction t with
  | leaf => intro p i k h; exact h.1
  | empty => intro p i k h; cases h
  | asrt => intro p i k h; cases h
  | cat l r ihl ihr =>
    rintro p i k (h | ⟨m, -, h⟩)
    · exact Or.inl (ihl h)
    · exact Or.inr (ihr h)
  | union l r ihl ihr =>
    rintro p i k (h | h)
    · exact Or.inl (ihl h)
    · exact Or.inr (ihr h)
  | iter a mn mx ih =>
    rintro p i k ⟨n, m, -, -, h⟩
    exact ih h

theorem times_snoc {P : Nat → Nat → Prop} {n i m j : Nat} (h : Times P n i m) (h' : P m j) :
    Times P (n + 1) i j := by
  induction n generalizing i with
  | zero => cases h; exact ⟨j, h', rfl⟩
  | succ n ih => obtain ⟨k, h1, h2⟩ := h; exact ⟨k, h1, ih h2⟩

theorem times_refl {P : Nat → Nat → Prop} {i : Nat} (h : P i i) (n : Nat) : Times P n i i := by
  induction n with
  | zero => rfl
  | succ n ih => exact ⟨i, h, ih⟩

/-- The empty path matches where its assertions hold. -/
theorem emp_match (x : Ctx) (t : Ast) (hs : Simple t) {i : Nat} (hn : nullable t = true)
    (he : ∀ a ∈ emp t, Holds x i a) : M x t i i := by
  induction t with
  | leaf => simp [nullable] at hn
  | empty => rfl
  | asrt a => exact ⟨rfl, he a (by simp [emp])⟩
  | cat l r ihl ihr =>
    simp only [nullable, Bool.and_eq_true] at hn
    simp only [emp, List.mem_append] at he
    exact ⟨i, ihl hs.1 hn.1 (fun a ha => he a (Or.inr ha)), ihr hs.2 hn.2 (fun a ha => he a (Or.inl ha))⟩
  | union l r ihl ihr =>
    simp only [nullable, Bool.or_eq_true] at hn
    simp only [emp] at he
    split at he
    · rename_i h; exact Or.inl (ihl hs.1 h he)
    · rename_i h; exact Or.inr (ihr hs.2 (hn.resolve_left h) he)
  | iter a mn mx ih =>
    obtain ⟨hs1, hs2, hs3⟩ := hs
    simp only [emp] at he
    split at he
    · rename_i h
      refine ⟨1, hs2, ?_, times_refl (ih hs1 h he) 1⟩
      rcases hs3 with h3 | h3 <;> rw [h3] <;> intro m hm <;> cases hm
      exact Nat.le_refl _
    · rename_i h
      simp only [nullable, Bool.or_eq_true, beq_iff_eq] at hn
      have hm := hn.resolve_right h
      exact ⟨0, by omega, fun _ _ => by omega, rfl⟩

theorem first_pre (x : Ctx) (t : Ast) (hs : Simple t) : ∀ {p as i}, (p, as) ∈ firstpos t →
    (∀ a ∈ as, Holds x i a) → Pre x t p i i := by
  induction t with
  | leaf p' ls =>
    intro p as i h _
    simp only [firstpos, List.mem_map] at h
    obtain ⟨_, _, h⟩ := h; cases h; exact ⟨rfl, rfl⟩
  | empty => intro p as i h; cases h
  | asrt => intro p as i h; cases h
  | cat l r ihl ihr =>
    intro p as i h ha
    simp only [firstpos] at h
    split at h
    · rename_i hn
      rcases List.mem_append.1 h with h | h
      · obtain ⟨⟨p', as'⟩, h', he⟩ := List.mem_map.1 h
        cases he
        exact Or.inr ⟨i, emp_match x l hs.1 hn (fun a h => ha a (List.mem_append_right _ h)),
          ihr hs.2 h' (fun a h => ha a (List.mem_append_left _ h))⟩
      · exact Or.inl (ihl hs.1 h ha)
    · exact Or.inl (ihl hs.1 h ha)
  | union l r ihl ihr =>
    intro p as i h ha
    rcases List.mem_append.1 h with h | h
    · exact Or.inl (ihl hs.1 h ha)
    · exact Or.inr (ihr hs.2 h ha)
  | iter a mn mx ih =>
    intro p as i h ha
    exact ⟨0, i, fun _ => rfl, rfl, ih hs.1 h ha⟩

theorem last_match (x : Ctx) (t : Ast) (hs : Simple t) (hu : Uniq t) : ∀ {p l as i k c},
    (p, l, as) ∈ lastpos t → Pre x t p i k → x.str[k]? = some c → l.Allows x c →
    (∀ a ∈ as, Holds x (k + 1) a) → M x t i (k + 1) := by
  induction t with
  | leaf p' ls =>
    rintro p l as i k c h ⟨rfl, rfl⟩ hc hl _
    simp only [lastpos, List.mem_map] at h
    obtain ⟨l', hm, h⟩ := h; cases h
    exact ⟨c, hc, rfl, l, hm, hl⟩
  | empty => intro p l as i k c h; cases h
  | asrt => intro p l as i k c h; cases h
  | cat l r ihl ihr =>
    intro p li as i k c h hp hc hl ha
    have right : (p, li, as) ∈ lastpos r → M x (.cat l r) i (k + 1) := by
      intro h
      have hr := lastpos_pos r h
      rcases hp with hp | ⟨m, hm, hp⟩
      · exact absurd hr (hu.2.2 p (pre_pos x l hp))
      · exact ⟨m, hm, ihr hs.2 hu.2.1 h hp hc hl ha⟩
    simp only [lastpos] at h
    split at h
    · rename_i hn
      rcases List.mem_append.1 h with h | h
      · obtain ⟨⟨p', l', as'⟩, h', he⟩ := List.mem_map.1 h
        cases he
        have hpl := lastpos_pos l h'
        rcases hp with hp | ⟨m, hm, hp⟩
        · exact ⟨k + 1, ihl hs.1 hu.1 h' hp hc hl (fun a h => ha a (List.mem_append_left _ h)),
            emp_match x r hs.2 hn (fun a h => ha a (List.mem_append_right _ h))⟩
        · exact absurd (pre_pos x r hp) (hu.2.2 _ hpl)
      · exact right h
    · exact right h
  | union l r ihl ihr =>
    intro p li as i k c h hp hc hl ha
    rcases List.mem_append.1 h with h | h
    · have := lastpos_pos l h
      rcases hp with hp | hp
      · exact Or.inl (ihl hs.1 hu.1 h hp hc hl ha)
      · exact absurd (pre_pos x r hp) (hu.2.2 p this)
    · have := lastpos_pos r h
      rcases hp with hp | hp
      · exact absurd this (hu.2.2 p (pre_pos x l hp))
      · exact Or.inr (ihr hs.2 hu.2.1 h hp hc hl ha)
  | iter a mn mx ih =>
    rintro p li as i k c h ⟨n, m, hn, ht, hp⟩ hc hl ha
    obtain ⟨hs1, hs2, hs3⟩ := hs
    have := ih hs1 hu h hp hc hl ha
    refine ⟨n + 1, by omega, ?_, times_snoc ht this⟩
    intro m' hm'
    rcases hs3 with h3 | h3 <;> rw [h3] at hm' <;> cases hm'
    have := hn h3
    omega

theorem trans_pre (x : Ctx) (t : Ast) (hs : Simple t) (hu : Uniq t) : ∀ {p tr i k c},
    (p, tr) ∈ toTnfa t → Pre x t p i k → x.str[k]? = some c → tr.lit.Allows x c →
    (∀ a ∈ tr.as, Holds x (k + 1) a) → Pre x t tr.tgt i (k + 1) := by
  induction t with
  | leaf => intro p tr i k c h; cases h
  | empty => intro p tr i k c h; cases h
  | asrt => intro p tr i k c h; cases h
  | cat l r ihl ihr =>
    intro p tr i k c h hp hc hl ha
    simp only [toTnfa, List.mem_append] at h
    rcases h with (h | h) | h
    · obtain ⟨li, as, bs, q, h1, h2, rfl⟩ := makeTrans_mem h
      rcases hp with hp | ⟨m, hm, hp⟩
      · exact Or.inr ⟨k + 1, last_match x l hs.1 hu.1 h1 hp hc hl (fun a h => ha a (List.mem_append_left _ h)),
          first_pre x r hs.2 h2 (fun a h => ha a (List.mem_append_right _ h))⟩
      · exact absurd (pre_pos x r hp) (hu.2.2 p (lastpos_pos l h1))
    · rcases hp with hp | ⟨m, hm, hp⟩
      · exact Or.inl (ihl hs.1 hu.1 h hp hc hl ha)
      · exact absurd (pre_pos x r hp) (hu.2.2 p (toTnfa_pos l h).1)
    · rcases hp with hp | ⟨m, hm, hp⟩
      · exact absurd (toTnfa_pos r h).1 (hu.2.2 p (pre_pos x l hp))
      · exact Or.inr ⟨m, hm, ihr hs.2 hu.2.1 h hp hc hl ha⟩
  | union l r ihl ihr =>
    intro p tr i k c h hp hc hl ha
    simp only [toTnfa, List.mem_append] at h
    rcases h with h | h
    · rcases hp with hp | hp
      · exact Or.inl (ihl hs.1 hu.1 h hp hc hl ha)
      · exact absurd (pre_pos x r hp) (hu.2.2 p (toTnfa_pos l h).1)
    · rcases hp with hp | hp
      · exact absurd (toTnfa_pos r h).1 (hu.2.2 p (pre_pos x l hp))
      · exact Or.inr (ihr hs.2 hu.2.1 h hp hc hl ha)
  | iter a mn mx ih =>
    rintro p tr i k c h ⟨n, m, hn, ht, hp⟩ hc hl ha
    simp only [toTnfa, List.mem_append] at h
    rcases h with h | h
    · split at h
      · rename_i hmx
        obtain ⟨li, as, bs, q, h1, h2, rfl⟩ := makeTrans_mem h
        refine ⟨n + 1, k + 1, (fun h => by rw [hmx] at h; cases h), times_snoc ht
          (last_match x a hs.1 hu h1 hp hc hl (fun a h => ha a (List.mem_append_left _ h))),
          first_pre x a hs.1 h2 (fun a h => ha a (List.mem_append_right _ h))⟩
      · cases h
    · exact ⟨n, m, hn, ht, ih hs.1 hu h hp hc hl ha⟩

/-! ## Completeness -/

theorem firstpos_fun (t : Ast) (hu : Uniq t) : ∀ {p as bs}, (p, as) ∈ firstpos t → (p, bs) ∈ firstpos t →
    as = bs := by
  induction t with
  | leaf p' ls =>
    intro p as bs h h'
    simp only [firstpos, List.mem_map] at h h'
    obtain ⟨_, _, h⟩ := h; obtain ⟨_, _, h'⟩ := h'
    cases h; cases h'; rfl
  | empty => intro p as bs h; cases h
  | asrt => intro p as bs h; cases h
  | cat l r ihl ihr =>
    intro p as bs h h'
    simp only [firstpos] at h h'
    split at h
    · rename_i hn
      rw [if_pos hn] at h'
      rcases List.mem_append.1 h with h | h <;> rcases List.mem_append.1 h' with h' | h'
      · obtain ⟨⟨p1, a1⟩, h1, he1⟩ := List.mem_map.1 h
        obtain ⟨⟨p2, a2⟩, h2, he2⟩ := List.mem_map.1 h'
        cases he1; cases he2
        rw [ihr hu.2.1 h1 h2]
      · obtain ⟨⟨p1, a1⟩, h1, he1⟩ := List.mem_map.1 h
        cases he1
        exact absurd (firstpos_pos r h1) (hu.2.2 _ (firstpos_pos l h'))
      · obtain ⟨⟨p1, a1⟩, h1, he1⟩ := List.mem_map.1 h'
        cases he1
        exact absurd (firstpos_pos r h1) (hu.2.2 _ (firstpos_pos l h))
      · exact ihl hu.1 h h'
    · rename_i hn
      rw [if_neg hn] at h'
      exact ihl hu.1 h h'
  | union l r ihl ihr =>
    intro p as bs h h'
    rcases List.mem_append.1 h with h | h <;> rcases List.mem_append.1 h' with h' | h'
    · exact ihl hu.1 h h'
    · exact absurd (firstpos_pos r h') (hu.2.2 _ (firstpos_pos l h))
    · exact absurd (firstpos_pos r h) (hu.2.2 _ (firstpos_pos l h'))
    · exact ihr hu.2.1 h h'
  | iter a mn mx ih => intro p as bs h h'; exact ih hu h h'

theorem makeTrans_has {p1 : List Last} {t : Ast} (hu : Uniq t) {p l as q bs} (h1 : (p, l, as) ∈ p1)
    (h2 : (q, bs) ∈ firstpos t) :
    (p, { lit := l, tgt := q, as := as ++ bs }) ∈ makeTrans p1 (firstpos t) := by
  simp only [makeTrans, List.mem_flatMap, List.mem_map]
  rcases skipSame_pos (firstpos t) (o := none) h2 with h | ⟨bs', h⟩
  · cases h
  · have := firstpos_fun t hu h2 (skipSame_sub _ h)
    subst this
    exact ⟨(p, l, as), h1, (q, bs), h, rfl⟩

/-- A set of (state, index) that is closed under the transitions of the tree. -/
def Closed (x : Ctx) (t : Ast) (S : Nat → Nat → Prop) : Prop :=
  ∀ p tr k c, (p, tr) ∈ toTnfa t → S p k → x.str[k]? = some c → tr.lit.Allows x c →
    (∀ a ∈ tr.as, Holds x (k + 1) a) → S tr.tgt (k + 1)

/-- The set contains the states that are entered at index `i`. -/
def Entered (x : Ctx) (t : Ast) (S : Nat → Nat → Prop) (i : Nat) : Prop :=
  ∀ p as, (p, as) ∈ firstpos t → (∀ a ∈ as, Holds x i a) → S p i

/-- The tree is left at index `j`, through one of its last positions. -/
def Left (x : Ctx) (t : Ast) (S : Nat → Nat → Prop) (j : Nat) : Prop :=
  ∃ p l as k c, (p, l, as) ∈ lastpos t ∧ S p k ∧ x.str[k]? = some c ∧ l.Allows x c ∧ j = k + 1 ∧
    ∀ a ∈ as, Holds x j a

/-- The empty path is open at index `i`. -/
def Skips (x : Ctx) (t : Ast) (i : Nat) : Prop := nullable t = true ∧ ∀ a ∈ emp t, Holds x i a

theorem match_path (x : Ctx) (t : Ast) (hu : Uniq t) (hs : Simple t) (ho : (erase t).oneEmpty = true)
    (S : Nat → Nat → Prop) (hcl : Closed x t S) : ∀ {i j}, Entered x t S i → M x t i j →
    (i = j ∧ Skips x t i) ∨ Left x t S j := by
  induction t generalizing S with
  | leaf p ls =>
    rintro i j he ⟨c, hc, rfl, l, hl, hal⟩
    right
    refine ⟨p, l, [], i, c, by simp only [lastpos, List.mem_map]; exact ⟨l, hl, rfl⟩,
      he p [] (List.mem_map.2 ⟨l, hl, rfl⟩) (by simp), hc, hal, rfl, by simp⟩
  | empty =>
    rintro i j he rfl
    exact Or.inl ⟨rfl, rfl, by simp [emp]⟩
  | asrt a =>
    rintro i j he ⟨rfl, ha⟩
    exact Or.inl ⟨rfl, rfl, by simpa [emp] using ha⟩
  | cat l r ihl ihr =>
    rintro i j he ⟨m, hl, hr⟩
    simp only [erase, Re.oneEmpty, Bool.and_eq_true] at ho
    have hcl1 : Closed x l S := fun p tr k c h => hcl p tr k c (by simp [toTnfa, h])
    have hcl2 : Closed x r S := fun p tr k c h => hcl p tr k c (by simp [toTnfa, h])
    have he1 : Entered x l S i := by
      intro p as h ha
      refine he p as ?_ ha
      simp only [firstpos]
      split
      · exact List.mem_append_right _ h
      · exact h
    have liftR : Left x r S j → Left x (.cat l r) S j := by
      rintro ⟨p, li, as, k, c, h, h'⟩
      refine ⟨p, li, as, k, c, ?_, h'⟩
      simp only [lastpos]
      split
      · exact List.mem_append_right _ h
      · exact h
    rcases ihl hu.1 hs.1 ho.1 S hcl1 he1 hl with ⟨rfl, hn, hem⟩ | ⟨p, li, as, k, c, h, hS, hc, hal, rfl, has⟩
    · have he2 : Entered x r S i := by
        intro p as h ha
        refine he p (as ++ emp l) ?_ ?_
        · simp only [firstpos]
          rw [if_pos hn]
          exact List.mem_append_left _ (List.mem_map.2 ⟨(p, as), h, rfl⟩)
        · intro a h
          rcases List.mem_append.1 h with h | h
          · exact ha a h
          · exact hem a h
      rcases ihr hu.2.1 hs.2 ho.2 S hcl2 he2 hr with ⟨rfl, hn', hem'⟩ | h
      · refine Or.inl ⟨rfl, by simp [nullable, hn, hn'], ?_⟩
        intro a h
        simp only [emp, List.mem_append] at h
        exact h.elim (hem' a) (hem a)
      · exact Or.inr (liftR h)
    · have he2 : Entered x r S (k + 1) := by
        intro q bs h2 hbs
        refine hcl p _ k c (by
          simp only [toTnfa, List.mem_append]
          exact Or.inl (Or.inl (makeTrans_has hu.2.1 h h2))) hS hc hal ?_
        intro a h
        rcases List.mem_append.1 h with h | h
        · exact has a h
        · exact hbs a h
      rcases ihr hu.2.1 hs.2 ho.2 S hcl2 he2 hr with ⟨rfl, hn', hem'⟩ | h
      · right
        refine ⟨p, li, as ++ emp r, k, c, ?_, hS, hc, hal, rfl, ?_⟩
        · simp only [lastpos]
          rw [if_pos hn']
          exact List.mem_append_left _ (List.mem_map.2 ⟨(p, li, as), h, rfl⟩)
        · intro a h
          rcases List.mem_append.1 h with h | h
          · exact has a h
          · exact hem' a h
      · exact Or.inr (liftR h)
  | union l r ihl ihr =>
    intro i j he hm
    simp only [erase, Re.oneEmpty, Bool.and_eq_true, Bool.or_eq_true] at ho
    have hcl1 : Closed x l S := fun p tr k c h => hcl p tr k c (by simp [toTnfa, h])
    have hcl2 : Closed x r S := fun p tr k c h => hcl p tr k c (by simp [toTnfa, h])
    have he1 : Entered x l S i := fun p as h => he p as (List.mem_append_left _ h)
    have he2 : Entered x r S i := fun p as h => he p as (List.mem_append_right _ h)
    rcases hm with hm | hm
    · rcases ihl hu.1 hs.1 ho.1.1 S hcl1 he1 hm with ⟨rfl, hn, hem⟩ | ⟨p, li, as, k, c, h, h'⟩
      · exact Or.inl ⟨rfl, by simp [nullable, hn], by simpa [emp, hn] using hem⟩
      · exact Or.inr ⟨p, li, as, k, c, List.mem_append_left _ h, h'⟩
    · rcases ihr hu.2.1 hs.2 ho.1.2 S hcl2 he2 hm with ⟨rfl, hn, hem⟩ | ⟨p, li, as, k, c, h, h'⟩
      · refine Or.inl ⟨rfl, by simp [nullable, hn], ?_⟩
        simp only [emp]
        cases hl : nullable l
        · simpa using hem
        · have : (erase l).plain = true := by
            rcases ho.2 with h | h
            · rw [← nullable_eq, ← nullable_eq, hl, hn] at h; cases h
            · exact h
          simp [emp_plain l this]
      · exact Or.inr ⟨p, li, as, k, c, List.mem_append_right _ h, h'⟩
  | iter a mn mx ih =>
    rintro i j he ⟨n, hn1, hn2, ht⟩
    simp only [erase, Re.oneEmpty, Bool.and_eq_true, Bool.or_eq_true] at ho
    have hcl1 : Closed x a S := fun p tr k c h => hcl p tr k c (by simp [toTnfa, h])
    have hea : emp (.iter a mn mx) = [] := by
      simp only [emp]
      split
      · rename_i h
        rcases ho.2 with h' | h'
        · rw [← nullable_eq, h] at h'; cases h'
        · exact emp_plain a h'
      · rfl
    have key : ∀ n i, Entered x a S i → (mx = none ∨ n ≤ 1) → Times (M x a) n i j →
        (i = j ∧ (n = 0 ∨ nullable a = true)) ∨ Left x a S j := by
      intro n
      induction n with
      | zero => rintro i he hmx rfl; exact Or.inl ⟨rfl, Or.inl rfl⟩
      | succ n ihn =>
        rintro i he hmx ⟨m, h1, h2⟩
        rcases ih hu hs.1 ho.1 S hcl1 he h1 with ⟨rfl, hna, -⟩ | hleft
        · rcases ihn i he (hmx.imp id (fun h => by omega)) h2 with ⟨rfl, -⟩ | h
          · exact Or.inl ⟨rfl, Or.inr hna⟩
          · exact Or.inr h
        · have hleft' := hleft
          obtain ⟨p, li, as, k, c, h, hS, hc, hal, rfl, has⟩ := hleft
          cases n with
          | zero => cases h2; exact Or.inr hleft'
          | succ n =>
            have hmx' : mx = none := by
              rcases hmx with h | h
              · exact h
              · omega
            have he2 : Entered x a S (k + 1) := by
              intro q bs h2 hbs
              refine hcl p _ k c (by
                simp only [toTnfa, List.mem_append]
                rw [if_pos hmx']
                exact Or.inl (makeTrans_has hu h h2)) hS hc hal ?_
              intro b hb
              rcases List.mem_append.1 hb with hb | hb
              · exact has b hb
              · exact hbs b hb
            rcases ihn (k + 1) he2 (Or.inl hmx') h2 with ⟨rfl, -⟩ | h
            · exact Or.inr hleft'
            · exact Or.inr h
    have hmx : mx = none ∨ n ≤ 1 := by
      rcases hs.2.2 with h | h
      · exact Or.inl h
      · exact Or.inr (hn2 1 h)
    rcases key n i he hmx ht with ⟨rfl, h⟩ | h
    · refine Or.inl ⟨rfl, ?_, by rw [hea]; simp⟩
      simp only [nullable, Bool.or_eq_true, beq_iff_eq]
      rcases h with h | h
      · left; omega
      · exact Or.inr h
    · exact Or.inr h

/-- The automaton of the tree followed by a leaf at position `N`, which is the final state. -/
def autom (t : Ast) (N : Nat) (d : Lit) : Tnfa :=
  { trans := toTnfa (.cat t (.leaf N [d]))
    initial := firstpos (.cat t (.leaf N [d]))
    final := N }

/-- The automaton of the tree followed by the dummy leaf reaches the final state at index `j`, having
    started at `i`, iff the tree matches from `i` to `j`. -/
theorem path_iff (x : Ctx) (t : Ast) (N : Nat) (d : Lit) (hu : Uniq t) (hs : Simple t)
    (ho : (erase t).oneEmpty = true) (hN : ¬ HasPos t N) (i j : Nat) :
    Path x (autom t N d) i N j ↔ M x t i j := by
  have hu' : Uniq (.cat t (.leaf N [d])) := ⟨hu, trivial, fun p h h' => hN (by cases h'; exact h)⟩
  have hs' : Simple (.cat t (.leaf N [d])) := ⟨hs, trivial⟩
  constructor
  · intro h
    have hpre : ∀ q k, Path x (autom t N d) i q k →
        Pre x (.cat t (.leaf N [d])) q i k := by
      intro q k h
      induction h with
      | start h1 h2 => exact first_pre x _ hs' h1 h2
      | step h1 h2 h3 h4 h5 ih => exact trans_pre x _ hs' hu' h2 ih h3 h4 h5
    rcases hpre N j h with h | ⟨m, hm, -, rfl⟩
    · exact absurd (pre_pos x t h) hN
    · exact hm
  · intro hm
    have hcl : Closed x (.cat t (.leaf N [d])) (fun q k => Path x (autom t N d) i q k) :=
      fun p tr k c h1 h2 h3 h4 h5 => Path.step h2 h1 h3 h4 h5
    have hen : Entered x (.cat t (.leaf N [d])) (fun q k => Path x (autom t N d) i q k) i :=
      fun p as h1 h2 => Path.start h1 h2
    rcases match_path x t hu hs ho _ (fun p tr k c h => hcl p tr k c (by simp [toTnfa, h]))
        (i := i) (j := j) (by
          intro p as h ha
          refine hen p as ?_ ha
          simp only [firstpos]
          split
          · exact List.mem_append_right _ h
          · exact h) hm with ⟨rfl, hn, hem⟩ | ⟨p, li, as, k, c, h, hS, hc, hal, rfl, has⟩
    · refine hen N (emp t) ?_ hem
      simp only [firstpos]
      rw [if_pos hn]
      exact List.mem_append_left _ (List.mem_map.2 ⟨(N, []), by simp, rfl⟩)
    · refine hcl p { lit := li, tgt := N, as := as ++ [] } k c ?_ hS hc hal (by simpa using has)
      simp only [toTnfa, List.mem_append]
      exact Or.inl (Or.inl (makeTrans_has (t := .leaf N [d]) trivial h (by simp [firstpos])))

end Mlibc.Regex
