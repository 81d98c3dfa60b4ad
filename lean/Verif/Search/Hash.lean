import Verif.Base
/-
Model of options/internal/generic/search.cpp (hcreate_r, hsearch_r) and C20.
-/
set_option linter.unusedSimpArgs false
namespace Mlibc.Hash
open Mlibc

/-! ### Model -/

inductive Action where
  | find | enter
  deriving DecidableEq, Repr

/-- `struct hsearch_data`. A bucket with `used` is `some (key, data)`. Keys are the C strings themselves: the pointer
stored in `entry.key` must keep pointing to an unchanged string, as POSIX demands. -/
structure Table (κ δ : Type) where
  table : List (Option (κ × δ))
  filled : Nat

variable {κ δ : Type} [DecidableEq κ] (hash : κ → Nat)

/-- search.cpp:14-28 `hcreate_r` with non-null argument, calloc succeeding. -/
def hcreate (n : Nat) : Table κ δ := ⟨List.replicate n none, 0⟩

/-- Outcome of the first loop of hsearch_r. -/
inductive Scan where
  | found (i : Nat)   -- `return 1` with `*ret = &table[i].entry`
  | missing           -- `return 0`, ESRCH
  | insert            -- `break`
  deriving DecidableEq, Repr

/-- search.cpp:46-73, the first loop. The first argument bounds the number of iterations (exceeding it: `ub`). -/
def scan (tbl : List (Option (κ × δ))) (key : κ) (action : Action) (start : Nat) : Nat → Nat → Res Scan
  | 0, _ => .ub
  | fuel + 1, i =>
    match tbl[i]? with
    | none => .ub
    | some b =>
      let next : Res Scan :=
        let i' := (i + 1) % tbl.length
        if i' = start then
          if action = .find then .ok .missing else .ok .insert
        else scan tbl key action start fuel i'
      match b with
      | some e => if e.1 = key then .ok (.found i) else next
      | none => if action = .find then .ok .missing else next

/-- search.cpp:82-93, the second loop: index of the bucket taken. -/
def place (tbl : List (Option (κ × δ))) : Nat → Nat → Res Nat
  | 0, _ => .ub
  | fuel + 1, i =>
    match tbl[i]? with
    | none => .ub
    | some none => .ok i
    | some (some _) => place tbl fuel ((i + 1) % tbl.length)

/-- search.cpp:42-96 `hsearch_r`. The result is the entry `*ret` points to (`none`: return value 0). The hash function
`frg::hash` is a parameter. `hash % 0` is undefined behaviour. -/
def hsearch (s : Table κ δ) (item : κ × δ) (action : Action) : Res (Option (κ × δ) × Table κ δ) := do
  if s.table.length = 0 then .ub
  let start := hash item.1 % s.table.length
  match ← scan s.table item.1 action start s.table.length start with
  | .found i =>
    match s.table[i]? with
    | some e => return (e, s)
    | none => .ub
  | .missing => return (none, s)
  | .insert =>
    if s.table.length = s.filled then return (none, s)
    let i ← place s.table s.table.length start
    return (some item, ⟨s.table.set i (some item), s.filled + 1⟩)

/-! ### Specification: a map with bounded capacity -/

/-- What hsearch must do on the list `m` of the stored entries. -/
def specStep (capacity : Nat) (m : List (κ × δ)) (item : κ × δ) (action : Action) : Option (κ × δ) × List (κ × δ) :=
  match m.find? (fun e => e.1 = item.1) with
  | some e => (some e, m)
  | none =>
    match action with
    | .find => (none, m)
    | .enter => if m.length < capacity then (some item, item :: m) else (none, m)

/-- Results of a history of calls, according to the specification. -/
def specRun (capacity : Nat) : List (κ × δ) → List ((κ × δ) × Action) → List (Option (κ × δ))
  | _, [] => []
  | m, (item, a) :: h => (specStep capacity m item a).1 :: specRun capacity (specStep capacity m item a).2 h

/-- Results of a history of calls, according to the code. -/
def run : Table κ δ → List ((κ × δ) × Action) → Res (List (Option (κ × δ)))
  | _, [] => .ok []
  | s, (item, a) :: h => do
    let (r, s) ← hsearch hash s item a
    let rs ← run s h
    return r :: rs

/-! ### Proof -/

theorem step_mod {n start j : Nat} (hs : start < n) (hj : j + 1 < n) :
    ((start + j) % n + 1) % n = (start + (j + 1)) % n ∧ (start + (j + 1)) % n ≠ start := by
  constructor
  · rw [Nat.mod_add_mod]; rfl
  · intro h
    by_cases hlt : start + (j + 1) < n
    · rw [Nat.mod_eq_of_lt hlt] at h; omega
    · rw [Nat.mod_eq_sub_mod (by omega), Nat.mod_eq_of_lt (by omega)] at h; omega

theorem step_wrap {n start j : Nat} (hs : start < n) (hj : j + 1 = n) : ((start + j) % n + 1) % n = start := by
  rw [Nat.mod_add_mod, show start + j + 1 = start + n by omega, Nat.add_mod_right, Nat.mod_eq_of_lt hs]

/-- Two probe distances below `n` with the same bucket are equal. -/
theorem probe_inj {n h a b : Nat} (ha : a < n) (hb : b < n) (e : (h + a) % n = (h + b) % n) : a = b := by
  have hn : 0 < n := by omega
  have h1 := Nat.mod_lt h hn
  have e' : (h % n + a) % n = (h % n + b) % n := by rw [Nat.mod_add_mod, Nat.mod_add_mod]; exact e
  have key : ∀ x, x < n → (h % n + x) % n = if h % n + x < n then h % n + x else h % n + x - n := by
    intro x hx
    split
    · exact Nat.mod_eq_of_lt ‹_›
    · rw [Nat.mod_eq_sub_mod (by omega), Nat.mod_eq_of_lt (by omega)]
  rw [key a ha, key b hb] at e'
  split at e' <;> split at e' <;> omega

/-- Every bucket is reached. -/
theorem probe_surj {n h p : Nat} (hp : p < n) : ∃ m, m < n ∧ (h + m) % n = p := by
  have hn : 0 < n := by omega
  have h1 := Nat.mod_lt h hn
  by_cases hlt : h % n ≤ p
  · refine ⟨p - h % n, by omega, ?_⟩
    rw [← Nat.mod_add_mod, show h % n + (p - h % n) = p by omega, Nat.mod_eq_of_lt hp]
  · refine ⟨p + n - h % n, by omega, ?_⟩
    rw [← Nat.mod_add_mod, show h % n + (p + n - h % n) = p + n by omega, Nat.add_mod_right, Nat.mod_eq_of_lt hp]

theorem scan_ok (tbl : List (Option (κ × δ))) (key : κ) (a : Action) (start : Nat) (hs : start < tbl.length)
    (d : Nat) : ∀ j, j + d + 1 = tbl.length →
    (∃ m e, j ≤ m ∧ m < tbl.length ∧ tbl[(start + m) % tbl.length]? = some (some e) ∧ e.1 = key ∧
      scan tbl key a start (d + 1) ((start + j) % tbl.length) = .ok (.found ((start + m) % tbl.length))) ∨
    (a = .find ∧ ∃ m, j ≤ m ∧ m < tbl.length ∧ tbl[(start + m) % tbl.length]? = some none ∧
      (∀ i e, j ≤ i → i < m → tbl[(start + i) % tbl.length]? = some (some e) → e.1 ≠ key) ∧
      scan tbl key a start (d + 1) ((start + j) % tbl.length) = .ok .missing) ∨
    ((∀ i e, j ≤ i → i < tbl.length → tbl[(start + i) % tbl.length]? = some (some e) → e.1 ≠ key) ∧
      scan tbl key a start (d + 1) ((start + j) % tbl.length)
        = .ok (if a = .find then .missing else .insert)) := by
  have hn : 0 < tbl.length := by omega
  induction d with
  | zero =>
    intro j hj
    have hlt := Nat.mod_lt (start + j) hn
    rw [scan, List.getElem?_eq_getElem hlt]
    have hget : tbl[(start + j) % tbl.length]? = some tbl[(start + j) % tbl.length] := List.getElem?_eq_getElem hlt
    cases hb : tbl[(start + j) % tbl.length] with
    | some e =>
      rw [hb] at hget
      by_cases he : e.1 = key
      · exact Or.inl ⟨j, e, Nat.le_refl _, by omega, hget, he, by simp [he]⟩
      · refine Or.inr (Or.inr ⟨?_, ?_⟩)
        · intro i e' h1 h2 h3
          have : i = j := by omega
          subst this; rw [hget] at h3; cases h3; exact he
        · simp only [he, if_false, step_wrap hs (show j + 1 = tbl.length by omega), if_true]
          split <;> rfl
    | none =>
      rw [hb] at hget
      cases a with
      | find =>
        refine Or.inr (Or.inl ⟨rfl, j, Nat.le_refl _, by omega, hget, ?_, by simp⟩)
        intro i e h1 h2; omega
      | enter =>
        refine Or.inr (Or.inr ⟨?_, ?_⟩)
        · intro i e' h1 h2 h3
          have : i = j := by omega
          subst this; rw [hget] at h3; cases h3
        · simp [step_wrap hs (show j + 1 = tbl.length by omega)]
  | succ d ih =>
    intro j hj
    have hlt := Nat.mod_lt (start + j) hn
    obtain ⟨s1, s2⟩ := step_mod hs (show j + 1 < tbl.length by omega)
    have hget : tbl[(start + j) % tbl.length]? = some tbl[(start + j) % tbl.length] := List.getElem?_eq_getElem hlt
    rw [scan, hget]
    cases hb : tbl[(start + j) % tbl.length] with
    | some e =>
      rw [hb] at hget
      by_cases he : e.1 = key
      · exact Or.inl ⟨j, e, Nat.le_refl _, by omega, hget, he, by simp [he]⟩
      · simp only [he, if_false, s1, s2]
        rcases ih (j + 1) (by omega) with ⟨m, e', h1, h2, h3, h4, h5⟩ | ⟨ha, m, h1, h2, h3, h4, h5⟩ | ⟨h1, h2⟩
        · exact Or.inl ⟨m, e', by omega, h2, h3, h4, h5⟩
        · refine Or.inr (Or.inl ⟨ha, m, by omega, h2, h3, ?_, h5⟩)
          intro i e' g1 g2 g3
          by_cases hij : i = j
          · subst hij; rw [hget] at g3; cases g3; exact he
          · exact h4 i e' (by omega) g2 g3
        · refine Or.inr (Or.inr ⟨?_, h2⟩)
          intro i e' g1 g2 g3
          by_cases hij : i = j
          · subst hij; rw [hget] at g3; cases g3; exact he
          · exact h1 i e' (by omega) g2 g3
    | none =>
      rw [hb] at hget
      cases a with
      | find =>
        refine Or.inr (Or.inl ⟨rfl, j, Nat.le_refl _, by omega, hget, ?_, by simp⟩)
        intro i e h1 h2; omega
      | enter =>
        have hne : ¬ (Action.enter = Action.find) := by decide
        simp only [hne, if_false, s1, s2]
        rcases ih (j + 1) (by omega) with ⟨m, e', h1, h2, h3, h4, h5⟩ | ⟨ha, _⟩ | ⟨h1, h2⟩
        · exact Or.inl ⟨m, e', by omega, h2, h3, h4, h5⟩
        · cases ha
        · refine Or.inr (Or.inr ⟨?_, by simpa using h2⟩)
          intro i e' g1 g2 g3
          by_cases hij : i = j
          · subst hij; rw [hget] at g3; cases g3
          · exact h1 i e' (by omega) g2 g3

theorem place_ok (tbl : List (Option (κ × δ))) (start : Nat) (hs : start < tbl.length) (d : Nat) :
    ∀ j, j + d + 1 = tbl.length →
    (∃ m, j ≤ m ∧ m < tbl.length ∧ tbl[(start + m) % tbl.length]? = some none) →
    ∃ m, j ≤ m ∧ m < tbl.length ∧ tbl[(start + m) % tbl.length]? = some none ∧
      (∀ i, j ≤ i → i < m → ∃ e, tbl[(start + i) % tbl.length]? = some (some e)) ∧
      place tbl (d + 1) ((start + j) % tbl.length) = .ok ((start + m) % tbl.length) := by
  have hn : 0 < tbl.length := by omega
  induction d with
  | zero =>
    intro j hj ⟨m, h1, h2, h3⟩
    have : m = j := by omega
    subst this
    exact ⟨m, Nat.le_refl _, h2, h3, by intro i h1 h2; omega, by simp [place, h3]⟩
  | succ d ih =>
    intro j hj ⟨m, h1, h2, h3⟩
    have hlt := Nat.mod_lt (start + j) hn
    obtain ⟨s1, s2⟩ := step_mod hs (show j + 1 < tbl.length by omega)
    have hget : tbl[(start + j) % tbl.length]? = some tbl[(start + j) % tbl.length] := List.getElem?_eq_getElem hlt
    cases hb : tbl[(start + j) % tbl.length] with
    | none =>
      rw [hb] at hget
      exact ⟨j, Nat.le_refl _, by omega, hget, by intro i h1 h2; omega, by rw [place]; simp [hget]⟩
    | some e =>
      rw [hb] at hget
      have hmj : m ≠ j := by rintro rfl; rw [hget] at h3; cases h3
      obtain ⟨m', g1, g2, g3, g4, g5⟩ := ih (j + 1) (by omega) ⟨m, by omega, h2, h3⟩
      refine ⟨m', by omega, g2, g3, ?_, ?_⟩
      · intro i h1 h2
        by_cases hij : i = j
        · subst hij; exact ⟨e, hget⟩
        · exact g4 i (by omega) h2
      · rw [place, hget]; simp only [s1, g5]

/-- The table represents the map `m`. -/
structure Rep (n : Nat) (s : Table κ δ) (m : List (κ × δ)) : Prop where
  len : s.table.length = n
  mem : ∀ e, e ∈ m ↔ ∃ p : Nat, s.table[p]? = some (some e)
  filled : s.filled = m.length
  count : s.filled = s.table.countP Option.isSome
  distinct : ∀ (p q : Nat) e e', s.table[p]? = some (some e) → s.table[q]? = some (some e') → e.1 = e'.1 → p = q
  probe : ∀ e i, i < n → s.table[(hash e.1 + i) % n]? = some (some e) →
    ∀ j, j < i → ∃ e', s.table[(hash e.1 + j) % n]? = some (some e')

theorem rep_init (n : Nat) : Rep hash n (hcreate n : Table κ δ) [] := by
  have hnone : ∀ (p : Nat) (e : κ × δ), (List.replicate n (none : Option (κ × δ)))[p]? = some (some e) → False := by
    intro p e h
    rw [List.getElem?_replicate] at h
    split at h <;> cases h
  refine ⟨by simp [hcreate], ?_, rfl, ?_, ?_, ?_⟩
  · intro e
    constructor
    · intro h; cases h
    · rintro ⟨p, hp⟩; exact absurd hp (hnone p e)
  · simp [hcreate, List.countP_replicate]
  · intro p q e e' h; exact absurd h (hnone p e)
  · intro e i _ h; exact absurd h (hnone _ e)

theorem countP_set_none (tbl : List (Option (κ × δ))) (i : Nat) (e : κ × δ) (h : tbl[i]? = some none) :
    (tbl.set i (some e)).countP Option.isSome = tbl.countP Option.isSome + 1 := by
  induction tbl generalizing i with
  | nil => simp at h
  | cons b tbl ih =>
    cases i with
    | zero => simp at h; subst h; simp
    | succ i => simp at h; simp [List.countP_cons, ih i h]; omega

theorem find_none {m : List (κ × δ)} {k : κ} (h : ∀ e ∈ m, e.1 ≠ k) : m.find? (fun e => e.1 = k) = none := by
  rw [List.find?_eq_none]; intro e he; simpa using h e he

/-- One call refines one step of the specification. -/
theorem hsearch_refines {n : Nat} (hn : 0 < n) (s : Table κ δ) (m : List (κ × δ)) (h : Rep hash n s m)
    (item : κ × δ) (a : Action) :
    ∃ s', hsearch hash s item a = .ok ((specStep n m item a).1, s') ∧ Rep hash n s' (specStep n m item a).2 := by
  have hlen := h.len
  have hs : hash item.1 % s.table.length < s.table.length := Nat.mod_lt _ (by omega)
  have hsm : ∀ j, (hash item.1 % s.table.length + j) % s.table.length = (hash item.1 + j) % s.table.length :=
    fun j => Nat.mod_add_mod _ _ _
  have hscan := scan_ok s.table item.1 a (hash item.1 % s.table.length) hs (s.table.length - 1) 0 (by omega)
  have he0 : (hash item.1 % s.table.length + 0) % s.table.length = hash item.1 % s.table.length := by
    rw [Nat.add_zero, Nat.mod_eq_of_lt hs]
  rw [he0, show s.table.length - 1 + 1 = s.table.length by omega] at hscan
  have hne : s.table.length ≠ 0 := by omega
  unfold hsearch
  simp only [hne, if_false, Res.ok_bind, Res.pure_eq, pure_bind]
  -- all entries with that key are excluded
  have absent : (∀ i e, 0 ≤ i → i < s.table.length →
      s.table[(hash item.1 % s.table.length + i) % s.table.length]? = some (some e) → e.1 ≠ item.1) →
      ∀ e ∈ m, e.1 ≠ item.1 := by
    intro hall e he
    obtain ⟨p, hp⟩ := (h.mem e).1 he
    have hpl : p < s.table.length := (List.getElem?_eq_some_iff.1 hp).1
    obtain ⟨i, hi, hi2⟩ := probe_surj (h := hash item.1) hpl
    exact hall i e (Nat.zero_le _) hi (by rw [hsm, hi2]; exact hp)
  rcases hscan with ⟨i, e, _, h2, h3, h4, h5⟩ | ⟨ha, i, _, h2, h3, h4, h5⟩ | ⟨h1, h2⟩
  · have hem : e ∈ m := (h.mem e).2 ⟨_, h3⟩
    have hfind : m.find? (fun e => e.1 = item.1) = some e := by
      cases hf : m.find? (fun e => e.1 = item.1) with
      | none => rw [List.find?_eq_none] at hf; exact absurd (by simpa using h4) (hf e hem)
      | some e' =>
        have hm' := List.mem_of_find?_eq_some hf
        have hk : e'.1 = item.1 := by simpa using List.find?_some hf
        obtain ⟨p, hp⟩ := (h.mem e').1 hm'
        have hpq := h.distinct p _ e' e hp h3 (by rw [hk, h4])
        subst hpq
        rw [hp] at h3; cases h3; rfl
    refine ⟨s, ?_, ?_⟩
    · simp only [h5, Res.ok_bind, h3, specStep, hfind]
    · simpa [specStep, hfind] using h
  · subst ha
    have habs : ∀ e ∈ m, e.1 ≠ item.1 := by
      intro e he hk
      obtain ⟨p, hp⟩ := (h.mem e).1 he
      have hpl : p < s.table.length := (List.getElem?_eq_some_iff.1 hp).1
      obtain ⟨i', hi, hi2⟩ := probe_surj (h := hash item.1) hpl
      by_cases hlt : i' < i
      · exact h4 i' e (Nat.zero_le _) hlt (by rw [hsm, hi2]; exact hp) hk
      · by_cases heq : i' = i
        · subst heq; rw [hsm, hi2, hp] at h3; cases h3
        · have := h.probe e i' (by omega) (by rw [hk, ← hlen, hi2]; exact hp) i (by omega)
          obtain ⟨e', he'⟩ := this
          rw [hk, ← hlen, ← hsm, h3] at he'; cases he'
    refine ⟨s, ?_, ?_⟩
    · simp [h5, specStep, find_none habs]
    · simpa [specStep, find_none habs] using h
  · have habs := absent h1
    cases a with
    | find =>
      refine ⟨s, ?_, ?_⟩
      · simp [h2, specStep, find_none habs]
      · simpa [specStep, find_none habs] using h
    | enter =>
      simp only [h2, reduceCtorEq, if_false, Res.ok_bind]
      by_cases hfull : s.table.length = s.filled
      · have : ¬ m.length < n := by rw [← h.filled]; omega
        refine ⟨s, ?_, ?_⟩
        · simp [hfull, specStep, find_none habs, this]
        · simpa [specStep, find_none habs, this] using h
      · have hroom : ∃ p : Nat, s.table[p]? = some none := by
          apply Classical.byContradiction
          intro hno
          have : s.table.countP Option.isSome = s.table.length := by
            rw [List.countP_eq_length]
            intro b hb
            obtain ⟨p, hp⟩ := List.getElem?_of_mem hb
            cases b with
            | none => exact absurd ⟨p, hp⟩ hno
            | some _ => rfl
          exact hfull (by rw [h.count, this])
        have hle : s.filled ≤ s.table.length := by rw [h.count]; exact List.countP_le_length
        have hlt : m.length < n := by rw [← h.filled]; omega
        obtain ⟨p, hp⟩ := hroom
        have hpl : p < s.table.length := (List.getElem?_eq_some_iff.1 hp).1
        obtain ⟨i0, hi0, hi1⟩ := probe_surj (h := hash item.1) hpl
        obtain ⟨i, _, g2, g3, g4, g5⟩ := place_ok s.table _ hs (s.table.length - 1) 0 (by omega)
          ⟨i0, Nat.zero_le _, hi0, by rw [hsm, hi1]; exact hp⟩
        rw [he0, show s.table.length - 1 + 1 = s.table.length by omega] at g5
        refine ⟨⟨s.table.set ((hash item.1 % s.table.length + i) % s.table.length) (some item), s.filled + 1⟩, ?_, ?_⟩
        · simp [hfull, g5, specStep, find_none habs, hlt]
        · simp only [specStep, find_none habs, hlt, if_true]
          generalize hq : (hash item.1 % s.table.length + i) % s.table.length = q at *
          have hql : q < s.table.length := (List.getElem?_eq_some_iff.1 g3).1
          have hget : ∀ p e, (s.table.set q (some item))[p]? = some (some e) ↔
              (p = q ∧ e = item) ∨ s.table[p]? = some (some e) := by
            intro p e
            rw [List.getElem?_set]
            by_cases hpq : q = p
            · subst hpq
              simp only [if_true, hql, g3, Option.some.injEq, true_and]
              constructor
              · intro h; exact Or.inl h.symm
              · rintro (h | h)
                · exact h.symm
                · cases h
            · simp only [hpq, if_false]
              constructor
              · exact Or.inr
              · rintro (⟨rfl, _⟩ | h)
                · exact absurd rfl hpq
                · exact h
          refine ⟨by simpa using hlen, ?_, by simp [h.filled], ?_, ?_, ?_⟩
          · intro e
            simp only [List.mem_cons, hget]
            constructor
            · rintro (rfl | he)
              · exact ⟨q, Or.inl ⟨rfl, rfl⟩⟩
              · obtain ⟨p, hp⟩ := (h.mem e).1 he
                exact ⟨p, Or.inr hp⟩
            · rintro ⟨p, ⟨_, rfl⟩ | hp⟩
              · exact Or.inl rfl
              · exact Or.inr ((h.mem e).2 ⟨p, hp⟩)
          · simp only [countP_set_none s.table q item g3, h.count]
          · intro p1 p2 e1 e2 q1 q2 hk
            rw [hget] at q1 q2
            rcases q1 with ⟨rfl, rfl⟩ | q1 <;> rcases q2 with ⟨rfl, rfl⟩ | q2
            · rfl
            · exact absurd hk.symm (habs e2 ((h.mem e2).2 ⟨_, q2⟩))
            · exact absurd hk (habs e1 ((h.mem e1).2 ⟨_, q1⟩))
            · exact h.distinct p1 p2 e1 e2 q1 q2 hk
          · intro e i' hi' hp' j hj
            have lift : ∀ p : Nat, (∃ e', s.table[p]? = some (some e')) →
                ∃ e', (s.table.set q (some item))[p]? = some (some e') := by
              rintro p ⟨e', he'⟩; exact ⟨e', (hget p e').2 (Or.inr he')⟩
            rw [hget] at hp'
            rcases hp' with ⟨hp1, rfl⟩ | hp'
            · have : i' = i := by
                refine probe_inj hi' (show i < n by omega) (h := hash e.1) ?_
                rw [hp1, ← hq, hsm, hlen]
              subst this
              have := g4 j (Nat.zero_le _) hj
              rw [hsm, hlen] at this
              exact lift _ this
            · exact lift _ (h.probe e i' hi' hp' j hj)

/-- **C20.** For every capacity above 0 and every history of hsearch calls on a fresh table (and whatever the hash
function), no call crashes or loops, and the results are those of a map of bounded capacity: FIND returns the stored
entry iff present, ENTER returns the old entry if the key is present, stores the item if there is room, and fails if
the table is full. -/
theorem hsearch_is_bounded_map (n : Nat) (hn : 0 < n) (calls : List ((κ × δ) × Action)) :
    run hash (hcreate n) calls = .ok (specRun n [] calls) := by
  suffices ∀ (calls : List ((κ × δ) × Action)) s m, Rep hash n s m → run hash s calls = .ok (specRun n m calls) from
    this calls _ _ (rep_init hash n)
  intro calls
  induction calls with
  | nil => intro s m _; rfl
  | cons c calls ih =>
    intro s m h
    obtain ⟨s', h1, h2⟩ := hsearch_refines hash hn s m h c.1 c.2
    simp [run, specRun, h1, ih s' _ h2]

/-- In the specification an operation on one key never changes what is stored under another one. -/
theorem spec_other_keys (n : Nat) (m : List (κ × δ)) (item : κ × δ) (a : Action) (k : κ) (hk : k ≠ item.1) :
    (specStep n m item a).2.find? (fun e => e.1 = k) = m.find? (fun e => e.1 = k) := by
  unfold specStep
  split
  · rfl
  · cases a with
    | find => rfl
    | enter =>
      simp only
      split
      · rw [List.find?_cons_of_neg]; simpa using fun h => hk h.symm
      · rfl

/-- A table of capacity 0 (hcreate(0) succeeds where calloc(0) does) makes hsearch divide by zero. -/
theorem hsearch_empty_table_ub (item : κ × δ) (a : Action) : hsearch hash (hcreate 0) item a = .ub := rfl

/-- A history in which two keys collide, the table gets full and a key is looked up behind another one. -/
example : run (fun _ : Char => 7) (hcreate 2) [(('a', 1), .enter), (('b', 2), .enter), (('b', 0), .find),
    (('a', 9), .enter), (('c', 3), .enter), (('c', 0), .find)]
    = .ok [some ('a', 1), some ('b', 2), some ('b', 2), some ('a', 1), none, none] := by decide

end Mlibc.Hash
