import Verif.Base

/-!
# The name of the file of logins

`utmpname`, options/linux/generic/utmp.cpp L130-150, with the memory that it takes and frees.
-/

namespace Mlibc.UtmpName

/-- Characters of a string. -/
abbrev Text := List Nat

/-! ## Specification -/

/-- The name after a history of calls, each with its argument and whether memory could be had: that of the last call that returned 0.
    A call returns -1 exactly if it needs memory (for a new name that is not the default) and gets none. -/
def expected (dflt : Text) (cur : Text) : List (Text × Bool) → Text × List Int
  | [] => (cur, [])
  | (f, mem) :: rest =>
    if f = cur ∨ f = dflt ∨ mem = true then
      let r := expected dflt f rest
      (r.1, 0 :: r.2)
    else
      let r := expected dflt cur rest
      (r.1, -1 :: r.2)

/-! ## The code -/

/-- utmp.cpp L18: `utmpPath` points to the default or to a block; the blocks that are allocated; the next block. -/
structure State where
  path : Option Nat
  live : List (Nat × Text)
  next : Nat

/-- The string that `utmpPath` (L18) points to; undefined if its block has been freed. -/
def text (dflt : Text) (s : State) : Res Text :=
  match s.path with
  | none => .ok dflt
  | some b => match s.live.lookup b with
    | some t => .ok t
    | none => .ub

/-- `free((void *) utmpPath)`, L135 and L143: undefined for what is not an allocated block. -/
def freePath (s : State) : Res State :=
  match s.path with
  | none => .ub
  | some b => match s.live.lookup b with
    | some _ => .ok { s with live := s.live.filter fun e => e.1 ≠ b }
    | none => .ub

/-- L130-150; `mem`: whether `strdup` gets memory.  The lock is not modelled, and `file` is not memory that this function owns. -/
def utmpname (dflt : Text) (s : State) (file : Text) (mem : Bool) : Res (State × Int) :=
  (text dflt s).bind fun cur =>
  if file ≠ cur then                                                              -- L133
    if file = dflt then                                                           -- L134
      (freePath s).bind fun s => .ok ({ s with path := none }, 0)                 -- L135-136
    else
      if mem = false then .ok (s, -1)                                             -- L138-140
      else
        let name := s.next
        let s := { s with live := (name, file) :: s.live, next := s.next + 1 }
        (if s.path ≠ none then freePath s else .ok s).bind fun s =>               -- L142-143
        .ok ({ s with path := some name }, 0)                                     -- L145
  else .ok (s, 0)                                                                 -- L149

/-- A history of calls of `utmpname` (L130-150). -/
def run (dflt : Text) (s : State) : List (Text × Bool) → Res (State × List Int)
  | [] => .ok (s, [])
  | (f, mem) :: rest => (utmpname dflt s f mem).bind fun r => (run dflt r.1 rest).bind fun q => .ok (q.1, r.2 :: q.2)

/-- The start, utmp.cpp L18. -/
def init : State := ⟨none, [], 0⟩

/-! ## Theorems -/

/-- What always holds: the current name is the default and no block is allocated, or it is the only block, with another name. -/
def Fits (dflt cur : Text) (s : State) : Prop :=
  (s.path = none ∧ s.live = [] ∧ cur = dflt) ∨
  (∃ b, s.path = some b ∧ s.live = [(b, cur)] ∧ b < s.next ∧ cur ≠ dflt)

theorem utmpname_fits (dflt cur file : Text) (s : State) (mem : Bool) (h : Fits dflt cur s) :
    ∃ s', (if file = cur ∨ file = dflt ∨ mem = true then
        utmpname dflt s file mem = .ok (s', 0) ∧ Fits dflt file s'
      else utmpname dflt s file mem = .ok (s', -1) ∧ Fits dflt cur s') := by
  obtain ⟨path, live, next⟩ := s
  rcases h with ⟨h1, h2, h3⟩ | ⟨b, h1, h2, h3, h4⟩
  · dsimp only at h1 h2
    subst h1 h2 h3
    by_cases hf : file = cur
    · refine ⟨⟨none, [], next⟩, ?_⟩
      rw [if_pos (Or.inl hf)]
      exact ⟨by simp [utmpname, text, Res.bind, hf], Or.inl ⟨rfl, rfl, hf⟩⟩
    · cases mem with
      | false =>
        refine ⟨⟨none, [], next⟩, ?_⟩
        rw [if_neg (by simp [hf])]
        exact ⟨by simp [utmpname, text, Res.bind, hf], Or.inl ⟨rfl, rfl, rfl⟩⟩
      | true =>
        refine ⟨⟨some next, [(next, file)], next + 1⟩, ?_⟩
        rw [if_pos (by simp)]
        exact ⟨by simp [utmpname, text, Res.bind, hf], Or.inr ⟨next, rfl, rfl, Nat.lt_succ_self _, hf⟩⟩
  · dsimp only at h1 h2 h3
    subst h1 h2
    by_cases hf : file = cur
    · refine ⟨⟨some b, [(b, cur)], next⟩, ?_⟩
      rw [if_pos (Or.inl hf)]
      refine ⟨by simp [utmpname, text, Res.bind, hf, List.lookup], Or.inr ⟨b, rfl, by rw [hf], h3, by rw [hf]; exact h4⟩⟩
    · by_cases hd : file = dflt
      · refine ⟨⟨none, [], next⟩, ?_⟩
        rw [if_pos (Or.inr (Or.inl hd))]
        have hc : ¬ dflt = cur := fun e => h4 e.symm
        exact ⟨by simp [utmpname, text, freePath, Res.bind, hd, hc, List.lookup], Or.inl ⟨rfl, rfl, hd⟩⟩
      · cases mem with
        | false =>
          refine ⟨⟨some b, [(b, cur)], next⟩, ?_⟩
          rw [if_neg (by simp [hf, hd])]
          exact ⟨by simp [utmpname, text, Res.bind, hf, hd, List.lookup], Or.inr ⟨b, rfl, rfl, h3, h4⟩⟩
        | true =>
          refine ⟨⟨some next, [(next, file)], next + 1⟩, ?_⟩
          rw [if_pos (by simp)]
          have hn : (b == next) = false := by simp; omega
          have hn' : ¬ next = b := by omega
          exact ⟨by simp [utmpname, text, freePath, Res.bind, hf, hd, List.lookup, hn, hn'],
            Or.inr ⟨next, rfl, rfl, Nat.lt_succ_self _, hd⟩⟩

theorem run_fits (dflt : Text) (calls : List (Text × Bool)) : ∀ (cur : Text) (s : State), Fits dflt cur s →
    ∃ s', run dflt s calls = .ok (s', (expected dflt cur calls).2) ∧ Fits dflt (expected dflt cur calls).1 s' := by
  induction calls with
  | nil => intro cur s h; exact ⟨s, rfl, h⟩
  | cons c rest ih =>
    intro cur s h
    obtain ⟨f, mem⟩ := c
    obtain ⟨s1, h1⟩ := utmpname_fits dflt cur f s mem h
    unfold run expected
    by_cases hc : f = cur ∨ f = dflt ∨ mem = true
    · rw [if_pos hc] at h1
      rw [if_pos hc, h1.1]
      obtain ⟨s2, h2, h3⟩ := ih f s1 h1.2
      refine ⟨s2, ?_, h3⟩
      simp only [Res.bind]
      rw [h2]
    · rw [if_neg hc] at h1
      rw [if_neg hc, h1.1]
      obtain ⟨s2, h2, h3⟩ := ih cur s1 h1.2
      refine ⟨s2, ?_, h3⟩
      simp only [Res.bind]
      rw [h2]

/-- **C132.** Whatever the history of calls, and whenever memory is short: no string is used after it was freed and none is freed
    twice; the results and the name are the expected ones; and at most one block is allocated, none for the default. -/
theorem utmpname_history (dflt : Text) (calls : List (Text × Bool)) :
    ∃ s, run dflt init calls = .ok (s, (expected dflt dflt calls).2) ∧ text dflt s = .ok (expected dflt dflt calls).1 ∧
      s.live.length = (if (expected dflt dflt calls).1 = dflt then 0 else 1) := by
  obtain ⟨s, h1, h2⟩ := run_fits dflt calls dflt init (Or.inl ⟨rfl, rfl, rfl⟩)
  refine ⟨s, h1, ?_⟩
  obtain ⟨path, live, next⟩ := s
  rcases h2 with ⟨a, b, c⟩ | ⟨k, a, b, -, c⟩
  · dsimp only at a b
    subst a b
    exact ⟨by rw [c]; rfl, by rw [if_pos c]; rfl⟩
  · dsimp only at a b
    subst a b
    exact ⟨by simp [text, List.lookup], by rw [if_neg c]; rfl⟩

/-- Another file, without memory for a third, the third, and the default again. -/
example : expected [1] [1] [([2], true), ([3], false), ([3], true), ([1], false)] = ([1], [0, -1, 0, 0]) := by decide

example : (run [1] init [([2], true), ([3], false), ([3], true)]) = .ok (⟨some 1, [(1, [3])], 2⟩, [0, -1, 0]) := by rfl

end Mlibc.UtmpName
