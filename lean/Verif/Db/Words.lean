/-
Words of a line of text: the specification shared by the readers of /etc/services, /etc/hosts and /etc/protocols.
-/
namespace Mlibc.Words

/-- White space: space, \t, \n, \v, \f, \r. -/
def white (c : Nat) : Bool := c == 32 || c == 9 || c == 10 || c == 11 || c == 12 || c == 13

/-- Splitting at white space; there can be empty pieces. -/
def pieces : List Nat → List (List Nat)
  | [] => [[]]
  | c :: s => if white c then [] :: pieces s else
    match pieces s with
    | [] => [[c]]
    | w :: r => (c :: w) :: r

/-- The words of a line. -/
def words (line : List Nat) : List (List Nat) := (pieces line).filter (· ≠ [])

theorem pieces_ne (s : List Nat) : pieces s ≠ [] := by
  cases s with
  | nil => simp [pieces]
  | cons c s =>
    rw [pieces]
    split
    · simp
    · split <;> simp

theorem words_white (c : Nat) (s : List Nat) (h : white c = true) : words (c :: s) = words s := by
  simp [words, pieces, h]

theorem words_dropWhile (s : List Nat) : words (s.dropWhile white) = words s := by
  induction s with
  | nil => rfl
  | cons c s ih =>
    by_cases h : white c = true
    · rw [List.dropWhile_cons_of_pos h, ih, words_white c s h]
    · rw [List.dropWhile_cons_of_neg h]

theorem pieces_word (w r : List Nat) (hw : ∀ c ∈ w, white c = false) (hr : ∀ c, r.head? = some c → white c = true) :
    pieces (w ++ r) = w :: (pieces r).tail := by
  induction w with
  | nil =>
    cases r with
    | nil => rfl
    | cons c r => simp [pieces, hr c rfl]
  | cons c w ih =>
    have ih := ih (fun x hx => hw x (by simp [hx]))
    rw [List.cons_append, pieces, if_neg (by simp [hw c (by simp)]), ih]

theorem words_word (w r : List Nat) (hne : w ≠ []) (hw : ∀ c ∈ w, white c = false) (hr : ∀ c, r.head? = some c → white c = true) :
    words (w ++ r) = w :: words r := by
  have ht : (pieces r).tail.filter (· ≠ []) = words r := by
    unfold words
    cases r with
    | nil => simp [pieces]
    | cons c r => simp [pieces, hr c rfl]
  unfold words
  rw [pieces_word w r hw hr, List.filter_cons, if_pos (by simpa using hne), ht]
  rfl

theorem takeWhile_all {α : Type} (p : α → Bool) (s : List α) : ∀ c ∈ s.takeWhile p, p c = true := by
  induction s with
  | nil => simp
  | cons a s ih =>
    by_cases h : p a
    · rw [List.takeWhile_cons_of_pos h]
      intro c hc
      rcases List.mem_cons.1 hc with rfl | hc
      · exact h
      · exact ih c hc
    · rw [List.takeWhile_cons_of_neg h]; simp

theorem head_dropWhile' {α : Type} (p : α → Bool) (s : List α) (c : α) (h : (s.dropWhile p).head? = some c) : p c = false := by
  induction s with
  | nil => simp at h
  | cons a s ih =>
    by_cases hp : p a
    · rw [List.dropWhile_cons_of_pos hp] at h; exact ih h
    · rw [List.dropWhile_cons_of_neg hp] at h; simp at h; subst h; simpa using hp

/-- The first word after white space and what follows it. -/
theorem split_word (s : List Nat) :
    (s.dropWhile white = [] ∧ words s = []) ∨
    ∃ w r, s.dropWhile white = w ++ r ∧ w ≠ [] ∧ (∀ c ∈ w, white c = false) ∧ (∀ c, r.head? = some c → white c = true) ∧
      words s = w :: words r ∧ (s.dropWhile white).takeWhile (fun c => !white c) = w := by
  by_cases hs : s.dropWhile white = []
  · left
    refine ⟨hs, ?_⟩
    rw [← words_dropWhile, hs]; rfl
  · right
    have hd : s.dropWhile white = (s.dropWhile white).takeWhile (fun c => !white c) ++ (s.dropWhile white).dropWhile (fun c => !white c) :=
      (List.takeWhile_append_dropWhile).symm
    have hw : ∀ c ∈ (s.dropWhile white).takeWhile (fun c => !white c), white c = false := by
      intro c hc
      simpa using takeWhile_all _ _ c hc
    have hr : ∀ c, ((s.dropWhile white).dropWhile (fun c => !white c)).head? = some c → white c = true := by
      intro c hc
      simpa using head_dropWhile' _ _ c hc
    have hne : (s.dropWhile white).takeWhile (fun c => !white c) ≠ [] := by
      cases hq : s.dropWhile white with
      | nil => exact absurd hq hs
      | cons c q =>
        have := head_dropWhile' white s c (by rw [hq]; rfl)
        rw [List.takeWhile_cons_of_pos (by simp [this])]
        simp
    refine ⟨_, _, hd, hne, hw, hr, ?_, rfl⟩
    rw [← words_dropWhile s]
    conv => lhs; rw [hd]
    exact words_word _ _ hne hw hr

end Mlibc.Words
