import Verif.Base

/-!
# The name server to ask

`get_nameserver`, options/posix/generic/resolv_conf.cpp L8-40, on the bytes of /etc/resolv.conf.  Files with null bytes and errors of
reading are not modelled.
-/

namespace Mlibc.ResolvConf

/-! ## Specification -/

/-- The lines of a file, without their newlines. -/
def lines : List Nat → List (List Nat)
  | [] => [[]]
  | c :: r =>
    if c = 10 then [] :: lines r
    else match lines r with
      | l :: ls => (c :: l) :: ls
      | [] => [[c]]

/-- White space: space, tab, newline, vertical tab, form feed, carriage return. -/
def white (c : Nat) : Bool := c == 32 || c == 9 || c == 10 || c == 11 || c == 12 || c == 13

/-- `nameserver` -/
def keyword : List Nat := [110, 97, 109, 101, 115, 101, 114, 118, 101, 114]

/-- The line begins with the keyword, with nothing or white space behind it. -/
def isServer (l : List Nat) : Bool := l.take 10 == keyword && ((l.drop 10).head?.all white)

/-- The first word behind the keyword. -/
def address (l : List Nat) : List Nat := ((l.drop 10).dropWhile white).takeWhile fun c => !white c

/-- The first address in the file. -/
def firstServer (file : List Nat) : Option (List Nat) :=
  (lines file).findSome? fun l => if isServer l && !(address l).isEmpty then some (address l) else none

/-! ## The code -/

/-- ctype's `isspace` for `char`; bytes from 128 on are no ASCII characters and give false. -/
def isspace (c : Nat) : Bool := (9 ≤ c && c ≤ 13) || c == 32

/-- `fgets` (L15) of at most `k` bytes: the bytes, the rest of the file, and whether the end was met. -/
def gets : Nat → List Nat → List Nat × List Nat × Bool
  | 0, f => ([], f, false)
  | _ + 1, [] => ([], [], true)
  | k + 1, c :: r => if c = 10 then ([c], r, false) else
    let q := gets k r
    (c :: q.1, q.2)

/-- L19: the rest of a line that is too long is skipped. -/
def skipRest (f : List Nat) : List Nat :=
  match f with
  | [] => []
  | c :: r => if c = 10 then r else skipRest r

/-- L27 on memory: undefined if there is no end. -/
def skipSpace : List Nat → Res (List Nat)
  | [] => .ub
  | c :: r => if isspace c then skipSpace r else .ok (c :: r)

/-- L28 and L30-31 on memory. -/
def word : List Nat → Res (List Nat)
  | [] => .ub
  | c :: r => if c ≠ 0 ∧ isspace c = false then (word r).bind fun w => .ok (c :: w) else .ok []

/-- L25-33 for the string in `line`, with its null byte: the name if the line is one of a server. -/
def parse (buf : List Nat) : Res (Option (List Nat)) :=
  if buf.take 10 = keyword then                                                   -- L25
    match buf[10]? with
    | none => .ub
    | some c =>
      if isspace c then (skipSpace (buf.drop 11)).bind fun p => (word p).bind fun w => .ok (some w)   -- L26-32
      else .ok none
  else .ok none

/-- L15-34, at most `fuel` rounds; without a line of a server the name stays empty. -/
def loop : Nat → List Nat → Res (List Nat)
  | 0, _ => .ub
  | fuel + 1, f =>
    let q := gets 127 f
    if q.1 = [] then .ok []                                                       -- L15
    else if 10 ∉ q.1 ∧ q.2.2 = false then loop fuel (skipRest q.2.1)              -- L17-20
    else (parse (q.1 ++ [0])).bind fun o => match o with
      | some w => .ok w                                                           -- L32
      | none => loop fuel q.2.1

/-- L8-40 -/
def getNameserver (f : List Nat) : Res (Option (List Nat)) :=
  (loop (f.length + 1) f).bind fun w => .ok (if w = [] then none else some w)     -- L37-39

/-! ## Theorems -/

theorem isspace_eq (c : Nat) : isspace c = white c := by
  unfold isspace white
  rw [Bool.eq_iff_iff]
  simp
  omega

theorem gets_line (r : List Nat) : ∀ (l : List Nat) (k : Nat), 10 ∉ l → l.length < k → gets k (l ++ 10 :: r) = (l ++ [10], r, false)
  | [], 0, _, hk => by simp at hk
  | [], k + 1, _, _ => by simp [gets]
  | c :: l, 0, _, hk => by simp at hk
  | c :: l, k + 1, h, hk => by
    have hc : ¬ c = 10 := fun e => h (by simp [e])
    simp only [List.cons_append, gets, if_neg hc, gets_line r l k (fun e => h (by simp [e])) (by simpa using hk)]

theorem gets_long (t : List Nat) : ∀ (l : List Nat) (k : Nat), 10 ∉ l → k ≤ l.length → gets k (l ++ t) = (l.take k, l.drop k ++ t, false)
  | l, 0, _, _ => by simp [gets]
  | [], k + 1, _, hk => by simp at hk
  | c :: l, k + 1, h, hk => by
    have hc : ¬ c = 10 := fun e => h (by simp [e])
    simp only [List.cons_append, gets, if_neg hc, gets_long t l k (fun e => h (by simp [e])) (by simpa using hk), List.take_succ_cons,
      List.drop_succ_cons]

theorem gets_end : ∀ (l : List Nat) (k : Nat), 10 ∉ l → l.length < k → gets k l = (l, [], true)
  | [], 0, _, hk => by simp at hk
  | [], k + 1, _, _ => by simp [gets]
  | c :: l, 0, _, hk => by simp at hk
  | c :: l, k + 1, h, hk => by
    have hc : ¬ c = 10 := fun e => h (by simp [e])
    simp only [gets, if_neg hc, gets_end l k (fun e => h (by simp [e])) (by simpa using hk)]

theorem skipRest_line (r : List Nat) : ∀ l : List Nat, 10 ∉ l → skipRest (l ++ 10 :: r) = r
  | [], _ => by simp [skipRest]
  | c :: l, h => by
    have hc : ¬ c = 10 := fun e => h (by simp [e])
    simp only [List.cons_append, skipRest, if_neg hc, skipRest_line r l (fun e => h (by simp [e]))]

theorem skipRest_end : ∀ l : List Nat, 10 ∉ l → skipRest l = []
  | [], _ => by simp [skipRest]
  | c :: l, h => by
    have hc : ¬ c = 10 := fun e => h (by simp [e])
    simp only [skipRest, if_neg hc, skipRest_end l (fun e => h (by simp [e]))]

theorem lines_end : ∀ l : List Nat, 10 ∉ l → lines l = [l]
  | [], _ => rfl
  | c :: l, h => by
    have hc : ¬ c = 10 := fun e => h (by simp [e])
    simp only [lines, if_neg hc, lines_end l (fun e => h (by simp [e]))]

theorem lines_line (r : List Nat) : ∀ l : List Nat, 10 ∉ l → lines (l ++ 10 :: r) = l :: lines r
  | [], _ => by simp [lines]
  | c :: l, h => by
    have hc : ¬ c = 10 := fun e => h (by simp [e])
    simp only [List.cons_append, lines, if_neg hc, lines_line r l (fun e => h (by simp [e]))]

theorem split (f : List Nat) : 10 ∉ f ∨ ∃ l r, 10 ∉ l ∧ f = l ++ 10 :: r := by
  induction f with
  | nil => exact Or.inl (by simp)
  | cons c f ih =>
    by_cases hc : c = 10
    · exact Or.inr ⟨[], f, by simp, by simp [hc]⟩
    · rcases ih with h | ⟨l, r, h1, h2⟩
      · exact Or.inl (by simp [h, Ne.symm hc])
      · exact Or.inr ⟨c :: l, r, by simp [h1, Ne.symm hc], by simp [h2]⟩

theorem skipSpace_eq : ∀ a : List Nat, skipSpace (a ++ [0]) = .ok (a.dropWhile white ++ [0])
  | [] => by decide
  | c :: a => by
    simp only [List.cons_append, skipSpace, isspace_eq, List.dropWhile]
    cases h : white c
    · simp
    · simp [skipSpace_eq a]

theorem word_eq : ∀ a : List Nat, 0 ∉ a → word (a ++ [0]) = .ok (a.takeWhile fun c => !white c)
  | [], _ => by decide
  | c :: a, h => by
    have hc : c ≠ 0 := fun e => h (by simp [e])
    simp only [List.cons_append, word, isspace_eq, List.takeWhile]
    cases hw : white c
    · rw [if_pos ⟨hc, rfl⟩, word_eq a (fun e => h (by simp [e]))]; rfl
    · rw [if_neg (by simp)]; rfl

theorem takeWhile_nl : ∀ x : List Nat, (x ++ [10]).takeWhile (fun c => !white c) = x.takeWhile fun c => !white c
  | [] => by decide
  | c :: x => by
    simp only [List.cons_append, List.takeWhile]
    cases white c
    · simp [takeWhile_nl x]
    · rfl

theorem trim_nl : ∀ x : List Nat, ((x ++ [10]).dropWhile white).takeWhile (fun c => !white c) =
    (x.dropWhile white).takeWhile fun c => !white c
  | [] => by decide
  | c :: x => by
    simp only [List.cons_append, List.dropWhile]
    cases h : white c
    · exact takeWhile_nl (c :: x)
    · exact trim_nl x

theorem not_mem_dropWhile (a : List Nat) (h : 0 ∉ a) : 0 ∉ a.dropWhile white := fun e =>
  h ((List.dropWhile_sublist (p := white)).subset e)

/-- L25-33 behind the keyword. -/
theorem parse_keyword (y : List Nat) (h0 : 0 ∉ y) : parse (keyword ++ y ++ [0]) = 
    .ok (if y.head?.any white then some ((y.dropWhile white).takeWhile fun c => !white c) else none) := by
  unfold parse
  rw [if_pos (by simp [keyword])]
  cases y with
  | nil => clear h0; decide
  | cons c y =>
    have e1 : (keyword ++ c :: y ++ [0])[10]? = some c := by simp [keyword]
    have e2 : (keyword ++ c :: y ++ [0]).drop 11 = y ++ [0] := by simp [keyword]
    rw [e1, e2]
    dsimp only
    rw [isspace_eq]
    have h0' : 0 ∉ y := fun e => h0 (by simp [e])
    cases hw : white c
    · simp [hw]
    · simp only [List.head?_cons, Option.any_some, hw, if_true, skipSpace_eq, Res.bind, word_eq _ (not_mem_dropWhile y h0'), List.dropWhile, hw]

theorem take_split (l : List Nat) (h : l.take 10 = keyword) : l = keyword ++ l.drop 10 := by rw [← h, List.take_append_drop]

/-- L25-33 for a line with its newline. -/
theorem parse_line (l : List Nat) (h0 : 0 ∉ l) (_hn : 10 ∉ l) : parse (l ++ [10] ++ [0]) =
    .ok (if isServer l then some (address l) else none) := by
  by_cases h : l.take 10 = keyword
  · have hl := take_split l h
    generalize hy : l.drop 10 = y at hl
    have hi : isServer l = y.head?.all white := by simp [isServer, h, hy]
    have ha : address l = (y.dropWhile white).takeWhile fun c => !white c := by simp [address, hy]
    rw [hi, ha, hl, List.append_assoc keyword, parse_keyword (y ++ [10]) (by
      have : 0 ∉ y := fun e => h0 (by rw [hl]; simp [e])
      simp [this])]
    rw [trim_nl y]
    cases y with
    | nil => rfl
    | cons c y => by_cases hw : white c = true <;> simp [hw]
  · have hi : isServer l = false := by simp [isServer, h]
    have : ¬ (l ++ [10] ++ [0]).take 10 = keyword := by
      intro e
      by_cases hl : 10 ≤ l.length
      · rw [List.append_assoc, List.take_append_of_le_length hl] at e; exact h e
      · have : 10 ∈ (l ++ [10] ++ [0]).take 10 := by
          rw [List.take_append, List.take_of_length_le (by simp; omega)]; simp
        rw [e] at this
        exact absurd this (by decide)
    unfold parse
    rw [if_neg this, hi]
    rfl

/-- L25-33 for a last line without a newline. -/
theorem parse_last (l : List Nat) (h0 : 0 ∉ l) : ∃ o, parse (l ++ [0]) = .ok o ∧
    o.getD [] = (if isServer l then address l else []) := by
  by_cases h : l.take 10 = keyword
  · have hl := take_split l h
    generalize hy : l.drop 10 = y at hl
    have hi : isServer l = y.head?.all white := by simp [isServer, h, hy]
    have ha : address l = (y.dropWhile white).takeWhile fun c => !white c := by simp [address, hy]
    rw [hi, ha, hl, parse_keyword y (fun e => h0 (by rw [hl]; simp [e]))]
    refine ⟨_, rfl, ?_⟩
    cases y with
    | nil => rfl
    | cons c y =>
      simp only [List.head?_cons, Option.all_some, Option.any_some]
      by_cases hw : white c = true <;> simp [hw]
  · have hi : isServer l = false := by simp [isServer, h]
    have : ¬ (l ++ [0]).take 10 = keyword := by
      intro e
      by_cases hl : 10 ≤ l.length
      · rw [List.take_append_of_le_length hl] at e; exact h e
      · have : 0 ∈ (l ++ [0]).take 10 := by
          rw [List.take_of_length_le (by simp; omega)]; simp
        rw [e] at this
        exact absurd this (by decide)
    unfold parse
    rw [if_neg this, hi]
    exact ⟨none, rfl, rfl⟩

/-- The lines that the code looks at. -/
def chosen (l : List Nat) : Bool := l.length ≤ 126 && isServer l

theorem loop_eq (fuel : Nat) : ∀ f : List Nat, f.length < fuel → 0 ∉ f →
    loop fuel f = .ok ((((lines f).find? chosen).map address).getD []) := by
  induction fuel with
  | zero => intro f h; omega
  | succ fuel ih =>
    intro f hf h0
    have hnil : ∀ fuel, 0 < fuel → loop fuel [] = .ok [] := by
      intro fuel h
      cases fuel with
      | zero => omega
      | succ n => rfl
    unfold loop
    dsimp only
    rcases split f with hn | ⟨l, r, hn, rfl⟩
    · rw [lines_end f hn]
      by_cases he : f = []
      · subst he; rfl
      · have hpos : 0 < f.length := List.length_pos_iff.mpr he
        by_cases hk : f.length < 127
        · rw [gets_end f 127 hn hk]
          dsimp only
          rw [if_neg he, if_neg (by simp)]
          obtain ⟨o, ho, hw⟩ := parse_last f h0
          rw [ho]
          simp only [Res.bind]
          have hc : chosen f = isServer f := by unfold chosen; simp; omega
          cases o with
          | none =>
            simp only [Option.getD_none] at hw
            rw [hnil fuel (by omega), List.find?_cons, hc]
            cases hs : isServer f
            · rfl
            · rw [hs] at hw; simp only [if_true] at hw; simp [← hw]
          | some w =>
            simp only [Option.getD_some] at hw
            rw [List.find?_cons, hc]
            cases hs : isServer f
            · rw [hs] at hw; simp [hw]
            · rw [hs] at hw; simp [hw]
        · have hg := gets_long [] f 127 hn (by omega)
          rw [List.append_nil, List.append_nil] at hg
          rw [hg]
          dsimp only
          have ht : ¬ f.take 127 = [] := by
            rw [List.take_eq_nil_iff]; exact fun e => e.elim (by omega) he
          rw [if_neg ht, if_pos ⟨fun e => hn (List.mem_of_mem_take e), rfl⟩,
            skipRest_end _ (fun e => hn (List.mem_of_mem_drop e)), hnil fuel (by omega)]
          have hc : chosen f = false := by unfold chosen; rw [decide_eq_false (by omega)]; rfl
          simp [List.find?_cons, hc]
    · rw [lines_line r l hn]
      have hr : 0 ∉ r := fun e => h0 (by simp [e])
      have hl : 0 ∉ l := fun e => h0 (by simp [e])
      have hlen : r.length < fuel := by simp at hf; omega
      by_cases hk : l.length < 127
      · rw [gets_line r l 127 hn hk]
        dsimp only
        rw [if_neg (by simp), if_neg (by simp), parse_line l hl hn]
        simp only [Res.bind]
        have hc : chosen l = isServer l := by unfold chosen; simp; omega
        rw [List.find?_cons, hc]
        cases hs : isServer l
        · simp only [Bool.false_eq_true, if_false]
          exact ih r hlen hr
        · simp
      · rw [gets_long (10 :: r) l 127 hn (by omega)]
        dsimp only
        have ht : ¬ l.take 127 = [] := by
          rw [List.take_eq_nil_iff]; exact fun e => e.elim (by omega) fun e => hk (by simp [e])
        rw [if_neg ht, if_pos ⟨fun e => hn (List.mem_of_mem_take e), rfl⟩,
          skipRest_line r _ (fun e => hn (List.mem_of_mem_drop e)), ih r hlen hr]
        have hc : chosen l = false := by unfold chosen; rw [decide_eq_false (by omega)]; rfl
        simp [List.find?_cons, hc]

/-- **C136.** For every file without null bytes nothing outside of the buffer is read, and the name is the address in the first line of
    a server that has at most 126 bytes; none if there is no such line, or no address in it. -/
theorem nameserver_lines (f : List Nat) (h0 : 0 ∉ f) :
    getNameserver f = .ok (match (lines f).find? fun l => l.length ≤ 126 && isServer l with
      | some l => if address l = [] then none else some (address l)
      | none => none) := by
  unfold getNameserver
  rw [loop_eq _ f (by omega) h0]
  simp only [Res.bind]
  have : (fun l : List Nat => decide (l.length ≤ 126) && isServer l) = chosen := rfl
  rw [this]
  cases (lines f).find? chosen <;> simp

/-- **C136.** If no line has more than 126 bytes and no line of a server lacks its address, the name is the first address in the file.
    Missing: other files, see the theorems below. -/
theorem nameserver_first_partial (f : List Nat) (h0 : 0 ∉ f) (h : ∀ l ∈ lines f, l.length ≤ 126 ∧ (isServer l = true → address l ≠ [])) :
    getNameserver f = .ok (firstServer f) := by
  rw [nameserver_lines f h0]
  unfold firstServer
  congr 1
  generalize lines f = ls at h
  induction ls with
  | nil => rfl
  | cons l ls ih =>
    obtain ⟨h1, h2⟩ := h l (by simp)
    have := ih fun x hx => h x (by simp [hx])
    rw [List.find?_cons, List.findSome?_cons]
    cases hs : isServer l
    · simpa [hs] using this
    · have h3 := h2 hs
      simp [h1, h3]

/-- **C136 is violated.** A line of a server without an address hides the servers behind it: "nameserver", newline, "nameserver 1". -/
theorem nameserver_blank_violated :
    getNameserver (keyword ++ [10] ++ keyword ++ [32, 49, 10]) = .ok none ∧
    firstServer (keyword ++ [10] ++ keyword ++ [32, 49, 10]) = some [49] := by decide +kernel

/-- **C136 is violated.** A line with an address is not seen if white space makes it longer than 126 bytes. -/
theorem nameserver_long_violated :
    getNameserver (keyword ++ [32, 49] ++ List.replicate 115 32) = .ok none ∧
    firstServer (keyword ++ [32, 49] ++ List.replicate 115 32) = some [49] := by decide +kernel

/-- "#", newline, "nameserver", tab, "1.2", newline, "nameserver 3". -/
example : let f := [35, 10] ++ keyword ++ [9, 49, 46, 50, 10] ++ keyword ++ [32, 51]
    0 ∉ f ∧ (∀ l ∈ lines f, l.length ≤ 126 ∧ (isServer l = true → address l ≠ [])) ∧ firstServer f = some [49, 46, 50] := by
  decide +kernel

end Mlibc.ResolvConf
