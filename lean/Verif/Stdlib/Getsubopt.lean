import Verif.Base

/-
`getsubopt` (options/posix/generic/posix_stdlib.cpp L526-573). Strings are the bytes before the terminator; the
terminators the function writes into the caller's string end the returned name and value. Property C55.
-/
namespace Mlibc.Getsubopt

/-- `*s == ',' || *s == ' ' || *s == '\t'` L537, L562 -/
abbrev isSep (c : UInt8) : Bool := c = 44 || c = 32 || c = 9

/-- What a call returns: index (`none` is -1), `*valuep`, `*optionp`. -/
structure Result where
  ret : Option Nat
  value : Option (List UInt8)
  rest : List UInt8
  deriving DecidableEq, Repr

/-- The search loop. L567-570 -/
def lookup (name : List UInt8) : List (List UInt8) → Nat → Option Nat
  | [], _ => none
  | k :: ks, cnt => if name = k then some cnt else lookup name ks (cnt + 1)

/-- After the name. L548-563 -/
def afterName : List UInt8 → Option (List UInt8) × List UInt8
  | [] => (none, [])
  | c :: s =>
    if c = 61 then (some (s.takeWhile (· ≠ 44)), ((s.dropWhile (· ≠ 44)).drop 1).dropWhile isSep)
    else (none, s.dropWhile isSep)

/-- `getsubopt` with `*optionp` not null. L527-572 -/
def getsubopt (tokens : List (List UInt8)) (s : List UInt8) : Result :=
  match s.dropWhile isSep with
  | [] => ⟨none, none, []⟩
  | c :: cs =>
    ⟨lookup (c :: cs.takeWhile (fun x => x ≠ 44 && x ≠ 61)) tokens 0,
      (afterName (cs.dropWhile (fun x => x ≠ 44 && x ≠ 61))).1,
      (afterName (cs.dropWhile (fun x => x ≠ 44 && x ≠ 61))).2⟩

theorem afterName_length (s : List UInt8) : (afterName s).2.length ≤ s.length := by
  cases s with
  | nil => simp [afterName]
  | cons c s =>
    simp only [afterName]
    split
    · have h1 := List.Sublist.length_le (List.dropWhile_sublist isSep (l := (s.dropWhile (· ≠ 44)).drop 1))
      have h2 := List.Sublist.length_le (List.dropWhile_sublist (· ≠ 44) (l := s))
      simp only [List.length_drop, List.length_cons] at *
      omega
    · have h1 := List.Sublist.length_le (List.dropWhile_sublist isSep (l := s))
      simp only [List.length_cons]
      omega

/-- **C55**: every call on a nonempty string consumes some of it, so any string is used up in finitely many calls. -/
theorem getsubopt_progress (tokens : List (List UInt8)) (s : List UInt8) (h : s ≠ []) :
    (getsubopt tokens s).rest.length < s.length := by
  have h1 := List.Sublist.length_le (List.dropWhile_sublist isSep (l := s))
  unfold getsubopt
  split
  · exact List.length_pos_iff.2 h
  · rename_i c cs hs
    have h2 := afterName_length (cs.dropWhile (fun x => x ≠ 44 && x ≠ 61))
    have h3 := List.Sublist.length_le (List.dropWhile_sublist (fun x => x ≠ 44 && x ≠ 61) (l := cs))
    rw [hs] at h1
    simp only [List.length_cons] at *
    omega

/-- The results of calling `getsubopt` until the string is used up. -/
def calls (tokens : List (List UInt8)) (s : List UInt8) : List (Option Nat × Option (List UInt8)) :=
  if h : s = [] then []
  else ((getsubopt tokens s).ret, (getsubopt tokens s).value) :: calls tokens (getsubopt tokens s).rest
termination_by s.length
decreasing_by exact getsubopt_progress tokens s h

/-! ## Specification -/

/-- A suboption: name and optional value. -/
abbrev Opt := List UInt8 × Option (List UInt8)

/-- Its text. -/
def text (o : Opt) : List UInt8 :=
  match o.2 with
  | none => o.1
  | some v => o.1 ++ 61 :: v

/-- Suboptions joined by commas. -/
def join : List Opt → List UInt8
  | [] => []
  | [o] => text o
  | o :: os => text o ++ 44 :: join os

/-- A name is not empty, does not begin with white space and has no comma or equals sign; a value has no comma. -/
def WellFormed (o : Opt) : Prop :=
  (∃ c cs, o.1 = c :: cs ∧ c ≠ 32 ∧ c ≠ 9) ∧ (∀ x ∈ o.1, x ≠ 44 ∧ x ≠ 61) ∧ ∀ v, o.2 = some v → ∀ x ∈ v, x ≠ 44

/-- `r` is the least index of `name` in the table, `none` if it is not there. -/
def Found (tokens : List (List UInt8)) (name : List UInt8) : Option Nat → Prop
  | none => name ∉ tokens
  | some i => tokens[i]? = some name ∧ ∀ j < i, tokens[j]? ≠ some name

/-! ## Proof -/

theorem lookup_found (name : List UInt8) (ts : List (List UInt8)) (cnt : Nat) :
    match lookup name ts cnt with
    | none => name ∉ ts
    | some i => ∃ k, i = cnt + k ∧ ts[k]? = some name ∧ ∀ j < k, ts[j]? ≠ some name := by
  induction ts generalizing cnt with
  | nil => simp [lookup]
  | cons t ts ih =>
    unfold lookup
    by_cases h : name = t
    · rw [if_pos h]
      exact ⟨0, by omega, by simp [h], by omega⟩
    · rw [if_neg h]
      have := ih (cnt + 1)
      split at this
      · rename_i he
        simp [h, this]
      · rename_i i he
        obtain ⟨k, h1, h2, h3⟩ := this
        refine ⟨k + 1, by omega, by simpa using h2, ?_⟩
        intro j hj
        cases j with
        | zero => simpa using fun e => h e.symm
        | succ j => simpa using h3 j (by omega)

theorem found_lookup (name : List UInt8) (ts : List (List UInt8)) : Found ts name (lookup name ts 0) := by
  have := lookup_found name ts 0
  split at this
  · rename_i he; rw [he]; exact this
  · rename_i i he
    obtain ⟨k, h1, h2, h3⟩ := this
    rw [he]
    obtain rfl : i = k := by omega
    exact ⟨h2, h3⟩

theorem takeWhile_all {p : UInt8 → Bool} {a b : List UInt8} (h : ∀ x ∈ a, p x = true) (hb : b.head?.all (fun x => !p x)) :
    (a ++ b).takeWhile p = a ∧ (a ++ b).dropWhile p = b := by
  induction a with
  | nil =>
    cases b with
    | nil => simp
    | cons x b => simp at hb; simp [hb]
  | cons x a ih =>
    obtain ⟨h1, h2⟩ := ih (fun z hz => h z (by simp [hz]))
    simp [h x (by simp), h1, h2]

/-- One call on a suboption followed by the end of the string or a comma. -/
theorem getsubopt_one (tokens : List (List UInt8)) (o : Opt) (ho : WellFormed o) (r : List UInt8)
    (hr : r = [] ∨ ∃ q, r = 44 :: q) : getsubopt tokens (text o ++ r) = ⟨lookup o.1 tokens 0, o.2, r.dropWhile isSep⟩ := by
  obtain ⟨n, v⟩ := o
  obtain ⟨⟨c, cs, rfl, hc1, hc2⟩, hn, hv⟩ := ho
  simp only at hn hv
  have hcs : ∀ x ∈ cs, (fun x => x ≠ 44 && x ≠ 61) x = true := by
    intro x hx
    have := hn x (by simp [hx])
    simpa using this
  have hc : isSep c = false := by
    have := (hn c (by simp)).1
    simp [isSep, hc1, hc2, this]
  have h44 : isSep 44 = true := by decide
  cases v with
  | none =>
    have hd : (c :: (cs ++ r)).dropWhile isSep = c :: (cs ++ r) := by rw [List.dropWhile_cons_of_neg (by simp [hc])]
    unfold getsubopt
    simp only [text, List.cons_append, hd]
    obtain ⟨h1, h2⟩ := takeWhile_all (b := r) hcs (by rcases hr with rfl | ⟨q, rfl⟩ <;> simp)
    rw [h1, h2]
    rcases hr with rfl | ⟨q, rfl⟩
    · simp [afterName]
    · simp only [afterName]
      rw [if_neg (by decide), List.dropWhile_cons_of_pos h44]
  | some v =>
    have hd : (c :: (cs ++ 61 :: v ++ r)).dropWhile isSep = c :: (cs ++ 61 :: v ++ r) := by
      rw [List.dropWhile_cons_of_neg (by simp [hc])]
    have hv' : ∀ x ∈ v, (fun x => decide (x ≠ 44)) x = true := by
      intro x hx; simpa using hv v rfl x hx
    unfold getsubopt
    simp only [text, List.cons_append, hd]
    obtain ⟨h1, h2⟩ := takeWhile_all (b := 61 :: (v ++ r)) hcs (by simp)
    rw [show cs ++ 61 :: v ++ r = cs ++ 61 :: (v ++ r) by simp, h1, h2]
    simp only [afterName, if_true]
    obtain ⟨h3, h4⟩ := takeWhile_all (b := r) hv' (by rcases hr with rfl | ⟨q, rfl⟩ <;> simp)
    rw [h3, h4]
    rcases hr with rfl | ⟨q, rfl⟩
    · simp
    · rw [List.drop_one, List.tail_cons, List.dropWhile_cons_of_pos h44]

theorem join_head (o : Opt) (os : List Opt) (ho : WellFormed o) : ∃ c cs, join (o :: os) = c :: cs ∧ isSep c = false := by
  obtain ⟨n, v⟩ := o
  obtain ⟨⟨c, cs, rfl, hc1, hc2⟩, hn, hv⟩ := ho
  have hc : isSep c = false := by
    have := (hn c (by simp)).1
    simp [isSep, hc1, hc2, this]
  cases os <;> cases v <;> exact ⟨c, _, rfl, hc⟩

/-- **C55** (partial): calling `getsubopt` on suboptions joined by commas until the string is used up yields, one call
for each suboption and in order, the index of its name in the table (-1 if it is not there) and its value (null if it
has none). Missing from the full property: for an unknown name the value is not the whole suboption
(`getsubopt_unknown_violated`). -/
theorem getsubopt_all_partial (tokens : List (List UInt8)) (os : List Opt) (ho : ∀ o ∈ os, WellFormed o) :
    Pointwise (fun (o : Opt) r => Found tokens o.1 r.1 ∧ r.2 = o.2) os (calls tokens (join os)) := by
  induction os with
  | nil => rw [calls]; simp only [join, dite_true]; exact .nil
  | cons o os ih =>
    obtain ⟨c, cs, hj, -⟩ := join_head o os (ho o (by simp))
    rw [calls, dif_neg (by rw [hj]; simp)]
    cases os with
    | nil =>
      have := getsubopt_one tokens o (ho o (by simp)) [] (.inl rfl)
      rw [List.append_nil] at this
      simp only [join, this, List.dropWhile_nil]
      refine .cons ⟨found_lookup _ _, rfl⟩ ?_
      rw [calls]; simp only [dite_true]; exact .nil
    | cons o' os =>
      have := getsubopt_one tokens o (ho o (by simp)) (44 :: join (o' :: os)) (.inr ⟨_, rfl⟩)
      rw [join, this]
      · refine .cons ⟨found_lookup _ _, rfl⟩ ?_
        obtain ⟨c', cs', hj', hc'⟩ := join_head o' os (ho o' (by simp))
        have hd : (44 :: join (o' :: os)).dropWhile isSep = join (o' :: os) := by
          rw [List.dropWhile_cons_of_pos (by decide), hj', List.dropWhile_cons_of_neg (by simp [hc'])]
        simp only [hd]
        exact ih (fun x hx => ho x (by simp [List.mem_cons.1 hx]))
      · simp

example : ∀ o ∈ [([114, 111], none), ([115, 122], some [49, 61, 50])], WellFormed o := by
  intro o ho
  simp only [List.mem_cons, List.not_mem_nil, or_false] at ho
  rcases ho with rfl | rfl
  · exact ⟨⟨114, [111], rfl, by decide, by decide⟩, by decide, by simp⟩
  · exact ⟨⟨115, [122], rfl, by decide, by decide⟩, by decide, by simp⟩
example : getsubopt [[114], [115, 122]] [115, 122, 61, 49, 44, 114] = ⟨some 1, some [49], [114]⟩ := by decide

/-- **C55** violated: for the unknown `a=b` the value is `b`, not the whole suboption. posix_stdlib.cpp L554, L572 -/
theorem getsubopt_unknown_violated : getsubopt [] [97, 61, 98] = ⟨none, some [98], []⟩ := by decide

end Mlibc.Getsubopt
