import Verif.Regex.Expand

/-!
# regexec finds a match iff there is one
-/
namespace Mlibc.Regex

/-- For every subject string and every expression whose repetition counts are in order, in which
    assertions are not on one of several empty paths (`oneEmpty`) and counted repetitions are inside at
    most one other repetition (`level2`): `regexec` reports a match iff some part of the subject matches.
    Partial: the two conditions are needed, see `empty_path_violated`, `nested_counts_violated` and
    `dropped_atom_violated`; back references and the offsets of matches are not covered. -/
theorem regexec_regcomp_partial (r : Re) (hp : r.proper = true) (ho : r.oneEmpty = true)
    (hl : r.level2 = true) (x : Ctx) (hx : x.Ok) : regexec x (regcomp r) = true ↔ r.Found x := by
  have h := expand_level2 r hp hl 0 { add := 0, total := 0, maxp := 0 } rfl
  simp only [regcomp, compile]
  generalize expand (number r 0).1 0 { add := 0, total := 0, maxp := 0 } = e at h ⊢
  obtain ⟨t, s⟩ := e
  simp only at h ⊢
  obtain ⟨hd, -, ht⟩ := h
  generalize hN : (if s.maxp > (number r 0).2 + s.total then s.maxp else (number r 0).2 + s.total) = N
  have hN' : ¬ HasPos t N := by
    intro h
    have := hd.within N h
    split at hN <;> omega
  have := fun i j => path_iff x t N { lo := 0, hi := 0 } hd.uniq hd.simple (hd.shape.one ho) hN' i j
  rw [regexec_iff hx]
  have hfin : firstOf (lastpos (.cat t (.leaf N [{ lo := 0, hi := 0 }]))) = N := by
    simp [lastpos, nullable, firstOf]
  rw [hfin]
  unfold autom at this
  unfold Re.Found
  constructor
  · rintro ⟨i, k, hi, h⟩
    exact ⟨i, k, hi, (hd.mtch x i k).1 ((this i k).1 h)⟩
  · rintro ⟨i, j, hi, h⟩
    exact ⟨i, j, hi, (this i j).2 ((hd.mtch x i j).2 h)⟩

/-- A character. -/
def ch (c : Nat) : Re := .chr [{ lo := c, hi := c }]

/-- ASCII letters and digits. -/
def asciiAlnum (c : Nat) : Bool := (48 ≤ c && c ≤ 57) || (65 ≤ c && c ≤ 90) || (97 ≤ c && c ≤ 122)

/-- A subject in the C locale (class 1: digits). -/
def subj (s : List Nat) : Ctx := { str := s, alnum := asciiAlnum, isctype := fun c k => k == 1 && 48 ≤ c && c ≤ 57 }

theorem subj_ok (s : List Nat) (h : ∀ c ∈ s, c ≠ 0) : (subj s).Ok := ⟨h, rfl⟩

/-- The hypotheses of `regexec_regcomp_partial` are met by `^(a|bc){2,3}[[:digit:]x-z]*\>$`, and both
    outcomes occur. -/
def sample : Re :=
  .cat (.cat (.cat (.cat (.asrt .bol) (.rep (.alt (ch 97) (.cat (ch 98) (ch 99))) 2 (some 3)))
    (.rep (.chr [{ lo := 0, hi := 1114111, cls := 1 }, { lo := 120, hi := 122 }]) 0 none)) (.asrt .eow)) (.asrt .eol)

example : sample.proper = true ∧ sample.oneEmpty = true ∧ sample.level2 = true := by decide
-- "abca7x", "abcabca", "ab"
example : regexec (subj [97, 98, 99, 97, 55, 120]) (regcomp sample) = true := by decide +kernel
example : regexec (subj [97, 98, 99, 97, 97]) (regcomp sample) = false := by decide +kernel
example : regexec (subj [97, 98]) (regcomp sample) = false := by decide +kernel

/-- The code violates the property for `(^|)a`: the subject "ba" has the part "a", which matches with the
    second alternative, but `regexec` reports no match: of two empty paths only the first is followed. -/
theorem empty_path_violated :
    ∃ r : Re, r.proper = true ∧ r.level2 = true ∧ r.Found (subj [98, 97]) ∧
      regexec (subj [98, 97]) (regcomp r) = false := by
  refine ⟨.cat (.alt (.asrt .bol) .eps) (ch 97), by decide, by decide, ?_, by decide +kernel⟩
  exact ⟨1, 2, by decide, 1, Or.inr rfl, 97, rfl, rfl, { lo := 97, hi := 97 }, by simp,
    by decide, by decide, fun h => absurd rfl h, by simp⟩

/-- The same with a repetition: `(^)?a`. -/
theorem empty_path_rep_violated :
    ∃ r : Re, r.proper = true ∧ r.level2 = true ∧ r.Found (subj [98, 97]) ∧
      regexec (subj [98, 97]) (regcomp r) = false := by
  refine ⟨.cat (.rep (.asrt .bol) 0 (some 1)) (ch 97), by decide, by decide, ?_, by decide +kernel⟩
  exact ⟨1, 2, by decide, 1, ⟨0, Nat.le_refl _, fun m _ => Nat.zero_le m, rfl⟩, 97, rfl, rfl, { lo := 97, hi := 97 }, by simp,
    by decide, by decide, fun h => absurd rfl h, by simp⟩

theorem rep_two (x : Ctx) (r : Re) (i j : Nat) :
    (Re.rep r 2 (some 2)).Matches x i j ↔ (Re.cat r r).Matches x i j := by
  simp only [Re.Matches]
  constructor
  · rintro ⟨n, h1, h2, h⟩
    have := h2 2 rfl
    have : n = 2 := by omega
    subst this
    obtain ⟨k, h3, k', h4, rfl⟩ := h
    exact ⟨k, h3, h4⟩
  · rintro ⟨k, h1, h2⟩
    exact ⟨2, by omega, fun m hm => by cases hm; omega, k, h1, j, h2, rfl⟩

theorem matches_rep {x : Ctx} {r s : Re} (h : ∀ i j, r.Matches x i j ↔ s.Matches x i j) (mn : Nat)
    (mx : Option Nat) (i j : Nat) : (Re.rep r mn mx).Matches x i j ↔ (Re.rep s mn mx).Matches x i j := by
  simp only [Re.Matches]
  exact exists_congr fun n => and_congr Iff.rfl (and_congr Iff.rfl (times_congr h n i j))

theorem matches_cat {x : Ctx} {r s u v : Re} (h : ∀ i j, r.Matches x i j ↔ s.Matches x i j)
    (h' : ∀ i j, u.Matches x i j ↔ v.Matches x i j) (i j : Nat) :
    (Re.cat r u).Matches x i j ↔ (Re.cat s v).Matches x i j := by
  simp only [Re.Matches]
  exact exists_congr fun k => and_congr (h i k) (h' k j)

theorem found_congr {x : Ctx} {r s : Re} (h : ∀ i j, r.Matches x i j ↔ s.Matches x i j) :
    r.Found x ↔ s.Found x :=
  exists_congr fun i => exists_congr fun j => and_congr Iff.rfl (h i j)

/-- The code violates the property for `^((x{2})*y)+$`: the subject "xy" does not match, but `regexec`
    reports a match.  The shift of positions caused by the inner repetition is forgotten when the
    middle one ends, and two characters get the same position. -/
theorem nested_counts_violated :
    ∃ r : Re, r.proper = true ∧ r.oneEmpty = true ∧ ¬ r.Found (subj [120, 121]) ∧
      regexec (subj [120, 121]) (regcomp r) = true := by
  refine ⟨.cat (.cat (.asrt .bol) (.rep (.cat (.rep (.rep (ch 120) 2 (some 2)) 0 none) (ch 121)) 1 none))
    (.asrt .eol), by decide, by decide, ?_, by decide +kernel⟩
  have h := mt (regexec_regcomp_partial
    (.cat (.cat (.asrt .bol) (.rep (.cat (.rep (.cat (ch 120) (ch 120)) 0 none) (ch 121)) 1 none))
      (.asrt .eol)) (by decide) (by decide) (by decide) (subj [120, 121]) (subj_ok _ (by decide))).mpr
    (by decide +kernel)
  rw [found_congr]
  · exact h
  · exact matches_cat (matches_cat (fun _ _ => Iff.rfl) (matches_rep (matches_cat
      (matches_rep (fun i j => rep_two _ _ i j) 0 none) (fun _ _ => Iff.rfl)) 1 none)) (fun _ _ => Iff.rfl)

/-- The code violates the property for `(ba{0}c){2}`, which means `bcbc`: `regexec` reports a match in
    "bbc".  The position of the dropped `a` is counted when the repetition is numbered but not when it
    is copied, and two characters get the same position. -/
theorem dropped_atom_violated :
    ∃ r : Re, r.proper = true ∧ r.oneEmpty = true ∧ ¬ r.Found (subj [98, 98, 99]) ∧
      regexec (subj [98, 98, 99]) (regcomp r) = true := by
  refine ⟨.rep (.cat (.cat (ch 98) (.rep (ch 97) 0 (some 0))) (ch 99)) 2 (some 2), by decide, by decide, ?_,
    by decide +kernel⟩
  have h := mt (regexec_regcomp_partial (.rep (.cat (.cat (ch 98) .eps) (ch 99)) 2 (some 2))
    (by decide) (by decide) (by decide) (subj [98, 98, 99]) (subj_ok _ (by decide))).mpr
    (by decide +kernel)
  rw [found_congr]
  · exact h
  · refine matches_rep (matches_cat (matches_cat (fun _ _ => Iff.rfl) fun i j => ?_) (fun _ _ => Iff.rfl)) _ _
    simp only [Re.Matches]
    constructor
    · rintro ⟨n, -, h2, h⟩
      have := h2 0 rfl
      have : n = 0 := by omega
      subst this; exact h
    · intro h; exact ⟨0, by omega, fun m _ => by omega, h⟩

end Mlibc.Regex
