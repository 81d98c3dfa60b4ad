import Verif.Regex.BasicSyntax
import Verif.Regex.BasicParse
import Verif.Regex.Text

/-!
# `regcomp` and `regexec` on the text of a basic regular expression
-/
namespace Mlibc.Regex

theorem Same.unCat {r s : Re} (h : Same r s) : Same (.cat .eps r) s where
  mtch x hx i j := by
    rw [← h.mtch x hx]
    simp only [Re.Matches]
    exact ⟨fun ⟨_, h1, h2⟩ => h1 ▸ h2, fun h => ⟨i, rfl, h⟩⟩
  optional := by simp [Re.optional, h.optional]
  plain := by simp [Re.plain, h.plain]
  oneEmpty := by simp [Re.oneEmpty, h.oneEmpty]
  proper := by simp [Re.proper, h.proper]
  level0 := by simp [Re.level0, h.level0]
  level1 := by simp [Re.level1, h.level1]
  level2 := by simp [Re.level2, h.level2]

/-- `n` steps of the parser. -/
inductive BRun (fl : Flags) : Nat → BSt → BSt → Prop
  | refl (st) : BRun fl 0 st st
  | step {n a b c} : bstep fl a = .ok (.inl b) → BRun fl n b c → BRun fl (n + 1) a c

theorem BRun.trans {fl : Flags} {n m : Nat} {a b c : BSt} (h : BRun fl n a b) (h' : BRun fl m b c) :
    BRun fl (n + m) a c := by
  induction h with
  | refl => rw [Nat.zero_add]; exact h'
  | step hs _ ih => rw [Nat.add_right_comm]; exact .step hs (ih h')

theorem BRun.one {fl : Flags} {a b : BSt} (h : bstep fl a = .ok (.inl b)) : BRun fl 1 a b := .step h (.refl b)

theorem BRun.loop {fl : Flags} {n : Nat} {a b : BSt} (h : BRun fl n a b) (k : Nat) :
    bloop fl (n + k) a = bloop fl k b := by
  induction h with
  | refl => rw [Nat.zero_add]
  | step hs _ ih => rw [Nat.add_right_comm]; simp only [bloop, hs]; exact ih

/-! ## Repetitions -/

theorem dupB_exact {m : Nat} {w k : List Nat} (h : Numeral m w) (hm : m ≤ 255) :
    parseDupB (w ++ [92, 125] ++ k) = some (m, some m, k) := by
  simp only [parseDupB, List.append_assoc]
  rw [dupCount_eq h hm (by rfl)]
  simp
  omega

theorem dupB_atLeast {m : Nat} {w k : List Nat} (h : Numeral m w) (hm : m ≤ 255) :
    parseDupB (w ++ [44, 92, 125] ++ k) = some (m, none, k) := by
  simp only [parseDupB, List.append_assoc]
  rw [dupCount_eq h hm (by rfl)]
  simp [dupCount, isDigit]
  omega

theorem dupB_between {m n : Nat} {u v k : List Nat} (h : Numeral m u) (h' : Numeral n v) (hm : m ≤ n)
    (hn : n ≤ 255) : parseDupB (u ++ (44 :: (v ++ [92, 125])) ++ k) = some (m, some n, k) := by
  simp only [parseDupB, List.append_assoc]
  rw [dupCount_eq h (by omega) (by rfl)]
  have : dupCount (v ++ ([92, 125] ++ k)) = (some n, [92, 125] ++ k) := dupCount_eq h' hn (by rfl)
  simp at this ⊢
  rw [this]
  simp
  omega

/-- Something other than the anchor `^` has been read since `ctx->start`. -/
def Past (start k : List Nat) : Prop := ∃ pre c, start = pre ++ c :: k ∧ (pre = [] → c ≠ 94)

theorem Past.noHat {start k : List Nat} (h : Past start k) : ¬ (k.length + 1 = start.length ∧ start.headD 0 = 94) := by
  obtain ⟨pre, c, rfl, h⟩ := h
  rintro ⟨h1, h2⟩
  cases pre with
  | nil => exact h rfl (by simpa using h2)
  | cons => simp at h1; omega

/-- The last character of a repetition is `*`, `+`, `?` or `}`. -/
theorem dup_last {mn mx d} (h : BDup mn mx d) : ∃ d' c, d = d' ++ [c] ∧ c ≠ 94 := by
  cases h with
  | star => exact ⟨[], 42, rfl, by decide⟩
  | plus => exact ⟨[92], 43, rfl, by decide⟩
  | opt => exact ⟨[92], 63, rfl, by decide⟩
  | @exact _ w h hm => exact ⟨92 :: 123 :: (w ++ [92]), 125, by simp, by decide⟩
  | @atLeast _ w h hm => exact ⟨92 :: 123 :: (w ++ [44, 92]), 125, by simp, by decide⟩
  | @between _ _ u v h h' hm hn => exact ⟨92 :: 123 :: (u ++ (44 :: (v ++ [92]))), 125, by simp, by decide⟩

theorem Past.append {start k d : List Nat} {c : Nat} (h : ∃ pre, start = pre ++ (d ++ c :: k)) (hc : d = [] → c ≠ 94) :
    Past start k := by
  obtain ⟨pre, rfl⟩ := h
  refine ⟨pre ++ d, c, by simp, fun h => hc ?_⟩
  simp at h
  exact h.2

theorem repeat_dup {mn mx d} (h : BDup mn mx d) {start k : List Nat} (hp : Past start (d ++ k)) :
    repeatB start (d ++ k) = some (.ok (mn, mx, k)) := by
  have hh := hp.noHat
  cases h with
  | star =>
    simp only [List.cons_append, List.nil_append] at hh ⊢
    simp only [repeatB, List.headD_cons, List.tail_cons]
    rw [if_pos trivial, if_neg hh]
  | plus => simp [repeatB]
  | opt => simp [repeatB]
  | exact h hm => have hp := dupB_exact (k := k) h hm; simp at hp; simp [repeatB, hp]
  | atLeast h hm => have hp := dupB_atLeast (k := k) h hm; simp at hp; simp [repeatB, hp]
  | between h h' hm hn => have hp := dupB_between (k := k) h h' hm hn; simp at hp; simp [repeatB, hp]

/-! ## Where a piece begins, where a branch ends -/

/-- The text of a piece: it does not begin like a repetition, `\|` or `\)`; a `*` begins a piece only at the
    beginning. -/
def BStarts (a : Place) (w : List Nat) : Prop :=
  ∃ c v, w = c :: v ∧ (c = 42 → a = .lead) ∧
    (c = 92 → ∃ d v', v = d :: v' ∧ d ≠ 43 ∧ d ≠ 63 ∧ d ≠ 123 ∧ d ≠ 41 ∧ d ≠ 124)

theorem starts_ne {a c v} (h : c ≠ 42) (h' : c ≠ 92) : BStarts a (c :: v) :=
  ⟨c, v, rfl, fun e => absurd e h, fun e => absurd e h'⟩

theorem starts_esc {a d v} (h : d ≠ 43 ∧ d ≠ 63 ∧ d ≠ 123 ∧ d ≠ 41 ∧ d ≠ 124) : BStarts a (92 :: d :: v) :=
  ⟨92, _, rfl, fun e => absurd e (by decide), fun _ => ⟨d, v, rfl, h⟩⟩

theorem starts_append {a w v} (h : BStarts a w) : BStarts a (w ++ v) := by
  obtain ⟨c, u, rfl, h1, h2⟩ := h
  refine ⟨c, u ++ v, rfl, h1, fun e => ?_⟩
  obtain ⟨d, v', rfl, h⟩ := h2 e
  exact ⟨d, v' ++ v, rfl, h⟩

theorem piece_starts {nl ct lvl r w} (h : BGram nl ct lvl r w) : ∀ a, lvl = .piece a → BStarts a w := by
  induction h with
  | ord h => intro a _; exact starts_ne h.2.2.2.2.1 h.2.2.2.1
  | quoted h =>
    intro a _
    refine starts_esc ?_
    rcases h with rfl | rfl | rfl | rfl | rfl | rfl | rfl | rfl | rfl <;> decide
  | asterisk =>
    intro a h
    cases h
    exact ⟨42, [], rfl, fun _ => rfl, fun e => absurd e (by decide)⟩
  | circumflex => intro a _; exact starts_ne (by decide) (by decide)
  | dot => intro a _; exact starts_ne (by decide) (by decide)
  | bracket => intro a _; exact starts_ne (by decide) (by decide)
  | nbracket => intro a _; exact starts_ne (by decide) (by decide)
  | bow => intro a _; exact starts_esc (by decide)
  | eow => intro a _; exact starts_esc (by decide)
  | wb => intro a _; exact starts_esc (by decide)
  | nwb => intro a _; exact starts_esc (by decide)
  | group => intro a _; exact starts_esc (by decide)
  | dup _ _ ih => intro a h; exact starts_append (ih a h)
  | dollars => intro a _; exact starts_ne (by decide) (by decide)
  | _ => intro a h; exact absurd h (by simp)

/-- The text behind a branch: nothing, `\)…` or `\|…`. -/
def Ends (k : List Nat) : Prop := k = [] ∨ ∃ v, k = 92 :: 41 :: v ∨ k = 92 :: 124 :: v

/-- The text behind a `$` that is an ordinary character. -/
def GoesOn (k : List Nat) : Prop := k ≠ [] ∧ (k.headD 0 ≠ 92 ∨ (k.tail.headD 0 ≠ 41 ∧ k.tail.headD 0 ≠ 124))

theorem starts_goesOn {a w k} (h : BStarts a w) : GoesOn (w ++ k) := by
  obtain ⟨c, v, rfl, -, h0⟩ := h
  refine ⟨by simp, ?_⟩
  by_cases e : c = 92
  · obtain ⟨d, v', rfl, h⟩ := h0 e
    exact Or.inr ⟨by simpa using h.2.2.2.1, by simpa using h.2.2.2.2⟩
  · exact Or.inl (by simpa using e)

theorem dup_goesOn {mn mx d k} (h : BDup mn mx d) : GoesOn (d ++ k) := by
  cases h <;> simp [GoesOn]

/-! ## What the parser does with the text of each level -/

/-- The state of the parser when it has read what there is of a branch so far: `k` is the rest of the text. -/
def After (fl : Flags) (kind : Sofar) (r : Re) (w k : List Nat) (nu : Option Node)
    (stk : List (Option Node × Option Node)) (pos : Nat) : Prop :=
  match kind with
  | .nothing => w = [] ∧ r = .eps
  | _ => ∃ r' m nb n start, Same r r' ∧ n + 1 ≤ 3 * w.length ∧ (newCat nb m).1 = (number r' pos).1 ∧
      (if kind = .anchor then start = 94 :: k else Past start k) ∧
      BRun fl n ⟨.top, w ++ k, nu, none, stk, pos, w ++ k⟩ ⟨.iter m, k, nu, nb, stk, (number r' pos).2, start⟩

def BReads (fl : Flags) : BLvl → Re → List Nat → Prop
  | .piece a, r, w => ∀ k pos nu nb stk start, (∃ pre, start = pre ++ (w ++ k) ∧ (a = .inner → pre ≠ [])) →
      ∃ r' b n start', Same r r' ∧ n + 1 ≤ 3 * w.length ∧ Past start' k ∧
      BRun fl n ⟨.top, w ++ k, nu, nb, stk, pos, start⟩
        ⟨.iter ((number r' pos).1, b), k, nu, nb, stk, (number r' pos).2, start'⟩
  | .seq kind, r, w => ∀ k pos nu stk, (kind = .dollar → GoesOn k) → After fl kind r w k nu stk pos
  | .branch, r, w => ∀ k pos nu stk, Ends k → ∃ r' m nb n start, Same r r' ∧ n ≤ 3 * w.length + 1 ∧
      (newCat nb m).1 = (number r' pos).1 ∧ (∃ pre, start = pre ++ k) ∧
      BRun fl n ⟨.top, w ++ k, nu, none, stk, pos, w ++ k⟩ ⟨.iter m, k, nu, nb, stk, (number r' pos).2, start⟩
  | .regex, r, w => ∀ k pos stk, Ends k → ∃ r' m nu nb n start, Same r r' ∧ n ≤ 3 * w.length + 1 ∧
      (newUnion nu (newCat nb m)).1 = (number r' pos).1 ∧ (∃ pre, start = pre ++ k) ∧
      BRun fl n ⟨.top, w ++ k, none, none, stk, pos, w ++ k⟩ ⟨.iter m, k, nu, nb, stk, (number r' pos).2, start⟩

/-- An atom that `parse_atom` reads. -/
theorem breads_atom {fl : Flags} {a : Place} {r : Re} {w : List Nat}
    (hw : ∃ d c, w = d ++ [c] ∧ (d = [] → c = 94 → a = .inner))
    (h40 : ∀ k, ¬ ((w ++ k).headD 0 = 92 ∧ (w ++ k).tail.headD 0 = 40))
    (h41 : ∀ k, ¬ ((w ++ k).headD 0 = 92 ∧ (w ++ k).tail.headD 0 = 41))
    (h : ∀ k pos start, (∃ pre, start = pre ++ (w ++ k) ∧ (a = .inner → pre ≠ [])) → ∃ r', Same r r' ∧
      parseAtomB fl start (w ++ k) pos = .ok ((number r' pos).1, (number r' pos).2, k)) :
    BReads fl (.piece a) r w := by
  intro k pos nu nb stk start hst
  obtain ⟨r', hs, hp⟩ := h k pos start hst
  obtain ⟨d, c, rfl, hc⟩ := hw
  obtain ⟨pre, rfl, hpre⟩ := hst
  refine ⟨r', false, 1, pre ++ (d ++ [c] ++ k), hs, by simp; omega, ⟨pre ++ d, c, by simp, fun e e' => ?_⟩, .one ?_⟩
  · simp at e
    exact hpre (hc e.2 e') e.1
  · simp only [bstep]
    rw [if_neg (h40 k), if_neg (h41 k), hp]

theorem bstep_dup {fl : Flags} {mn mx d} (hd : BDup mn mx d) {t : Ast} {b : Bool} {k nu nb stk pos start}
    (hp : Past start (d ++ k)) :
    bstep fl ⟨.iter (t, b), d ++ k, nu, nb, stk, pos, start⟩ =
      .ok (.inl ⟨.iter (if mx = some 0 then .empty else .iter t mn mx, false), k, nu, nb, stk, pos, start⟩) := by
  simp only [bstep, repeat_dup hd hp]

theorem breads_dup {fl : Flags} {a : Place} {r : Re} {w : List Nat} {mn : Nat} {mx : Option Nat} {d : List Nat}
    (h : BReads fl (.piece a) r w) (hd : BDup mn mx d) : BReads fl (.piece a) (.rep r mn mx) (w ++ d) := by
  intro k pos nu nb stk start hst
  rw [List.append_assoc] at hst ⊢
  obtain ⟨r', b, n, start', hs, hn, hp, hrun⟩ := h (d ++ k) pos nu nb stk start hst
  have e : (number (.rep r' mn mx) pos).2 = (number r' pos).2 := by simp only [number]; split <;> rfl
  have e' : (number (.rep r' mn mx) pos).1 = if mx = some 0 then .empty else .iter (number r' pos).1 mn mx := by
    simp only [number]; split <;> rfl
  refine ⟨.rep r' mn mx, false, n + 1, start', hs.rep mn mx, ?_, ?_, ?_⟩
  · have : 1 ≤ d.length := by cases hd <;> simp
    rw [List.length_append]
    omega
  · obtain ⟨d', c, rfl, hc⟩ := dup_last hd
    obtain ⟨pre, c', rfl, -⟩ := hp
    exact ⟨pre ++ c' :: d', c, by simp, by simp⟩
  · rw [e, e']
    exact hrun.trans (.one (bstep_dup hd hp))

theorem step_atom {fl : Flags} {s k nu nb stk pos pos' start t} (h : s.headD 0 ≠ 92)
    (hp : parseAtomB fl start s pos = .ok (t, pos', k)) :
    bstep fl ⟨.top, s, nu, nb, stk, pos, start⟩ = .ok (.inl ⟨.iter (t, false), k, nu, nb, stk, pos', start⟩) := by
  unfold bstep
  simp only [h, false_and, if_false, hp]

theorem atom_dollar {fl : Flags} {k start : List Nat} {pos : Nat} (hk : GoesOn k) :
    parseAtomB fl start (36 :: k) pos = .ok (.leaf pos [{ lo := 36, hi := 36 }], pos + 1, k) := by
  unfold GoesOn at hk
  simp only [parseAtomB]
  rw [if_neg (by decide), if_neg (by decide), if_neg (by decide), if_neg (by simp), if_neg (fun h => h.2 hk)]

theorem atom_eol {fl : Flags} {k start : List Nat} {pos : Nat} (hk : ¬ GoesOn k) :
    parseAtomB fl start (36 :: k) pos = .ok (.asrt .eol, pos, k) := by
  unfold GoesOn at hk
  simp only [parseAtomB]
  rw [if_neg (by decide), if_neg (by decide), if_neg (by decide), if_neg (by simp), if_pos ⟨trivial, hk⟩]

theorem breads_dollars {fl : Flags} {mn : Nat} {mx : Option Nat} {d : List Nat} (hd : BDup mn mx d) :
    BReads fl (.piece .any) (.rep (.chr [{ lo := 36, hi := 36 }]) mn mx) (36 :: d) := by
  intro k pos nu nb stk start hst
  obtain ⟨pre, rfl, -⟩ := hst
  have hg := dup_goesOn (k := k) hd
  have hp : Past (pre ++ (36 :: d ++ k)) (d ++ k) := ⟨pre, 36, rfl, fun _ => by decide⟩
  have e : (number (.rep (.chr [{ lo := 36, hi := 36 }]) mn mx) pos).2 = pos + 1 := by
    simp only [number]
    split <;> rfl
  have e' : (number (.rep (.chr [{ lo := 36, hi := 36 }]) mn mx) pos).1 =
      if mx = some 0 then .empty else .iter (.leaf pos [{ lo := 36, hi := 36 }]) mn mx := by
    simp only [number]
    split <;> rfl
  refine ⟨_, false, 1 + 1, pre ++ (36 :: d ++ k), .refl _, by simp; omega, ?_, ?_⟩
  · obtain ⟨d', c, rfl, hc⟩ := dup_last hd
    exact ⟨pre ++ 36 :: d', c, by simp, by simp⟩
  · rw [e, e']
    refine (BRun.one ?_).trans (.one (bstep_dup (b := false) hd hp))
    exact step_atom (by simp) (atom_dollar hg)

theorem repeat_end {start k : List Nat} (h : Ends k) : repeatB start k = none := by
  rcases h with rfl | ⟨v, rfl | rfl⟩ <;> simp [repeatB]

theorem breads_group {fl : Flags} {r : Re} {w : List Nat} (h : BReads fl .regex r w) :
    BReads fl (.piece .any) r (92 :: 40 :: (w ++ [92, 41])) := by
  intro k pos nu nb stk start hst
  obtain ⟨r', m, nu', nb', n, start', hs, hn, he, hst', hrun⟩ :=
    h (92 :: 41 :: k) pos ((nu, nb) :: stk) (Or.inr ⟨k, Or.inl rfl⟩)
  obtain ⟨r'', hs', hm, hp⟩ := marksub_number he hs
  refine ⟨r'', true, 1 + n + 1, start', hs', by simp; omega, ?_, ?_⟩
  · obtain ⟨pre, rfl⟩ := hst'
    exact ⟨pre ++ [92], 41, by simp, by simp⟩
  refine ((BRun.one ?_).trans hrun).trans (.one ?_)
  · simp [bstep]
  · simp only [bstep, repeat_end (start := start') (Or.inr ⟨k, Or.inl rfl⟩), List.headD_cons, List.tail_cons]
    rw [if_neg (by decide), if_pos (by decide)]
    simp [hm, hp]

/-- A piece goes on from where the parser is. -/
theorem step_on {fl : Flags} {m : Node} {k nu nb stk pos start} (hr : repeatB start k = none)
    (hk : GoesOn k) :
    bstep fl ⟨.iter m, k, nu, nb, stk, pos, start⟩ = .ok (.inl ⟨.top, k, nu, some (newCat nb m), stk, pos, start⟩) := by
  simp only [bstep, hr]
  rw [if_neg, if_neg, if_neg hk.1]
  · rintro ⟨h, h'⟩
    rcases hk.2 with h1 | h1
    · exact h1 h
    · exact h1.1 h'
  · rintro ⟨h, h'⟩
    rcases hk.2 with h1 | h1
    · exact h1 h
    · exact h1.2 h'

theorem repeat_piece {a : Place} {w k start : List Nat} (h : BStarts a w)
    (hl : a = .lead → start = 94 :: (w ++ k)) : repeatB start (w ++ k) = none := by
  obtain ⟨c, v, rfl, h1, h2⟩ := h
  by_cases e : c = 42
  · subst e
    rw [hl (h1 rfl)]
    simp [repeatB]
  · by_cases e' : c = 92
    · obtain ⟨d, v', rfl, h⟩ := h2 e'
      subst e'
      simp [repeatB, h.1, h.2.1, h.2.2.1]
    · simp [repeatB, e, e']

/-- The parser has read a piece, a `$` as an ordinary character or as an anchor. -/
def ReadsOn (fl : Flags) (kind : Sofar) (r : Re) (v k : List Nat) (nu : Option Node)
    (stk : List (Option Node × Option Node)) : Prop :=
  ∀ pos nb start, (∃ pre, start = pre ++ (v ++ k) ∧ (kind ≠ .nothing → pre ≠ [])) →
    ∃ r' b n start', Same r r' ∧ n + 1 ≤ 3 * v.length ∧ Past start' k ∧
      BRun fl n ⟨.top, v ++ k, nu, nb, stk, pos, start⟩
        ⟨.iter ((number r' pos).1, b), k, nu, nb, stk, (number r' pos).2, start'⟩

theorem after_next {fl : Flags} {kind : Sofar} {l r : Re} {u v k : List Nat} {nu : Option Node}
    {stk : List (Option Node × Option Node)} {pos : Nat} (hl : After fl kind l u (v ++ k) nu stk pos)
    (hgo : GoesOn (v ++ k))
    (hrep : ∀ start, kind ≠ .nothing → (kind = .anchor → start = 94 :: (v ++ k)) → repeatB start (v ++ k) = none)
    (hr : ReadsOn fl kind r v k nu stk) :
    ∃ r' m nb n start, Same (.cat l r) r' ∧ n + 1 ≤ 3 * (u ++ v).length ∧ (newCat nb m).1 = (number r' pos).1 ∧
      Past start k ∧
      BRun fl n ⟨.top, (u ++ v) ++ k, nu, none, stk, pos, (u ++ v) ++ k⟩
        ⟨.iter m, k, nu, nb, stk, (number r' pos).2, start⟩ := by
  by_cases h0 : kind = .nothing
  · subst h0
    obtain ⟨rfl, rfl⟩ := hl
    obtain ⟨r', b, n, start', hs, hn, hp, hrun⟩ := hr pos none (v ++ k) ⟨[], rfl, fun h => absurd rfl h⟩
    exact ⟨r', _, none, n, start', hs.unCat, hn, rfl, hp, hrun⟩
  · have hl' : ∃ r' m nb n start, Same l r' ∧ n + 1 ≤ 3 * u.length ∧ (newCat nb m).1 = (number r' pos).1 ∧
        (if kind = .anchor then start = 94 :: (v ++ k) else Past start (v ++ k)) ∧
        BRun fl n ⟨.top, u ++ (v ++ k), nu, none, stk, pos, u ++ (v ++ k)⟩
          ⟨.iter m, v ++ k, nu, nb, stk, (number r' pos).2, start⟩ := by
      cases kind with
      | nothing => exact absurd rfl h0
      | _ => exact hl
    obtain ⟨l', m, nb, n, start, hs, hn, he, hst, hrun⟩ := hl'
    obtain ⟨r', b, n', start', hs', hn', hp', hrun'⟩ := hr (number l' pos).2 (some (newCat nb m)) start
      (by
        split at hst
        · exact ⟨[94], hst, by simp⟩
        · obtain ⟨pre, c, rfl, -⟩ := hst
          exact ⟨pre ++ [c], by simp, by simp⟩)
    refine ⟨.cat l' r', ((number r' (number l' pos).2).1, b), some (newCat nb m), n + 1 + n', start', hs.cat hs',
      by simp; omega, ?_, hp', ?_⟩
    · rw [show (newCat (some (newCat nb m)) ((number r' (number l' pos).2).1, b)).1 =
        .cat (newCat nb m).1 (number r' (number l' pos).2).1 from rfl, he]
      rfl
    · rw [List.append_assoc]
      refine (hrun.trans (.one (step_on (hrep start h0 (fun h => ?_)) hgo))).trans hrun'
      rw [if_pos h] at hst
      exact hst

theorem reads_dollar {fl : Flags} {kind : Sofar} {k : List Nat} {nu : Option Node}
    {stk : List (Option Node × Option Node)} (hk : GoesOn k) :
    ReadsOn fl kind (.chr [{ lo := 36, hi := 36 }]) [36] k nu stk := by
  rintro pos nb start ⟨pre, rfl, -⟩
  refine ⟨_, false, 1, pre ++ ([36] ++ k), .refl _, by simp, ⟨pre, 36, rfl, fun _ => by decide⟩, .one ?_⟩
  exact step_atom (by simp) (atom_dollar hk)

theorem ends_goesOn {k : List Nat} (h : Ends k) : ¬ GoesOn k := by
  rcases h with rfl | ⟨v, rfl | rfl⟩ <;> simp [GoesOn]

theorem reads_eol {fl : Flags} {kind : Sofar} {k : List Nat} {nu : Option Node}
    {stk : List (Option Node × Option Node)} (hk : Ends k) : ReadsOn fl kind (.asrt .eol) [36] k nu stk := by
  rintro pos nb start ⟨pre, rfl, -⟩
  refine ⟨_, false, 1, pre ++ ([36] ++ k), .refl _, by simp, ⟨pre, 36, rfl, fun _ => by decide⟩, .one ?_⟩
  exact step_atom (by simp) (atom_eol (ends_goesOn hk))

/-- An empty branch. -/
theorem reads_empty {fl : Flags} {k : List Nat} {nu nb stk pos start} (hk : Ends k) :
    bstep fl ⟨.top, k, nu, nb, stk, pos, start⟩ = .ok (.inl ⟨.iter (.empty, false), k, nu, nb, stk, pos, start⟩) := by
  rcases hk with rfl | ⟨v, rfl | rfl⟩
  · simp [bstep, parseAtomB]
  · simp [bstep]
  · simp [bstep, parseAtomB, macroChar, macroBracket]

/-- The parser reads what the grammar says. -/
theorem bgram_reads {fl : Flags} (hS : SortOk fl) {lvl : BLvl} {r : Re} {w : List Nat}
    (h : BGram fl.newline fl.ctype lvl r w) : BReads fl lvl r w := by
  induction h with
  | @ord c h =>
    obtain ⟨h0, h1, h2, h3, h4, h5, h6⟩ := h
    refine breads_atom ⟨[], c, rfl, fun _ e => absurd e h5⟩ (by simp [h3]) (by simp [h3])
      (fun k pos start _ => ⟨_, .refl _, ?_⟩)
    simp only [parseAtomB, List.singleton_append]
    rw [if_neg h2, if_neg h3, if_neg h1, if_neg (fun h => h5 h.1), if_neg (fun h => h6 h.1)]
    rfl
  | @quoted c h =>
    refine breads_atom ⟨[92], c, rfl, by simp⟩ ?_ ?_ (fun k pos start _ => ⟨_, .refl _, ?_⟩)
    · rcases h with rfl | rfl | rfl | rfl | rfl | rfl | rfl | rfl | rfl <;> simp
    · rcases h with rfl | rfl | rfl | rfl | rfl | rfl | rfl | rfl | rfl <;> simp
    · rcases h with rfl | rfl | rfl | rfl | rfl | rfl | rfl | rfl | rfl <;> rfl
  | asterisk =>
    exact breads_atom ⟨[], 42, rfl, by simp⟩ (by simp) (by simp) (fun k pos start _ => ⟨_, .refl _, rfl⟩)
  | circumflex =>
    refine breads_atom ⟨[], 94, rfl, by simp⟩ (by simp) (by simp) (fun k pos start h => ⟨_, .refl _, ?_⟩)
    obtain ⟨pre, rfl, h⟩ := h
    have : ¬ ((94 :: k).length = (pre ++ 94 :: k).length) := by
      cases pre with
      | nil => exact absurd rfl (h rfl)
      | cons => simp; omega
    simp only [parseAtomB, List.singleton_append]
    rw [if_neg (by decide), if_neg (by decide), if_neg (by decide), if_neg (fun h => this h.2), if_neg (by simp)]
    rfl
  | @dot ls h0 h =>
    refine breads_atom ⟨[], 46, rfl, by simp⟩ (by simp) (by simp) (fun k pos start _ => ?_)
    simp only [parseAtomB, List.singleton_append]
    rw [if_neg (by decide), if_neg (by decide), if_pos trivial]
    cases hn : fl.newline with
    | false =>
      refine ⟨.chr [{ lo := 0, hi := 1114111 }], .chr h0 (by simp) (fun x c hc => ?_), by simp [number]⟩
      rw [h x c hc]
      simp [hn, Lit.Allows, hc]
    | true =>
      refine ⟨.alt (.chr [{ lo := 0, hi := 9 }]) (.chr [{ lo := 11, hi := 1114111 }]), ?_, by simp [number]⟩
      refine ⟨fun x hx i j => ?_, rfl, rfl, rfl, ?_, rfl, rfl, rfl⟩
      · simp only [Re.Matches]
        constructor
        · rintro ⟨c, h1, h2, h3⟩
          have hc := hx c (List.mem_of_getElem? h1)
          have := (h x c hc).1 h3
          by_cases h9 : c ≤ 9
          · exact Or.inl ⟨c, h1, h2, _, List.mem_singleton.2 rfl, Nat.zero_le _, h9, fun h => absurd rfl h, by simp⟩
          · refine Or.inr ⟨c, h1, h2, _, List.mem_singleton.2 rfl, ?_, hc, fun h => absurd rfl h, by simp⟩
            simp only [hn, true_and] at this
            show 11 ≤ c
            omega
        · rintro (⟨c, h1, h2, l, hl, h3, h4, -⟩ | ⟨c, h1, h2, l, hl, h3, h4, -⟩) <;>
          · rw [List.mem_singleton.1 hl] at h3 h4
            refine ⟨c, h1, h2, (h x c (hx c (List.mem_of_getElem? h1))).2 ?_⟩
            simp at h3 h4
            omega
      · cases ls with
        | nil => exact absurd rfl h0
        | cons => simp [Re.proper]
  | @bracket ts w ls hl hw h0 h =>
    refine breads_atom ⟨91 :: w, 93, by simp, by simp⟩ (by simp) (by simp) (fun k pos start _ => ?_)
    obtain ⟨ls', hb, h0', h'⟩ := bracket_pos fl hl hw k
    refine ⟨.chr ls', .chr h0 h0' (fun x c hc => by rw [h x c hc, h' x c hc]), ?_⟩
    simp only [parseAtomB, List.cons_append, List.append_assoc, List.nil_append]
    rw [if_pos trivial, hb]
    rfl
  | @nbracket ts w ls hl hc h0 h =>
    refine breads_atom ⟨91 :: 94 :: w, 93, by simp, by simp⟩ (by simp) (by simp) (fun k pos start _ => ?_)
    obtain ⟨ls', hb, h0', h'⟩ := bracket_neg fl hS hl hc k
    refine ⟨.chr ls', .chr h0 h0' (fun x c hc => by rw [h x c hc, h' x c hc]), ?_⟩
    simp only [parseAtomB, List.cons_append, List.append_assoc, List.nil_append]
    rw [if_pos trivial, hb]
    rfl
  | bow => exact breads_atom ⟨[92], _, rfl, by simp⟩ (by simp) (by simp) (fun k pos start _ => ⟨_, .refl _, rfl⟩)
  | eow => exact breads_atom ⟨[92], _, rfl, by simp⟩ (by simp) (by simp) (fun k pos start _ => ⟨_, .refl _, rfl⟩)
  | wb => exact breads_atom ⟨[92], _, rfl, by simp⟩ (by simp) (by simp) (fun k pos start _ => ⟨_, .refl _, rfl⟩)
  | nwb => exact breads_atom ⟨[92], _, rfl, by simp⟩ (by simp) (by simp) (fun k pos start _ => ⟨_, .refl _, rfl⟩)
  | group _ ih => exact breads_group ih
  | dup _ hd ih => exact breads_dup ih hd
  | dollars hd => exact breads_dollars hd
  | nil => intro k pos nu stk _; exact ⟨rfl, rfl⟩
  | bol =>
    intro k pos nu stk _
    refine ⟨.asrt .bol, (.asrt .bol, false), none, 1, _, .refl _, by simp, rfl, by simp; rfl, .one ?_⟩
    simp [bstep, parseAtomB, number]
  | @next kind a l r u v hl hr hf ihl ihr =>
    intro k pos nu stk _
    have hstart := piece_starts hr a rfl
    have hgo := starts_goesOn (k := k) hstart
    refine after_next (ihl (v ++ k) pos nu stk (fun _ => hgo)) hgo (fun start h0 h => repeat_piece hstart (fun ha => ?_))
      (fun pos nb start hst => ?_)
    · subst ha
      rcases hf with h1 | h1
      · exact absurd h1 h0
      · exact h h1
    · refine ihr k pos nu nb stk start ?_
      obtain ⟨pre, h1, h2⟩ := hst
      exact ⟨pre, h1, fun ha => h2 (by subst ha; exact hf)⟩
  | @dollar kind l u hl ihl =>
    intro k pos nu stk hk
    have hgo : GoesOn ([36] ++ k) := by simp [GoesOn]
    exact after_next (ihl ([36] ++ k) pos nu stk (fun _ => hgo)) hgo (fun start _ _ => by simp [repeatB])
      (reads_dollar (hk rfl))
  | @stop kind r w hr hk ih =>
    intro k pos nu stk hend
    have h := ih k pos nu stk (fun h => absurd h hk)
    cases kind with
    | nothing =>
      obtain ⟨rfl, rfl⟩ := h
      exact ⟨.eps, (.empty, false), none, 1, k, .refl _, by simp, rfl, ⟨[], rfl⟩, .one (reads_empty hend)⟩
    | anchor =>
      obtain ⟨l', m, nb, n, start, hs, hn, he, hst, hrun⟩ := h
      rw [if_pos rfl] at hst
      exact ⟨l', m, nb, n, start, hs, by omega, he, ⟨[94], hst⟩, hrun⟩
    | dollar => exact absurd rfl hk
    | some =>
      obtain ⟨l', m, nb, n, start, hs, hn, he, hst, hrun⟩ := h
      rw [if_neg (by simp)] at hst
      obtain ⟨pre, c, hst, -⟩ := hst
      exact ⟨l', m, nb, n, start, hs, by omega, he, ⟨pre ++ [c], by simp [hst]⟩, hrun⟩
  | @eol kind l u hl ihl =>
    intro k pos nu stk hend
    have hgo : GoesOn ([36] ++ k) := by simp [GoesOn]
    obtain ⟨l', m, nb, n, start, hs, hn, he, ⟨pre, c, hst, -⟩, hrun⟩ :=
      after_next (ihl ([36] ++ k) pos nu stk (fun _ => hgo)) hgo (fun start _ _ => by simp [repeatB]) (reads_eol hend)
    exact ⟨l', m, nb, n, start, hs, by omega, he, ⟨pre ++ [c], by simp [hst]⟩, hrun⟩
  | single _ ih =>
    intro k pos stk hend
    obtain ⟨r', m, nb, n, start, hs, hn, he, hst, hrun⟩ := ih k pos none stk hend
    exact ⟨r', m, none, nb, n, start, hs, hn, he, hst, hrun⟩
  | @alt l r u v _ _ ihl ihr =>
    intro k pos stk hend
    have hbar : Ends (92 :: 124 :: (v ++ k)) := Or.inr ⟨_, Or.inr rfl⟩
    obtain ⟨l', m, nu, nb, n, start, hs, hn, he, hst, hrun⟩ := ihl (92 :: 124 :: (v ++ k)) pos stk hbar
    obtain ⟨r', m', nb', n', start', hs', hn', he', hst', hrun'⟩ :=
      ihr k (number l' pos).2 (some (newUnion nu (newCat nb m))) stk hend
    refine ⟨.alt l' r', m', some (newUnion nu (newCat nb m)), nb', n + 1 + n', start', hs.alt hs', by simp; omega,
      ?_, hst', ?_⟩
    · rw [show (newUnion (some (newUnion nu (newCat nb m))) (newCat nb' m')).1 =
        .union (newUnion nu (newCat nb m)).1 (newCat nb' m').1 from rfl, he, he']
      rfl
    · rw [List.append_assoc]
      refine (hrun.trans (.one ?_)).trans hrun'
      simp only [bstep, repeat_end hbar, List.headD_cons, List.tail_cons]
      rw [if_pos (by decide)]

/-- A text that denotes an expression is parsed. -/
theorem bparse_gram {fl : Flags} (hS : SortOk fl) {r : Re} {w : List Nat}
    (h : BGram fl.newline fl.ctype .regex r w) : ∃ r', Same r r' ∧ bparse fl w = .ok (number r' 0) := by
  obtain ⟨r', m, nu, nb, n, start, hs, hn, he, hst, hrun⟩ := bgram_reads hS h [] 0 [] (Or.inl rfl)
  obtain ⟨r'', hs', hm, hp⟩ := marksub_number he hs
  refine ⟨r'', hs', ?_⟩
  unfold bparse
  rw [List.append_nil] at hrun
  obtain ⟨k, hk⟩ : ∃ k, 3 * w.length + 3 = n + (k + 1) := ⟨3 * w.length + 2 - n, by omega⟩
  rw [hk, hrun.loop]
  simp [bloop, bstep, repeat_end (start := start) (Or.inl rfl), hm]
  rw [← hp]

theorem bgram_proper {nl ct lvl r w} (h : BGram nl ct lvl r w) : r.proper = true := by
  induction h with
  | dot h => simpa [Re.proper] using h
  | bracket _ _ h => simpa [Re.proper] using h
  | nbracket _ _ h => simpa [Re.proper] using h
  | group _ ih => exact ih
  | dup _ hd ih => cases hd <;> simp_all [Re.proper]
  | dollars hd => cases hd <;> simp_all [Re.proper]
  | next _ _ _ ih ih' => simp [Re.proper, ih, ih']
  | dollar _ ih => simp [Re.proper, ih]
  | stop _ _ ih => exact ih
  | eol _ ih => simp [Re.proper, ih]
  | single _ ih => exact ih
  | alt _ _ ih ih' => simp [Re.proper, ih, ih']
  | _ => rfl

/-- **C117.** `regcomp(text, 0)` succeeds for every text of the grammar of basic regular expressions, and
    `regexec` then finds a match exactly if some part of the subject string matches the expression the text
    denotes.

    Missing for the full statement: `oneEmpty` and `level2` (see `regexec_regcomp_partial` and the
    `_violated` theorems beside it), which the code needs. -/
theorem bregcomp_text_partial (fl : Flags) (hS : SortOk fl) (r : Re) (w : List Nat)
    (h : BGram fl.newline fl.ctype .regex r w) (ho : r.oneEmpty = true) (hl : r.level2 = true) :
    ∃ T, bregcomp fl w = .ok T ∧
      ∀ x : Ctx, x.Ok → x.Small → x.newline = fl.newline → x.icase = false →
        (regexec x T = true ↔ r.Found x) := by
  obtain ⟨r', hs, hp⟩ := bparse_gram hS h
  refine ⟨regcomp r', ?_, fun x hx hsm _ _ => ?_⟩
  · simp only [bregcomp, hp, regcomp]
  · rw [regexec_regcomp_partial r' (hs.proper ▸ bgram_proper h) (hs.oneEmpty ▸ ho) (hs.level2 ▸ hl) x hx]
    exact (found_congr (hs.mtch x hsm)).symm

/-! ## The parser comes to an end -/

theorem parseDupB_le {s rest : List Nat} {mn : Nat} {mx : Option Nat} (h : parseDupB s = some (mn, mx, rest)) :
    rest.length ≤ s.length := by
  unfold parseDupB at h
  have h1 := dupCount_le s
  generalize dupCount s = a at h h1
  obtain ⟨a, s1⟩ := a
  simp only at h h1
  have h2 : (if s1.headD 0 = 44 then dupCount s1.tail else (a, s1)).2.length ≤ s1.length := by
    split
    · exact Nat.le_trans (dupCount_le _) (by simp)
    · exact Nat.le_refl _
  generalize (if s1.headD 0 = 44 then dupCount s1.tail else (a, s1)) = b at h h2
  obtain ⟨b, s2⟩ := b
  simp only at h h2
  split at h
  · exact absurd h (by simp)
  · simp at h
    obtain ⟨-, -, -, rfl⟩ := h
    simp
    omega

/-- What `parse_atom` promises: it consumes a character, except at the end of a branch. -/
def BFine (s : List Nat) (res : Except Err (Ast × Nat × List Nat)) : Prop :=
  res ≠ .error .fuel ∧ ∀ t p rest, res = .ok (t, p, rest) → (rest.length < s.length ∨ (Ends s ∧ rest = s))

theorem bfine_of {s : List Nat} {res : Except Err (Ast × Nat × List Nat)} (h : res ≠ .error .fuel)
    (h' : ∀ t p rest, res = .ok (t, p, rest) → rest.length < s.length) : BFine s res :=
  ⟨h, fun t p rest e => Or.inl (h' t p rest e)⟩

theorem bfine_ok {s rest : List Nat} (h : rest.length < s.length) (t : Ast) (p : Nat) : BFine s (.ok (t, p, rest)) := by
  refine bfine_of (by simp) (fun t p rest hr => ?_)
  simp only [Except.ok.injEq, Prod.mk.injEq] at hr
  rw [← hr.2.2]
  exact h

theorem bfine_error {s : List Nat} {e : Err} (h : e ≠ .fuel) : BFine s (.error e) := ⟨by simpa using h, by simp⟩

theorem bfine_ite {s : List Nat} {P : Prop} [Decidable P] {a b : Except Err (Ast × Nat × List Nat)}
    (ha : P → BFine s a) (hb : ¬ P → BFine s b) : BFine s (if P then a else b) := by
  by_cases h : P
  · rw [if_pos h]; exact ha h
  · rw [if_neg h]; exact hb h

theorem bfine_bracket (fl : Flags) (s t : List Nat) (pos : Nat) (f : List Nat → List Nat)
    (hf : ∀ rest, rest.length ≤ t.length → (f rest).length < s.length) :
    BFine s (match bracket fl t with
      | .error e => .error e
      | .ok (ls, rest) => .ok (.leaf pos ls, pos + 1, f rest)) := by
  have h := bracket_halts fl t
  cases hb : bracket fl t with
  | error e => exact bfine_error (fun he => h.1 (by rw [hb, he]))
  | ok a => exact bfine_ok (hf _ (h.2 _ _ hb)) _ _

theorem parseAtomB_halts (fl : Flags) (start s : List Nat) (pos : Nat) : BFine s (parseAtomB fl start s pos) := by
  cases s with
  | nil => exact ⟨by simp [parseAtomB], by simp [parseAtomB, Ends]⟩
  | cons c r =>
    unfold parseAtomB
    dsimp only
    refine bfine_ite (fun _ => bfine_bracket fl _ _ pos id (fun rest h => by simp; omega)) (fun _ => ?_)
    refine bfine_ite (fun hc => ?_) (fun _ => ?_)
    · cases r with
      | nil => exact bfine_error (by decide)
      | cons d r =>
        dsimp only
        have hr : r.length < (c :: d :: r).length := by simp; omega
        cases macroChar d with
        | some m => exact bfine_ok hr _ _
        | none =>
          cases macroBracket d with
          | some t => exact bfine_bracket fl _ t pos (fun _ => r) (fun _ _ => hr)
          | none =>
            dsimp only
            refine bfine_ite (fun _ => bfine_ok hr _ _) (fun _ => ?_)
            refine bfine_ite (fun _ => bfine_ok hr _ _) (fun _ => ?_)
            refine bfine_ite (fun _ => bfine_ok hr _ _) (fun _ => ?_)
            refine bfine_ite (fun _ => bfine_ok hr _ _) (fun _ => ?_)
            refine bfine_ite (fun _ => ?_) (fun _ => ?_)
            · refine bfine_ite (fun _ => ?_) (fun _ => ?_)
              · refine bfine_ite (fun _ => bfine_error (by decide)) (fun _ => bfine_ok ?_ _ _)
                have := hexDigits_le 8 0 r.tail
                simp only [List.length_tail, List.length_cons] at this ⊢
                omega
              · exact bfine_ok (Nat.lt_of_le_of_lt (hexDigits_le 2 0 r) hr) _ _
            · refine bfine_ite (fun _ => bfine_error (by decide)) (fun _ => ?_)
              refine bfine_ite (fun hd => ?_) (fun _ => ?_)
              · refine ⟨by simp, fun t p rest hr => Or.inr ⟨Or.inr ⟨r, Or.inr (by rw [hc, hd])⟩, ?_⟩⟩
                simp only [Except.ok.injEq, Prod.mk.injEq] at hr
                exact hr.2.2.symm
              · exact bfine_ite (fun _ => bfine_error (by decide)) (fun _ => bfine_ok hr _ _)
    · have hr : r.length < (c :: r).length := by simp
      refine bfine_ite (fun _ => bfine_ite (fun _ => bfine_ok hr _ _) (fun _ => bfine_ok hr _ _)) (fun _ => ?_)
      refine bfine_ite (fun _ => bfine_ok hr _ _) (fun _ => ?_)
      exact bfine_ite (fun _ => bfine_ok hr _ _) (fun _ => bfine_ok hr _ _)

/-- The head of the outer loop is at the end of a branch. -/
def atEnd (s : List Nat) : Bool :=
  decide (s = []) || decide (s.headD 0 = 92 ∧ s.tail.headD 0 = 41) || decide (s.headD 0 = 92 ∧ s.tail.headD 0 = 124)

theorem atEnd_of_ends {s : List Nat} (h : Ends s) : atEnd s = true := by
  rcases h with rfl | ⟨v, rfl | rfl⟩ <;> simp [atEnd]

/-- A measure that every step of the parser decreases. -/
def bweight (st : BSt) : Nat :=
  match st.mode with
  | .iter _ => 3 * st.s.length + 1
  | .top => if atEnd st.s then 3 * st.s.length + 2 else 3 * st.s.length

theorem bweight_le (st : BSt) : bweight st ≤ 3 * st.s.length + 2 := by
  unfold bweight
  split
  · omega
  · split <;> omega

theorem two_of_headD {s : List Nat} {c d : Nat} (h : s.headD 0 = c) (hc : c ≠ 0) (h' : s.tail.headD 0 = d) (hd : d ≠ 0) :
    s.tail.tail.length + 2 = s.length := by
  have := ne_nil_of_headD h hc
  have := ne_nil_of_headD h' hd
  omega

theorem repeat_less {start s rest : List Nat} {mn mx} (h : repeatB start s = some (.ok (mn, mx, rest))) :
    rest.length < s.length := by
  simp only [repeatB] at h
  split at h
  · rename_i hc
    have := ne_nil_of_headD hc (by decide)
    split at h
    · exact absurd h (by simp)
    · simp only [Option.some.injEq, Except.ok.injEq, Prod.mk.injEq] at h
      rw [← h.2.2]
      omega
  · split at h
    · rename_i hc
      have := two_of_headD hc.1 (by decide) hc.2 (by decide)
      simp only [Option.some.injEq, Except.ok.injEq, Prod.mk.injEq] at h
      rw [← h.2.2]
      omega
    · split at h
      · rename_i hc
        have := two_of_headD hc.1 (by decide) hc.2 (by decide)
        simp only [Option.some.injEq, Except.ok.injEq, Prod.mk.injEq] at h
        rw [← h.2.2]
        omega
      · split at h
        · rename_i hc
          have := two_of_headD hc.1 (by decide) hc.2 (by decide)
          split at h
          · exact absurd h (by simp)
          · rename_i r hr
            simp only [Option.some.injEq, Except.ok.injEq] at h
            subst h
            have := parseDupB_le hr
            omega
        · exact absurd h (by simp)

theorem repeat_nofuel (start s : List Nat) : repeatB start s ≠ some (.error .fuel) := by
  unfold repeatB
  dsimp only
  repeat' split
  all_goals simp

theorem bstep_halts (fl : Flags) (st : BSt) : bstep fl st ≠ .error .fuel ∧
    ∀ st', bstep fl st = .ok (.inl st') → bweight st' < bweight st := by
  obtain ⟨mode, s, nu, nb, stk, pos, start⟩ := st
  cases mode with
  | top =>
    simp only [bstep]
    split
    · rename_i h40
      refine ⟨by simp, fun st' h => ?_⟩
      simp only [Except.ok.injEq, Sum.inl.injEq] at h
      have h1 := two_of_headD h40.1 (by decide) h40.2 (by decide)
      have h3 := bweight_le st'
      have h2 : 3 * s.length ≤ bweight ⟨.top, s, nu, nb, stk, pos, start⟩ := by
        simp only [bweight]; split <;> omega
      subst h
      simp only at h3
      omega
    · split
      · rename_i h41
        refine ⟨by simp, fun st' h => ?_⟩
        simp only [Except.ok.injEq, Sum.inl.injEq] at h
        subst h
        simp only [bweight]
        rw [if_pos (by simp only [atEnd, h41, and_self, decide_true, Bool.or_true, Bool.true_or])]
        omega
      · have hp := parseAtomB_halts fl start s pos
        split
        · rename_i e he
          exact ⟨fun h' => hp.1 (he.trans (by simpa using h')), by simp⟩
        · rename_i n p rest he
          refine ⟨by simp, fun st' h => ?_⟩
          simp only [Except.ok.injEq, Sum.inl.injEq] at h
          subst h
          simp only [bweight]
          rcases hp.2 _ _ _ he with h1 | ⟨h1, rfl⟩
          · split <;> omega
          · rw [if_pos (atEnd_of_ends h1)]
            omega
  | iter n =>
    simp only [bstep]
    split
    · rename_i e he
      exact ⟨fun h => repeat_nofuel start s (by rw [he]; simpa using h), by simp⟩
    · rename_i mn mx rest he
      refine ⟨by simp, fun st' h => ?_⟩
      simp only [Except.ok.injEq, Sum.inl.injEq] at h
      subst h
      have := repeat_less he
      simp only [bweight]
      omega
    · split
      · rename_i h124
        refine ⟨by simp, fun st' h => ?_⟩
        simp only [Except.ok.injEq, Sum.inl.injEq] at h
        have h1 := two_of_headD h124.1 (by decide) h124.2 (by decide)
        have h3 := bweight_le st'
        subst h
        have h4 : bweight ⟨.iter n, s, nu, nb, stk, pos, start⟩ = 3 * s.length + 1 := rfl
        simp only at h3
        rw [h4]
        omega
      · split
        · rename_i h41
          have h1 := two_of_headD h41.1 (by decide) h41.2 (by decide)
          split
          · simp
          · refine ⟨by simp, fun st' h => ?_⟩
            simp only [Except.ok.injEq, Sum.inl.injEq] at h
            subst h
            simp only [bweight]
            omega
        · split
          · split <;> simp
          · rename_i h1 h2 h3
            refine ⟨by simp, fun st' h => ?_⟩
            simp only [Except.ok.injEq, Sum.inl.injEq] at h
            subst h
            simp only [bweight]
            rw [if_neg]
            · omega
            · simp only [atEnd, Bool.or_eq_true, decide_eq_true_eq]
              rintro ((h | h) | h)
              · exact h3 h
              · exact h2 h
              · exact h1 h

theorem bloop_halts (fl : Flags) : ∀ (n : Nat) (st : BSt), bweight st < n → bloop fl n st ≠ .error .fuel
  | 0, _, h => absurd h (by simp)
  | n + 1, st, h => by
    have hs := bstep_halts fl st
    simp only [bloop]
    split
    · rename_i e he
      exact fun h' => hs.1 (he.trans (by simpa using h'))
    · rename_i st' he
      have := hs.2 _ he
      exact bloop_halts fl n st' (by omega)
    · simp

/-- **C117.** `regcomp` comes to an end for every text, also for one that is not an expression. -/
theorem bparse_halts (fl : Flags) (text : List Nat) : bparse fl text ≠ .error .fuel := by
  unfold bparse
  refine bloop_halts fl _ _ ?_
  have := bweight_le ⟨.top, text, none, none, [], 0, text⟩
  simp only at this
  omega

/-! ## Examples -/

/-- `^*a\(^x\|$b\)\{2\}c^$` -/
def bexText : List Nat := [94, 42, 97, 92, 40, 94, 120, 92, 124, 36, 98, 92, 41, 92, 123, 50, 92, 125, 99, 94, 36]

/-- The expression it denotes: an asterisk at the beginning of the subject, and so on. -/
def bexRe : Re :=
  .cat (.cat (.cat (.cat (.cat (.cat (.asrt .bol) (ch 42)) (ch 97))
    (.rep (.alt (.cat (.asrt .bol) (ch 120)) (.cat (.cat .eps (ch 36)) (ch 98))) 2 (some 2)))
    (ch 99)) (ch 94)) (.asrt .eol)

theorem bexGram : BGram false exFlags.ctype .regex bexRe bexText := by
  have o : ∀ c, BOrdinary c → BGram false exFlags.ctype (.piece .any) (ch c) [c] := fun c h => .ord h
  have two : BDup 2 (some 2) [92, 123, 50, 92, 125] := .exact (w := [50]) ⟨by simp, by simp, rfl⟩ (by decide)
  have g : BGram false exFlags.ctype (.piece .any)
      (.alt (.cat (.asrt .bol) (ch 120)) (.cat (.cat .eps (ch 36)) (ch 98)))
      [92, 40, 94, 120, 92, 124, 36, 98, 92, 41] :=
    .group (.alt (.single (.stop (.next .bol (o 120 (by simp [BOrdinary])) trivial) (by simp)))
      (.stop (.next (.dollar .nil) (o 98 (by simp [BOrdinary])) trivial) (by simp)))
  exact .single (.eol (.next (.next (.next (.next (.next .bol .asterisk (Or.inr rfl))
    (o 97 (by simp [BOrdinary])) trivial) (.dup g two) trivial) (o 99 (by simp [BOrdinary])) trivial)
    .circumflex (by simp [Place.Fits])))

/-- `^*a*$`, to which the theorem applies. -/
example : ∃ T, bregcomp exFlags [94, 42, 97, 42, 36] = .ok T ∧ ∀ x : Ctx, x.Ok → x.Small → x.newline = false →
    x.icase = false → (regexec x T = true ↔
      Re.Found x (.cat (.cat (.cat (.asrt .bol) (ch 42)) (.rep (ch 97) 0 none)) (.asrt .eol))) :=
  bregcomp_text_partial exFlags exFlags_ok _ [94, 42, 97, 42, 36]
    (.single (.eol (.next (.next .bol .asterisk (Or.inr rfl)) (.dup (.ord (by simp [BOrdinary])) .star) trivial)))
    (by decide) (by decide)

/-- The longer one. -/
example : ∃ T, bregcomp exFlags bexText = .ok T ∧ ∀ x : Ctx, x.Ok → x.Small → x.newline = false →
    x.icase = false → (regexec x T = true ↔ bexRe.Found x) :=
  bregcomp_text_partial exFlags exFlags_ok bexRe bexText bexGram (by decide) (by decide)

/-- **C117, violation.** `^\(\(x\{2\}\)*y\)\{1,\}$` is a text of the grammar, without any extension; "xy" does
    not match it, but `regexec` finds a match. -/
theorem btext_violated : ∃ r T,
    BGram false exFlags.ctype .regex r ([94, 92, 40, 92, 40, 120, 92, 123, 50, 92, 125, 92, 41, 42, 121, 92, 41, 92, 123,
      49, 44, 92, 125, 36]) ∧
    bregcomp exFlags ([94, 92, 40, 92, 40, 120, 92, 123, 50, 92, 125, 92, 41, 42, 121, 92, 41, 92, 123, 49, 44, 92, 125,
      36]) = .ok T ∧ r.oneEmpty = true ∧ ¬ r.Found (subj [120, 121]) ∧ regexec (subj [120, 121]) T = true := by
  have o : ∀ c, BOrdinary c → BGram false exFlags.ctype (.piece .any) (ch c) [c] := fun c h => .ord h
  have two : BDup 2 (some 2) [92, 123, 50, 92, 125] := .exact (w := [50]) ⟨by simp, by simp, rfl⟩ (by decide)
  have many : BDup 1 none [92, 123, 49, 44, 92, 125] := .atLeast (w := [49]) ⟨by simp, by simp, rfl⟩ (by decide)
  refine ⟨.cat (.cat (.asrt .bol) (.rep (.cat (.cat .eps (.rep (.cat .eps (.rep (ch 120) 2 (some 2))) 0 none)) (ch 121))
    1 none)) (.asrt .eol), _, ?_, rfl, by decide, ?_, by decide +kernel⟩
  · exact .single (.eol (.next .bol (.dup (.group (.single (.stop (.next (.next .nil (.dup (.group (.single (.stop
      (.next .nil (.dup (o 120 (by simp [BOrdinary])) two) trivial) (by simp)))) .star) trivial)
      (o 121 (by simp [BOrdinary])) trivial) (by simp)))) many) trivial))
  · have h := mt (regexec_regcomp_partial
      (.cat (.cat (.asrt .bol) (.rep (.cat (.rep (.cat (ch 120) (ch 120)) 0 none) (ch 121)) 1 none))
        (.asrt .eol)) (by decide) (by decide) (by decide) (subj [120, 121]) (subj_ok _ (by decide))).mpr
      (by decide +kernel)
    have ec : ∀ (x : Ctx) (r : Re) (i j : Nat), (Re.cat .eps r).Matches x i j ↔ r.Matches x i j := by
      intro x r i j
      simp only [Re.Matches]
      exact ⟨fun ⟨_, h1, h2⟩ => h1 ▸ h2, fun h => ⟨i, rfl, h⟩⟩
    rw [found_congr]
    · exact h
    · exact matches_cat (matches_cat (fun _ _ => Iff.rfl) (matches_rep (matches_cat
        (fun i j => (ec _ _ i j).trans (matches_rep (fun i j => (ec _ _ i j).trans (rep_two _ _ i j)) 0 none i j))
        (fun _ _ => Iff.rfl)) 1 none)) (fun _ _ => Iff.rfl)

end Mlibc.Regex
