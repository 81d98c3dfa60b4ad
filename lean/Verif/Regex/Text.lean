import Verif.Regex.Bracket
import Verif.Regex.Main

/-!
# `regcomp` and `regexec` on the text of an extended regular expression
-/
namespace Mlibc.Regex

/-- The two expressions match the same, and none of the conditions of the theorems tells them apart. -/
structure Same (r s : Re) : Prop where
  mtch : ∀ x : Ctx, x.Small → ∀ i j, r.Matches x i j ↔ s.Matches x i j
  optional : r.optional = s.optional
  plain : r.plain = s.plain
  oneEmpty : r.oneEmpty = s.oneEmpty
  proper : r.proper = s.proper
  level0 : r.level0 = s.level0
  level1 : r.level1 = s.level1
  level2 : r.level2 = s.level2

theorem Same.refl (r : Re) : Same r r := ⟨fun _ _ _ _ => Iff.rfl, rfl, rfl, rfl, rfl, rfl, rfl, rfl⟩

theorem Same.epsCat {r s : Re} (h : Same r s) : Same r (.cat .eps s) where
  mtch x hx i j := by
    rw [h.mtch x hx]
    simp only [Re.Matches]
    exact ⟨fun h => ⟨i, rfl, h⟩, fun ⟨_, h1, h2⟩ => h1 ▸ h2⟩
  optional := by simp [Re.optional, h.optional]
  plain := by simp [Re.plain, h.plain]
  oneEmpty := by simp [Re.oneEmpty, h.oneEmpty]
  proper := by simp [Re.proper, h.proper]
  level0 := by simp [Re.level0, h.level0]
  level1 := by simp [Re.level1, h.level1]
  level2 := by simp [Re.level2, h.level2]

theorem Same.cat {l r l' r' : Re} (h : Same l l') (h' : Same r r') : Same (.cat l r) (.cat l' r') where
  mtch x hx i j := by simp only [Re.Matches, h.mtch x hx, h'.mtch x hx]
  optional := by simp [Re.optional, h.optional, h'.optional]
  plain := by simp [Re.plain, h.plain, h'.plain]
  oneEmpty := by simp [Re.oneEmpty, h.oneEmpty, h'.oneEmpty]
  proper := by simp [Re.proper, h.proper, h'.proper]
  level0 := by simp [Re.level0, h.level0, h'.level0]
  level1 := by simp [Re.level1, h.level1, h'.level1]
  level2 := by simp [Re.level2, h.level2, h'.level2]

theorem Same.alt {l r l' r' : Re} (h : Same l l') (h' : Same r r') : Same (.alt l r) (.alt l' r') where
  mtch x hx i j := by simp only [Re.Matches, h.mtch x hx, h'.mtch x hx]
  optional := by simp [Re.optional, h.optional, h'.optional]
  plain := by simp [Re.plain, h.plain, h'.plain]
  oneEmpty := by simp [Re.oneEmpty, h.oneEmpty, h'.oneEmpty, h.optional, h'.optional, h.plain]
  proper := by simp [Re.proper, h.proper, h'.proper]
  level0 := by simp [Re.level0, h.level0, h'.level0]
  level1 := by simp [Re.level1, h.level1, h'.level1]
  level2 := by simp [Re.level2, h.level2, h'.level2]

theorem Same.rep {r s : Re} (h : Same r s) (mn : Nat) (mx : Option Nat) : Same (.rep r mn mx) (.rep s mn mx) where
  mtch x hx i j := by
    have : r.Matches x = s.Matches x := by
      funext i j
      exact propext (h.mtch x hx i j)
    simp only [Re.Matches, this]
  optional := by simp [Re.optional, h.optional]
  plain := by simp [Re.plain, h.plain]
  oneEmpty := by simp [Re.oneEmpty, h.oneEmpty, h.optional, h.plain]
  proper := by simp [Re.proper, h.proper]
  level0 := by simp [Re.level0, h.level0]
  level1 := by simp [Re.level1, h.level0]
  level2 := by simp [Re.level2, h.level1]

theorem Same.chr {ls ls' : List Lit} (h : ls ≠ []) (h' : ls' ≠ [])
    (hm : ∀ x c, c ≤ 1114111 → ((∃ l ∈ ls, l.Allows x c) ↔ ∃ l ∈ ls', l.Allows x c)) :
    Same (.chr ls) (.chr ls') where
  mtch x hx i j := by
    simp only [Re.Matches]
    constructor
    · rintro ⟨c, h1, h2, h3⟩
      exact ⟨c, h1, h2, (hm x c (hx c (List.mem_of_getElem? h1))).1 h3⟩
    · rintro ⟨c, h1, h2, h3⟩
      exact ⟨c, h1, h2, (hm x c (hx c (List.mem_of_getElem? h1))).2 h3⟩
  optional := rfl
  plain := rfl
  oneEmpty := rfl
  proper := by
    cases ls <;> cases ls' <;> simp_all [Re.proper]
  level0 := rfl
  level1 := rfl
  level2 := rfl

/-- `n` steps of the parser. -/
inductive Run (fl : Flags) : Nat → PSt → PSt → Prop
  | refl (st) : Run fl 0 st st
  | step {n a b c} : pstep fl a = .ok (.inl b) → Run fl n b c → Run fl (n + 1) a c

theorem Run.trans {fl : Flags} {n m : Nat} {a b c : PSt} (h : Run fl n a b) (h' : Run fl m b c) :
    Run fl (n + m) a c := by
  induction h with
  | refl => rw [Nat.zero_add]; exact h'
  | step hs _ ih => rw [Nat.add_right_comm]; exact .step hs (ih h')

theorem Run.one {fl : Flags} {a b : PSt} (h : pstep fl a = .ok (.inl b)) : Run fl 1 a b := .step h (.refl b)

theorem Run.loop {fl : Flags} {n : Nat} {a b : PSt} (h : Run fl n a b) (k : Nat) :
    ploop fl (n + k) a = ploop fl k b := by
  induction h with
  | refl => rw [Nat.zero_add]
  | step hs _ ih => rw [Nat.add_right_comm]; simp only [ploop, hs]; exact ih

/-- The text of a piece begins with none of `*`, `+`, `?`, `{`, `|`, `)`. -/
def Starts (w : List Nat) : Prop :=
  ∃ c v, w = c :: v ∧ c ≠ 42 ∧ c ≠ 43 ∧ c ≠ 63 ∧ c ≠ 123 ∧ c ≠ 124 ∧ c ≠ 41

theorem gram_starts {nl ct lvl r w} (h : Gram nl ct lvl r w) : Starts w := by
  induction h with
  | ord h => exact ⟨_, _, rfl, h.2.2.2.2.2.2.2.2.1, h.2.2.2.2.2.2.2.2.2.1, h.2.2.2.2.2.2.2.2.2.2.1,
      h.2.2.2.2.2.2.2.2.2.2.2.1, h.2.2.2.2.2.2.2.1, h.2.2.2.2.2.2.1⟩
  | quoted => exact ⟨_, _, rfl, by decide, by decide, by decide, by decide, by decide, by decide⟩
  | dot => exact ⟨_, _, rfl, by decide, by decide, by decide, by decide, by decide, by decide⟩
  | bracket => exact ⟨_, _, rfl, by decide, by decide, by decide, by decide, by decide, by decide⟩
  | nbracket => exact ⟨_, _, rfl, by decide, by decide, by decide, by decide, by decide, by decide⟩
  | bol => exact ⟨_, _, rfl, by decide, by decide, by decide, by decide, by decide, by decide⟩
  | eol => exact ⟨_, _, rfl, by decide, by decide, by decide, by decide, by decide, by decide⟩
  | bow => exact ⟨_, _, rfl, by decide, by decide, by decide, by decide, by decide, by decide⟩
  | eow => exact ⟨_, _, rfl, by decide, by decide, by decide, by decide, by decide, by decide⟩
  | wb => exact ⟨_, _, rfl, by decide, by decide, by decide, by decide, by decide, by decide⟩
  | nwb => exact ⟨_, _, rfl, by decide, by decide, by decide, by decide, by decide, by decide⟩
  | group => exact ⟨_, _, rfl, by decide, by decide, by decide, by decide, by decide, by decide⟩
  | unit => exact ⟨_, _, rfl, by decide, by decide, by decide, by decide, by decide, by decide⟩
  | dup _ _ ih => obtain ⟨c, v, rfl, h⟩ := ih; exact ⟨c, _, rfl, h⟩
  | one _ ih => exact ih
  | cat _ _ ih _ => obtain ⟨c, v, rfl, h⟩ := ih; exact ⟨c, _, rfl, h⟩
  | single _ ih => exact ih
  | alt _ _ ih _ => obtain ⟨c, v, rfl, h⟩ := ih; exact ⟨c, _, rfl, h⟩

/-- What the parser does with the text of each level. -/
def Reads (fl : Flags) : Lvl → Re → List Nat → Prop
  | .piece, r, w => ∀ k pos nu nb stk, ∃ r' b n, Same r r' ∧ n + 1 ≤ 2 * w.length ∧
      Run fl n ⟨.top, w ++ k, nu, nb, stk, pos⟩
        ⟨.iter ((number r' pos).1, b), k, nu, nb, stk, (number r' pos).2⟩
  | .branch, r, w => ∀ k pos nu stk, ∃ r' m nb n, Same r r' ∧ n + 1 ≤ 2 * w.length ∧
      (newCat nb m).1 = (number r' pos).1 ∧
      Run fl n ⟨.top, w ++ k, nu, none, stk, pos⟩ ⟨.iter m, k, nu, nb, stk, (number r' pos).2⟩
  | .regex, r, w => ∀ k pos stk, ∃ r' m nu nb n, Same r r' ∧ n + 1 ≤ 2 * w.length ∧
      (newUnion nu (newCat nb m)).1 = (number r' pos).1 ∧
      Run fl n ⟨.top, w ++ k, none, none, stk, pos⟩ ⟨.iter m, k, nu, nb, stk, (number r' pos).2⟩

/-- An atom that `parse_atom` reads. -/
theorem reads_atom {fl : Flags} {r : Re} {w : List Nat} (hw : w ≠ []) (h40 : ∀ k, (w ++ k).headD 0 ≠ 40)
    (h41 : ∀ k, (w ++ k).headD 0 ≠ 41)
    (h : ∀ k pos, ∃ r', Same r r' ∧ parseAtom fl (w ++ k) pos = .ok ((number r' pos).1, (number r' pos).2, k)) :
    Reads fl .piece r w := by
  intro k pos nu nb stk
  obtain ⟨r', hs, hp⟩ := h k pos
  refine ⟨r', false, 1, hs, by cases w <;> simp at hw ⊢; omega, .one ?_⟩
  simp only [pstep]
  rw [if_neg (h40 k), if_neg (fun h => h41 k h.1), hp]

theorem reads_dup {fl : Flags} {r : Re} {w : List Nat} {mn : Nat} {mx : Option Nat} {d : List Nat}
    (h : Reads fl .piece r w) (hd : Dup mn mx d) : Reads fl .piece (.rep r mn mx) (w ++ d) := by
  intro k pos nu nb stk
  obtain ⟨r', b, n, hs, hn, hrun⟩ := h (d ++ k) pos nu nb stk
  refine ⟨.rep r' mn mx, false, n + 1, hs.rep mn mx, ?_, ?_⟩
  · have : 1 ≤ d.length := by cases hd <;> simp
    rw [List.length_append]
    omega
  · rw [List.append_assoc]
    refine hrun.trans (.one ?_)
    have e : (number (.rep r' mn mx) pos).2 = (number r' pos).2 := by simp only [number]; split <;> rfl
    have e' : (number (.rep r' mn mx) pos).1 = if mx = some 0 then .empty else .iter (number r' pos).1 mn mx := by
      simp only [number]; split <;> rfl
    rw [e, e']
    cases hd with
    | star => simp [pstep]
    | plus => simp [pstep]
    | opt => simp [pstep]
    | exact h hm => have hp := parseDup_exact (k := k) h hm; simp at hp; simp [pstep, hp]
    | atLeast h hm => have hp := parseDup_atLeast (k := k) h hm; simp at hp; simp [pstep, hp]
    | between h h' hm hn => have hp := parseDup_between (k := k) h h' hm hn; simp at hp; simp [pstep, hp]

theorem marksub_number {r' : Re} {pos : Nat} {nu : Node} (h : nu.1 = (number r' pos).1) {r : Re} (hs : Same r r') :
    ∃ r'', Same r r'' ∧ marksub nu = ((number r'' pos).1, true) ∧ (number r'' pos).2 = (number r' pos).2 := by
  unfold marksub
  split
  · exact ⟨.cat .eps r', hs.epsCat, by simp [number, h], by simp [number]⟩
  · exact ⟨r', hs, by simp [h], rfl⟩

theorem reads_group {fl : Flags} {r : Re} {w : List Nat} (h : Reads fl .regex r w) :
    Reads fl .piece r (40 :: (w ++ [41])) := by
  intro k pos nu nb stk
  obtain ⟨r', m, nu', nb', n, hs, hn, he, hrun⟩ := h (41 :: k) pos ((nu, nb) :: stk)
  obtain ⟨r'', hs', hm, hp⟩ := marksub_number he hs
  refine ⟨r'', true, 1 + n + 1, hs', by simp; omega, ?_⟩
  refine ((Run.one ?_).trans hrun).trans (.one ?_)
  · simp [pstep]
  · simp only [pstep, List.headD_cons]
    rw [if_neg (by decide), if_pos (Or.inr (Or.inl ⟨trivial, by simp⟩)), if_neg (by decide)]
    simp [hm, hp]

theorem reads_unit (fl : Flags) : Reads fl .piece .eps [40, 41] := by
  intro k pos nu nb stk
  refine ⟨.eps, true, 3, .refl _, by simp, ?_⟩
  refine .step (b := ⟨.top, 41 :: k, none, none, (nu, nb) :: stk, pos⟩) (by simp [pstep]) ?_
  refine .step (b := ⟨.iter (.empty, false), 41 :: k, none, none, (nu, nb) :: stk, pos⟩) (by simp [pstep]) (.one ?_)
  simp [pstep, newCat, newUnion, marksub, number]

/-- The parser reads what the grammar says. -/
theorem gram_reads {fl : Flags} (hS : SortOk fl) {lvl : Lvl} {r : Re} {w : List Nat}
    (h : Gram fl.newline fl.ctype lvl r w) : Reads fl lvl r w := by
  induction h with
  | @ord c h =>
    obtain ⟨h0, h1, h2, h3, h4, h5, h6, h7, h8, h9, h10, h11, h12⟩ := h
    refine reads_atom (by simp) (by simpa using h5) (by simpa using h6) (fun k pos => ⟨_, .refl _, ?_⟩)
    simp only [parseAtom, List.singleton_append]
    rw [if_neg h3, if_neg h12, if_neg h2, if_neg h1, if_neg h4, if_neg (by omega), if_neg h7]
    rfl
  | @quoted c h =>
    refine reads_atom (by simp) (by simp) (by simp) (fun k pos => ⟨_, .refl _, ?_⟩)
    rcases h with rfl | rfl | rfl | rfl | rfl | rfl | rfl | rfl | rfl | rfl | rfl | rfl | rfl | rfl | rfl | rfl <;> rfl
  | @dot ls h0 h =>
    refine reads_atom (by simp) (by simp) (by simp) (fun k pos => ?_)
    simp only [parseAtom, List.singleton_append]
    rw [if_neg (by decide), if_neg (by decide), if_pos trivial]
    cases hn : fl.newline with
    | false =>
      refine ⟨.chr [{ lo := 0, hi := 1114111 }], .chr h0 (by simp) (fun x c hc => ?_), by simp [number]⟩
      rw [h x c hc]
      simp [hn, Lit.Allows, hc]
    | true =>
      refine ⟨.alt (.chr [{ lo := 0, hi := 9 }]) (.chr [{ lo := 11, hi := 1114111 }]), ?_, by simp [number]⟩
      refine ⟨fun x hx i j => ?_, rfl, rfl, rfl, ?_, rfl, rfl, rfl⟩
      · simp only [Re.Matches]
        constructor
        · rintro ⟨c, h1, h2, h3⟩
          have hc := hx c (List.mem_of_getElem? h1)
          have := (h x c hc).1 h3
          by_cases h9 : c ≤ 9
          · exact Or.inl ⟨c, h1, h2, _, List.mem_singleton.2 rfl, Nat.zero_le _, h9, fun h => absurd rfl h, by simp⟩
          · refine Or.inr ⟨c, h1, h2, _, List.mem_singleton.2 rfl, ?_, hc, fun h => absurd rfl h, by simp⟩
            simp only [hn, true_and] at this
            show 11 ≤ c
            omega
        · rintro (⟨c, h1, h2, l, hl, h3, h4, -⟩ | ⟨c, h1, h2, l, hl, h3, h4, -⟩) <;>
          · rw [List.mem_singleton.1 hl] at h3 h4
            refine ⟨c, h1, h2, (h x c (hx c (List.mem_of_getElem? h1))).2 ?_⟩
            simp at h3 h4
            omega
      · cases ls with
        | nil => exact absurd rfl h0
        | cons => simp [Re.proper]
  | @bracket ts w ls hl hw h0 h =>
    refine reads_atom (by simp) (by simp) (by simp) (fun k pos => ?_)
    obtain ⟨ls', hb, h0', h'⟩ := bracket_pos fl hl hw k
    refine ⟨.chr ls', .chr h0 h0' (fun x c hc => by rw [h x c hc, h' x c hc]), ?_⟩
    simp only [parseAtom, List.cons_append, List.append_assoc, List.nil_append]
    rw [if_pos trivial, hb]
    rfl
  | @nbracket ts w ls hl hc h0 h =>
    refine reads_atom (by simp) (by simp) (by simp) (fun k pos => ?_)
    obtain ⟨ls', hb, h0', h'⟩ := bracket_neg fl hS hl hc k
    refine ⟨.chr ls', .chr h0 h0' (fun x c hc => by rw [h x c hc, h' x c hc]), ?_⟩
    simp only [parseAtom, List.cons_append, List.append_assoc, List.nil_append]
    rw [if_pos trivial, hb]
    rfl
  | bol => exact reads_atom (by simp) (by simp) (by simp) (fun k pos => ⟨_, .refl _, rfl⟩)
  | eol => exact reads_atom (by simp) (by simp) (by simp) (fun k pos => ⟨_, .refl _, rfl⟩)
  | bow => exact reads_atom (by simp) (by simp) (by simp) (fun k pos => ⟨_, .refl _, rfl⟩)
  | eow => exact reads_atom (by simp) (by simp) (by simp) (fun k pos => ⟨_, .refl _, rfl⟩)
  | wb => exact reads_atom (by simp) (by simp) (by simp) (fun k pos => ⟨_, .refl _, rfl⟩)
  | nwb => exact reads_atom (by simp) (by simp) (by simp) (fun k pos => ⟨_, .refl _, rfl⟩)
  | group _ ih => exact reads_group ih
  | unit => exact reads_unit fl
  | dup _ hd ih => exact reads_dup ih hd
  | one _ ih =>
    intro k pos nu stk
    obtain ⟨r', b, n, hs, hn, hrun⟩ := ih k pos nu none stk
    exact ⟨r', _, none, n, hs, hn, rfl, hrun⟩
  | @cat l r u v _ hr ihl ihr =>
    intro k pos nu stk
    obtain ⟨l', m, nb, n, hs, hn, he, hrun⟩ := ihl (v ++ k) pos nu stk
    obtain ⟨r', b, n', hs', hn', hrun'⟩ := ihr k (number l' pos).2 nu (some (newCat nb m)) stk
    refine ⟨.cat l' r', ((number r' (number l' pos).2).1, b), some (newCat nb m), n + 1 + n', hs.cat hs',
      by simp; omega, ?_, ?_⟩
    · rw [show (newCat (some (newCat nb m)) ((number r' (number l' pos).2).1, b)).1 =
        .cat (newCat nb m).1 (number r' (number l' pos).2).1 from rfl, he]
      rfl
    · rw [List.append_assoc]
      refine (hrun.trans (.one ?_)).trans hrun'
      obtain ⟨c, v', rfl, h1, h2, h3, h4, h5, h6⟩ := gram_starts hr
      simp only [pstep, List.cons_append, List.headD_cons]
      rw [if_neg (by omega), if_neg (by simp [h5, h6])]
  | single _ ih =>
    intro k pos stk
    obtain ⟨r', m, nb, n, hs, hn, he, hrun⟩ := ih k pos none stk
    exact ⟨r', m, none, nb, n, hs, hn, he, hrun⟩
  | @alt l r u v _ _ ihl ihr =>
    intro k pos stk
    obtain ⟨l', m, nu, nb, n, hs, hn, he, hrun⟩ := ihl (124 :: (v ++ k)) pos stk
    obtain ⟨r', m', nb', n', hs', hn', he', hrun'⟩ :=
      ihr k (number l' pos).2 (some (newUnion nu (newCat nb m))) stk
    refine ⟨.alt l' r', m', some (newUnion nu (newCat nb m)), nb', n + 1 + n', hs.alt hs', by simp; omega, ?_, ?_⟩
    · rw [show (newUnion (some (newUnion nu (newCat nb m))) (newCat nb' m')).1 =
        .union (newUnion nu (newCat nb m)).1 (newCat nb' m').1 from rfl, he, he']
      rfl
    · rw [List.append_assoc]
      refine (hrun.trans (.one ?_)).trans hrun'
      simp [pstep]

/-- A text that denotes an expression is parsed. -/
theorem parse_gram {fl : Flags} (hS : SortOk fl) {r : Re} {w : List Nat}
    (h : Gram fl.newline fl.ctype .regex r w) : ∃ r', Same r r' ∧ parse fl w = .ok (number r' 0) := by
  obtain ⟨r', m, nu, nb, n, hs, hn, he, hrun⟩ := gram_reads hS h [] 0 []
  obtain ⟨r'', hs', hm, hp⟩ := marksub_number he hs
  refine ⟨r'', hs', ?_⟩
  unfold parse
  rw [List.append_nil] at hrun
  obtain ⟨k, hk⟩ : ∃ k, 3 * w.length + 3 = n + (k + 1) := ⟨3 * w.length + 2 - n, by omega⟩
  rw [hk, hrun.loop]
  simp [ploop, pstep, hm]
  rw [← hp]

theorem gram_proper {nl ct lvl r w} (h : Gram nl ct lvl r w) : r.proper = true := by
  induction h with
  | dot h => simpa [Re.proper] using h
  | bracket _ _ h => simpa [Re.proper] using h
  | nbracket _ _ h => simpa [Re.proper] using h
  | group _ ih => exact ih
  | dup _ hd ih => cases hd <;> simp_all [Re.proper]
  | one _ ih => exact ih
  | cat _ _ ih ih' => simp [Re.proper, ih, ih']
  | single _ ih => exact ih
  | alt _ _ ih ih' => simp [Re.proper, ih, ih']
  | _ => rfl

/-- **C110.** `regcomp(text, REG_EXTENDED)` succeeds for every text of the grammar, and `regexec` then finds a
    match exactly if some part of the subject string matches the expression the text denotes.

    Missing for the full statement: `oneEmpty` and `level2` (see `regexec_regcomp_partial` and the
    `_violated` theorems beside it), which the code needs. -/
theorem regcomp_text_partial (fl : Flags) (hS : SortOk fl) (r : Re) (w : List Nat)
    (h : Gram fl.newline fl.ctype .regex r w) (ho : r.oneEmpty = true) (hl : r.level2 = true) :
    ∃ T, regcompText fl w = .ok T ∧
      ∀ x : Ctx, x.Ok → x.Small → x.newline = fl.newline → x.icase = false →
        (regexec x T = true ↔ r.Found x) := by
  obtain ⟨r', hs, hp⟩ := parse_gram hS h
  refine ⟨regcomp r', ?_, fun x hx hsm _ _ => ?_⟩
  · simp only [regcompText, hp, regcomp]
  · rw [regexec_regcomp_partial r' (hs.proper ▸ gram_proper h) (hs.oneEmpty ▸ ho) (hs.level2 ▸ hl) x hx]
    exact (found_congr (hs.mtch x hsm)).symm

/-! ## The parser comes to an end -/

theorem dupDigits_le : ∀ (s : List Nat) (n : Nat), (dupDigits s n).2.length ≤ s.length
  | [], _ => Nat.le_refl _
  | c :: r, n => by
    simp only [dupDigits]
    split
    · exact Nat.le_refl _
    · exact Nat.le_trans (dupDigits_le r _) (by simp)

theorem dupCount_le (s : List Nat) : (dupCount s).2.length ≤ s.length := by
  cases s with
  | nil => exact Nat.le_refl _
  | cons c r =>
    simp only [dupCount]
    split
    · exact Nat.le_refl _
    · exact Nat.le_trans (dupDigits_le r _) (by simp)

theorem parseDup_le {s rest : List Nat} {mn : Nat} {mx : Option Nat} (h : parseDup s = some (mn, mx, rest)) :
    rest.length ≤ s.length := by
  unfold parseDup at h
  have h1 := dupCount_le s
  generalize dupCount s = a at h h1
  obtain ⟨a, s1⟩ := a
  simp only at h h1
  have h2 : (if s1.headD 0 = 44 then dupCount s1.tail else (a, s1)).2.length ≤ s1.length := by
    split
    · exact Nat.le_trans (dupCount_le _) (by simp)
    · exact Nat.le_refl _
  generalize (if s1.headD 0 = 44 then dupCount s1.tail else (a, s1)) = b at h h2
  obtain ⟨b, s2⟩ := b
  simp only at h h2
  split at h
  · exact absurd h (by simp)
  · rename_i mn'
    simp at h
    obtain ⟨-, -, -, rfl⟩ := h
    simp
    omega

theorem className_le : ∀ (n : Nat) (s : List Nat) {a b : List Nat}, className n s = some (a, b) →
    b.length < s.length
  | 0, _, _, _, h => by simp [className] at h
  | _ + 1, [], _, _, h => by simp [className] at h
  | n + 1, c :: r, a, b, h => by
    simp only [className] at h
    split at h
    · simp only [Option.some.injEq, Prod.mk.injEq] at h
      rw [← h.2]
      simp
    · split at h
      · exact absurd h (by simp)
      · rename_i a' b' h'
        have := className_le n r h'
        simp only [Option.some.injEq, Prod.mk.injEq] at h
        rw [← h.2]
        simp
        omega

/-- The loop over the terms of a bracket expression: it comes to an end, behind at least one character. -/
theorem terms_halts (fl : Flags) (neg : Bool) : ∀ (n : Nat) (s : List Nat) (first : Bool) (ls : List Lit)
    (ng : List Nat), s.length < n →
    terms fl neg n s first ls ng ≠ .error .fuel ∧
      ∀ a b rest, terms fl neg n s first ls ng = .ok (a, b, rest) → rest.length < s.length
  | 0, _, _, _, _, h => absurd h (by simp)
  | n + 1, [], _, _, _, _ => by simp [terms]
  | n + 1, c :: r, first, ls, ng, h => by
    simp only [List.length_cons] at h
    have ih := fun s first ls ng (h' : s.length < r.length + 1) => terms_halts fl neg n s first ls ng (by omega)
    have lift : ∀ s first ls ng, s.length < r.length + 1 →
        terms fl neg n s first ls ng ≠ .error .fuel ∧
          ∀ a b rest, terms fl neg n s first ls ng = .ok (a, b, rest) → rest.length < (c :: r).length := by
      intro s first ls ng hs
      refine ⟨(ih s first ls ng hs).1, fun a b rest hr => ?_⟩
      have := (ih s first ls ng hs).2 a b rest hr
      simp only [List.length_cons]
      omega
    unfold terms
    simp only
    split
    · refine ⟨by simp, fun a b rest hr => ?_⟩
      simp only [Except.ok.injEq, Prod.mk.injEq] at hr
      rw [← hr.2.2]
      simp
    · split
      · simp
      · split
        · simp
        · split
          · split
            · simp
            · rename_i name rest hn
              have h1 := className_le _ _ hn
              simp only [List.length_tail] at h1
              split
              · simp
              · split
                · split
                  · simp
                  · exact lift _ _ _ _ (by simp only [List.length_tail]; omega)
                · exact lift _ _ _ _ (by simp only [List.length_tail]; omega)
          · split
            · split
              · simp
              · rename_i m r' hr
                have h1 : r'.length + 1 = r.length - 1 := by
                  rw [← List.length_tail, hr, List.length_cons]
                split
                · simp
                · exact lift _ _ _ _ (by omega)
            · exact lift _ _ _ _ (by omega)

theorem bracket_halts (fl : Flags) (s : List Nat) :
    bracket fl s ≠ .error .fuel ∧ ∀ ls rest, bracket fl s = .ok (ls, rest) → rest.length ≤ s.length := by
  unfold bracket
  simp only
  generalize hs : (if decide (s.headD 0 = 94) = true then s.tail else s) = s'
  have hl : s'.length ≤ s.length := by
    subst hs
    split
    · simp
    · exact Nat.le_refl _
  have h := terms_halts fl (decide (s.headD 0 = 94)) (s'.length + 1) s' true [] [] (by omega)
  split
  · rename_i e he
    refine ⟨fun h' => h.1 (he.trans ?_), by simp⟩
    simpa using h'
  · rename_i ls ng rest he
    have := h.2 _ _ _ he
    split
    · refine ⟨by simp, fun a b hr => ?_⟩
      simp only [Except.ok.injEq, Prod.mk.injEq] at hr
      rw [← hr.2]
      omega
    · refine ⟨by simp, fun a b hr => ?_⟩
      simp only [Except.ok.injEq, Prod.mk.injEq] at hr
      rw [← hr.2]
      omega

theorem hexDigits_le : ∀ (n v : Nat) (s : List Nat), (hexDigits n v s).2.length ≤ s.length
  | 0, _, s => Nat.le_refl _
  | _ + 1, _, [] => Nat.le_refl _
  | n + 1, v, c :: r => by
    simp only [hexDigits]
    split
    · split
      · exact Nat.le_refl _
      · exact Nat.le_trans (hexDigits_le n _ r) (by simp)
    · exact Nat.le_refl _

/-- What `parse_atom` promises: it consumes a character, except at the end of a branch. -/
def Fine (s : List Nat) (res : Except Err (Ast × Nat × List Nat)) : Prop :=
  res ≠ .error .fuel ∧ ∀ t p rest, res = .ok (t, p, rest) →
    (rest.length < s.length ∨ ((s = [] ∨ s.headD 0 = 124) ∧ rest = s))

theorem fine_ok {s rest : List Nat} (h : rest.length < s.length) (t : Ast) (p : Nat) : Fine s (.ok (t, p, rest)) := by
  refine ⟨by simp, fun t p rest hr => Or.inl ?_⟩
  simp only [Except.ok.injEq, Prod.mk.injEq] at hr
  rw [← hr.2.2]
  exact h

theorem fine_error {s : List Nat} {e : Err} (h : e ≠ .fuel) : Fine s (.error e) := ⟨by simpa using h, by simp⟩

theorem fine_ite {s : List Nat} {P : Prop} [Decidable P] {a b : Except Err (Ast × Nat × List Nat)}
    (ha : P → Fine s a) (hb : ¬ P → Fine s b) : Fine s (if P then a else b) := by
  by_cases h : P
  · rw [if_pos h]; exact ha h
  · rw [if_neg h]; exact hb h

theorem fine_bracket (fl : Flags) (s t k : List Nat) (pos : Nat) (f : List Nat → List Nat)
    (hf : ∀ rest, rest.length ≤ t.length → (f rest).length < s.length) :
    Fine s (match bracket fl t with
      | .error e => .error e
      | .ok (ls, rest) => .ok (.leaf pos ls, pos + 1, f rest)) := by
  have h := bracket_halts fl t
  cases hb : bracket fl t with
  | error e => exact fine_error (fun he => h.1 (by rw [hb, he]))
  | ok a => exact fine_ok (hf _ (h.2 _ _ hb)) _ _

theorem parseAtom_halts (fl : Flags) (s : List Nat) (pos : Nat) : Fine s (parseAtom fl s pos) := by
  cases s with
  | nil => exact ⟨by simp [parseAtom], by simp [parseAtom]⟩
  | cons c r =>
    unfold parseAtom
    dsimp only
    refine fine_ite (fun _ => fine_bracket fl _ _ r pos id (fun rest h => by simp; omega)) (fun _ => ?_)
    refine fine_ite (fun _ => ?_) (fun _ => ?_)
    · cases r with
      | nil => exact fine_error (by decide)
      | cons d r =>
        dsimp only
        have hr : r.length < (c :: d :: r).length := by simp; omega
        cases macroChar d with
        | some m => exact fine_ok hr _ _
        | none =>
          cases macroBracket d with
          | some t => exact fine_bracket fl _ t r pos (fun _ => r) (fun _ _ => hr)
          | none =>
            dsimp only
            refine fine_ite (fun _ => fine_ok hr _ _) (fun _ => ?_)
            refine fine_ite (fun _ => fine_ok hr _ _) (fun _ => ?_)
            refine fine_ite (fun _ => fine_ok hr _ _) (fun _ => ?_)
            refine fine_ite (fun _ => fine_ok hr _ _) (fun _ => ?_)
            refine fine_ite (fun _ => ?_) (fun _ => fine_ok hr _ _)
            refine fine_ite (fun _ => ?_) (fun _ => ?_)
            · refine fine_ite (fun _ => fine_error (by decide)) (fun _ => fine_ok ?_ _ _)
              have := hexDigits_le 8 0 r.tail
              simp only [List.length_tail, List.length_cons] at this ⊢
              omega
            · exact fine_ok (Nat.lt_of_le_of_lt (hexDigits_le 2 0 r) hr) _ _
    · have hr : r.length < (c :: r).length := by simp
      refine fine_ite (fun _ => fine_ite (fun _ => fine_ok hr _ _) (fun _ => fine_ok hr _ _)) (fun _ => ?_)
      refine fine_ite (fun _ => fine_ok hr _ _) (fun _ => ?_)
      refine fine_ite (fun _ => fine_ok hr _ _) (fun _ => ?_)
      refine fine_ite (fun _ => fine_error (by decide)) (fun _ => ?_)
      refine fine_ite (fun h124 => ?_) (fun _ => fine_ok hr _ _)
      refine ⟨by simp, fun t p rest hr => Or.inr ⟨Or.inr h124, ?_⟩⟩
      simp only [Except.ok.injEq, Prod.mk.injEq] at hr
      exact hr.2.2.symm

/-- The head of the outer loop is at the end of a branch. -/
def AtEnd (st : PSt) : Prop := st.s = [] ∨ st.s.headD 0 = 124 ∨ (st.s.headD 0 = 41 ∧ st.stack ≠ [])

instance (st : PSt) : Decidable (AtEnd st) := by unfold AtEnd; infer_instance

/-- A measure that every step of the parser decreases. -/
def weight (st : PSt) : Nat :=
  match st.mode with
  | .iter _ => 3 * st.s.length + 1
  | .top => if AtEnd st then 3 * st.s.length + 2 else 3 * st.s.length

theorem weight_le (st : PSt) : weight st ≤ 3 * st.s.length + 2 := by
  unfold weight
  split
  · omega
  · split <;> omega

theorem ne_nil_of_headD {s : List Nat} {c : Nat} (h : s.headD 0 = c) (hc : c ≠ 0) : s.tail.length + 1 = s.length := by
  cases s with
  | nil => exact absurd h.symm (by simpa using hc)
  | cons => simp

theorem pstep_halts (fl : Flags) (st : PSt) : pstep fl st ≠ .error .fuel ∧
    ∀ st', pstep fl st = .ok (.inl st') → weight st' < weight st := by
  obtain ⟨mode, s, nu, nb, stk, pos⟩ := st
  cases mode with
  | top =>
    simp only [pstep]
    split
    · rename_i h40
      refine ⟨by simp, fun st' h => ?_⟩
      simp only [Except.ok.injEq, Sum.inl.injEq] at h
      have h1 := ne_nil_of_headD h40 (by decide)
      have h2 : ¬ AtEnd ⟨.top, s, nu, nb, stk, pos⟩ := by
        rintro (h | h | h)
        · simp only at h; subst h; simp at h1
        · simp only [h40] at h; omega
        · simp only [h40] at h; omega
      have h3 := weight_le st'
      subst h
      simp only [weight, if_neg h2]
      simp only at h3
      have := weight_le ⟨.top, s.tail, none, none, (nu, nb) :: stk, pos⟩
      simp only [weight] at this
      omega
    · split
      · rename_i h41
        refine ⟨by simp, fun st' h => ?_⟩
        simp only [Except.ok.injEq, Sum.inl.injEq] at h
        subst h
        simp only [weight]
        rw [if_pos (show AtEnd ⟨.top, s, nu, nb, stk, pos⟩ from Or.inr (Or.inr h41))]
        omega
      · have hp := parseAtom_halts fl s pos
        split
        · rename_i e he
          exact ⟨fun h' => hp.1 (he.trans (by simpa using h')), by simp⟩
        · rename_i n p rest he
          refine ⟨by simp, fun st' h => ?_⟩
          simp only [Except.ok.injEq, Sum.inl.injEq] at h
          subst h
          simp only [weight]
          rcases hp.2 _ _ _ he with h1 | ⟨h1, rfl⟩
          · split <;> omega
          · rw [if_pos (show AtEnd ⟨.top, rest, nu, nb, stk, pos⟩ from h1.imp id Or.inl)]
            omega
  | iter n =>
    simp only [pstep]
    split
    · rename_i hd
      have h1 : s.tail.length + 1 = s.length := by
        rcases hd with h | h | h | h <;> exact ne_nil_of_headD h (by decide)
      split
      · simp
      · rename_i mn mx rest hr
        refine ⟨by simp, fun st' h => ?_⟩
        simp only [Except.ok.injEq, Sum.inl.injEq] at h
        subst h
        simp only [weight]
        have : rest.length ≤ s.tail.length := by
          split at hr
          · exact parseDup_le hr
          · simp only [Option.some.injEq, Prod.mk.injEq] at hr
            rw [hr.2.2]
            exact Nat.le_refl _
        omega
    · split
      · rename_i hend
        split
        · rename_i h124
          refine ⟨by simp, fun st' h => ?_⟩
          simp only [Except.ok.injEq, Sum.inl.injEq] at h
          have h1 := ne_nil_of_headD h124 (by decide)
          have h3 := weight_le st'
          subst h
          have h4 : weight ⟨.iter n, s, nu, nb, stk, pos⟩ = 3 * s.length + 1 := rfl
          simp only at h3
          rw [h4]
          omega
        · rename_i h124
          split
          · simp
          · split
            · simp
            · rename_i hne
              refine ⟨by simp, fun st' h => ?_⟩
              simp only [Except.ok.injEq, Sum.inl.injEq] at h
              subst h
              simp only [weight, List.length_tail]
              have : 0 < s.length := List.length_pos_iff.2 hne
              omega
      · rename_i hend
        refine ⟨by simp, fun st' h => ?_⟩
        simp only [Except.ok.injEq, Sum.inl.injEq] at h
        subst h
        simp only [weight]
        rw [if_neg]
        · omega
        · intro h
          exact hend (h.elim (fun h => Or.inr (Or.inr h)) (fun h => h.elim Or.inl (fun h => Or.inr (Or.inl h))))

theorem ploop_halts (fl : Flags) : ∀ (n : Nat) (st : PSt), weight st < n → ploop fl n st ≠ .error .fuel
  | 0, _, h => absurd h (by simp)
  | n + 1, st, h => by
    have hs := pstep_halts fl st
    simp only [ploop]
    split
    · rename_i e he
      exact fun h' => hs.1 (he.trans (by simpa using h'))
    · rename_i st' he
      have := hs.2 _ he
      exact ploop_halts fl n st' (by omega)
    · simp

/-- **C110.** `regcomp` comes to an end for every text, also for one that is not an expression. -/
theorem parse_halts (fl : Flags) (text : List Nat) : parse fl text ≠ .error .fuel := by
  unfold parse
  refine ploop_halts fl _ _ ?_
  have := weight_le ⟨.top, text, none, none, [], 0⟩
  simp only at this
  omega

/-! ## Examples -/

/-- Flags for the examples: `alpha` is class 1, the items are sorted with merge sort. -/
def exFlags : Flags where
  ctype name := if name = [97, 108, 112, 104, 97] then 1 else 0
  sort ls := ls.mergeSort (fun a b => decide (a.lo ≤ b.lo))

theorem exFlags_ok : SortOk exFlags := by
  intro ls
  refine ⟨fun l => List.mem_mergeSort, ?_⟩
  have := List.pairwise_mergeSort (le := fun a b : Lit => decide (a.lo ≤ b.lo))
    (by intro a b c; simp; omega) (by intro a b; simp; omega) ls
  exact this.imp (by intro a b h; simpa using h)

/-- `(a|[^b-d])*x{2,3}$` -/
def exText : List Nat := [40, 97, 124, 91, 94, 98, 45, 100, 93, 41, 42, 120, 123, 50, 44, 51, 125, 36]

/-- The expression it denotes. -/
def exRe : Re :=
  .cat (.cat (.rep (.alt (ch 97) (.chr [{ lo := 0, hi := 97 }, { lo := 101, hi := 1114111 }])) 0 none)
    (.rep (ch 120) 2 (some 3))) (.asrt .eol)

theorem exGram : Gram false exFlags.ctype .regex exRe exText := by
  have o : ∀ c, Ordinary c → Gram false exFlags.ctype .piece (ch c) [c] := fun c h => .ord h
  have br : Gram false exFlags.ctype .piece (.chr [{ lo := 0, hi := 97 }, { lo := 101, hi := 1114111 }])
      [91, 94, 98, 45, 100, 93] := by
    refine Gram.nbracket (ts := [.range 98 100]) (w := [98, 45, 100]) ?_ (by decide) (by simp) ?_
    · exact ⟨[], [.range 98 100], [98, 45, 100], [], rfl, rfl,
        .cons (.range (by simp [PlainTerm]) (by simp [PlainTerm]) (by decide)) .nil, Or.inl rfl, Or.inl rfl, by simp⟩
    · intro x c hc
      simp [Lit.Allows, Term.Has]
      omega
  have two : Dup 2 (some 3) [123, 50, 44, 51, 125] :=
    .between (u := [50]) (v := [51]) ⟨by simp, by simp, rfl⟩ ⟨by simp, by simp, rfl⟩ (by decide) (by decide)
  exact .single (.cat (.cat (.one (.dup (.group (.alt (.single (.one (o 97 (by simp [Ordinary])))) (.one br))) .star))
    (.dup (o 120 (by simp [Ordinary])) two)) .eol)

/-- The hypotheses of `regcomp_text_partial` can be met. -/
example : ∃ T, regcompText exFlags exText = .ok T ∧ ∀ x : Ctx, x.Ok → x.Small → x.newline = false →
    x.icase = false → (regexec x T = true ↔ exRe.Found x) :=
  regcomp_text_partial exFlags exFlags_ok exRe exText exGram (by decide) (by decide)

/-- **C110, violation.** `(^|b*)a` is a text of the grammar, and some part of `xa` matches it; `regexec` finds no
    match. -/
theorem text_violated : ∃ r T, Gram false exFlags.ctype .regex r [40, 94, 124, 98, 42, 41, 97] ∧
    regcompText exFlags [40, 94, 124, 98, 42, 41, 97] = .ok T ∧ r.level2 = true ∧
    r.Found (subj [120, 97]) ∧ regexec (subj [120, 97]) T = false := by
  have o : ∀ c, Ordinary c → Gram false exFlags.ctype .piece (ch c) [c] := fun c h => .ord h
  refine ⟨.cat (.alt (.asrt .bol) (.rep (ch 98) 0 none)) (ch 97), _,
    .single (.cat (.one (.group (.alt (.single (.one .bol)) (.one (.dup (o 98 (by simp [Ordinary])) .star)))))
      (o 97 (by simp [Ordinary]))), rfl, by decide, ?_, by decide +kernel⟩
  exact ⟨1, 2, by decide, 1, Or.inr ⟨0, Nat.zero_le _, fun _ h => by simp at h, rfl⟩, 97, rfl, rfl,
    { lo := 97, hi := 97 }, by simp, by decide, by decide, fun h => absurd rfl h, by simp⟩

end Mlibc.Regex
